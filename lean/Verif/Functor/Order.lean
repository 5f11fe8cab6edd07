import Verif.Functor.Names

/-! The loop of `evaluationOrder`. -/

namespace Verif.Functor

variable {Op V : Type}

/-- What holds for the frames on the stack; `above` is the name of the frame above. -/
def Linked (F : Fn Op V) (out : List String) : Option String → List Frame → Prop
  | _, [] => True
  | above, f :: rest =>
    (∀ d, Uses F f.name d → d ∈ f.todo ∨ d ∈ out ∨ some d = above) ∧
    (∀ d ∈ f.todo, Uses F f.name d) ∧
    (∀ g, rest.head? = some g → Uses F g.name f.name) ∧
    Linked F out (some f.name) rest

theorem Linked.mono {F : Fn Op V} {out out' : List String} (h : ∀ d ∈ out, d ∈ out') :
    ∀ {stack : List Frame} {above : Option String}, Linked F out above stack →
      Linked F out' above stack
  | [], _, _ => trivial
  | f :: rest, above, hl => by
    obtain ⟨h1, h2, h3, h4⟩ := hl
    refine ⟨?_, h2, h3, Linked.mono h h4⟩
    intro d hd
    rcases h1 d hd with h' | h' | h'
    · exact .inl h'
    · exact .inr (.inl (h d h'))
    · exact .inr (.inr h')

theorem Linked.path {F : Fn Op V} {out : List String} :
    ∀ {rest : List Frame} {f : Frame} {above : Option String}, Linked F out above (f :: rest) →
      ∀ g ∈ rest, Path F g.name f.name
  | [], _, _, _, g, hg => by cases hg
  | x :: xs, f, above, hl, g, hg => by
    obtain ⟨_, _, h3, h4⟩ := hl
    have hx := h3 x rfl
    rcases List.mem_cons.1 hg with rfl | hg
    · exact .one hx
    · exact (Linked.path h4 g hg).snoc hx

/-- The invariant of the loop. -/
structure Inv (F : Fn Op V) (w : Walk) : Prop where
  outNodup : w.out.Nodup
  stackNodup : (w.stack.map Frame.name).Nodup
  visited : ∀ n, w.states.lookup n = some .visited ↔ n ∈ w.out
  inStack : ∀ n, w.states.lookup n = some .inStack ↔ n ∈ w.stack.map Frame.name
  linked : Linked F w.out none w.stack
  after : ∀ before n rest, w.out = before ++ n :: rest → ∀ d, Uses F n d → d ∈ before
  reachedOut : ∀ n ∈ w.out, Reached F n
  reachedStack : ∀ f ∈ w.stack, Reached F f.name
  bottom : w.stack.getLast?.map Frame.name = some kReturns ∨
    (w.stack = [] ∧ w.out.getLast? = some kReturns)

/-- The weight of a name. -/
def weight (F : Fn Op V) (n : String) : Nat := (F.deps n).length + 1

/-- A bound of the iterations that are left. -/
def left (F : Fn Op V) (w : Walk) : Nat :=
  (w.stack.map fun f => f.todo.length + 1).sum +
    ((F.names.filter fun n => (w.states.lookup n).isNone).map (weight F)).sum

theorem mem_of_lookup {α β : Type} [BEq α] [LawfulBEq α] {a : α} {v : β} :
    ∀ {l : List (α × β)}, l.lookup a = some v → (a, v) ∈ l
  | [], h => by cases h
  | (b, x) :: l, h => by
    rw [List.lookup_cons] at h
    cases hab : a == b with
    | true =>
      rw [hab] at h
      cases h
      rw [beq_iff_eq] at hab
      subst hab
      simp
    | false =>
      rw [hab] at h
      exact List.mem_cons_of_mem _ (mem_of_lookup h)

theorem names_of_uses {F : Fn Op V} {a d : String} (h : Uses F a d) : d ∈ F.names := by
  have hd := mem_deps.2 h
  obtain ⟨e, he, _⟩ := h
  unfold Fn.names
  rw [mem_sortNames]
  refine List.mem_cons_of_mem _ (List.mem_flatMap.2 ?_)
  unfold Fn.attr at he
  by_cases hs : a = kSignature
  · rw [if_pos hs] at he
    cases hsig : F.signature with
    | none => rw [hsig] at he; cases he
    | some _ => rw [hsig] at he; cases he
  · rw [if_neg hs] at he
    exact ⟨(a, .quote e), mem_of_lookup he, hd⟩

theorem lookup_cons {α β : Type} [BEq α] [LawfulBEq α] [DecidableEq α] (a b : α) (v : β)
    (l : List (α × β)) : ((b, v) :: l).lookup a = if a = b then some v else l.lookup a := by
  rw [List.lookup_cons]
  by_cases h : a = b
  · subst h
    simp
  · rw [if_neg h]
    have : (a == b) = false := by simpa using h
    rw [this]

theorem sum_erase (f : String → Nat) (p : String → Bool) (d : String) :
    ∀ (l : List String), l.Nodup → d ∈ l → p d = true →
      ((l.filter p).map f).sum = f d + ((l.filter fun n => p n && !decide (n = d)).map f).sum
  | [], _, h, _ => by cases h
  | x :: xs, hn, hd, hp => by
    rw [List.nodup_cons] at hn
    by_cases hx : x = d
    · subst hx
      rw [List.filter_cons_of_pos (by exact hp), List.filter_cons_of_neg (by simp), List.map_cons,
        List.sum_cons]
      have : (xs.filter fun n => p n && !decide (n = x)) = xs.filter p := by
        apply List.filter_congr
        intro y hy
        have : y ≠ x := by
          rintro rfl
          exact hn.1 hy
        simp [this]
      rw [this]
    · have hd' : d ∈ xs := by
        rcases List.mem_cons.1 hd with rfl | h
        · exact absurd rfl hx
        · exact h
      have ih := sum_erase f p d xs hn.2 hd' hp
      by_cases hpx : p x = true
      · rw [List.filter_cons_of_pos hpx, List.filter_cons_of_pos (by simp [hpx, hx]), List.map_cons,
          List.map_cons, List.sum_cons, List.sum_cons, ih]
        omega
      · rw [List.filter_cons_of_neg hpx, List.filter_cons_of_neg (by simp [hpx]), ih]

/-- Pushing a new name. -/
theorem left_push {F : Fn Op V} {w : Walk} {d : String} (hd : d ∈ F.names)
    (hnone : w.states.lookup d = none) :
    left F { w with stack := ⟨d, F.deps d⟩ :: w.stack, states := (d, .inStack) :: w.states } =
      left F w := by
  unfold left
  simp only [List.map_cons, List.sum_cons]
  have h1 := sum_erase (weight F) (fun n => (w.states.lookup n).isNone) d F.names
    (sortNames_nodup _) hd (by rw [hnone]; rfl)
  have h2 : (F.names.filter fun n => (List.lookup n ((d, VarState.inStack) :: w.states)).isNone) =
      F.names.filter fun n => (w.states.lookup n).isNone && !decide (n = d) := by
    apply List.filter_congr
    intro y _
    rw [lookup_cons]
    by_cases hy : y = d
    · simp [hy]
    · simp [hy]
  rw [h1, h2]
  unfold weight
  omega

/-- Leaving a frame keeps the invariant. -/
theorem leave_inv {F : Fn Op V} {w : Walk} {name : String} {rest : List Frame} (h : Inv F w)
    (hs : w.stack = ⟨name, []⟩ :: rest) : Inv F (leave name rest w) := by
  have hl := h.linked
  have hsn := h.stackNodup
  rw [hs] at hl hsn
  obtain ⟨l1, l2, l3, l4⟩ := hl
  rw [List.map_cons, List.nodup_cons] at hsn
  have hin : w.states.lookup name = some .inStack := (h.inStack name).2 (by rw [hs]; simp)
  have hnot : name ∉ w.out := by
    intro hm
    rw [(h.visited name).2 hm] at hin
    cases hin
  have hdeps : ∀ d, Uses F name d → d ∈ w.out := by
    intro d hd
    rcases l1 d hd with h' | h' | h'
    · cases h'
    · exact h'
    · cases h'
  constructor
  · show (w.out ++ [name]).Nodup
    rw [List.nodup_append]
    refine ⟨h.outNodup, by simp, ?_⟩
    rintro a ha b hb rfl
    rw [List.mem_singleton] at hb
    subst hb
    exact hnot ha
  · exact hsn.2
  · intro n
    show List.lookup n ((name, VarState.visited) :: w.states) = _ ↔ n ∈ w.out ++ [name]
    rw [lookup_cons, List.mem_append, List.mem_singleton]
    by_cases hn : n = name
    · rw [if_pos hn]
      simp [hn]
    · rw [if_neg hn, h.visited]
      simp [hn]
  · intro n
    show List.lookup n ((name, VarState.visited) :: w.states) = _ ↔ n ∈ rest.map Frame.name
    rw [lookup_cons]
    by_cases hn : n = name
    · rw [if_pos hn]
      subst hn
      constructor
      · intro h; cases h
      · intro h; exact absurd h hsn.1
    · rw [if_neg hn, h.inStack, hs, List.map_cons, List.mem_cons]
      simp [hn]
  · show Linked F (w.out ++ [name]) none rest
    cases rest with
    | nil => trivial
    | cons g gs =>
      obtain ⟨m1, m2, m3, m4⟩ := l4
      refine ⟨?_, m2, m3, m4.mono (fun d hd => List.mem_append_left _ hd)⟩
      intro d hd
      rcases m1 d hd with h' | h' | h'
      · exact .inl h'
      · exact .inr (.inl (List.mem_append_left _ h'))
      · cases h'
        exact .inr (.inl (by simp))
  · intro before n tl heq d hd
    change w.out ++ [name] = _ at heq
    rcases List.eq_nil_or_concat tl with htl | ⟨tl', x, htl⟩
    · subst htl
      have := List.append_inj' heq rfl
      obtain ⟨h1, h2⟩ := this
      cases h2
      rw [← h1]
      exact hdeps d hd
    · rw [List.concat_eq_append] at htl
      subst htl
      have heq' : w.out ++ [name] = (before ++ n :: tl') ++ [x] := by
        rw [heq]
        simp
      exact h.after before n tl' (List.append_inj' heq' rfl).1 d hd
  · intro n hn
    change n ∈ w.out ++ [name] at hn
    rcases List.mem_append.1 hn with hn | hn
    · exact h.reachedOut n hn
    · rw [List.mem_singleton] at hn
      subst hn
      exact h.reachedStack ⟨n, []⟩ (by rw [hs]; simp)
  · intro f hf
    exact h.reachedStack f (by rw [hs]; exact List.mem_cons_of_mem _ hf)
  · show rest.getLast?.map Frame.name = _ ∨ (rest = [] ∧ (w.out ++ [name]).getLast? = _)
    rcases h.bottom with hb | ⟨hb, _⟩
    · rw [hs] at hb
      cases rest with
      | nil =>
        right
        refine ⟨rfl, ?_⟩
        simp only [List.getLast?_singleton, Option.map_some, Option.some.injEq] at hb
        rw [List.getLast?_append]
        simp [hb]
      | cons g gs =>
        left
        rw [List.getLast?_cons_cons] at hb
        exact hb
    · rw [hs] at hb
      cases hb

/-- Reaching a dependency of the frame at the top. -/
theorem reach_inv {F : Fn Op V} {w : Walk} {name d : String} {ds : List String} {rest : List Frame}
    (h : Inv F w) (hs : w.stack = ⟨name, d :: ds⟩ :: rest) :
    (∃ w', reach F d { w with stack := ⟨name, ds⟩ :: rest } = .ok w' ∧ Inv F w' ∧
      left F w' + 1 = left F w) ∨
    (reach F d { w with stack := ⟨name, ds⟩ :: rest } = .error (.cycle d) ∧ Reached F d ∧
      Path F d d) := by
  have hl := h.linked
  rw [hs] at hl
  have hpath := hl.path
  obtain ⟨l1, l2, l3, l4⟩ := hl
  have huses : Uses F name d := l2 d (by simp)
  have hreached : Reached F name := h.reachedStack ⟨name, d :: ds⟩ (by rw [hs]; simp)
  have hnames : (w.stack.map Frame.name) = name :: rest.map Frame.name := by rw [hs]; rfl
  have hbottom : ((⟨name, ds⟩ :: rest : List Frame).getLast?.map Frame.name) =
      w.stack.getLast?.map Frame.name := by
    rw [hs]
    cases rest with
    | nil => rfl
    | cons g gs => rw [List.getLast?_cons_cons, List.getLast?_cons_cons]
  have hb : ((⟨name, ds⟩ :: rest : List Frame).getLast?.map Frame.name) = some kReturns := by
    rcases h.bottom with hb | ⟨hb, _⟩
    · rw [hbottom, hb]
    · rw [hs] at hb
      cases hb
  have hleft : left F { w with stack := ⟨name, ds⟩ :: rest } + 1 = left F w := by
    unfold left
    rw [hs]
    simp only [List.map_cons, List.sum_cons, List.length_cons]
    omega
  unfold reach
  cases hst : w.states.lookup d with
  | none =>
    left
    simp only [hst]
    refine ⟨_, rfl, ?_, ?_⟩
    · have hdo : d ∉ w.out := by
        intro hm
        rw [(h.visited d).2 hm] at hst
        cases hst
      have hds : d ∉ w.stack.map Frame.name := by
        intro hm
        rw [(h.inStack d).2 hm] at hst
        cases hst
      constructor
      · exact h.outNodup
      · show (d :: name :: rest.map Frame.name).Nodup
        rw [← hnames, List.nodup_cons]
        exact ⟨hds, h.stackNodup⟩
      · intro n
        show List.lookup n ((d, VarState.inStack) :: w.states) = _ ↔ n ∈ w.out
        rw [lookup_cons]
        by_cases hn : n = d
        · rw [if_pos hn]
          subst hn
          constructor
          · intro h; cases h
          · intro h; exact absurd h hdo
        · rw [if_neg hn, h.visited]
      · intro n
        show List.lookup n ((d, VarState.inStack) :: w.states) = _ ↔
          n ∈ d :: name :: rest.map Frame.name
        rw [lookup_cons, ← hnames, List.mem_cons]
        by_cases hn : n = d
        · rw [if_pos hn]
          simp [hn]
        · rw [if_neg hn, h.inStack]
          simp [hn]
      · refine ⟨?_, ?_, ?_, ?_⟩
        · intro x hx
          exact .inl (mem_deps.2 hx)
        · intro x hx
          exact mem_deps.1 hx
        · intro g hg
          cases hg
          exact huses
        · refine ⟨?_, fun x hx => l2 x (List.mem_cons_of_mem _ hx), l3, l4⟩
          intro x hx
          rcases l1 x hx with h' | h' | h'
          · rcases List.mem_cons.1 h' with rfl | h'
            · exact .inr (.inr rfl)
            · exact .inl h'
          · exact .inr (.inl h')
          · cases h'
      · exact h.after
      · exact h.reachedOut
      · intro f hf
        rcases List.mem_cons.1 hf with rfl | hf
        · exact hreached.step huses
        · rcases List.mem_cons.1 hf with rfl | hf
          · exact hreached
          · exact h.reachedStack f (by rw [hs]; exact List.mem_cons_of_mem _ hf)
      · left
        rw [List.getLast?_cons_cons]
        exact hb
    · have := left_push (F := F) (w := { w with stack := ⟨name, ds⟩ :: rest })
        (names_of_uses huses) hst
      rw [this]
      exact hleft
  | some s =>
    cases s with
    | inStack =>
      right
      refine ⟨by simp only [hst], hreached.step huses, ?_⟩
      have hm := (h.inStack d).1 hst
      rw [hnames] at hm
      rcases List.mem_cons.1 hm with hm | hm
      · subst hm
        exact .one huses
      · obtain ⟨g, hg, hgd⟩ := List.mem_map.1 hm
        subst hgd
        exact (hpath g hg).snoc huses
    | visited =>
      left
      simp only [hst]
      refine ⟨_, rfl, ?_, hleft⟩
      have hdo := (h.visited d).1 hst
      constructor
      · exact h.outNodup
      · show (name :: rest.map Frame.name).Nodup
        rw [← hnames]
        exact h.stackNodup
      · exact h.visited
      · intro n
        show _ ↔ n ∈ name :: rest.map Frame.name
        rw [← hnames]
        exact h.inStack n
      · refine ⟨?_, fun x hx => l2 x (List.mem_cons_of_mem _ hx), l3, l4⟩
        intro x hx
        rcases l1 x hx with h' | h' | h'
        · rcases List.mem_cons.1 h' with rfl | h'
          · exact .inr (.inl hdo)
          · exact .inl h'
        · exact .inr (.inl h')
        · cases h'
      · exact h.after
      · exact h.reachedOut
      · intro f hf
        rcases List.mem_cons.1 hf with rfl | hf
        · exact hreached
        · exact h.reachedStack f (by rw [hs]; exact List.mem_cons_of_mem _ hf)
      · exact .inl hb

theorem left_leave {F : Fn Op V} {w : Walk} {name : String} {rest : List Frame} (h : Inv F w)
    (hs : w.stack = ⟨name, []⟩ :: rest) : left F (leave name rest w) + 1 = left F w := by
  have hin : w.states.lookup name = some .inStack := (h.inStack name).2 (by rw [hs]; simp)
  unfold left leave
  rw [hs]
  simp only [List.map_cons, List.sum_cons, List.length_nil]
  have : (F.names.filter fun n => (List.lookup n ((name, VarState.visited) :: w.states)).isNone) =
      F.names.filter fun n => (w.states.lookup n).isNone := by
    apply List.filter_congr
    intro y _
    rw [lookup_cons]
    by_cases hy : y = name
    · subst hy
      simp [hin]
    · simp [hy]
  rw [this]
  omega

/-- The loop ends with an empty stack, or with a cycle. -/
theorem walk_spec {F : Fn Op V} : ∀ (n : Nat) (w : Walk), Inv F w → left F w < n →
    (∃ w', walk F n w = .ok w' ∧ Inv F w' ∧ w'.stack = []) ∨
    (∃ d, walk F n w = .error (.cycle d) ∧ Reached F d ∧ Path F d d)
  | 0, _, _, hn => by omega
  | n + 1, w, h, hn => by
    unfold walk
    cases hs : w.stack with
    | nil => exact .inl ⟨w, rfl, h, hs⟩
    | cons f rest =>
      obtain ⟨name, todo⟩ := f
      cases todo with
      | nil =>
        have hl := left_leave h hs
        exact walk_spec n _ (leave_inv h hs) (by omega)
      | cons d ds =>
        rcases reach_inv h hs with ⟨w', hw', hi, hl⟩ | ⟨he, hr, hp⟩
        · simp only [hw']
          exact walk_spec n w' hi (by omega)
        · simp only [he]
          exact .inr ⟨d, rfl, hr, hp⟩

/-- The state after `returns` was reached. -/
theorem start_spec (F : Fn Op V) : ∃ w, reach F kReturns ⟨[], [], []⟩ = .ok w ∧ Inv F w ∧
    left F w < F.fuel := by
  refine ⟨⟨[⟨kReturns, F.deps kReturns⟩], [(kReturns, .inStack)], []⟩, rfl, ?_, ?_⟩
  · constructor
    · simp
    · simp
    · intro n
      rw [lookup_cons]
      by_cases hn : n = kReturns
      · simp [hn]
      · simp [hn]
    · intro n
      rw [lookup_cons]
      by_cases hn : n = kReturns
      · simp [hn]
      · simp [hn]
    · refine ⟨?_, ?_, ?_, trivial⟩
      · intro x hx
        exact .inl (mem_deps.2 hx)
      · intro x hx
        exact mem_deps.1 hx
      · intro g hg
        cases hg
    · intro before n rest h
      cases before <;> cases h
    · intro n h
      cases h
    · intro f hf
      rw [List.mem_singleton] at hf
      subst hf
      exact .inl rfl
    · exact .inl rfl
  · have h := left_push (F := F) (w := ⟨[], [], []⟩) (d := kReturns)
      (by unfold Fn.names; rw [mem_sortNames]; simp) rfl
    simp only at h
    rw [h]
    unfold left Fn.fuel
    simp only [List.map_nil, List.sum_nil, List.lookup_nil, Option.isNone_none]
    rw [List.filter_eq_self.2 (fun _ _ => rfl)]
    show 0 + _ < _
    unfold weight
    omega

theorem order_spec {F : Fn Op V} (h : isFunctor F = true) :
    (∃ order, evaluationOrder F = .ok order ∧ GoodOrder F order) ∨
    (∃ d, evaluationOrder F = .error (.cycle d) ∧ Reached F d ∧ Path F d d) := by
  obtain ⟨w, hw, hi, hl⟩ := start_spec F
  unfold evaluationOrder
  rw [if_pos h, hw]
  simp only
  rcases walk_spec F.fuel w hi hl with ⟨w', hw', hi', hs'⟩ | ⟨d, hd, hr, hp⟩
  · rw [hw']
    refine .inl ⟨w'.out, rfl, ?_⟩
    have hlast : w'.out.getLast? = some kReturns := by
      rcases hi'.bottom with hb | hb
      · rw [hs'] at hb
        cases hb
      · exact hb.2
    have hret : kReturns ∈ w'.out := List.mem_of_getLast? hlast
    have hclosed : ∀ a b, a ∈ w'.out → Uses F a b → b ∈ w'.out := by
      intro a b ha hab
      obtain ⟨x, y, hxy⟩ := List.append_of_mem ha
      rw [hxy]
      exact List.mem_append_left _ (hi'.after x a y hxy b hab)
    refine ⟨hi'.outNodup, ?_, hi'.after, hlast⟩
    intro name
    constructor
    · exact hi'.reachedOut name
    · rintro (rfl | hp)
      · exact hret
      · have : ∀ a b, Path F a b → a ∈ w'.out → b ∈ w'.out := by
          intro a b hab
          induction hab with
          | one h => exact fun ha => hclosed _ _ ha h
          | more h _ ih => exact fun ha => ih (hclosed _ _ ha h)
        exact this _ _ hp hret
  · rw [hd]
    exact .inr ⟨d, rfl, hr, hp⟩

/-- With a good order there is no cycle. -/
theorem GoodOrder.noCycle {F : Fn Op V} {order : List String} (h : GoodOrder F order) (d : String)
    (hr : Reached F d) : ¬ Path F d d := by
  have hstep : ∀ a b, Uses F a b → a ∈ order → order.idxOf b < order.idxOf a ∧ b ∈ order := by
    intro a b hab ha
    obtain ⟨x, y, hxy⟩ := List.append_of_mem ha
    have hb := h.after x a y hxy b hab
    have hn := h.once
    rw [hxy, List.nodup_append] at hn
    have hax : a ∉ x := fun hx => hn.2.2 a hx a (by simp) rfl
    rw [hxy, List.idxOf_append, List.idxOf_append, if_pos hb, if_neg hax, List.idxOf_cons_self]
    have := List.idxOf_lt_length_of_mem hb
    exact ⟨by omega, List.mem_append_left _ hb⟩
  have hpath : ∀ a b, Path F a b → a ∈ order → order.idxOf b < order.idxOf a ∧ b ∈ order := by
    intro a b hab
    induction hab with
    | one h => exact hstep _ _ h
    | more h _ ih =>
      intro ha
      have h1 := hstep _ _ h ha
      have h2 := ih h1.2
      exact ⟨by omega, h2.2⟩
  intro hp
  have := (hpath d d hp ((h.all d).2 hr)).1
  omega

end Verif.Functor
