import Verif.View.Lemmas

namespace Verif.View

set_option linter.unusedSectionVars false

variable {A E : Type}

theorem compatAt_iff (vs : List (View A)) : CompatAt 0 (vs.map View.arg) ↔ Compatible vs := by
  unfold CompatAt Compatible AgreeAt Agree View.arg
  constructor
  · intro h v hv w hw p xs ys h1 h2 h3 h4
    exact h _ (List.mem_map.2 ⟨v, hv, rfl⟩) _ (List.mem_map.2 ⟨w, hw, rfl⟩) p xs ys
      (by simpa using h1) (by simpa using h2) h3 h4
  · intro h a ha b hb p xs ys h1 h2 h3 h4
    obtain ⟨v, hv, rfl⟩ := List.mem_map.1 ha
    obtain ⟨w, hw, rfl⟩ := List.mem_map.1 hb
    exact h v hv w hw p xs ys (by simpa using h1) (by simpa using h2) h3 h4

/-- Sequences of pure, possibly failing calls. -/
theorem seqM_fallible {α β : Type} (f : β → M A E α) (h : Heap A) (g : β → Except (Err E) α)
    (cs : List β)
    (hf : ∀ c ∈ cs, f c h = pureM (g c) h) :
    (∃ rs, seqM (cs.map f) h = .ok (rs, h) ∧ cs.map g = rs.map .ok) ∨
    (∃ e, seqM (cs.map f) h = .error e ∧ ∃ c ∈ cs, g c = .error e) := by
  induction cs with
  | nil => exact Or.inl ⟨[], rfl, rfl⟩
  | cons c cs ih =>
    simp only [List.map_cons, seqM, hf c (by simp), pureM]
    cases hg : g c with
    | error e => exact Or.inr ⟨e, rfl, c, by simp, hg⟩
    | ok x =>
      simp only []
      rcases ih fun d hd => hf d (List.mem_cons_of_mem _ hd) with ⟨rs, h1, h2⟩ | ⟨e, h1, d, hd, h2⟩
      · left; rw [h1]; exact ⟨x :: rs, rfl, by simp [h2]⟩
      · right; rw [h1]; exact ⟨e, rfl, d, List.mem_cons_of_mem _ hd, h2⟩

/-- What a leaf call returns, when the function itself returns `g items`. -/
def orMissing {α : Type} (im : Bool) (items : List (Obj A)) (missing x : α) : α :=
  if !im && items.any Obj.isNone then missing else x

/-- The effect of `mapStructures` with a pure function that may fail. -/
theorem mapStructures_fallible (fn : List (Obj A) → M A E (Obj A)) (im : Bool)
    (args : List (Nat × Obj A)) (hne : args ≠ []) (hn : ∀ a ∈ args, Nested a.1 a.2)
    (hc : CompatAt 0 args) (h : Heap A) (g : List (Obj A) → Except (Err E) (Obj A))
    (hf : ∀ c ∈ calls (maxDepth args) 0 args,
      fn c h = pureM (g c) h) :
    (∃ r, mapStructures fn im args h = .ok (r, h) ∧ Nested (maxDepth args) r ∧
      (∀ a ∈ args, a.1 = maxDepth args → ShapeEq (maxDepth args) r a.2) ∧
      (calls (maxDepth args) 0 args).map (fun c => orMissing im c (.ok .none) (g c)) =
        (leaves (maxDepth args) r).map .ok) ∨
    (∃ e, mapStructures fn im args h = .error e ∧
      ∃ c ∈ calls (maxDepth args) 0 args, orMissing im c (.ok .none) (g c) = .error e) := by
  have hs := mapStructures_spec fn im args hne hn hc h
  have hsf := seqM_fallible (callFn fn im) h (fun c => orMissing im c (.ok .none) (g c))
    (calls (maxDepth args) 0 args) (by
      intro c hcm
      unfold callFn orMissing
      split
      · rfl
      · exact hf c hcm)
  unfold Matches at hs
  rcases hsf with ⟨rs, h1, h2⟩ | ⟨e, h1, h2⟩
  · rw [h1] at hs
    obtain ⟨r, g1, g2, g3, g4⟩ := hs
    exact Or.inl ⟨r, g1, g2, g4, by rw [h2, g3]⟩
  · rw [h1] at hs
    exact Or.inr ⟨e, hs, h2⟩

theorem map_ok_inj {α β : Type} {l l' : List α} (h : l.map (Except.ok (ε := β)) = l'.map .ok) :
    l = l' := by
  have := congrArg (List.map fun x : Except β α => match x with | .ok a => some a | .error _ => none) h
  simp only [List.map_map, Function.comp_def] at this
  exact (List.map_inj_right (fun x y hxy => by simpa using hxy)).1 this

theorem map_some_inj {α : Type} {l l' : List α} (h : l.map some = l'.map some) : l = l' :=
  (List.map_inj_right (fun x y hxy => by simpa using hxy)).1 h

/-- The items of the arguments at a position. -/
def itemsAt (args : List (Nat × Obj A)) (p : List Nat) : List (Option (Obj A)) :=
  args.map fun b => b.2.at? (p.take b.1)

theorem call_of_items {args : List (Nat × Obj A)} (hne : args ≠ [])
    (hn : ∀ a ∈ args, Nested a.1 a.2) (hc : CompatAt 0 args) {p : List Nat}
    (hp : p.length = maxDepth args) {items : List (Obj A)}
    (hi : itemsAt args p = items.map some) :
    ∃ a ∈ args, a.1 = maxDepth args ∧ ∃ j : Nat, (positions (maxDepth args) a.2)[j]? = some p ∧
      (calls (maxDepth args) 0 args)[j]? = some items := by
  obtain ⟨a, ha, hd⟩ := maxDepth_mem hne
  refine ⟨a, ha, hd, ?_⟩
  have hca := calls_at (maxDepth args) 0 args (fun a ha => by have := le_maxDepth ha; omega)
    (fun a ha => by simpa using hn a ha) hc a ha (by omega)
  have hmem : p ∈ positions (maxDepth args) a.2 := by
    rw [← hd]
    refine (mem_positions (hn a ha) p).2 ⟨by omega, ?_⟩
    obtain ⟨k, hk⟩ := List.mem_iff_getElem?.1 ha
    have := congrArg (fun l => l[k]?) hi
    simp only [itemsAt, List.getElem?_map, hk, Option.map_some] at this
    rw [List.take_of_length_le (by omega)] at this
    cases hx : items[k]? with
    | none => rw [hx] at this; simp at this
    | some x => rw [hx] at this; exact ⟨x, by simpa using this⟩
  obtain ⟨j, hj⟩ := List.mem_iff_getElem?.1 hmem
  refine ⟨j, hj, ?_⟩
  have := congrArg (fun l => l[j]?) hca
  simp only [List.getElem?_map, hj, Option.map_some, Nat.sub_zero] at this
  unfold itemsAt at hi
  rw [hi] at this
  cases hx : (calls (maxDepth args) 0 args)[j]? with
  | none => rw [hx] at this; simp at this
  | some c =>
    rw [hx] at this
    simp only [Option.map_some, Option.some.injEq] at this
    rw [map_some_inj this]

theorem items_of_call {args : List (Nat × Obj A)} (hne : args ≠ [])
    (hn : ∀ a ∈ args, Nested a.1 a.2) (hc : CompatAt 0 args) {c : List (Obj A)}
    (hm : c ∈ calls (maxDepth args) 0 args) :
    ∃ p, p.length = maxDepth args ∧ itemsAt args p = c.map some := by
  obtain ⟨a, ha, hd⟩ := maxDepth_mem hne
  have hca := calls_at (maxDepth args) 0 args (fun a ha => by have := le_maxDepth ha; omega)
    (fun a ha => by simpa using hn a ha) hc a ha (by omega)
  have : c.map some ∈ (calls (maxDepth args) 0 args).map fun c => c.map some :=
    List.mem_map.2 ⟨c, hm, rfl⟩
  rw [← hca] at this
  obtain ⟨p, hp, he⟩ := List.mem_map.1 this
  refine ⟨p, ?_, by simpa [itemsAt] using he⟩
  rw [← hd] at hp ⊢
  exact ((mem_positions (hn a ha) p).1 hp).1

/-- `mapStructures` of a pure, possibly failing function, pointwise. -/
theorem mapStructures_pointwise (fn : List (Obj A) → M A E (Obj A)) (im : Bool)
    (args : List (Nat × Obj A)) (hne : args ≠ []) (hn : ∀ a ∈ args, Nested a.1 a.2)
    (hc : CompatAt 0 args) (h : Heap A) (g : List (Obj A) → Except (Err E) (Obj A))
    (hf : ∀ p (items : List (Obj A)), p.length = maxDepth args → itemsAt args p = items.map some →
      fn items h = pureM (g items) h) :
    (∃ r, mapStructures fn im args h = .ok (r, h) ∧ Nested (maxDepth args) r ∧
      (∀ a ∈ args, a.1 = maxDepth args → ShapeEq (maxDepth args) r a.2) ∧
      (∀ p (items : List (Obj A)), p.length = maxDepth args → itemsAt args p = items.map some →
        ∃ x, r.at? p = some x ∧ orMissing im items (.ok .none) (g items) = .ok x) ∧
      (∀ p, p.length = maxDepth args → (∃ x, r.at? p = some x) →
        ∃ items : List (Obj A), itemsAt args p = items.map some)) ∨
    (∃ e, mapStructures fn im args h = .error e ∧
      ∃ p, ∃ items : List (Obj A), p.length = maxDepth args ∧ itemsAt args p = items.map some ∧
        orMissing im items (.ok .none) (g items) = .error e) := by
  rcases mapStructures_fallible fn im args hne hn hc h g (by
      intro c hcm
      obtain ⟨p, hp, hi⟩ := items_of_call hne hn hc hcm
      exact hf p c hp hi) with ⟨r, h1, h2, h3, h4⟩ | ⟨e, h1, c, hcm, h2⟩
  · left
    refine ⟨r, h1, h2, h3, ?_, ?_⟩
    · intro p items hp hi
      obtain ⟨a, ha, hd, j, hj, hcj⟩ := call_of_items hne hn hc hp hi
      rw [← shapeEq_positions (h3 a ha hd)] at hj
      have h5 := at?_of_index h2 hj
      have := congrArg (fun l => l[j]?) h4
      simp only [List.getElem?_map, hcj, Option.map_some] at this
      cases hx : (leaves (maxDepth args) r)[j]? with
      | none => rw [hx] at this; simp at this
      | some x =>
        rw [hx] at this
        exact ⟨x, by rw [h5, hx], by simpa using this⟩
    · intro p hp hx
      obtain ⟨a, ha, hd⟩ := maxDepth_mem hne
      have hpm := (mem_positions h2 p).2 ⟨hp, hx⟩
      rw [shapeEq_positions (h3 a ha hd)] at hpm
      have hca := calls_at (maxDepth args) 0 args (fun a ha => by have := le_maxDepth ha; omega)
        (fun a ha => by simpa using hn a ha) hc a ha (by omega)
      have : itemsAt args p ∈ (calls (maxDepth args) 0 args).map fun c => c.map some := by
        rw [← hca]
        exact List.mem_map.2 ⟨p, hpm, by simp [itemsAt]⟩
      obtain ⟨c, _, he⟩ := List.mem_map.1 this
      exact ⟨c, he.symm⟩
  · right
    obtain ⟨p, hp, hi⟩ := items_of_call hne hn hc hcm
    exact ⟨e, h1, p, c, hp, hi, h2⟩

/-! ### One argument -/

theorem agreeAt_self (cur : Nat) (a : Nat × Obj A) : AgreeAt cur a a := by
  intro p xs ys _ _ h3 h4
  rw [h3] at h4
  simp only [Option.some.injEq, Obj.tup.injEq] at h4
  rw [h4]

theorem compatAt_one (cur : Nat) (a : Nat × Obj A) : CompatAt cur [a] := by
  intro b hb c hc
  simp only [List.mem_singleton] at hb hc
  subst hb; subst hc
  exact agreeAt_self cur _

theorem calls_one {n : Nat} {o : Obj A} (h : Nested n o) :
    calls n 0 [(n, o)] = (leaves n o).map fun x => [x] := by
  have hca := calls_at n 0 [(n, o)] (by simp) (by simpa using h) (compatAt_one 0 _) (n, o)
    (by simp) (by simp)
  have : ((calls n 0 [(n, o)]).map fun c => c.map some) =
      ((leaves n o).map fun x => [x]).map fun c => c.map some := by
    rw [← hca]
    simp only [List.map_cons, List.map_nil, Nat.sub_zero, List.map_map, Function.comp_def]
    have h2 := congrArg (List.map fun x => [x]) (positions_leaves h)
    simp only [List.map_map, Function.comp_def] at h2
    rw [← h2]
    apply List.map_congr_left
    intro p hp
    rw [List.take_of_length_le (by rw [((mem_positions h p).1 hp).1]; omega)]
  exact (List.map_inj_right (fun x y hxy => map_some_inj hxy)).1 this

theorem maxDepth_one (a : Nat × Obj A) : maxDepth [a] = a.1 := by simp [maxDepth]

theorem maxDepth_two (a b : Nat × Obj A) : maxDepth [a, b] = max a.1 b.1 := by
  simp [maxDepth]

/-- `map1` does one call per item, in order. -/
theorem map1_spec (f : Obj A → M A E (Obj A)) (v : View A) (hv : v.Wf) (h : Heap A) :
    match seqM ((leaves v.depth v.obj).map f) h with
    | .error e => map1 f v true h = .error e
    | .ok (rs, h') => ∃ r, map1 f v true h = .ok (r, h') ∧ r.depth = v.depth ∧ r.Wf ∧
        leaves r.depth r.obj = rs ∧ SameShape r v := by
  have hs := mapStructures_spec (unary f) true [v.arg]
    (by simp) (by simpa [View.arg, View.Wf] using hv) (compatAt_one 0 _) h
  rw [maxDepth_one] at hs
  unfold View.arg at hs
  simp only [] at hs
  rw [calls_one hv, List.map_map] at hs
  have e : ((callFn (unary f) true) ∘ fun x => [x]) = f := by
    funext x h; simp [callFn, unary]
  rw [e] at hs
  unfold Matches at hs
  cases hq : seqM ((leaves v.depth v.obj).map f) h with
  | error e =>
    rw [hq] at hs
    simp only [map1, mkView, View.arg] at hs ⊢
    rw [hs]
  | ok r =>
    obtain ⟨rs, h'⟩ := r
    rw [hq] at hs
    obtain ⟨r, h1, h2, h3, h4⟩ := hs
    simp only [map1, mkView, View.arg]
    rw [h1]
    refine ⟨_, rfl, rfl, h2, h3, rfl, ?_⟩
    have := h4 (v.depth, v.obj) (by simp) rfl
    simpa using this

/-! ### Two arguments -/

theorem getItem_tup (xs : List (Obj A)) (i : Nat) (x : Obj A) (h : xs[i]? = some x) :
    getItem (.tup xs) i = x := by
  simp [getItem, List.getD_eq_getElem?_getD, h]

theorem flatMap_range_getD {β : Type} (xs : List (Obj A)) (f : Obj A → List β) :
    ((List.range xs.length).flatMap fun i => f (xs.getD i .none)) = xs.flatMap f := by
  have : (List.range xs.length).map (fun i => xs.getD i .none) = xs := by
    apply List.ext_getElem?
    intro i
    simp only [List.getElem?_map]
    by_cases hi : i < xs.length
    · simp [List.getElem?_range hi, List.getD_eq_getElem?_getD, List.getElem?_eq_getElem hi]
    · rw [List.getElem?_eq_none (l := xs) (by omega), List.getElem?_eq_none (by simp; omega)]; rfl
  conv => rhs; rw [← this]
  rw [List.flatMap_map]

theorem calls_scalar_left {n cur a b : Nat} {x y : Obj A} (ha : a ≤ cur) (hb : b = cur + n)
    (hy : Nested n y) : calls n cur [(a, x), (b, y)] = (leaves n y).map fun v => [x, v] := by
  induction n generalizing cur y with
  | zero => simp [calls, leaves]
  | succ n ih =>
    obtain ⟨ys, rfl, hys⟩ := hy
    have hcl : commonLen cur [(a, x), (b, Obj.tup ys)] = ys.length := by
      simp [commonLen, ha, show ¬ b ≤ cur by omega, Obj.items?]
    simp only [calls, hcl, leaves, List.map_flatMap]
    rw [← flatMap_range_getD ys fun w => (leaves n w).map fun v => [x, v]]
    apply flatMap_congr'
    intro i hi
    have hil := List.mem_range.1 hi
    have : descend cur i [(a, x), (b, Obj.tup ys)] = [(a, x), (b, ys.getD i .none)] := by
      simp [descend, ha, show ¬ b ≤ cur by omega, getItem]
    rw [this]
    refine ih (by omega) (by omega) (hys _ ?_)
    rw [List.getD_eq_getElem?_getD, List.getElem?_eq_getElem hil]
    exact List.getElem_mem _

theorem zip_flatMap {α β γ δ : Type} (f : α → List γ) (g : β → List δ) (xs : List α) (ys : List β)
    (hl : xs.length = ys.length)
    (h : ∀ (i : Nat) x y, xs[i]? = some x → ys[i]? = some y → (f x).length = (g y).length) :
    (xs.flatMap f).zip (ys.flatMap g) = (xs.zip ys).flatMap fun p => (f p.1).zip (g p.2) := by
  induction xs generalizing ys with
  | nil => simp
  | cons x xs ih =>
    cases ys with
    | nil => simp at hl
    | cons y ys =>
      simp only [List.flatMap_cons, List.zip_cons_cons]
      rw [List.zip_append (h 0 x y rfl rfl), ih ys (by simpa using hl)
        fun i x y hx hy => h (i + 1) x y (by simpa using hx) (by simpa using hy)]

theorem shapeEq_leaves_length {n : Nat} {o o' : Obj A} (h : ShapeEq n o o') :
    (leaves n o).length = (leaves n o').length := by
  rw [← length_positions (shapeEq_nested h), ← length_positions (shapeEq_nested (shapeEq_symm h)),
    shapeEq_positions h]

theorem calls_two {k n cur a b : Nat} {x y : Obj A} (ha : a = cur + k) (hb : b = cur + n)
    (hkn : k ≤ n) (hy : Nested n y) (hs : ShapeEq k x y) :
    calls n cur [(a, x), (b, y)] =
      ((leaves k x).zip (leaves k y)).flatMap fun uw => (leaves (n - k) uw.2).map fun v => [uw.1, v] := by
  induction k generalizing n cur x y with
  | zero =>
    rw [calls_scalar_left (by omega) hb hy]
    simp [leaves]
  | succ k ih =>
    cases n with
    | zero => omega
    | succ n =>
      obtain ⟨xs, ys, rfl, rfl, hl, hi⟩ := hs
      obtain ⟨ys', e, hy⟩ := hy
      injection e with e
      subst e
      have hcl : commonLen cur [(a, Obj.tup xs), (b, Obj.tup ys)] = xs.length := by
        simp [commonLen, show ¬ a ≤ cur by omega, Obj.items?]
      simp only [calls, hcl, leaves]
      rw [zip_flatMap _ _ _ _ hl fun i x y hx hy => shapeEq_leaves_length (hi i x y hx hy),
        List.flatMap_assoc]
      have e : xs.zip ys = (List.range xs.length).map fun i => (xs.getD i .none, ys.getD i .none) := by
        apply List.ext_getElem?
        intro j
        by_cases hj : j < xs.length
        · have hj' : j < ys.length := by omega
          have hz : (xs.zip ys)[j]? = some (xs[j], ys[j]) :=
            List.getElem?_zip_eq_some.2 ⟨List.getElem?_eq_getElem hj, List.getElem?_eq_getElem hj'⟩
          rw [hz]
          simp [List.getElem?_range hj, List.getD_eq_getElem?_getD, List.getElem?_eq_getElem hj,
            List.getElem?_eq_getElem (show j < ys.length by omega)]
        · rw [List.getElem?_eq_none (by simp; omega), List.getElem?_eq_none (by simp; omega)]
      rw [e, List.flatMap_map]
      apply flatMap_congr'
      intro i hir
      have hil := List.mem_range.1 hir
      have hil' : i < ys.length := by omega
      have : descend cur i [(a, Obj.tup xs), (b, Obj.tup ys)] =
          [(a, xs.getD i .none), (b, ys.getD i .none)] := by
        simp [descend, show ¬ a ≤ cur by omega, show ¬ b ≤ cur by omega, getItem]
      rw [this]
      have ey : ys.getD i .none = ys[i] := by
        rw [List.getD_eq_getElem?_getD, List.getElem?_eq_getElem hil']; rfl
      have ex : xs.getD i .none = xs[i] := by
        rw [List.getD_eq_getElem?_getD, List.getElem?_eq_getElem hil]; rfl
      rw [ih (n := n) (by omega) (by omega) (by omega)
        (by rw [ey]; exact hy _ (List.getElem_mem _))
        (by rw [ex, ey]; exact hi i _ _ (List.getElem?_eq_getElem hil) (List.getElem?_eq_getElem hil'))]
      simp only [Nat.add_sub_add_right]

end Verif.View
