import Verif.MapFn.Lemmas

/-! The theorems about `kd.functor.map` and `kd.functor.map_reduce_update`. -/

namespace Verif.MapFn

open Verif.SliceOps (Edge Slice Compatible Wf)

variable {α S C : Type} [DecidableEq S]

theorem callOnItem_spec (K : Kit α S C) (names : List String) (inc : Bool) (fn : Option α)
    (args : List (Datum α S)) :
    (Skipped inc fn args ∧ callOnItem K names inc fn args = ([], .ok none)) ∨
    (∃ f, fn = some f ∧ ¬ Skipped inc (some f) args ∧
      ((∃ m, K.call f args names = .error m ∧
        callOnItem K names inc fn args = ([⟨f, args, names⟩], .error (.call m))) ∨
      (∃ v, K.call f args names = .ok v ∧
        callOnItem K names inc fn args = ([⟨f, args, names⟩], .ok (some v))))) := by
  cases fn with
  | none => exact .inl ⟨.inl rfl, rfl⟩
  | some f =>
    unfold callOnItem
    simp only
    by_cases h : someMissing inc args = true
    · rw [if_pos h]
      exact .inl ⟨.inr ((someMissing_iff inc args).1 h), rfl⟩
    · rw [if_neg h]
      refine .inr ⟨f, rfl, ?_, ?_⟩
      · rintro (h' | h')
        · cases h'
        · exact h ((someMissing_iff inc args).2 h')
      · cases hc : K.call f args names with
        | error m => exact .inl ⟨m, rfl, rfl⟩
        | ok v => exact .inr ⟨v, rfl, rfl⟩

theorem mapCallback_does (K : Kit α S C) (names : List String) (inc : Bool) :
    Does (MapsTo K names inc) (fun d => [d]) (mapCallback K names inc) := by
  intro fn args st
  unfold mapCallback
  rcases callOnItem_spec K names inc fn args with
    ⟨hs, h⟩ | ⟨f, rfl, hs, ⟨m, hc, h⟩ | ⟨v, hc, h⟩⟩
  · rw [h]
    exact .inl ⟨[], _, .skip hs, rfl⟩
  · rw [h]
    exact .inr ⟨_, _, .failed hs hc, rfl⟩
  · rw [h]
    cases v with
    | item x s => exact .inl ⟨_, _, .item hs hc, rfl⟩
    | slice es => exact .inr ⟨_, _, .slice hs hc, rfl⟩
    | bag b => exact .inr ⟨_, _, .notSlice hs hc (.inr ⟨b, rfl⟩), rfl⟩
    | other => exact .inr ⟨_, _, .notSlice hs hc (.inl rfl), rfl⟩

theorem updateCallback_does (K : Kit α S C) (names : List String) (inc : Bool) :
    Does (UpdatesWith K names inc) Option.toList (updateCallback K names inc) := by
  intro fn args st
  unfold updateCallback
  rcases callOnItem_spec K names inc fn args with
    ⟨hs, h⟩ | ⟨f, rfl, hs, ⟨m, hc, h⟩ | ⟨v, hc, h⟩⟩
  · rw [h]
    exact .inl ⟨[], _, .skip hs, by simp⟩
  · rw [h]
    exact .inr ⟨_, _, .failed hs hc, rfl⟩
  · rw [h]
    cases v with
    | item x s => exact .inr ⟨_, _, .notBag hs hc (by simp), rfl⟩
    | slice es => exact .inr ⟨_, _, .notBag hs hc (by simp), rfl⟩
    | bag b =>
      refine .inl ⟨_, _, .bag hs hc, ?_⟩
      cases b <;> simp
    | other => exact .inr ⟨_, _, .notBag hs hc (by simp), rfl⟩

theorem inSchema_ok {K : Kit α S C} {s : S} {d : Datum α S} {r : Except String (Option α)}
    (h : (if d.2 ≠ s then K.cast s d else .ok d.1) = r) : InSchema K s d r := by
  by_cases hd : d.2 = s
  · rw [if_neg (by simp [hd])] at h
    exact .inl ⟨hd, h.symm⟩
  · rw [if_pos hd] at h
    exact .inr ⟨hd, h.symm⟩

theorem castAll_spec (K : Kit α S C) (s : S) (ds : List (Datum α S)) :
    (∃ xs, castAll K s ds = .ok xs ∧ xs.length = ds.length ∧
      ∀ (i : Nat) d x, ds[i]? = some d → xs[i]? = some x → InSchema K s d (.ok x)) ∨
    (∃ m k d, castAll K s ds = .error (.cast m) ∧
      (∀ (i : Nat) d, i < k → ds[i]? = some d → ∃ x, InSchema K s d (.ok x)) ∧
      ds[k]? = some d ∧ InSchema K s d (.error m)) := by
  induction ds with
  | nil => exact .inl ⟨[], rfl, rfl, by simp⟩
  | cons d ds ih =>
    unfold castAll
    cases hd : (if d.2 ≠ s then K.cast s d else .ok d.1) with
    | error m =>
      exact .inr ⟨m, 0, d, rfl, by omega, rfl, inSchema_ok hd⟩
    | ok x =>
      simp only
      rcases ih with ⟨xs, h1, h2, h3⟩ | ⟨m, k, d', h1, h2, h3, h4⟩
      · rw [h1]
        refine .inl ⟨x :: xs, rfl, by simp [h2], ?_⟩
        intro i d' x' hi hx
        cases i with
        | zero =>
          simp only [List.getElem?_cons_zero, Option.some.injEq] at hi hx
          subst hi hx
          exact inSchema_ok hd
        | succ i => exact h3 i d' x' (by simpa using hi) (by simpa using hx)
      · rw [h1]
        refine .inr ⟨m, k + 1, d', rfl, ?_, by simpa using h3, h4⟩
        intro i d'' hi hdi
        cases i with
        | zero =>
          simp only [List.getElem?_cons_zero, Option.some.injEq] at hdi
          subst hdi
          exact ⟨x, inSchema_ok hd⟩
        | succ i => exact h2 i d'' (by omega) (by simpa using hdi)

/-- `kd.functor.map`: the slices are aligned; at each position, in their order, the functor is called with
the items of the arguments there, unless it or (without `include_missing`) one of them is missing, when the
result is missing; the first error ends the work and is the result; otherwise the items are the result, in
the aligned shape and in their common schema. Slices that cannot be aligned are an error, and nothing is
called. -/
theorem C90_map (K : Kit α S C) (functors : Slice α) (args : List (Slice α × S))
    (kwargs : List (String × Slice α × S)) (inc : Bool)
    (hw : ∀ s ∈ (args ++ kwargs.map Prod.snd).map Prod.fst ++ [functors], Wf s) :
    ((∀ s ∈ (args ++ kwargs.map Prod.snd).map Prod.fst ++ [functors],
        ∀ t ∈ (args ++ kwargs.map Prod.snd).map Prod.fst ++ [functors],
        Compatible s.edges t.edges) →
      ∃ x ts fns, Aligned ((args ++ kwargs.map Prod.snd).map Prod.fst ++ [functors]) x (ts ++ [fns]) ∧
        ((∃ calls ds, Done (fun i => MapsTo K (kwargs.map Prod.fst) inc (leafAt fns i)
            (List.zipWith (fun t a => (leafAt t i, a.2)) ts (args ++ kwargs.map Prod.snd)))
            x.items.length calls ds ∧
          (mapOperator K functors args kwargs inc).1 = calls ∧
          Combined K x.edges ds (mapOperator K functors args kwargs inc).2) ∨
        (∃ calls e, Stopped (fun i => MapsTo K (kwargs.map Prod.fst) inc (leafAt fns i)
            (List.zipWith (fun t a => (leafAt t i, a.2)) ts (args ++ kwargs.map Prod.snd)))
            x.items.length calls e ∧
          mapOperator K functors args kwargs inc = (calls, .error e)))) ∧
    (¬ (∀ s ∈ (args ++ kwargs.map Prod.snd).map Prod.fst ++ [functors],
        ∀ t ∈ (args ++ kwargs.map Prod.snd).map Prod.fst ++ [functors],
        Compatible s.edges t.edges) →
      mapOperator K functors args kwargs inc = ([], .error .broadcast)) := by
  obtain ⟨h1, h2⟩ := forEachAligned_spec (mapCallback_does K (kwargs.map Prod.fst) inc) functors
    (args ++ kwargs.map Prod.snd) hw
  unfold mapOperator mapFunctor
  refine ⟨?_, ?_⟩
  · intro hc
    obtain ⟨x, ts, fns, ha, h⟩ := h1 hc
    refine ⟨x, ts, fns, ha, ?_⟩
    rcases h with ⟨calls, ds, hd, h⟩ | ⟨calls, rs, e, hs, h⟩
    · refine .inl ⟨calls, ds, hd, ?_⟩
      rw [h]
      simp only [List.flatMap_singleton']
      by_cases hr : x.edges.length = 0
      · rw [if_pos hr]
        have h0 : x.edges = [] := List.eq_nil_of_length_eq_zero hr
        have hl : ds.length = 1 := by
          rw [hd.1]
          have := hw x ha.mem
          unfold Wf at this
          rw [h0] at this
          exact Eq.symm this
        obtain ⟨d, rfl⟩ := List.length_eq_one_iff.1 hl
        exact ⟨rfl, .item h0 rfl⟩
      · rw [if_neg hr]
        have h0 : x.edges ≠ [] := fun h => hr (by simp [h])
        unfold stackItems
        by_cases hn : ds = []
        · rw [if_pos (by simp [hn])]
          exact ⟨rfl, .empty h0 hn⟩
        · rw [if_neg (by simpa using hn)]
          cases hcs : K.common (ds.map Prod.snd) with
          | none => exact ⟨rfl, .noCommonSchema h0 hn hcs⟩
          | some s =>
            simp only
            rcases castAll_spec K s ds with ⟨xs, e1, e2, e3⟩ | ⟨m, k, d, e1, e2, e3, e4⟩
            · rw [e1]
              exact ⟨rfl, .slice h0 hn hcs e2 e3⟩
            · rw [e1]
              exact ⟨rfl, .castFails h0 hcs e2 e3 e4⟩
    · refine .inr ⟨calls, e, hs, ?_⟩
      rw [h]
  · intro hc
    rw [h2 hc]

/-! ### map_reduce_update -/

theorem hasMultiple_iff (b : Nat) (bs : List Nat) : hasMultiple b bs = true ↔ ∃ a ∈ bs, a ≠ b := by
  induction bs with
  | nil => simp [hasMultiple]
  | cons c bs ih =>
    unfold hasMultiple
    by_cases h : c = b
    · rw [if_neg (by simp [h]), ih]
      simp [h]
    · rw [if_pos h]
      simp only [true_iff]
      exact ⟨c, by simp, h⟩

theorem firsts_filter (b : Nat) (p : Nat → Bool) (bs : List Nat) (hb : p b = false) :
    (firsts (b :: bs)).filter p = (firsts bs).filter p := by
  conv => lhs; unfold firsts
  rw [List.filter_cons_of_neg (by simp [hb]), List.filter_filter]
  refine List.filter_congr ?_
  intro a _
  by_cases h : a = b
  · subst h
    simp [hb]
  · simp [h]

theorem adoptInto_spec (K : Kit α S C) (c : C) (visited bs : List Nat) :
    Merged K c ((firsts bs).filter fun b => !visited.contains b)
      (match adoptInto K c visited bs with
        | .error e => .error e
        | .ok c => .ok (.merged c)) := by
  induction bs generalizing c visited with
  | nil => exact .done c
  | cons b bs ih =>
    unfold adoptInto
    by_cases hv : visited.contains b = true
    · rw [if_pos hv, firsts_filter b _ bs (by simpa using hv)]
      exact ih c visited
    · rw [if_neg hv]
      have hf : (firsts (b :: bs)).filter (fun b => !visited.contains b) =
          b :: (firsts bs).filter fun a => !(b :: visited).contains a := by
        conv => lhs; unfold firsts
        rw [List.filter_cons_of_pos (by simpa using hv), List.filter_filter]
        congr 1
        refine List.filter_congr ?_
        intro a _
        by_cases h : a = b
        · simp [h]
        · simp [h]
      rw [hf]
      cases hm : K.mergeInplace c b with
      | error m => exact .conflict hm
      | ok c' => exact .step hm (ih c' (b :: visited))

theorem commonOrMerged_spec (K : Kit α S C) (bs : List Nat) : Reduced K bs (commonOrMerged K bs) := by
  cases bs with
  | nil => exact .null rfl
  | cons b bs =>
    unfold commonOrMerged
    simp only
    by_cases h : hasMultiple b bs = true
    · rw [if_pos h]
      obtain ⟨a, ha, hab⟩ := (hasMultiple_iff b bs).1 h
      refine .merged (a := a) (b := b) (by simp [ha]) (by simp) hab ?_
      have := adoptInto_spec K K.emptyBag [] (b :: bs)
      rwa [List.filter_eq_self.2 (by simp)] at this
    · rw [if_neg h]
      refine .same (by simp) ?_
      intro a ha
      rcases List.mem_cons.1 ha with rfl | ha
      · rfl
      · by_cases hab : a = b
        · exact hab
        · exact absurd ((hasMultiple_iff b bs).2 ⟨a, ha, hab⟩) h

/-- `kd.functor.map_reduce_update`: the functors are called as by `map`; the bags that they return are the
result: one bag itself, or a new one into which each of them was merged once, in the order of the
positions. -/
theorem C90_update (K : Kit α S C) (functors : Slice α) (args : List (Slice α × S))
    (kwargs : List (String × Slice α × S)) (inc : Bool)
    (hw : ∀ s ∈ (args ++ kwargs.map Prod.snd).map Prod.fst ++ [functors], Wf s) :
    ((∀ s ∈ (args ++ kwargs.map Prod.snd).map Prod.fst ++ [functors],
        ∀ t ∈ (args ++ kwargs.map Prod.snd).map Prod.fst ++ [functors],
        Compatible s.edges t.edges) →
      ∃ x ts fns, Aligned ((args ++ kwargs.map Prod.snd).map Prod.fst ++ [functors]) x (ts ++ [fns]) ∧
        ((∃ calls bs, Done (fun i => UpdatesWith K (kwargs.map Prod.fst) inc (leafAt fns i)
            (List.zipWith (fun t a => (leafAt t i, a.2)) ts (args ++ kwargs.map Prod.snd)))
            x.items.length calls bs ∧
          (mapReduceUpdateOperator K functors args kwargs inc).1 = calls ∧
          Reduced K (bs.filterMap id) (mapReduceUpdateOperator K functors args kwargs inc).2) ∨
        (∃ calls e, Stopped (fun i => UpdatesWith K (kwargs.map Prod.fst) inc (leafAt fns i)
            (List.zipWith (fun t a => (leafAt t i, a.2)) ts (args ++ kwargs.map Prod.snd)))
            x.items.length calls e ∧
          mapReduceUpdateOperator K functors args kwargs inc = (calls, .error e)))) ∧
    (¬ (∀ s ∈ (args ++ kwargs.map Prod.snd).map Prod.fst ++ [functors],
        ∀ t ∈ (args ++ kwargs.map Prod.snd).map Prod.fst ++ [functors],
        Compatible s.edges t.edges) →
      mapReduceUpdateOperator K functors args kwargs inc = ([], .error .broadcast)) := by
  obtain ⟨h1, h2⟩ := forEachAligned_spec (updateCallback_does K (kwargs.map Prod.fst) inc) functors
    (args ++ kwargs.map Prod.snd) hw
  unfold mapReduceUpdateOperator mapReduceUpdate
  refine ⟨?_, ?_⟩
  · intro hc
    obtain ⟨x, ts, fns, ha, h⟩ := h1 hc
    refine ⟨x, ts, fns, ha, ?_⟩
    rcases h with ⟨calls, bs, hd, h⟩ | ⟨calls, rs, e, hs, h⟩
    · refine .inl ⟨calls, bs, hd, ?_⟩
      rw [h]
      have hf : bs.flatMap Option.toList = bs.filterMap id := by
        clear h hd
        induction bs with
        | nil => rfl
        | cons b bs ih => cases b <;> simp [ih]
      rw [hf]
      exact ⟨rfl, commonOrMerged_spec K _⟩
    · refine .inr ⟨calls, e, hs, ?_⟩
      rw [h]
  · intro hc
    rw [h2 hc]

/-- Each bag is merged once. -/
theorem C90_firsts (bs : List Nat) : (firsts bs).Nodup ∧ ∀ b, b ∈ firsts bs ↔ b ∈ bs := by
  induction bs with
  | nil => simp [firsts]
  | cons b bs ih =>
    unfold firsts
    refine ⟨?_, ?_⟩
    · rw [List.nodup_cons]
      exact ⟨by simp, ih.1.filter _⟩
    · intro a
      simp only [List.mem_cons, List.mem_filter, ih.2]
      by_cases h : a = b <;> simp [h]

/-- What happens at a position is determined. -/
theorem C90_determined (K : Kit α S C) (names : List String) (inc : Bool) (fn : Option α)
    (args : List (Datum α S)) :
    ∃ c r, ∀ c' r', MapsTo K names inc fn args c' r' ↔ c' = c ∧ r' = r := by
  obtain ⟨c, r, h⟩ : ∃ c r, MapsTo K names inc fn args c r := by
    rcases mapCallback_does K names inc fn args ⟨[], []⟩ with ⟨c, r, h, _⟩ | ⟨c, e, h, _⟩
    · exact ⟨c, _, h⟩
    · exact ⟨c, _, h⟩
  refine ⟨c, r, fun c' r' => ⟨fun h' => ?_, fun h' => by rw [h'.1, h'.2]; exact h⟩⟩
  cases h <;> cases h' <;> simp_all
  all_goals
    rcases ‹(_ : Value α S) = .other ∨ _› with h | ⟨b, h⟩ <;> simp_all

/-! ### Examples -/

/-- Functor 0 adds its arguments, functor 1 fails, and functor 2 returns a bag. -/
def exKit : Kit Nat Nat (List Nat) where
  call f args _ :=
    if f = 0 then .ok (.item (some ((args.map fun a => a.1.getD 100).sum)) 7)
    else if f = 1 then .error "fails"
    else .ok (.bag (some (f + (args.map fun a => a.1.getD 100).sum)))
  noneSchema := 9
  common ss := if ss.contains 7 then some 7 else ss.head?
  cast _ d := .ok d.1
  emptyBag := []
  mergeInplace c b := if b = 66 then .error "conflict" else .ok (c ++ [b])

/-- A functor over a slice with two groups, and one argument for each group. -/
example :
    let x : Slice Nat := ⟨[[2], [2, 1]], [some 1, none, some 3]⟩
    let y : Slice Nat := ⟨[[2]], [some 10, some 20]⟩
    (mapOperator exKit ⟨[], [some 0]⟩ [(x, 7)] [("y", y, 7)] false) =
      ([⟨0, [(some 1, 7), (some 10, 7)], ["y"]⟩, ⟨0, [(some 3, 7), (some 20, 7)], ["y"]⟩],
        .ok (⟨[[2], [2, 1]], [some 11, none, some 23]⟩, 7)) := rfl

/-- The same arguments satisfy the hypotheses. -/
example :
    let x : Slice Nat := ⟨[[2], [2, 1]], [some 1, none, some 3]⟩
    let y : Slice Nat := ⟨[[2]], [some 10, some 20]⟩
    let l := [x, y, ⟨[], [some 0]⟩]
    (∀ s ∈ l, Wf s) ∧ ∀ s ∈ l, ∀ t ∈ l, Compatible s.edges t.edges := by
  simp [Wf, SliceOps.Fits, Compatible]

/-- Missing arguments are passed with `include_missing`. -/
example : (mapOperator exKit ⟨[], [some 0]⟩ [(⟨[[2]], [some 1, none]⟩, 7)] [] true).2 =
    .ok (⟨[[2]], [some 1, some 100]⟩, 7) := rfl

/-- The first error ends the work. -/
example : mapOperator exKit ⟨[[3]], [some 0, some 1, some 0]⟩ [(⟨[], [some 5]⟩, 7)] [] false =
    ([⟨0, [(some 5, 7)], []⟩, ⟨1, [(some 5, 7)], []⟩], .error (.call "fails")) := rfl

/-- Bags are merged once each. -/
example : (mapReduceUpdateOperator exKit ⟨[], [some 2]⟩ [(⟨[[4]], [some 1, some 5, none, some 1]⟩, 7)]
    [] false).2 = .ok (.merged [3, 7]) := rfl

end Verif.MapFn
