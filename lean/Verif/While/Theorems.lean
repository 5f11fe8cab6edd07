import Verif.While.Lemmas

/-! Theorems about `kd.functor.while_`. -/

namespace Verif.While

variable {F V T : Type} [DecidableEq T]

/-- The loop continues with an update. -/
def Step (K : Kit F V T) (cond body : F) (yields vars : List (String × V)) (us : Updates V)
    (u : List (String × V)) : Prop :=
  Holds K cond vars us true ∧ Returns K body vars us u ∧ Fits K (yields ++ vars) u

theorem ran_fits {K : Kit F V T} {cond body : F} {yields vars : List (String × V)} {us : Updates V}
    (h : Ran K cond body yields vars us) : ∀ u ∈ us, Fits K (yields ++ vars) u := by
  intro u hu
  obtain ⟨a, b, hab⟩ := List.append_of_mem hu
  exact (h a u b hab).2.2

theorem ran_nil (K : Kit F V T) (cond body : F) (yields vars : List (String × V)) :
    Ran K cond body yields vars [] := by
  intro a u b h
  cases a <;> cases h

theorem ran_snoc {K : Kit F V T} {cond body : F} {yields vars : List (String × V)} {us : Updates V}
    {u : List (String × V)} :
    Ran K cond body yields vars (us ++ [u]) ↔
      Ran K cond body yields vars us ∧ Step K cond body yields vars us u := by
  constructor
  · intro h
    refine ⟨?_, h us u [] rfl⟩
    intro a v b hab
    exact h a v (b ++ [u]) (by rw [hab]; simp)
  · rintro ⟨h, hu⟩ a v b hab
    rcases List.eq_nil_or_concat b with rfl | ⟨b', w, rfl⟩
    · have := List.append_inj' hab rfl
      obtain ⟨h1, h2⟩ := this
      cases h2
      subst h1
      exact hu
    · have : us ++ [u] = (a ++ v :: b') ++ [w] := by rw [hab]; simp
      obtain ⟨h1, _⟩ := List.append_inj' this rfl
      exact h a v b' h1

theorem holds_excl {K : Kit F V T} {cond : F} {vars : List (String × V)} {us : Updates V}
    (h1 : Holds K cond vars us true) (h2 : Holds K cond vars us false) : False := by
  obtain ⟨v, s, hv, hs, _, _, hi⟩ := h1
  obtain ⟨v', s', hv', hs', _, _, hi'⟩ := h2
  rw [hv] at hv'
  cases hv'
  rw [hs] at hs'
  cases hs'
  rw [hi] at hi'
  cases hi'

theorem returns_unique {K : Kit F V T} {body : F} {vars : List (String × V)} {us : Updates V}
    {u u' : List (String × V)} (h : Returns K body vars us u) (h' : Returns K body vars us u') :
    u = u' := by
  obtain ⟨v, hv, hu⟩ := h
  obtain ⟨v', hv', hu'⟩ := h'
  rw [hv] at hv'
  cases hv'
  rw [hu] at hu'
  cases hu'
  rfl

theorem key_unique {all : List (String × V)} (hn : (all.map Prod.fst).Nodup) {n : String}
    {v w : V} (h : (n, v) ∈ all) (h' : (n, w) ∈ all) : v = w := by
  induction all with
  | nil => cases h
  | cons x all ih =>
    rw [List.map_cons, List.nodup_cons] at hn
    rcases List.mem_cons.1 h with h1 | h1
    · rcases List.mem_cons.1 h' with h2 | h2
      · rw [← h1] at h2
        cases h2
        rfl
      · rw [← h1] at hn
        exact absurd (List.mem_map_of_mem (f := Prod.fst) h2) hn.1
    · rcases List.mem_cons.1 h' with h2 | h2
      · rw [← h2] at hn
        exact absurd (List.mem_map_of_mem (f := Prod.fst) h1) hn.1
      · exact ih hn.2 h1 h2

theorem wrong_not_done {K : Kit F V T} {cond body : F} {yields vars : List (String × V)}
    {us : Updates V} {e : Err} (hw : WrongIteration K cond body yields vars us e)
    (h : Holds K cond vars us false) : False := by
  have h0 := h
  obtain ⟨v, s, hv, hs, h1, h2, h3⟩ := h
  cases e with
  | call m =>
    rcases hw with hw | hw
    · rw [hv] at hw
      cases hw
    · exact holds_excl hw.1 h0
  | notSlice =>
    obtain ⟨v', hv', hs'⟩ := hw
    rw [hv] at hv'
    cases hv'
    rw [hs] at hs'
    cases hs'
  | notMask =>
    obtain ⟨v', s', hv', hs', hn⟩ := hw
    rw [hv] at hv'
    cases hv'
    rw [hs] at hs'
    cases hs'
    exact hn ⟨h1, h2, .inr h3⟩
  | notTuple => exact holds_excl hw.1 h0
  | unknownField n => exact holds_excl hw.1 h0
  | type n => exact holds_excl hw.1 h0
  | counts => exact hw
  | numYields => exact hw
  | duplicate n => exact hw
  | internal => exact hw

theorem wrong_not_step {K : Kit F V T} {cond body : F} {yields vars : List (String × V)}
    (hn : ((yields ++ vars).map Prod.fst).Nodup)
    {us : Updates V} {e : Err} (hw : WrongIteration K cond body yields vars us e)
    {u : List (String × V)} (h : Step K cond body yields vars us u) : False := by
  obtain ⟨h0, hr, hf⟩ := h
  have hr0 := hr
  obtain ⟨v, s, hv, hs, h1, h2, h3⟩ := h0
  obtain ⟨b, hb, hu⟩ := hr
  cases e with
  | call m =>
    rcases hw with hw | ⟨_, hw⟩
    · rw [hv] at hw
      cases hw
    · rw [hb] at hw
      cases hw
  | notSlice =>
    obtain ⟨v', hv', hs'⟩ := hw
    rw [hv] at hv'
    cases hv'
    rw [hs] at hs'
    cases hs'
  | notMask =>
    obtain ⟨v', s', hv', hs', hn⟩ := hw
    rw [hv] at hv'
    cases hv'
    rw [hs] at hs'
    cases hs'
    exact hn ⟨h1, h2, .inl h3⟩
  | notTuple =>
    obtain ⟨_, b', hb', hu'⟩ := hw
    rw [hb] at hb'
    cases hb'
    rw [hu] at hu'
    cases hu'
  | unknownField n =>
    obtain ⟨_, u', w, hr', hm, hno⟩ := hw
    rw [returns_unique hr' hr0] at hm
    obtain ⟨v0, hm0, _⟩ := hf _ hm
    exact hno (List.mem_map.2 ⟨_, hm0, rfl⟩)
  | type n =>
    obtain ⟨_, u', w, v0, hr', hm, hm0, ht⟩ := hw
    rw [returns_unique hr' hr0] at hm
    obtain ⟨v1, hm1, ht1⟩ := hf _ hm
    rw [key_unique hn hm1 hm0] at ht1
    exact ht ht1
  | counts => exact hw
  | numYields => exact hw
  | duplicate n => exact hw
  | internal => exact hw

/-- What an iteration does. -/
theorem iteration_spec (K : Kit F V T) (cond body : F) {yields vars : List (String × V)}
    (hn : ((yields ++ vars).map Prod.fst).Nodup) {us : Updates V}
    (hus : ∀ u ∈ us, Fits K (yields ++ vars) u) :
    (Holds K cond vars us false ∧
      iteration K cond body ((yields ++ vars).map Prod.fst) yields.length
        (stateAfter yields vars us) = .ok none) ∨
    (∃ u, Step K cond body yields vars us u ∧
      iteration K cond body ((yields ++ vars).map Prod.fst) yields.length
        (stateAfter yields vars us) = .ok (some (stateAfter yields vars (us ++ [u])))) ∨
    (∃ e, WrongIteration K cond body yields vars us e ∧
      iteration K cond body ((yields ++ vars).map Prod.fst) yields.length
        (stateAfter yields vars us) = .error e) := by
  have hcall : ∀ fn : F, callWith K fn ((yields ++ vars).map Prod.fst) yields.length
      (stateAfter yields vars us) =
      match K.call fn (valuesAfter vars us) (vars.map Prod.fst) with
      | .error e => .error (.call e)
      | .ok v => .ok v := by
    intro fn
    unfold callWith
    have h1 : (stateAfter yields vars us).vars.drop yields.length = valuesAfter vars us := by
      unfold stateAfter
      rw [List.drop_append_of_le_length (by simp)]
      simp
    have h2 : ((yields ++ vars).map Prod.fst).drop yields.length = vars.map Prod.fst := by
      rw [List.map_append, List.drop_append_of_le_length (by simp)]
      simp
    rw [h1, h2]
    all_goals rfl
  unfold iteration
  rw [hcall]
  cases hc : K.call cond (valuesAfter vars us) (vars.map Prod.fst) with
  | error m => exact .inr (.inr ⟨.call m, .inl hc, rfl⟩)
  | ok c =>
    simp only
    unfold condition
    cases hs : K.slice c with
    | none => exact .inr (.inr ⟨.notSlice, ⟨c, hc, hs⟩, rfl⟩)
    | some s =>
      simp only
      by_cases hbad : s.isItem = false ∨ (s.schema ≠ .mask ∧ s.schema ≠ .object) ∨
          (s.item ≠ .missing ∧ s.item ≠ .unit)
      · rw [if_pos hbad]
        refine .inr (.inr ⟨.notMask, ⟨c, s, hc, hs, ?_⟩, rfl⟩)
        rintro ⟨h1, h2, h3⟩
        rcases hbad with h | ⟨h, h'⟩ | ⟨h, h'⟩
        · rw [h1] at h
          cases h
        · rcases h2 with h2 | h2
          · exact h h2
          · exact h' h2
        · rcases h3 with h3 | h3
          · exact h' h3
          · exact h h3
      · rw [if_neg hbad]
        rw [not_or, not_or] at hbad
        have hitem : s.isItem = true := by simpa using hbad.1
        have hschema : s.schema = .mask ∨ s.schema = .object := by
          by_cases h : s.schema = .mask
          · exact .inl h
          · exact .inr (Classical.byContradiction fun h' => hbad.2.1 ⟨h, h'⟩)
        by_cases hmiss : s.item = .missing
        · left
          refine ⟨⟨c, s, hc, hs, hitem, hschema, by simpa using hmiss⟩, ?_⟩
          simp [hmiss]
        · right
          have hunit : s.item = .unit :=
            Classical.byContradiction fun h' => hbad.2.2 ⟨hmiss, h'⟩
          have hholds : Holds K cond vars us true :=
            ⟨c, s, hc, hs, hitem, hschema, by simpa using hunit⟩
          have hd : decide (s.item ≠ .missing) = true := by simpa using hmiss
          rw [hd]
          simp only
          rw [hcall]
          cases hb : K.call body (valuesAfter vars us) (vars.map Prod.fst) with
          | error m => exact .inr ⟨.call m, .inr ⟨hholds, hb⟩, rfl⟩
          | ok b =>
            simp only
            cases hfs : K.fields b with
            | none => exact .inr ⟨.notTuple, ⟨hholds, b, hb, hfs⟩, rfl⟩
            | some fs =>
              simp only
              have hret : Returns K body vars us fs := ⟨b, hb, hfs⟩
              rcases applyFields_spec K hn fs us hus with ⟨h1, h2⟩ | ⟨f, hf, h1, h2⟩ |
                ⟨f, hf, v0, h1, h2, h3⟩
              · left
                refine ⟨fs, ⟨hholds, hret, h1⟩, ?_⟩
                rw [h2, stateAfter_singles _ _ _ _ (K.nodup b fs hfs)]
              · right
                refine ⟨.unknownField f.1, ⟨hholds, fs, f.2, hret, hf, h1⟩, ?_⟩
                rw [h2]
              · right
                refine ⟨.type f.1, ⟨hholds, fs, f.2, v0, hret, hf, h1, h2⟩, ?_⟩
                rw [h3]

/-- What the loop does. -/
theorem loop_spec (K : Kit F V T) (cond body : F) {yields vars : List (String × V)}
    (hn : ((yields ++ vars).map Prod.fst).Nodup) : ∀ (n : Nat) (us : Updates V),
    Ran K cond body yields vars us →
    (loop K cond body ((yields ++ vars).map Prod.fst) yields.length n (stateAfter yields vars us) =
        none ∧ ∃ us', us'.length = us.length + n ∧ Ran K cond body yields vars us') ∨
    (∃ us', us'.length < us.length + n ∧ Ran K cond body yields vars us' ∧
      Holds K cond vars us' false ∧
      loop K cond body ((yields ++ vars).map Prod.fst) yields.length n (stateAfter yields vars us) =
        some (.ok (stateAfter yields vars us'))) ∨
    (∃ us' e, us'.length < us.length + n ∧ Ran K cond body yields vars us' ∧
      WrongIteration K cond body yields vars us' e ∧
      loop K cond body ((yields ++ vars).map Prod.fst) yields.length n (stateAfter yields vars us) =
        some (.error e))
  | 0, us, h => .inl ⟨rfl, us, rfl, h⟩
  | n + 1, us, h => by
    unfold loop
    rcases iteration_spec K cond body hn (ran_fits h) with ⟨h1, h2⟩ | ⟨u, h1, h2⟩ | ⟨e, h1, h2⟩
    · rw [h2]
      exact .inr (.inl ⟨us, by omega, h, h1, rfl⟩)
    · rw [h2]
      simp only
      have hlen : (us ++ [u]).length + n = us.length + (n + 1) := by
        rw [List.length_append, List.length_singleton]
        omega
      rw [← hlen]
      exact loop_spec K cond body hn n (us ++ [u]) (ran_snoc.2 ⟨h, h1⟩)
    · rw [h2]
      exact .inr (.inr ⟨us, e, by omega, h, h1, rfl⟩)

/-- There is only one run. -/
theorem ran_unique {K : Kit F V T} {cond body : F} {yields vars : List (String × V)} :
    ∀ (n : Nat) {us us' : Updates V}, us.length = n → us'.length = n →
    Ran K cond body yields vars us → Ran K cond body yields vars us' → us = us'
  | 0, us, us', h, h', _, _ => by
    rw [List.length_eq_zero_iff] at h h'
    rw [h, h']
  | n + 1, us, us', h, h', hr, hr' => by
    rcases List.eq_nil_or_concat us with rfl | ⟨a, u, rfl⟩
    · cases h
    · rcases List.eq_nil_or_concat us' with rfl | ⟨a', u', rfl⟩
      · cases h'
      · rw [List.concat_eq_append] at h hr
        rw [List.concat_eq_append] at h' hr'
        rw [List.concat_eq_append, List.concat_eq_append]
        rw [List.length_append, List.length_singleton] at h h'
        obtain ⟨h1, h2⟩ := ran_snoc.1 hr
        obtain ⟨h1', h2'⟩ := ran_snoc.1 hr'
        have := ran_unique n (by omega) (by omega) h1 h1'
        subst this
        rw [returns_unique h2.2.1 h2'.2.1]

theorem ran_take {K : Kit F V T} {cond body : F} {yields vars : List (String × V)}
    {us : Updates V} (h : Ran K cond body yields vars us) (n : Nat) :
    Ran K cond body yields vars (us.take n) := by
  intro a u b hab
  refine h a u (b ++ us.drop n) ?_
  have := List.take_append_drop n us
  rw [hab] at this
  rw [List.append_assoc, List.cons_append] at this
  exact this.symm

/-- A run that can end, or that ends with an error, is not continued. -/
theorem run_ends {K : Kit F V T} {cond body : F} {yields vars : List (String × V)}
    (hn : ((yields ++ vars).map Prod.fst).Nodup) {us us' : Updates V}
    (h : Ran K cond body yields vars us) (h' : Ran K cond body yields vars us')
    (hend : Holds K cond vars us false ∨ ∃ e, WrongIteration K cond body yields vars us e) :
    us'.length ≤ us.length := by
  apply Classical.byContradiction
  intro hlt
  have hpre : us'.take us.length = us :=
    ran_unique us.length (by rw [List.length_take]; omega) rfl (ran_take h' _) h
  have hget : us'[us.length]? = some us'[us.length] := List.getElem?_eq_getElem (by omega)
  have hsplit : us' = us ++ us'[us.length] :: us'.drop (us.length + 1) := by
    conv => lhs; rw [← List.take_append_drop us.length us', hpre]
    rw [List.drop_eq_getElem_cons (by omega)]
  have hstep : Step K cond body yields vars us us'[us.length] := h' us _ _ hsplit
  rcases hend with hend | ⟨e, hend⟩
  · exact holds_excl hstep.1 hend
  · exact wrong_not_step hn hend hstep

/-! ### The theorems -/

theorem whileLoop_eq (K : Kit F V T) (cond body : F) {yields vars : List (String × V)}
    (hn : ((yields ++ vars).map Prod.fst).Nodup) (n : Nat) :
    whileLoop K cond body ((yields ++ vars).map Prod.fst) ((yields ++ vars).map Prod.snd)
      yields.length n =
      match loop K cond body ((yields ++ vars).map Prod.fst) yields.length n
          (stateAfter yields vars []) with
      | none => none
      | some (.error e) => some (.error e)
      | some (.ok st) => some (.ok (finish st)) := by
  unfold whileLoop
  have hd : firstDuplicate ((yields ++ vars).map Prod.fst) [] = none :=
    (firstDuplicate_none _ _).2 ⟨hn, fun _ _ h => by cases h⟩
  rw [if_neg (by simp), if_neg (by simp; omega), hd]
  have hs : start ((yields ++ vars).map Prod.snd) (yields.length : Int).toNat =
      stateAfter yields vars [] := by
    unfold start stateAfter valuesAfter yielded valueOf
    rw [Int.toNat_natCast]
    congr 1
    · simp
    · rw [List.map_append, List.take_append_of_le_length (by simp)]
      rw [List.take_of_length_le (by simp), List.map_map]
      rfl
  simp only
  rw [hs, Int.toNat_natCast]
  all_goals rfl

theorem finish_eq (yields vars : List (String × V)) (us : Updates V) :
    finish (stateAfter yields vars us) = resultOf yields vars us := by
  unfold finish stateAfter resultOf
  simp only [List.map_map, List.length_map]
  rw [List.drop_append_of_le_length (by simp), List.drop_of_length_le (by simp)]
  rfl

/-- The loop ends with a result exactly if, after some iterations in which the condition was present
and the body returned an update, the condition is missing; the result is made of the last values of
the variables, and of all values of those that yield. -/
theorem C88_result (K : Kit F V T) (cond body : F) (yields vars : List (String × V))
    (hn : ((yields ++ vars).map Prod.fst).Nodup) (out : List (Out V)) :
    (∃ n, whileLoop K cond body ((yields ++ vars).map Prod.fst) ((yields ++ vars).map Prod.snd)
      yields.length n = some (.ok out)) ↔
    ∃ us, Ran K cond body yields vars us ∧ Holds K cond vars us false ∧
      out = resultOf yields vars us := by
  constructor
  · rintro ⟨n, h⟩
    rw [whileLoop_eq K cond body hn] at h
    rcases loop_spec K cond body hn n [] (ran_nil K cond body yields vars) with ⟨h1, _⟩ |
      ⟨us, _, h1, h2, h3⟩ | ⟨us, e, _, h1, h2, h3⟩
    · rw [h1] at h
      cases h
    · rw [h3] at h
      simp only [Option.some.injEq, Except.ok.injEq] at h
      rw [finish_eq] at h
      exact ⟨us, h1, h2, h.symm⟩
    · rw [h3] at h
      cases h
  · rintro ⟨us, h1, h2, rfl⟩
    refine ⟨us.length + 1, ?_⟩
    rw [whileLoop_eq K cond body hn]
    rcases loop_spec K cond body hn (us.length + 1) [] (ran_nil K cond body yields vars) with
      ⟨_, us', hl, hr⟩ | ⟨us', _, h1', h2', h3'⟩ | ⟨us', e, _, h1', h2', _⟩
    · have := run_ends hn h1 hr (.inl h2)
      simp only [List.length_nil] at hl
      omega
    · rw [h3']
      have ha := run_ends hn h1 h1' (.inl h2)
      have hb := run_ends hn h1' h1 (.inl h2')
      have := ran_unique us.length rfl (by omega) h1 h1'
      subst this
      simp only
      rw [finish_eq]
    · have ha := run_ends hn h1 h1' (.inl h2)
      have hb := run_ends hn h1' h1 (.inr ⟨e, h2'⟩)
      have := ran_unique us.length rfl (by omega) h1 h1'
      subst this
      exact (wrong_not_done h2' h2).elim

/-- The loop ends with an error exactly if something is wrong after some iterations. -/
theorem C88_errors (K : Kit F V T) (cond body : F) (yields vars : List (String × V))
    (hn : ((yields ++ vars).map Prod.fst).Nodup) :
    (∀ n e, whileLoop K cond body ((yields ++ vars).map Prod.fst) ((yields ++ vars).map Prod.snd)
      yields.length n = some (.error e) →
      ∃ us, Ran K cond body yields vars us ∧ WrongIteration K cond body yields vars us e) ∧
    (∀ us e, Ran K cond body yields vars us → WrongIteration K cond body yields vars us e →
      ∃ n e', whileLoop K cond body ((yields ++ vars).map Prod.fst)
        ((yields ++ vars).map Prod.snd) yields.length n = some (.error e')) := by
  constructor
  · intro n e h
    rw [whileLoop_eq K cond body hn] at h
    rcases loop_spec K cond body hn n [] (ran_nil K cond body yields vars) with ⟨h1, _⟩ |
      ⟨us, _, h1, h2, h3⟩ | ⟨us, e', _, h1, h2, h3⟩
    · rw [h1] at h
      cases h
    · rw [h3] at h
      cases h
    · rw [h3] at h
      simp only [Option.some.injEq, Except.error.injEq] at h
      subst h
      exact ⟨us, h1, h2⟩
  · intro us e h1 h2
    refine ⟨us.length + 1, ?_⟩
    rw [whileLoop_eq K cond body hn]
    rcases loop_spec K cond body hn (us.length + 1) [] (ran_nil K cond body yields vars) with
      ⟨_, us', hl, hr⟩ | ⟨us', _, h1', h2', h3'⟩ | ⟨us', e', _, h1', h2', h3'⟩
    · have := run_ends hn h1 hr (.inr ⟨e, h2⟩)
      simp only [List.length_nil] at hl
      omega
    · have ha := run_ends hn h1 h1' (.inr ⟨e, h2⟩)
      have hb := run_ends hn h1' h1 (.inl h2')
      have := ran_unique us.length rfl (by omega) h1 h1'
      subst this
      exact (wrong_not_done h2 h2').elim
    · exact ⟨e', by rw [h3']⟩

/-- The result does not depend on how long we wait for it. -/
theorem C88_stable (K : Kit F V T) (cond body : F) (names : List String) (values : List V)
    (numYields : Int) (n m : Nat) (hnm : n ≤ m) (r : Except Err (List (Out V)))
    (h : whileLoop K cond body names values numYields n = some r) :
    whileLoop K cond body names values numYields m = some r := by
  have hloop : ∀ (n m : Nat) (st : State V), n ≤ m → ∀ r,
      loop K cond body names numYields.toNat n st = some r →
      loop K cond body names numYields.toNat m st = some r := by
    intro n
    induction n with
    | zero =>
      intro m st _ r h
      cases h
    | succ n ih =>
      intro m st hm r h
      cases m with
      | zero => omega
      | succ m =>
        unfold loop at h ⊢
        cases hi : iteration K cond body names numYields.toNat st with
        | error e =>
          rw [hi] at h
          exact h
        | ok o =>
          rw [hi] at h
          cases o with
          | none => exact h
          | some st' => exact ih m st' (by omega) r h
  unfold whileLoop at h ⊢
  by_cases h1 : values.length ≠ names.length
  · rw [if_pos h1] at h ⊢
    exact h
  · rw [if_neg h1] at h ⊢
    by_cases h2 : numYields < 0 ∨ numYields > names.length
    · rw [if_pos h2] at h ⊢
      exact h
    · rw [if_neg h2] at h ⊢
      cases hd : firstDuplicate names [] with
      | some name =>
        rw [hd] at h
        exact h
      | none =>
        rw [hd] at h
        simp only at h ⊢
        cases hl : loop K cond body names numYields.toNat n (start values numYields.toNat) with
        | none =>
          rw [hl] at h
          cases h
        | some r' =>
          rw [hl] at h
          rw [hloop n m _ hnm r' hl]
          exact h

/-- The loop does not end exactly if the condition is present for ever and the body always returns
an update. -/
theorem C88_forever (K : Kit F V T) (cond body : F) (yields vars : List (String × V))
    (hn : ((yields ++ vars).map Prod.fst).Nodup) :
    (∀ n, whileLoop K cond body ((yields ++ vars).map Prod.fst) ((yields ++ vars).map Prod.snd)
      yields.length n = none) ↔
    ∃ u : Nat → List (String × V), ∀ n, Ran K cond body yields vars ((List.range n).map u) := by
  constructor
  · intro h
    have hall : ∀ n, ∃ us : Updates V, us.length = n ∧ Ran K cond body yields vars us := by
      intro n
      have hw := h n
      rw [whileLoop_eq K cond body hn] at hw
      rcases loop_spec K cond body hn n [] (ran_nil K cond body yields vars) with
        ⟨_, us, hl, hr⟩ | ⟨us, _, h1, h2, h3⟩ | ⟨us, e', _, h1, h2, h3⟩
      · exact ⟨us, by simpa using hl, hr⟩
      · rw [h3] at hw
        cases hw
      · rw [h3] at hw
        cases hw
    let f := fun n => Classical.choose (hall n)
    have hf : ∀ n, (f n).length = n ∧ Ran K cond body yields vars (f n) :=
      fun n => Classical.choose_spec (hall n)
    refine ⟨fun n => ((f (n + 1))[n]?).getD [], ?_⟩
    have heq : ∀ n, (List.range n).map (fun n => ((f (n + 1))[n]?).getD []) = f n := by
      intro n
      induction n with
      | zero =>
        have := (hf 0).1
        rw [List.length_eq_zero_iff] at this
        rw [this]
        rfl
      | succ n ih =>
        rw [List.range_succ, List.map_append, ih]
        have hpre : (f (n + 1)).take n = f n := by
          refine ran_unique n ?_ (hf n).1 (ran_take (hf (n + 1)).2 n) (hf n).2
          rw [List.length_take, (hf (n + 1)).1]
          omega
        have hlt : n < (f (n + 1)).length := by
          rw [(hf (n + 1)).1]
          omega
        conv => rhs; rw [← List.take_append_drop n (f (n + 1)), hpre]
        congr 1
        rw [List.drop_eq_getElem_cons hlt, List.drop_of_length_le (by rw [(hf (n + 1)).1]; omega)]
        simp [List.getElem?_eq_getElem hlt]
    intro n
    rw [heq]
    exact (hf n).2
  · rintro ⟨u, hu⟩ n
    rw [whileLoop_eq K cond body hn]
    rcases loop_spec K cond body hn n [] (ran_nil K cond body yields vars) with
      ⟨h1, _⟩ | ⟨us, _, h1, h2, h3⟩ | ⟨us, e', _, h1, h2, h3⟩
    · rw [h1]
    · have := run_ends hn h1 (hu (us.length + 1)) (.inl h2)
      simp at this
      omega
    · have := run_ends hn h1 (hu (us.length + 1)) (.inr ⟨e', h2⟩)
      simp at this
      omega

/-- The checks before the loop. -/
theorem C88_invalid (K : Kit F V T) (cond body : F) (names : List String) (values : List V)
    (numYields : Int) (n : Nat) :
    (values.length ≠ names.length →
      whileLoop K cond body names values numYields n = some (.error .counts)) ∧
    (values.length = names.length → ¬ (0 ≤ numYields ∧ numYields ≤ names.length) →
      whileLoop K cond body names values numYields n = some (.error .numYields)) ∧
    (values.length = names.length → 0 ≤ numYields → numYields ≤ names.length → ¬ names.Nodup →
      ∃ name, 2 ≤ names.count name ∧
        whileLoop K cond body names values numYields n = some (.error (.duplicate name))) := by
  refine ⟨?_, ?_, ?_⟩
  · intro h
    unfold whileLoop
    rw [if_pos h]
  · intro h1 h2
    unfold whileLoop
    rw [if_neg (by simpa using h1), if_pos (by omega)]
  · intro h1 h2 h3 h4
    unfold whileLoop
    rw [if_neg (by simpa using h1), if_neg (by omega)]
    cases hd : firstDuplicate names [] with
    | none => exact absurd ((firstDuplicate_none names []).1 hd).1 h4
    | some name =>
      obtain ⟨_, h⟩ := firstDuplicate_some name names [] hd
      refine ⟨name, ?_, rfl⟩
      rcases h with h | h
      · cases h
      · exact h

/-- `kd.while_` with `returns` gives the last value of `returns`. -/
theorem C88_returns (K : Kit F V T) (cond body : F) (returns : V) (state : List (String × V))
    (hn : ("returns" :: state.map Prod.fst).Nodup) (v : V) :
    (∃ n, whileReturns K cond body returns state n = some (.ok v)) ↔
    ∃ us, Ran K cond body [] (("returns", returns) :: state) us ∧
      Holds K cond (("returns", returns) :: state) us false ∧ v = valueOf returns "returns" us := by
  have h := C88_result K cond body [] (("returns", returns) :: state) hn
  have hw : ∀ n, whileLoop K cond body ("returns" :: state.map Prod.fst)
      (returns :: state.map Prod.snd) 0 n =
      whileLoop K cond body (([] ++ ("returns", returns) :: state).map Prod.fst)
        (([] ++ ("returns", returns) :: state).map Prod.snd) (([] : List (String × V)).length) n :=
    fun n => rfl
  constructor
  · rintro ⟨n, hv⟩
    unfold whileReturns at hv
    rw [hw] at hv
    cases hr : whileLoop K cond body (([] ++ ("returns", returns) :: state).map Prod.fst)
        (([] ++ ("returns", returns) :: state).map Prod.snd) (([] : List (String × V)).length) n with
    | none =>
      rw [hr] at hv
      cases hv
    | some r =>
      rw [hr] at hv
      cases r with
      | error e => cases hv
      | ok out =>
        obtain ⟨us, h1, h2, h3⟩ := (h out).1 ⟨n, hr⟩
        refine ⟨us, h1, h2, ?_⟩
        rw [h3] at hv
        unfold resultOf valuesAfter at hv
        simp only [List.map_nil, List.nil_append, List.map_cons, Option.some.injEq,
          Except.ok.injEq] at hv
        exact hv.symm
  · rintro ⟨us, h1, h2, rfl⟩
    obtain ⟨n, hr⟩ := (h _).2 ⟨us, h1, h2, rfl⟩
    refine ⟨n, ?_⟩
    unfold whileReturns
    rw [hw, hr]
    rfl

/-- `kd.while_` with `yields` gives the items of all values of `yields`, one after the other. -/
theorem C88_yields (K : Kit F V T) (cond body : F) (yields : V) (state : List (String × V))
    (hn : ("yields" :: state.map Prod.fst).Nodup) (items : List V) :
    (∃ n, whileYields K cond body yields state n = some (.ok items)) ↔
    ∃ us, Ran K cond body [("yields", yields)] state us ∧ Holds K cond state us false ∧
      items = K.items yields ++ us.flatMap fun u => ((u.lookup "yields").map K.items).getD [] := by
  have h := C88_result K cond body [("yields", yields)] state hn
  have hw : ∀ n, whileLoop K cond body ("yields" :: state.map Prod.fst)
      (yields :: state.map Prod.snd) 1 n =
      whileLoop K cond body (([("yields", yields)] ++ state).map Prod.fst)
        (([("yields", yields)] ++ state).map Prod.snd) [("yields", yields)].length n :=
    fun n => rfl
  have hitems : ∀ us : Updates V, (yielded yields "yields" us).flatMap K.items =
      K.items yields ++ us.flatMap fun u => ((u.lookup "yields").map K.items).getD [] := by
    intro us
    unfold yielded
    rw [List.flatMap_cons]
    congr 1
    induction us with
    | nil => rfl
    | cons u us ih =>
      rw [List.filterMap_cons, List.flatMap_cons]
      cases u.lookup "yields" with
      | none => simpa using ih
      | some w => simpa using ih
  constructor
  · rintro ⟨n, hv⟩
    unfold whileYields at hv
    rw [hw] at hv
    cases hr : whileLoop K cond body (([("yields", yields)] ++ state).map Prod.fst)
        (([("yields", yields)] ++ state).map Prod.snd) [("yields", yields)].length n with
    | none =>
      rw [hr] at hv
      cases hv
    | some r =>
      rw [hr] at hv
      cases r with
      | error e => cases hv
      | ok out =>
        obtain ⟨us, h1, h2, h3⟩ := (h out).1 ⟨n, hr⟩
        refine ⟨us, h1, h2, ?_⟩
        rw [h3] at hv
        unfold resultOf at hv
        simp only [List.map_nil, List.nil_append, List.map_cons, Option.some.injEq,
          Except.ok.injEq, List.cons_append] at hv
        rw [← hv, hitems]
  · rintro ⟨us, h1, h2, rfl⟩
    obtain ⟨n, hr⟩ := (h _).2 ⟨us, h1, h2, rfl⟩
    refine ⟨n, ?_⟩
    unfold whileYields
    rw [hw, hr, ← hitems]
    rfl

/-! ### Examples -/

/-- Values of the examples. -/
inductive ExValue where
  | num (n : Nat)
  | mask (present : Bool)
  | tuple (fields : List (String × Nat))
  deriving DecidableEq

/-- Functors of the examples: `x < n`, and `x + 1` with more fields. -/
inductive ExFn where
  | less (n : Nat)
  | next (more : List (String × Nat))

def exKit : Kit ExFn ExValue Nat where
  type := fun | .num _ => 0 | .mask _ => 1 | .tuple _ => 2
  slice := fun
    | .mask b => some ⟨true, .mask, if b then .unit else .missing⟩
    | .num n => some ⟨true, .other 0, .other n⟩
    | .tuple _ => none
  fields := fun
    | .tuple fs =>
      if (fs.map Prod.fst).Nodup then some (fs.map fun f => (f.1, .num f.2)) else none
    | _ => none
  items := fun | .num n => [.num n, .num (n + 100)] | _ => []
  call := fun fn vs names =>
    match ((names.zip vs).lookup "x", fn) with
    | (some (.num x), .less n) => .ok (.mask (x < n))
    | (some (.num x), .next more) => .ok (.tuple (("x", x + 1) :: more))
    | _ => .error "no x"
  nodup := by
    intro v fs h
    cases v with
    | num n => cases h
    | mask b => cases h
    | tuple gs =>
      simp only at h
      by_cases hn : (gs.map Prod.fst).Nodup
      · rw [if_pos hn] at h
        cases h
        rw [List.map_map]
        exact hn
      · rw [if_neg hn] at h
        cases h

def exOk (p : α → Bool) : Option (Except Err α) → Bool
  | some (.ok a) => p a
  | _ => false

def exErr : Option (Except Err α) → Option Err
  | some (.error e) => some e
  | _ => none

/-- Three iterations. -/
example : exOk (· == .num 7) (whileReturns exKit (.less 3) (.next [("returns", 7)]) (.num 5)
    [("x", .num 0)] 10) = true := by decide +kernel

/-- No iteration. -/
example : exOk (· == .num 5) (whileReturns exKit (.less 3) (.next [("returns", 7)]) (.num 5)
    [("x", .num 4)] 10) = true := by decide +kernel

example : exOk (· == [.num 5, .num 105, .num 7, .num 107, .num 7, .num 107])
    (whileYields exKit (.less 3) (.next [("yields", 7)]) (.num 5) [("x", .num 1)] 10) = true := by
  decide +kernel

/-- A field that is not a variable. -/
example : exErr (whileReturns exKit (.less 3) (.next [("y", 7)]) (.num 5) [("x", .num 1)] 10) =
    some (.unknownField "y") := by
  decide +kernel

/-- A variable that is called `returns`. -/
example : exErr (whileReturns exKit (.less 3) (.next []) (.num 5) [("returns", .num 1)] 10) =
    some (.duplicate "returns") := by
  decide +kernel

end Verif.While
