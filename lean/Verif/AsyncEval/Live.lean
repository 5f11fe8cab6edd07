import Verif.AsyncEval.Step

/-!
Runs end, and when they do the values are set.
-/

namespace Verif.AsyncEval

variable {V E O : Type}

variable {evalOp : O → List V → Value V E} {internal orphaned : E} {prog : List (Node V O)} {dropped : Prop}
  {w : World V E} {done : List (Nat × Nat × Value V E)}

/-! ### nothing to do -/

theorem idle_empty (h : Idle evalOp internal orphaned prog w) :
    w.todo = [] ∧ w.pool = [] ∧ w.errors = [] ∧ w.ready = [] ∧ w.tasks = [] := by
  refine ⟨?_, ?_, ?_, ?_, ?_⟩
  · have := h .call (by simp)
    cases ht : w.todo with
    | nil => rfl
    | cons t rest => cases t <;> simp [step, ht] at this
  · have := h (.consume 0) (by simp)
    cases ht : w.pool with
    | nil => rfl
    | cons t rest => simp [step, ht] at this
  · have := h (.report 0) (by simp)
    cases ht : w.errors with
    | nil => rfl
    | cons t rest => simp [step, ht] at this
  · have := h (.schedule 0) (by simp)
    cases ht : w.ready with
    | nil => rfl
    | cons t rest => simp [step, ht] at this
  · have := h (.run 0) (by simp)
    cases ht : w.tasks with
    | nil => rfl
    | cons t rest => simp [step, ht] at this

/-- When there is nothing to do, an input whose future has a value was consumed. -/
theorem idle_done (h : Core prog w done) (ht : w.todo = []) (hp : w.pool = []) {k i j : Nat}
    (ha : (argsOf prog k)[i]? = some (.future j)) {v : Value V E} (hv : w.value j = some v) : (k, i, v) ∈ done := by
  have hm : (k, i) ∈ (calls 0 prog).filterMap regTok :=
    List.mem_filterMap.mpr ⟨.register k i j, (calls_mem prog 0 k i j).mpr ⟨k, by omega, ha⟩, rfl⟩
  have hm := h.perm.mem_iff.mpr hm
  simp only [toks, List.mem_append, ht, hp, List.filterMap_nil, List.map_nil, List.not_mem_nil, false_or] at hm
  rcases hm with hm | hm
  · obtain ⟨⟨j', k', i'⟩, hx, he⟩ := List.mem_map.mp hm
    simp only [Prod.mk.injEq] at he
    obtain ⟨rfl, rfl⟩ := he
    obtain ⟨h1, h2⟩ := h.consArg _ _ _ hx
    rw [ha] at h1
    cases h1
    rw [hv] at h2
    simp at h2
  · obtain ⟨⟨k', i', v'⟩, hx, he⟩ := List.mem_map.mp hm
    simp only [Prod.mk.injEq] at he
    obtain ⟨rfl, rfl⟩ := he
    obtain ⟨j', h1, h2⟩ := h.doneArg _ _ _ hx
    rw [ha] at h1
    cases h1
    rw [hv] at h2
    cases h2
    exact hx

/-- When there is nothing to do, what is decided is set. -/
theorem idle_set (h : Inv evalOp orphaned prog dropped w done) (hi : Idle evalOp internal orphaned prog w) {k : Nat}
    {op : O} {args : List (Arg V)} (hk : prog[k]? = some (.eval op args)) (hd : decided w k) :
    (w.value k).isSome := by
  obtain ⟨h1, h2, h3, h4, h5⟩ := idle_empty hi
  have := h.one k op args hk
  rw [if_pos hd, writers, h1, h3, h4, h5] at this
  cases hv : w.value k with
  | none => simp [hv] at this
  | some v => rfl

theorem idle_error (h : Inv evalOp orphaned prog dropped w done) (hi : Idle evalOp internal orphaned prog w) {k j : Nat}
    {op : O} {args : List (Arg V)} (hk : prog[k]? = some (.eval op args)) (hj : .future j ∈ args) {e : E}
    (he : w.value j = some (.error e)) : (w.value k).isSome := by
  obtain ⟨h1, h2, h3, h4, h5⟩ := idle_empty hi
  obtain ⟨i, ha⟩ := List.mem_iff_getElem?.mp hj
  rw [← argsOf_eval hk] at ha
  have hd := idle_done h.core h1 h2 ha he
  refine idle_set h hi hk (.inl ((h.core.reported k).mpr ?_))
  exact List.countP_pos_iff.mpr ⟨_, hd, by simp [isErrOf]⟩

theorem idle_all (h : Inv evalOp orphaned prog dropped w done) (hi : Idle evalOp internal orphaned prog w) {k : Nat}
    {op : O} {args : List (Arg V)} (hk : prog[k]? = some (.eval op args))
    (hj : ∀ j, .future j ∈ args → (w.value j).isSome) : (w.value k).isSome := by
  obtain ⟨h1, h2, h3, h4, h5⟩ := idle_empty hi
  by_cases hd : decided w k
  · exact idle_set h hi hk hd
  · exfalso
    have hne : (w.countdown k).remaining ≠ 0 := fun hx => hd (.inr hx)
    have hr := h.core.remaining k
    rw [h1, h2] at hr
    simp only [List.countP_nil, Nat.zero_add, Nat.add_zero] at hr
    have herr : done.countP (isErrOf k) = 0 := by
      cases hx : done.countP (isErrOf k) with
      | zero => rfl
      | succ n => exact absurd (.inl ((h.core.reported k).mpr (by omega))) hd
    have hpos : 0 < w.consumers.countP (·.2.1 == k) := by omega
    obtain ⟨⟨j, k', i⟩, hx, he⟩ := List.countP_pos_iff.mp hpos
    have he : k' = k := by simpa using he
    subst he
    obtain ⟨ha, hv⟩ := h.core.consArg _ _ _ hx
    rw [argsOf_eval hk] at ha
    have := hj j (List.mem_of_getElem? ha)
    rw [hv] at this
    simp at this

/-! ### values stay -/

theorem setValue_keeps (k : Nat) (v : Value V E) (w : World V E) {j : Nat} {r : Value V E} (h : w.value j = some r) :
    (setValue k v w).value j = some r := by
  cases hk : w.value k with
  | some x => simpa [setValue, hk] using h
  | none =>
    rw [setValue_none _ hk]
    by_cases hj : j = k
    · subst hj; rw [hk] at h; simp at h
    · simp only [set_other _ _ _ _ hj]; exact h

theorem setInput_value (k i : Nat) (v : Value V E) (w : World V E) : (setInput k i v w).value = w.value := by
  unfold setInput
  cases v with
  | error e =>
    simp only
    by_cases h : (w.countdown k).errorReported = true
    · rw [if_pos h]
    · rw [if_neg h]
  | ok v =>
    simp only
    cases h : (w.countdown k).inputs[i]? with
    | none => rfl
    | some x => cases x <;> rfl

theorem addConsumer_value (k i j : Nat) (w : World V E) : (addConsumer k i j w).value = w.value := by
  unfold addConsumer
  cases w.value j <;> rfl

theorem step_keeps {op : Op V E} {w' : World V E} (hs : step evalOp internal orphaned prog w op = some w')
    {j : Nat} {r : Value V E} (h : w.value j = some r) : w'.value j = some r := by
  cases op with
  | call =>
    simp only [step] at hs
    cases ht : w.todo with
    | nil => rw [ht] at hs; simp at hs
    | cons t rest =>
      rw [ht] at hs
      cases t with
      | schedule k =>
        simp only [Option.some.injEq] at hs
        subst hs
        exact h
      | register k i j =>
        simp only [Option.some.injEq] at hs
        subst hs
        rw [addConsumer_value]
        exact h
  | source k v =>
    simp only [step] at hs
    cases hk : prog[k]? with
    | none => rw [hk] at hs; simp at hs
    | some n =>
      cases n with
      | eval op args => rw [hk] at hs; simp at hs
      | source =>
        cases hv : w.value k with
        | some x => rw [hk, hv] at hs; simp at hs
        | none =>
          rw [hk, hv] at hs
          simp only [Option.some.injEq] at hs
          subst hs
          exact setValue_keeps _ _ _ h
  | consume p =>
    simp only [step] at hs
    cases hp : w.pool[p]? with
    | none => rw [hp] at hs; simp at hs
    | some x =>
      rw [hp] at hs
      simp only [Option.some.injEq] at hs
      subst hs
      rw [setInput_value]
      exact h
  | report p =>
    simp only [step] at hs
    cases hp : w.errors[p]? with
    | none => rw [hp] at hs; simp at hs
    | some x =>
      rw [hp] at hs
      simp only [Option.some.injEq] at hs
      subst hs
      exact setValue_keeps _ _ _ h
  | schedule p =>
    simp only [step] at hs
    cases hp : w.ready[p]? with
    | none => rw [hp] at hs; simp at hs
    | some k =>
      rw [hp] at hs
      simp only [Option.some.injEq] at hs
      subst hs
      exact h
  | run p =>
    simp only [step] at hs
    cases hp : w.tasks[p]? with
    | none => rw [hp] at hs; simp at hs
    | some x =>
      rw [hp] at hs
      simp only [Option.some.injEq] at hs
      subst hs
      exact setValue_keeps _ _ _ h
  | drop p =>
    simp only [step] at hs
    cases hp : w.tasks[p]? with
    | none => rw [hp] at hs; simp at hs
    | some x =>
      rw [hp] at hs
      simp only [Option.some.injEq] at hs
      subst hs
      exact setValue_keeps _ _ _ h

theorem run_keeps {ops : List (Op V E)} {w' : World V E} (hs : run evalOp internal orphaned prog w ops = some w')
    {j : Nat} {r : Value V E} (h : w.value j = some r) : w'.value j = some r := by
  induction ops generalizing w with
  | nil =>
    simp only [run, Option.some.injEq] at hs
    subst hs
    exact h
  | cons op ops ih =>
    simp only [run] at hs
    cases h1 : step evalOp internal orphaned prog w op with
    | none => rw [h1] at hs; simp at hs
    | some w1 =>
      rw [h1] at hs
      exact ih hs (step_keeps h1 h)

/-! ### runs end -/

/-- A source that is not set. -/
def unset (prog : List (Node V O)) (value : Nat → Option (Value V E)) (k : Nat) : Bool :=
  match prog[k]?, value k with
  | some .source, none => true
  | _, _ => false

/-- The sources that are not set. -/
def unsetCount (prog : List (Node V O)) (value : Nat → Option (Value V E)) : Nat :=
  (List.range prog.length).countP (unset prog value)

/-- What gets smaller. -/
def measureOf (prog : List (Node V O)) (w : World V E) : Nat :=
  6 * w.todo.length + 5 * w.consumers.length + 4 * w.pool.length + 2 * w.ready.length + w.tasks.length +
    w.errors.length + unsetCount prog w.value

theorem unset_set (prog : List (Node V O)) (value : Nat → Option (Value V E)) (k : Nat) (v : Value V E) (i : Nat)
    (h : unset prog (set value k (some v)) i = true) : unset prog value i = true ∧ i ≠ k := by
  by_cases hi : i = k
  · subst hi
    unfold unset at h
    rw [set_same] at h
    split at h
    · rename_i h1 h2; simp at h2
    · simp at h
  · refine ⟨?_, hi⟩
    unfold unset at h ⊢
    rw [set_other _ _ _ _ hi] at h
    exact h

theorem countP_le {α : Type} (p q : α → Bool) (l : List α) (h : ∀ x, p x = true → q x = true) :
    l.countP p ≤ l.countP q := by
  induction l with
  | nil => simp
  | cons a l ih =>
    have := h a
    rw [List.countP_cons, List.countP_cons]
    by_cases hp : p a = true
    · simp only [hp, this hp, if_true]; omega
    · rw [if_neg hp]; omega

theorem countP_lt {α : Type} (p q : α → Bool) (l : List α) (h : ∀ x, p x = true → q x = true) {x : α} (hx : x ∈ l)
    (h1 : p x = false) (h2 : q x = true) : l.countP p < l.countP q := by
  induction l with
  | nil => simp at hx
  | cons a l ih =>
    have h3 := h a
    have h4 := countP_le p q l h
    rw [List.countP_cons, List.countP_cons]
    rcases List.mem_cons.mp hx with hx | hx
    · subst hx
      rw [h1, h2]
      simp only [Bool.false_eq_true, if_true, if_false]
      omega
    · have := ih hx
      by_cases hp : p a = true
      · simp only [hp, h3 hp, if_true]; omega
      · rw [if_neg hp]; omega

theorem unsetCount_le (prog : List (Node V O)) (value : Nat → Option (Value V E)) (k : Nat) (v : Value V E) :
    unsetCount prog (set value k (some v)) ≤ unsetCount prog value :=
  countP_le _ _ _ fun i hi => (unset_set prog value k v i hi).1

theorem unsetCount_lt (prog : List (Node V O)) (value : Nat → Option (Value V E)) (k : Nat) (v : Value V E)
    (h1 : prog[k]? = some .source) (h2 : value k = none) :
    unsetCount prog (set value k (some v)) < unsetCount prog value := by
  refine countP_lt _ _ _ (fun i hi => (unset_set prog value k v i hi).1) (x := k) ?_ ?_ ?_
  · obtain ⟨hlt, -⟩ := List.getElem?_eq_some_iff.mp h1
    exact List.mem_range.mpr hlt
  · cases hx : unset prog (set value k (some v)) k with
    | false => rfl
    | true => exact absurd rfl (unset_set prog value k v k hx).2
  · simp [unset, h1, h2]

theorem filter_split {α : Type} (p : α → Bool) (l : List α) :
    (l.filter p).length + (l.filter (fun x => !p x)).length = l.length := by
  induction l with
  | nil => rfl
  | cons a l ih => by_cases hp : p a <;> simp [hp] <;> omega

theorem measure_setValue (prog : List (Node V O)) (k : Nat) (v : Value V E) (w : World V E) :
    measureOf prog (setValue k v w) ≤ measureOf prog w := by
  cases hk : w.value k with
  | some x => simp [setValue, hk, measureOf]
  | none =>
    rw [setValue_none _ hk]
    have h1 := unsetCount_le prog w.value k v
    have h2 := filter_split (fun c : Nat × Nat × Nat => decide (c.1 = k)) w.consumers
    have h3 : w.consumers.filter (fun c => decide (c.1 ≠ k)) = w.consumers.filter (fun c => !decide (c.1 = k)) := by
      apply List.filter_congr; intro c _; simp
    simp only [measureOf, List.length_append, List.length_map, h3]
    omega

theorem measure_source (prog : List (Node V O)) (k : Nat) (v : Value V E) (w : World V E)
    (hk : prog[k]? = some .source) (hv : w.value k = none) :
    measureOf prog (setValue k v w) < measureOf prog w := by
  rw [setValue_none _ hv]
  have h1 := unsetCount_lt prog w.value k v hk hv
  have h2 := filter_split (fun c : Nat × Nat × Nat => decide (c.1 = k)) w.consumers
  have h3 : w.consumers.filter (fun c => decide (c.1 ≠ k)) = w.consumers.filter (fun c => !decide (c.1 = k)) := by
    apply List.filter_congr; intro c _; simp
  simp only [measureOf, List.length_append, List.length_map, h3]
  omega

theorem measure_setInput (prog : List (Node V O)) (k i : Nat) (v : Value V E) (w : World V E) :
    measureOf prog (setInput k i v w) ≤ measureOf prog w + 2 := by
  unfold setInput
  cases v with
  | error e =>
    simp only
    by_cases h : (w.countdown k).errorReported = true
    · rw [if_pos h]; omega
    · rw [if_neg h]; simp only [measureOf, List.length_append, List.length_singleton]; omega
  | ok v =>
    simp only
    cases h : (w.countdown k).inputs[i]? with
    | none => simp only [measureOf]; omega
    | some x =>
      cases x with
      | some x => simp only [measureOf]; omega
      | none =>
        simp only [measureOf]
        by_cases hr : (w.countdown k).remaining - 1 = 0 ∧ (w.countdown k).errorReported = false
        · rw [if_pos hr, List.length_append, List.length_singleton]; omega
        · rw [if_neg hr]; omega

theorem erase_length {α : Type} {l : List α} {p : Nat} {x : α} (h : l[p]? = some x) :
    l.length = (l.eraseIdx p).length + 1 := by
  rw [(erase_perm h).length_eq]; rfl

theorem step_measure {op : Op V E} {w' : World V E} (hs : step evalOp internal orphaned prog w op = some w') :
    measureOf prog w' < measureOf prog w := by
  cases op with
  | call =>
    simp only [step] at hs
    cases ht : w.todo with
    | nil => rw [ht] at hs; simp at hs
    | cons t rest =>
      rw [ht] at hs
      cases t with
      | schedule k =>
        simp only [Option.some.injEq] at hs
        subst hs
        simp only [measureOf, schedule, ht, List.length_append, List.length_cons, List.length_nil]
        omega
      | register k i j =>
        simp only [Option.some.injEq] at hs
        subst hs
        unfold addConsumer
        cases hv : w.value j with
        | none =>
          simp only [measureOf, ht, List.length_append, List.length_cons, List.length_nil]
          omega
        | some v =>
          simp only [measureOf, ht, List.length_append, List.length_cons, List.length_nil]
          omega
  | source k v =>
    simp only [step] at hs
    cases hk : prog[k]? with
    | none => rw [hk] at hs; simp at hs
    | some n =>
      cases n with
      | eval op args => rw [hk] at hs; simp at hs
      | source =>
        cases hv : w.value k with
        | some x => rw [hk, hv] at hs; simp at hs
        | none =>
          rw [hk, hv] at hs
          simp only [Option.some.injEq] at hs
          subst hs
          exact measure_source prog k v w hk hv
  | consume p =>
    simp only [step] at hs
    cases hp : w.pool[p]? with
    | none => rw [hp] at hs; simp at hs
    | some x =>
      rw [hp] at hs
      simp only [Option.some.injEq] at hs
      subst hs
      refine Nat.lt_of_le_of_lt (measure_setInput prog _ _ _ _) ?_
      have := erase_length hp
      simp only [measureOf]
      omega
  | report p =>
    simp only [step] at hs
    cases hp : w.errors[p]? with
    | none => rw [hp] at hs; simp at hs
    | some x =>
      rw [hp] at hs
      simp only [Option.some.injEq] at hs
      subst hs
      refine Nat.lt_of_le_of_lt (measure_setValue prog _ _ _) ?_
      have := erase_length hp
      simp only [measureOf]
      omega
  | schedule p =>
    simp only [step] at hs
    cases hp : w.ready[p]? with
    | none => rw [hp] at hs; simp at hs
    | some k =>
      rw [hp] at hs
      simp only [Option.some.injEq] at hs
      subst hs
      have := erase_length hp
      simp only [measureOf, schedule, List.length_append, List.length_singleton]
      omega
  | run p =>
    simp only [step] at hs
    cases hp : w.tasks[p]? with
    | none => rw [hp] at hs; simp at hs
    | some x =>
      rw [hp] at hs
      simp only [Option.some.injEq] at hs
      subst hs
      refine Nat.lt_of_le_of_lt (measure_setValue prog _ _ _) ?_
      have := erase_length hp
      simp only [measureOf]
      omega
  | drop p =>
    simp only [step] at hs
    cases hp : w.tasks[p]? with
    | none => rw [hp] at hs; simp at hs
    | some x =>
      rw [hp] at hs
      simp only [Option.some.injEq] at hs
      subst hs
      refine Nat.lt_of_le_of_lt (measure_setValue prog _ _ _) ?_
      have := erase_length hp
      simp only [measureOf]
      omega

theorem run_length {ops : List (Op V E)} {w' : World V E} (hs : run evalOp internal orphaned prog w ops = some w') :
    ops.length ≤ measureOf prog w := by
  induction ops generalizing w with
  | nil => simp
  | cons op ops ih =>
    simp only [run] at hs
    cases h1 : step evalOp internal orphaned prog w op with
    | none => rw [h1] at hs; simp at hs
    | some w1 =>
      rw [h1] at hs
      have := ih hs
      have := step_measure h1
      simp only [List.length_cons]
      omega

end Verif.AsyncEval
