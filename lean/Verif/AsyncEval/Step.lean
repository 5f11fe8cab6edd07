import Verif.AsyncEval.Lemmas

/-!
Every step keeps the invariant.
-/

namespace Verif.AsyncEval

variable {V E O : Type}

variable {evalOp : O → List V → Value V E} {internal orphaned : E} {prog : List (Node V O)} {dropped : Prop}
  {w : World V E} {done : List (Nat × Nat × Value V E)}

theorem setValue_none {k : Nat} (v : Value V E) (h : w.value k = none) :
    setValue k v w = { w with
      value := set w.value k (some v)
      pool := w.pool ++ (w.consumers.filter (·.1 = k)).map fun c => (c.2.1, c.2.2, v)
      consumers := w.consumers.filter (·.1 ≠ k) } := by
  unfold setValue
  rw [h]

theorem one_of {w' : World V E} {k : Nat} (h : writers w k = if decided w k then 1 else 0)
    (hw : writers w' k = writers w k) (hd : decided w' k ↔ decided w k) :
    writers w' k = if decided w' k then 1 else 0 := by
  rw [hw, h]
  by_cases hd' : decided w k
  · rw [if_pos hd', if_pos (hd.mpr hd')]
  · rw [if_neg hd', if_neg (fun x => hd' (hd.mp x))]

theorem toks_nodup (h : Core prog w done) : (toks w done).Nodup :=
  h.perm.nodup_iff.mpr (calls_toks prog 0).1

theorem future_eval {k i j : Nat} (h : (argsOf prog k)[i]? = some (.future j)) :
    ∃ op, prog[k]? = some (.eval op (argsOf prog k)) := by
  rcases argsOf_cases prog k with h' | ⟨-, h'⟩
  · exact h'
  · rw [h'] at h; simp at h

/-- If nothing remains, all inputs were consumed. -/
theorem all_done (h : Core prog w done) {k : Nat} (h0 : (w.countdown k).remaining = 0) {i j : Nat}
    (ha : (argsOf prog k)[i]? = some (.future j)) : ∃ v, (k, i, .ok v) ∈ done ∧ w.value j = some (.ok v) := by
  have hm : (k, i) ∈ (calls 0 prog).filterMap regTok := by
    refine List.mem_filterMap.mpr ⟨.register k i j, (calls_mem prog 0 k i j).mpr ⟨k, by omega, ha⟩, rfl⟩
  have hr := h.remaining k
  rw [h0] at hr
  have hm := h.perm.mem_iff.mpr hm
  simp only [toks, List.mem_append] at hm
  rcases hm with hm | hm | hm | hm
  · obtain ⟨t, ht, he⟩ := List.mem_filterMap.mp hm
    have : 0 < w.todo.countP (isReg k) := by
      refine List.countP_pos_iff.mpr ⟨t, ht, ?_⟩
      cases t with
      | schedule k => simp [regTok] at he
      | register k' i' j' => simp [regTok] at he; simp [isReg, he.1]
    omega
  · obtain ⟨t, ht, he⟩ := List.mem_map.mp hm
    have : 0 < w.consumers.countP (·.2.1 == k) := by
      refine List.countP_pos_iff.mpr ⟨t, ht, ?_⟩
      simp only [Prod.mk.injEq] at he
      simp [he.1]
    omega
  · obtain ⟨t, ht, he⟩ := List.mem_map.mp hm
    have : 0 < w.pool.countP (·.1 == k) := by
      refine List.countP_pos_iff.mpr ⟨t, ht, ?_⟩
      simp only [Prod.mk.injEq] at he
      simp [he.1]
    omega
  · obtain ⟨t, ht, he⟩ := List.mem_map.mp hm
    obtain ⟨k', i', v⟩ := t
    simp only [Prod.mk.injEq] at he
    obtain ⟨rfl, rfl⟩ := he
    cases v with
    | ok v =>
      obtain ⟨j', h1, h2⟩ := h.doneArg _ _ _ ht
      rw [ha] at h1
      cases h1
      exact ⟨v, ht, h2⟩
    | error e =>
      have : 0 < done.countP (isErrOf k') := List.countP_pos_iff.mpr ⟨_, ht, by simp [isErrOf]⟩
      omega

theorem allSet_full (value : Nat → Option (Value V E)) (args : List (Arg V)) (inputs : List (Option V))
    (hl : inputs.length = args.length)
    (h : ∀ (i : Nat) a, args[i]? = some a → ∃ v, inputs[i]? = some (some v) ∧ argValue value a = some (.ok v)) :
    ∃ vs, allSet inputs = some vs ∧ argValues value args vs := by
  induction args generalizing inputs with
  | nil =>
    have : inputs = [] := List.length_eq_zero_iff.mp hl
    subst this
    exact ⟨[], rfl, rfl⟩
  | cons a args ih =>
    cases inputs with
    | nil => simp at hl
    | cons x inputs =>
      obtain ⟨vs, h1, h2⟩ := ih inputs (by simpa using hl) (fun i a hi => by simpa using h (i + 1) a (by simpa using hi))
      obtain ⟨v, h3, h4⟩ := h 0 a (by simp)
      have : x = some v := by simpa using h3
      subst this
      refine ⟨v :: vs, by simp [allSet, h1], ?_⟩
      unfold argValues at h2 ⊢
      simp [h4, h2]

theorem inputs_full (h : Core prog w done) {k : Nat} (h0 : (w.countdown k).remaining = 0)
    (hin : InputsOk (argsOf prog k) (w.countdown k).inputs k done) :
    ∃ vs, allSet (w.countdown k).inputs = some vs ∧ argValues w.value (argsOf prog k) vs := by
  refine allSet_full _ _ _ hin.len ?_
  intro i a ha
  cases a with
  | const v => exact ⟨v, hin.const i v ha, rfl⟩
  | future j =>
    obtain ⟨v, h1, h2⟩ := all_done h h0 ha
    exact ⟨v, hin.got i j v ha h1, h2⟩

/-! ### scheduling -/

theorem core_schedule (h : Core prog w done) (k : Nat) (todo' : List Todo) (ready' : List Nat)
    (ht : todo'.filterMap regTok = w.todo.filterMap regTok)
    (hc : ∀ k, todo'.countP (isReg k) = w.todo.countP (isReg k))
    (hm : ∀ t ∈ todo', t ∈ w.todo) (hrm : ∀ x ∈ ready', x ∈ w.ready)
    (hk : k ∈ w.ready ∨ .schedule k ∈ w.todo) (hk1 : k ∉ ready') (hk2 : .schedule k ∉ todo') :
    Core prog (schedule k { w with todo := todo', ready := ready' }) done := by
  have h0 := h.full k hk
  have hin := h.inputs k (.inr hk)
  have hrem : ∀ k', (set w.countdown k { w.countdown k with inputs := [] } k').remaining =
      (w.countdown k').remaining := by
    intro k'
    by_cases hk' : k' = k
    · subst hk'; rw [set_same]
    · rw [set_other _ _ _ _ hk']
  refine {
    perm := ?_, todoArg := fun k' i j hx => h.todoArg k' i j (hm _ hx), consArg := h.consArg, poolArg := h.poolArg,
    doneArg := h.doneArg, remaining := ?_, reported := ?_, inputs := ?_, full := ?_,
    errors := h.errors, tasks := ?_, fatal := h.fatal }
  · refine List.Perm.trans (List.Perm.of_eq ?_) h.perm
    simp only [toks, schedule, ht]
  · intro k'
    simp only [schedule, hrem, hc]
    exact h.remaining k'
  · intro k'
    rw [← h.reported k']
    simp only [schedule]
    by_cases hk' : k' = k
    · subst hk'; rw [set_same]
    · rw [set_other _ _ _ _ hk']
  · intro k' hx
    simp only [schedule, hrem] at hx
    have hne : k' ≠ k := by
      rintro rfl
      rcases hx with hx | hx | hx
      · omega
      · exact hk1 hx
      · exact hk2 hx
    simp only [schedule]
    rw [set_other _ _ _ _ hne]
    apply h.inputs
    rcases hx with hx | hx | hx
    · exact .inl hx
    · exact .inr (.inl (hrm _ hx))
    · exact .inr (.inr (hm _ hx))
  · intro k' hx
    simp only [schedule, hrem]
    apply h.full
    rcases hx with hx | hx
    · exact .inl (hrm _ hx)
    · exact .inr (hm _ hx)
  · intro k' ins hx
    simp only [schedule] at hx
    rcases List.mem_append.mp hx with hx | hx
    · exact h.tasks k' ins hx
    · simp only [List.mem_singleton, Prod.mk.injEq] at hx
      obtain ⟨rfl, rfl⟩ := hx
      exact inputs_full h h0 hin

theorem inv_schedule (h : Inv evalOp orphaned prog dropped w done) (k : Nat) (todo' : List Todo) (ready' : List Nat)
    (ht : todo'.filterMap regTok = w.todo.filterMap regTok)
    (hc : ∀ k, todo'.countP (isReg k) = w.todo.countP (isReg k))
    (hm : ∀ t ∈ todo', t ∈ w.todo) (hrm : ∀ x ∈ ready', x ∈ w.ready)
    (hk : k ∈ w.ready ∨ .schedule k ∈ w.todo)
    (hn : ∀ k', todo'.countP (isSch k') + ready'.count k' + (if k' = k then 1 else 0) =
      w.todo.countP (isSch k') + w.ready.count k') :
    Inv evalOp orphaned prog dropped (schedule k { w with todo := todo', ready := ready' }) done := by
  have hone : todo'.countP (isSch k) + ready'.count k = 0 := by
    have h1 := hn k
    rw [if_pos rfl] at h1
    rcases argsOf_cases prog k with ⟨op, he⟩ | ⟨he, -⟩
    · have h2 := h.one k op _ he
      simp only [writers] at h2
      by_cases hd : decided w k
      · rw [if_pos hd] at h2; omega
      · rw [if_neg hd] at h2; omega
    · have h2 := h.none k he
      omega
  have hk1 : k ∉ ready' := by
    intro hx
    have := List.count_pos_iff.mpr hx
    omega
  have hk2 : .schedule k ∉ todo' := by
    intro hx
    have : 0 < todo'.countP (isSch k) := List.countP_pos_iff.mpr ⟨_, hx, by simp [isSch]⟩
    omega
  have htask : ∀ k', (w.tasks ++ [(k, (w.countdown k).inputs)]).countP (·.1 == k') =
      w.tasks.countP (·.1 == k') + (if k' = k then 1 else 0) := by
    intro k'
    rw [List.countP_append]
    by_cases hk' : k' = k
    · subst hk'; simp
    · have : ¬ k = k' := fun hh => hk' hh.symm
      simp [hk', this]
  refine { core := core_schedule h.core k todo' ready' ht hc hm hrm hk hk1 hk2, one := ?_, none := ?_, right := h.right, outside := h.outside }
  · intro k' op args he
    have h2 := h.one k' op args he
    have hd : decided (schedule k { w with todo := todo', ready := ready' }) k' ↔ decided w k' := by
      simp only [decided, schedule]
      by_cases hk' : k' = k
      · subst hk'; rw [set_same]
      · rw [set_other _ _ _ _ hk']
    have hw : writers (schedule k { w with todo := todo', ready := ready' }) k' = writers w k' := by
      have := hn k'
      show todo'.countP (isSch k') + w.errors.countP (·.1 == k') + ready'.count k' +
        (w.tasks ++ [(k, (w.countdown k).inputs)]).countP (·.1 == k') + (if (w.value k').isSome then 1 else 0) =
        w.todo.countP (isSch k') + w.errors.countP (·.1 == k') + w.ready.count k' +
        w.tasks.countP (·.1 == k') + (if (w.value k').isSome then 1 else 0)
      rw [htask]
      omega
    rw [hw, h2]
    by_cases hd' : decided w k'
    · rw [if_pos hd', if_pos (hd.mpr hd')]
    · rw [if_neg hd', if_neg (fun x => hd' (hd.mp x))]
  · intro k' he
    have := h.none k' he
    have := hn k'
    simp only [schedule, htask]
    omega

/-! ### adding a consumer -/

theorem inv_register (h : Inv evalOp orphaned prog dropped w done) {k i j : Nat} {rest : List Todo}
    (ht : w.todo = .register k i j :: rest) :
    Inv evalOp orphaned prog dropped (addConsumer k i j { w with todo := rest }) done := by
  have hc := h.core
  have hsub : ∀ t ∈ rest, t ∈ w.todo := fun t hx => by rw [ht]; exact List.mem_cons_of_mem _ hx
  have harg := hc.todoArg k i j (by rw [ht]; exact List.mem_cons_self)
  have hsch : ∀ k', rest.countP (isSch k') = w.todo.countP (isSch k') := by
    intro k'; rw [ht]; simp [isSch]
  have hreg : ∀ k', w.todo.countP (isReg k') = rest.countP (isReg k') + (if k = k' then 1 else 0) := by
    intro k'
    rw [ht, List.countP_cons]
    simp [isReg]
  have hperm := hc.perm
  rw [toks, ht] at hperm
  simp only [List.filterMap_cons, regTok, List.cons_append] at hperm
  unfold addConsumer
  cases hv : w.value j with
  | none =>
    refine { core := {
      perm := ?_, todoArg := fun k' i j hx => hc.todoArg k' i j (hsub _ hx), consArg := ?_, poolArg := hc.poolArg,
      doneArg := hc.doneArg, remaining := ?_, reported := hc.reported, inputs := ?_, full := ?_,
      errors := hc.errors, tasks := hc.tasks, fatal := hc.fatal }, one := ?_, none := ?_, right := h.right, outside := h.outside }
    · refine List.Perm.trans ?_ hperm
      simp only [toks, List.map_append, List.map_cons, List.map_nil, List.append_assoc, List.singleton_append]
      rw [← List.append_assoc]
      refine List.perm_middle.trans ?_
      simp
    · intro j' k' i' hx
      rcases List.mem_append.mp hx with hx | hx
      · exact hc.consArg _ _ _ hx
      · simp only [List.mem_singleton, Prod.mk.injEq] at hx
        obtain ⟨rfl, rfl, rfl⟩ := hx
        exact ⟨harg, hv⟩
    · intro k'
      rw [hc.remaining k', hreg k']
      simp only [List.countP_append, List.countP_cons, List.countP_nil, beq_iff_eq]
      omega
    · intro k' hx
      apply hc.inputs
      rcases hx with hx | hx | hx
      · exact .inl hx
      · exact .inr (.inl hx)
      · exact .inr (.inr (hsub _ hx))
    · intro k' hx
      apply hc.full
      rcases hx with hx | hx
      · exact .inl hx
      · exact .inr (hsub _ hx)
    · intro k' op args he
      exact one_of (h.one k' op args he) (by simp only [writers, hsch]) Iff.rfl
    · intro k' he
      have := h.none k' he
      simp only [hsch]
      exact this
  | some v =>
    refine { core := {
      perm := ?_, todoArg := fun k' i j hx => hc.todoArg k' i j (hsub _ hx), consArg := hc.consArg, poolArg := ?_,
      doneArg := hc.doneArg, remaining := ?_, reported := hc.reported, inputs := ?_, full := ?_,
      errors := hc.errors, tasks := hc.tasks, fatal := hc.fatal }, one := ?_, none := ?_, right := h.right, outside := h.outside }
    · refine List.Perm.trans ?_ hperm
      simp only [toks, List.map_append, List.map_cons, List.map_nil, List.append_assoc, List.singleton_append]
      rw [← List.append_assoc, ← List.append_assoc]
      refine List.perm_middle.trans ?_
      simp
    · intro k' i' v' hx
      rcases List.mem_append.mp hx with hx | hx
      · exact hc.poolArg _ _ _ hx
      · simp only [List.mem_singleton, Prod.mk.injEq] at hx
        obtain ⟨rfl, rfl, rfl⟩ := hx
        exact ⟨j, harg, hv⟩
    · intro k'
      rw [hc.remaining k', hreg k']
      simp only [List.countP_append, List.countP_cons, List.countP_nil, beq_iff_eq]
      omega
    · intro k' hx
      apply hc.inputs
      rcases hx with hx | hx | hx
      · exact .inl hx
      · exact .inr (.inl hx)
      · exact .inr (.inr (hsub _ hx))
    · intro k' hx
      apply hc.full
      rcases hx with hx | hx
      · exact .inl hx
      · exact .inr (hsub _ hx)
    · intro k' op args he
      exact one_of (h.one k' op args he) (by simp only [writers, hsch]) Iff.rfl
    · intro k' he
      have := h.none k' he
      simp only [hsch]
      exact this

/-! ### setting a value -/

theorem inv_source (h : Inv evalOp orphaned prog dropped w done) {k : Nat} (v : Value V E)
    (hk : prog[k]? = some .source) (hv : w.value k = none) :
    Inv evalOp orphaned prog dropped (setValue k v w) done := by
  have hcore := core_setValue h.core v hv
  rw [setValue_none _ hv] at hcore ⊢
  refine { core := hcore, one := ?_, none := h.none, right := ?_, outside := ?_ }
  · intro k' op args he
    have hne : k' ≠ k := by rintro rfl; rw [hk] at he; simp at he
    exact one_of (h.one k' op args he) (by simp only [writers, set_other _ _ _ _ hne]) Iff.rfl
  · intro k' op args r he hr
    have hne : k' ≠ k := by rintro rfl; rw [hk] at he; simp at he
    simp only [set_other _ _ _ _ hne] at hr
    exact right_mono hv (h.right k' op args r he hr)
  · intro k' he
    have hne : k' ≠ k := by rintro rfl; rw [hk] at he; simp at he
    simp only [set_other _ _ _ _ hne]
    exact h.outside k' he

theorem inv_write (h : Inv evalOp orphaned prog dropped w done) (errors' : List (Nat × E))
    (tasks' : List (Nat × List (Option V))) {k : Nat} (r : Value V E)
    (hes : ∀ x ∈ errors', x ∈ w.errors) (hts : ∀ x ∈ tasks', x ∈ w.tasks)
    (hn : ∀ k', errors'.countP (·.1 == k') + tasks'.countP (·.1 == k') + (if k' = k then 1 else 0) =
      w.errors.countP (·.1 == k') + w.tasks.countP (·.1 == k'))
    (hr : ∀ op args, prog[k]? = some (.eval op args) → Right evalOp orphaned w.value op args dropped r) :
    Inv evalOp orphaned prog dropped (setValue k r { w with errors := errors', tasks := tasks' }) done := by
  have hpos := hn k
  rw [if_pos rfl] at hpos
  obtain ⟨op, hk⟩ : ∃ op, prog[k]? = some (.eval op (argsOf prog k)) := by
    rcases argsOf_cases prog k with h' | ⟨h', -⟩
    · exact h'
    · have := h.none k h'; omega
  have h1 := h.one k op _ hk
  have hd : decided w k := by
    by_cases hd : decided w k
    · exact hd
    · rw [if_neg hd, writers] at h1; omega
  rw [if_pos hd, writers] at h1
  have hv : w.value k = none := by
    cases hv : w.value k with
    | none => rfl
    | some v =>
      rw [hv] at h1
      simp only [Option.isSome_some, if_true] at h1
      omega
  have hcore : Core prog { w with errors := errors', tasks := tasks' } done := {
    perm := h.core.perm, todoArg := h.core.todoArg, consArg := h.core.consArg, poolArg := h.core.poolArg,
    doneArg := h.core.doneArg, remaining := h.core.remaining, reported := h.core.reported, inputs := h.core.inputs,
    full := h.core.full, errors := fun k e hx => h.core.errors k e (hes _ hx),
    tasks := fun k e hx => h.core.tasks k e (hts _ hx), fatal := h.core.fatal }
  have hcore := core_setValue hcore r hv
  rw [setValue_none _ (show ({ w with errors := errors', tasks := tasks' } : World V E).value k = none from hv)]
    at hcore ⊢
  refine { core := hcore, one := ?_, none := ?_, right := ?_, outside := ?_ }
  · intro k' op' args he
    have h2 := h.one k' op' args he
    by_cases hk' : k' = k
    · subst hk'
      have : decided w k' := hd
      rw [hv] at h1
      simp only [Option.isSome_none, Bool.false_eq_true, if_false] at h1
      refine one_of h2 ?_ Iff.rfl
      simp only [writers, set_same, hv, Option.isSome_some, Option.isSome_none, Bool.false_eq_true, if_true, if_false]
      omega
    · have := hn k'
      rw [if_neg hk'] at this
      refine one_of h2 ?_ Iff.rfl
      simp only [writers, set_other _ _ _ _ hk']
      omega
  · intro k' he
    have := h.none k' he
    have := hn k'
    simp only
    omega
  · intro k' op' args r' he hr'
    by_cases hk' : k' = k
    · subst hk'
      simp only [set_same, Option.some.injEq] at hr'
      subst hr'
      exact right_mono hv (hr op' args he)
    · simp only [set_other _ _ _ _ hk'] at hr'
      exact right_mono hv (h.right k' op' args r' he hr')
  · intro k' he
    have hne : k' ≠ k := by rintro rfl; rw [hk] at he; simp at he
    simp only [set_other _ _ _ _ hne]
    exact h.outside k' he

/-! ### calling a consumer -/

theorem inv_consume (h : Inv evalOp orphaned prog dropped w done) {p k i : Nat} {v : Value V E}
    (hp : w.pool[p]? = some (k, i, v)) :
    Inv evalOp orphaned prog dropped (setInput k i v { w with pool := w.pool.eraseIdx p }) ((k, i, v) :: done) := by
  have hc := h.core
  have hperm := erase_perm hp
  have hsub : ∀ x ∈ w.pool.eraseIdx p, x ∈ w.pool := fun x hx => hperm.mem_iff.mpr (List.mem_cons_of_mem _ hx)
  have hmem : (k, i, v) ∈ w.pool := hperm.mem_iff.mpr List.mem_cons_self
  obtain ⟨j, harg, hval⟩ := hc.poolArg k i v hmem
  obtain ⟨op, hk⟩ := future_eval harg
  have hcount : ∀ k', w.pool.countP (·.1 == k') = (w.pool.eraseIdx p).countP (·.1 == k') + (if k = k' then 1 else 0) := by
    intro k'
    rw [hperm.countP_eq, List.countP_cons]
    simp
  have htoks : (w.todo.filterMap regTok ++ (w.consumers.map (fun c => (c.2.1, c.2.2)) ++
      ((w.pool.eraseIdx p).map (fun c => (c.1, c.2.1)) ++ ((k, i, v) :: done).map (fun c => (c.1, c.2.1))))).Perm
      ((calls 0 prog).filterMap regTok) := by
    refine List.Perm.trans ?_ hc.perm
    unfold toks
    refine List.Perm.append_left _ (List.Perm.append_left _ ?_)
    have h1 := hperm.map (fun c : Nat × Nat × Value V E => (c.1, c.2.1))
    refine List.Perm.trans ?_ (h1.symm.append_right _)
    simp only [List.map_cons]
    exact List.perm_middle
  have hfresh : ∀ v', (k, i, v') ∉ done := by
    intro v' hx
    have h1 := toks_nodup hc
    unfold toks at h1
    rw [List.nodup_append] at h1
    have h1 := h1.2.1
    rw [List.nodup_append] at h1
    have h1 := h1.2.1
    rw [List.nodup_append] at h1
    exact h1.2.2 (k, i) (List.mem_map.mpr ⟨_, hmem, rfl⟩) (k, i) (List.mem_map.mpr ⟨_, hx, rfl⟩) rfl
  have hpos : 0 < (w.countdown k).remaining := by
    have h1 := hc.remaining k
    have h2 := hcount k
    rw [if_pos rfl] at h2
    omega
  have hrem : ∀ k', (w.countdown k').remaining = w.todo.countP (isReg k') + w.consumers.countP (·.2.1 == k') +
      ((w.pool.eraseIdx p).countP (·.1 == k') + (if k = k' then 1 else 0)) + done.countP (isErrOf k') := by
    intro k'
    rw [hc.remaining k', hcount k']
  have hdoneArg : ∀ k' i' v', (k', i', v') ∈ (k, i, v) :: done →
      ∃ j, (argsOf prog k')[i']? = some (.future j) ∧ w.value j = some v' := by
    intro k' i' v' hx
    rcases List.mem_cons.mp hx with hx | hx
    · simp only [Prod.mk.injEq] at hx
      obtain ⟨rfl, rfl, rfl⟩ := hx
      exact ⟨j, harg, hval⟩
    · exact hc.doneArg _ _ _ hx
  have herrs : ∀ k' e, (k', e) ∈ w.errors → ∃ i', (k', i', .error e) ∈ (k, i, v) :: done := by
    intro k' e hx
    obtain ⟨i', hi⟩ := hc.errors k' e hx
    exact ⟨i', List.mem_cons_of_mem _ hi⟩
  have hin := hc.inputs k (.inl hpos)
  cases v with
  | ok v =>
    have hnone : (w.countdown k).inputs[i]? = some none := hin.wait i j harg (fun v' => hfresh _)
    have herr : ∀ k', ((k, i, Value.ok v) :: done).countP (isErrOf k') = done.countP (isErrOf (E := E) k') := by
      intro k'; rw [List.countP_cons]; simp [isErrOf]
    have hilt : i < (w.countdown k).inputs.length := by
      obtain ⟨hlt, -⟩ := List.getElem?_eq_some_iff.mp hnone; exact hlt
    have hnotready : ¬ (k ∈ w.ready ∨ .schedule k ∈ w.todo) := fun hx => by have := hc.full k hx; omega
    have hw0 : (w.countdown k).errorReported = false → ¬ decided w k := by
      intro hf hd
      rcases hd with hd | hd
      · rw [hf] at hd; simp at hd
      · omega
    unfold setInput
    simp only [hnone]
    refine { core := {
      perm := htoks, todoArg := hc.todoArg, consArg := hc.consArg,
      poolArg := fun k i v hx => hc.poolArg k i v (hsub _ hx),
      doneArg := hdoneArg, remaining := ?_, reported := ?_, inputs := ?_, full := ?_, errors := herrs,
      tasks := hc.tasks, fatal := hc.fatal }, one := ?_, none := ?_, right := h.right, outside := h.outside }
    · intro k'
      rw [herr]
      have h1 := hrem k'
      by_cases hk' : k' = k
      · subst hk'
        simp only [set_same]
        rw [if_pos rfl] at h1
        omega
      · simp only [set_other _ _ _ _ hk']
        rw [if_neg (fun hh => hk' hh.symm)] at h1
        omega
    · intro k'
      rw [herr, ← hc.reported k']
      by_cases hk' : k' = k
      · subst hk'; simp only [set_same]
      · simp only [set_other _ _ _ _ hk']
    · intro k' hx
      by_cases hk' : k' = k
      · subst hk'
        simp only [set_same]
        refine ⟨by simpa using hin.len, ?_, ?_, ?_⟩
        · intro i' v' ha
          have hne : i ≠ i' := by rintro rfl; rw [harg] at ha; simp at ha
          rw [List.getElem?_set_ne hne]
          exact hin.const i' v' ha
        · intro i' j' v' ha hd
          by_cases hi : i = i'
          · subst hi
            rcases List.mem_cons.mp hd with hd | hd
            · simp only [Prod.mk.injEq, Value.ok.injEq, true_and] at hd
              subst hd
              rw [List.getElem?_set_self hilt]
            · exact absurd hd (hfresh _)
          · rw [List.getElem?_set_ne hi]
            rcases List.mem_cons.mp hd with hd | hd
            · simp only [Prod.mk.injEq, true_and] at hd
              exact absurd hd.1.symm hi
            · exact hin.got i' j' v' ha hd
        · intro i' j' ha hd
          have hne : i ≠ i' := by
            rintro rfl
            exact hd v List.mem_cons_self
          rw [List.getElem?_set_ne hne]
          exact hin.wait i' j' ha (fun v' hx => hd v' (List.mem_cons_of_mem _ hx))
      · simp only [set_other _ _ _ _ hk'] at hx ⊢
        have hx' : 0 < (w.countdown k').remaining ∨ k' ∈ w.ready ∨ .schedule k' ∈ w.todo := by
          rcases hx with hx | hx | hx
          · exact .inl hx
          · by_cases hr : (w.countdown k).remaining - 1 = 0 ∧ (w.countdown k).errorReported = false
            · rw [if_pos hr] at hx
              rcases List.mem_append.mp hx with hx | hx
              · exact .inr (.inl hx)
              · simp at hx; exact absurd hx hk'
            · rw [if_neg hr] at hx; exact .inr (.inl hx)
          · exact .inr (.inr hx)
        obtain ⟨h1, h2, h3, h4⟩ := hc.inputs k' hx'
        refine ⟨h1, h2, ?_, ?_⟩
        · intro i' j' v' ha hd
          rcases List.mem_cons.mp hd with hd | hd
          · simp only [Prod.mk.injEq] at hd; exact absurd hd.1 hk'
          · exact h3 i' j' v' ha hd
        · intro i' j' ha hd
          exact h4 i' j' ha (fun v' hx => hd v' (List.mem_cons_of_mem _ hx))
    · intro k' hx
      by_cases hk' : k' = k
      · subst hk'
        simp only [set_same]
        rcases hx with hx | hx
        · by_cases hr : (w.countdown k').remaining - 1 = 0 ∧ (w.countdown k').errorReported = false
          · exact hr.1
          · rw [if_neg hr] at hx
            exact absurd (.inl hx) hnotready
        · exact absurd (.inr hx) hnotready
      · simp only [set_other _ _ _ _ hk']
        apply hc.full
        rcases hx with hx | hx
        · by_cases hr : (w.countdown k).remaining - 1 = 0 ∧ (w.countdown k).errorReported = false
          · rw [if_pos hr] at hx
            rcases List.mem_append.mp hx with hx | hx
            · exact .inl hx
            · simp at hx; exact absurd hx hk'
          · rw [if_neg hr] at hx; exact .inl hx
        · exact .inr hx
    · intro k' op' args he
      have h1 := h.one k' op' args he
      by_cases hk' : k' = k
      · subst hk'
        by_cases hf : (w.countdown k').errorReported = false
        · rw [if_neg (hw0 hf), writers] at h1
          by_cases hr : (w.countdown k').remaining - 1 = 0
          · rw [if_pos (show decided _ k' from .inr (by simp only [set_same]; exact hr))]
            simp only [writers, hr, hf, and_self, if_true, List.count_append, List.count_singleton_self]
            omega
          · rw [if_neg (show ¬ decided _ k' from ?_)]
            · simp only [writers, hr, false_and, if_false]
              omega
            · simp only [decided, set_same, hf]
              simpa using hr
        · have ht : (w.countdown k').errorReported = true := by simpa using hf
          rw [if_pos (show decided w k' from .inl ht), writers] at h1
          rw [if_pos (show decided _ k' from .inl (by simp only [set_same]; exact ht))]
          simp only [writers, ht]
          simpa using h1
      · have hd : (decided { w with
            countdown := set w.countdown k { w.countdown k with
              inputs := (w.countdown k).inputs.set i (some v), remaining := (w.countdown k).remaining - 1 }
            pool := w.pool.eraseIdx p
            ready := if (w.countdown k).remaining - 1 = 0 ∧ (w.countdown k).errorReported = false then w.ready ++ [k]
              else w.ready } k') ↔ decided w k' := by
          simp only [decided, set_other _ _ _ _ hk']
        have hw : writers { w with
            countdown := set w.countdown k { w.countdown k with
              inputs := (w.countdown k).inputs.set i (some v), remaining := (w.countdown k).remaining - 1 }
            pool := w.pool.eraseIdx p
            ready := if (w.countdown k).remaining - 1 = 0 ∧ (w.countdown k).errorReported = false then w.ready ++ [k]
              else w.ready } k' = writers w k' := by
          simp only [writers]
          by_cases hr : (w.countdown k).remaining - 1 = 0 ∧ (w.countdown k).errorReported = false
          · rw [if_pos hr, List.count_append, List.count_singleton]
            have : ¬ k = k' := fun hh => hk' hh.symm
            simp [this]
          · rw [if_neg hr]
        refine Eq.trans hw (h1.trans ?_)
        by_cases hd' : decided w k'
        · rw [if_pos hd', if_pos (hd.mpr hd')]
        · rw [if_neg hd', if_neg (fun x => hd' (hd.mp x))]
    · intro k' he
      have h1 := h.none k' he
      have hne : ¬ k = k' := by rintro rfl; exact he _ _ hk
      by_cases hr : (w.countdown k).remaining - 1 = 0 ∧ (w.countdown k).errorReported = false
      · simp only [if_pos hr, List.count_append, List.count_singleton]
        simpa [hne] using h1
      · simp only [if_neg hr]
        exact h1
  | error e =>
    have herr : ∀ k', ((k, i, Value.error e) :: done).countP (isErrOf k') =
        done.countP (isErrOf k') + (if k = k' then 1 else 0) := by
      intro k'; rw [List.countP_cons]; simp [isErrOf]
    have hins : ∀ k', InputsOk (argsOf prog k') (w.countdown k').inputs k' done →
        InputsOk (argsOf prog k') (w.countdown k').inputs k' ((k, i, Value.error e) :: done) := by
      rintro k' ⟨h1, h2, h3, h4⟩
      refine ⟨h1, h2, ?_, ?_⟩
      · intro i' j' v' ha hd
        rcases List.mem_cons.mp hd with hd | hd
        · simp at hd
        · exact h3 i' j' v' ha hd
      · intro i' j' ha hd
        exact h4 i' j' ha (fun v' hx => hd v' (List.mem_cons_of_mem _ hx))
    unfold setInput
    simp only
    by_cases hf : (w.countdown k).errorReported = true
    · rw [if_pos hf]
      refine { core := {
        perm := htoks, todoArg := hc.todoArg, consArg := hc.consArg,
        poolArg := fun k i v hx => hc.poolArg k i v (hsub _ hx),
        doneArg := hdoneArg, remaining := ?_, reported := ?_, inputs := fun k' hx => hins k' (hc.inputs k' hx),
        full := hc.full, errors := herrs,
        tasks := hc.tasks, fatal := hc.fatal }, one := h.one, none := h.none, right := h.right, outside := h.outside }
      · intro k'
        rw [herr]
        have := hrem k'
        simp only
        omega
      · intro k'
        rw [herr]
        have h1 := hc.reported k'
        by_cases hk' : k = k'
        · subst hk'
          simp only [if_true]
          exact ⟨fun _ => by omega, fun _ => hf⟩
        · rw [if_neg hk', Nat.add_zero]
          exact h1
    · rw [if_neg hf]
      have hcd : ∀ k', (set w.countdown k { w.countdown k with errorReported := true } k').remaining =
          (w.countdown k').remaining ∧ (set w.countdown k { w.countdown k with errorReported := true } k').inputs =
          (w.countdown k').inputs := by
        intro k'
        by_cases hk' : k' = k
        · subst hk'; rw [set_same]; exact ⟨rfl, rfl⟩
        · rw [set_other _ _ _ _ hk']; exact ⟨rfl, rfl⟩
      have hnd : ¬ decided w k := by
        rintro (hd | hd)
        · exact hf hd
        · omega
      refine { core := {
        perm := htoks, todoArg := hc.todoArg, consArg := hc.consArg,
        poolArg := fun k i v hx => hc.poolArg k i v (hsub _ hx),
        doneArg := hdoneArg, remaining := ?_, reported := ?_, inputs := ?_,
        full := ?_, errors := ?_,
        tasks := hc.tasks, fatal := hc.fatal }, one := ?_, none := ?_, right := h.right, outside := h.outside }
      · intro k'
        rw [herr]
        have := hrem k'
        simp only [(hcd k').1]
        omega
      · intro k'
        rw [herr]
        have h1 := hc.reported k'
        by_cases hk' : k' = k
        · subst hk'
          simp only [set_same, if_true]
          exact ⟨fun _ => by omega, fun _ => trivial⟩
        · rw [if_neg (fun hh => hk' hh.symm), Nat.add_zero]
          simp only [set_other _ _ _ _ hk']
          exact h1
      · intro k' hx
        simp only [(hcd k').1, (hcd k').2] at hx ⊢
        exact hins k' (hc.inputs k' hx)
      · intro k' hx
        simp only [(hcd k').1]
        exact hc.full k' hx
      · intro k' e' hx
        rcases List.mem_append.mp hx with hx | hx
        · exact herrs k' e' hx
        · simp only [List.mem_singleton, Prod.mk.injEq] at hx
          obtain ⟨rfl, rfl⟩ := hx
          exact ⟨i, List.mem_cons_self⟩
      · intro k' op' args he
        have h1 := h.one k' op' args he
        by_cases hk' : k' = k
        · subst hk'
          rw [if_neg hnd, writers] at h1
          rw [if_pos (show decided _ k' from .inl (by simp only [set_same]))]
          simp only [writers, List.countP_append, List.countP_singleton]
          simp only [beq_self_eq_true, if_true]
          omega
        · have hne : ¬ k = k' := fun hh => hk' hh.symm
          refine Eq.trans ?_ (h1.trans ?_)
          · simp only [writers, List.countP_append, List.countP_singleton]
            simp [hne]
          · have : decided w k' ↔ decided { w with
                countdown := set w.countdown k { w.countdown k with errorReported := true }
                errors := w.errors ++ [(k, e)]
                pool := w.pool.eraseIdx p } k' := by
              simp only [decided, set_other _ _ _ _ hk']
            by_cases hd' : decided w k'
            · rw [if_pos hd', if_pos (this.mp hd')]
            · rw [if_neg hd', if_neg (fun x => hd' (this.mpr x))]
      · intro k' he
        have h1 := h.none k' he
        have hne : ¬ k = k' := by rintro rfl; exact he _ _ hk
        simp only [List.countP_append, List.countP_singleton]
        simpa [hne] using h1

/-! ### all steps -/

theorem inv_step (h : Inv evalOp orphaned prog dropped w done) {op : Op V E} {w' : World V E}
    (hs : step evalOp internal orphaned prog w op = some w') (hd : ∀ p, op = .drop p → dropped) :
    ∃ done', Inv evalOp orphaned prog dropped w' done' := by
  cases op with
  | call =>
    simp only [step] at hs
    cases ht : w.todo with
    | nil => rw [ht] at hs; simp at hs
    | cons t rest =>
      rw [ht] at hs
      cases t with
      | schedule k =>
        simp only [Option.some.injEq] at hs
        subst hs
        refine ⟨done, inv_schedule h k rest w.ready (by rw [ht]; rfl) (fun k' => by rw [ht]; simp [isReg])
          (fun t hx => by rw [ht]; exact List.mem_cons_of_mem _ hx) (fun x hx => hx)
          (.inr (by rw [ht]; exact List.mem_cons_self)) ?_⟩
        intro k'
        rw [ht, List.countP_cons]
        by_cases hk' : k' = k
        · subst hk'; simp [isSch]; omega
        · have : ¬ k = k' := fun hh => hk' hh.symm
          simp [isSch, this, hk']
      | register k i j =>
        simp only [Option.some.injEq] at hs
        subst hs
        exact ⟨done, inv_register h ht⟩
  | source k v =>
    simp only [step] at hs
    cases hk : prog[k]? with
    | none => rw [hk] at hs; simp at hs
    | some n =>
      cases n with
      | eval op args => rw [hk] at hs; simp at hs
      | source =>
        cases hv : w.value k with
        | some x => rw [hk, hv] at hs; simp at hs
        | none =>
          rw [hk, hv] at hs
          simp only [Option.some.injEq] at hs
          subst hs
          exact ⟨done, inv_source h v hk hv⟩
  | consume p =>
    simp only [step] at hs
    cases hp : w.pool[p]? with
    | none => rw [hp] at hs; simp at hs
    | some x =>
      obtain ⟨k, i, v⟩ := x
      rw [hp] at hs
      simp only [Option.some.injEq] at hs
      subst hs
      exact ⟨_, inv_consume h hp⟩
  | report p =>
    simp only [step] at hs
    cases hp : w.errors[p]? with
    | none => rw [hp] at hs; simp at hs
    | some x =>
      obtain ⟨k, e⟩ := x
      rw [hp] at hs
      simp only [Option.some.injEq] at hs
      subst hs
      have hperm := erase_perm hp
      refine ⟨done, inv_write h (w.errors.eraseIdx p) w.tasks (.error e)
        (fun x hx => hperm.mem_iff.mpr (List.mem_cons_of_mem _ hx)) (fun x hx => hx) ?_ ?_⟩
      · intro k'
        rw [hperm.countP_eq, List.countP_cons]
        by_cases hk' : k' = k
        · subst hk'; simp; omega
        · have : ¬ k = k' := fun hh => hk' hh.symm
          simp [this, hk']
      · intro op args he
        obtain ⟨i, hi⟩ := h.core.errors k e (hperm.mem_iff.mpr List.mem_cons_self)
        obtain ⟨j, h1, h2⟩ := h.core.doneArg _ _ _ hi
        rw [argsOf_eval he] at h1
        exact .inr (.inl ⟨j, e, List.mem_of_getElem? h1, h2, rfl⟩)
  | schedule p =>
    simp only [step] at hs
    cases hp : w.ready[p]? with
    | none => rw [hp] at hs; simp at hs
    | some k =>
      rw [hp] at hs
      simp only [Option.some.injEq] at hs
      subst hs
      have hperm := erase_perm hp
      refine ⟨done, inv_schedule h k w.todo (w.ready.eraseIdx p) rfl (fun _ => rfl) (fun t hx => hx)
        (fun x hx => hperm.mem_iff.mpr (List.mem_cons_of_mem _ hx)) (.inl (hperm.mem_iff.mpr List.mem_cons_self)) ?_⟩
      intro k'
      rw [hperm.count_eq, List.count_cons]
      by_cases hk' : k' = k
      · subst hk'; simp; omega
      · have : ¬ k = k' := fun hh => hk' hh.symm
        simp [this, hk']
  | run p =>
    simp only [step] at hs
    cases hp : w.tasks[p]? with
    | none => rw [hp] at hs; simp at hs
    | some x =>
      obtain ⟨k, ins⟩ := x
      rw [hp] at hs
      simp only [Option.some.injEq] at hs
      subst hs
      have hperm := erase_perm hp
      refine ⟨done, inv_write h w.errors (w.tasks.eraseIdx p) _
        (fun x hx => hx) (fun x hx => hperm.mem_iff.mpr (List.mem_cons_of_mem _ hx)) ?_ ?_⟩
      · intro k'
        rw [hperm.countP_eq, List.countP_cons]
        by_cases hk' : k' = k
        · subst hk'; simp; omega
        · have : ¬ k = k' := fun hh => hk' hh.symm
          simp [this, hk']
      · intro op args he
        obtain ⟨vs, h1, h2⟩ := h.core.tasks k ins (hperm.mem_iff.mpr List.mem_cons_self)
        rw [argsOf_eval he] at h2
        exact .inl ⟨vs, h2, by simp [taskValue, h1, he]⟩
  | drop p =>
    simp only [step] at hs
    cases hp : w.tasks[p]? with
    | none => rw [hp] at hs; simp at hs
    | some x =>
      obtain ⟨k, ins⟩ := x
      rw [hp] at hs
      simp only [Option.some.injEq] at hs
      subst hs
      have hperm := erase_perm hp
      refine ⟨done, inv_write h w.errors (w.tasks.eraseIdx p) _
        (fun x hx => hx) (fun x hx => hperm.mem_iff.mpr (List.mem_cons_of_mem _ hx)) ?_ ?_⟩
      · intro k'
        rw [hperm.countP_eq, List.countP_cons]
        by_cases hk' : k' = k
        · subst hk'; simp; omega
        · have : ¬ k = k' := fun hh => hk' hh.symm
          simp [this, hk']
      · intro op args he
        obtain ⟨vs, h1, h2⟩ := h.core.tasks k ins (hperm.mem_iff.mpr List.mem_cons_self)
        rw [argsOf_eval he] at h2
        exact .inr (.inr ⟨hd p rfl, rfl, vs, h2⟩)

theorem inv_run {ops : List (Op V E)} {w' : World V E} (h : Inv evalOp orphaned prog dropped w done)
    (hs : run evalOp internal orphaned prog w ops = some w') (hd : ∀ p, .drop p ∈ ops → dropped) :
    ∃ done', Inv evalOp orphaned prog dropped w' done' := by
  induction ops generalizing w done with
  | nil =>
    simp only [run, Option.some.injEq] at hs
    subst hs
    exact ⟨done, h⟩
  | cons op ops ih =>
    simp only [run] at hs
    cases h1 : step evalOp internal orphaned prog w op with
    | none => rw [h1] at hs; simp at hs
    | some w1 =>
      rw [h1] at hs
      obtain ⟨done1, h2⟩ := inv_step h h1 (fun p hp => hd p (by rw [hp]; exact List.mem_cons_self))
      exact ih h2 hs (fun p hp => hd p (List.mem_cons_of_mem _ hp))

end Verif.AsyncEval
