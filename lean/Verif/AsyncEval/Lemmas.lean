import Verif.AsyncEval.Spec

/-!
The invariant of `async_eval`.
-/

namespace Verif.AsyncEval

variable {V E O : Type}

/-! ### lists -/

theorem erase_perm {α : Type} {l : List α} {p : Nat} {x : α} (h : l[p]? = some x) :
    l.Perm (x :: l.eraseIdx p) := by
  induction l generalizing p with
  | nil => simp at h
  | cons a l ih =>
    cases p with
    | zero =>
      have : a = x := by simpa using h
      subst this
      exact List.Perm.refl _
    | succ p =>
      have := ih (p := p) (by simpa using h)
      exact (this.cons a).trans (List.Perm.swap _ _ _)

theorem set_same {β : Type} (f : Nat → β) (k : Nat) (b : β) : set f k b k = b := by simp [set]

theorem set_other {β : Type} (f : Nat → β) (k : Nat) (b : β) (i : Nat) (h : i ≠ k) : set f k b i = f i := by
  simp [set, h]

/-! ### what the calls have to do -/

/-- A registration of `k`. -/
def isReg (k : Nat) : Todo → Bool
  | .register k' _ _ => k' == k
  | .schedule _ => false

/-- The scheduling of `k`. -/
def isSch (k : Nat) : Todo → Bool
  | .schedule k' => k' == k
  | .register _ _ _ => false

/-- The input a registration is for. -/
def regTok : Todo → Option (Nat × Nat)
  | .register k i _ => some (k, i)
  | .schedule _ => none

theorem registrations_mem (k b : Nat) (args : List (Arg V)) (t : Todo) :
    t ∈ registrations k b args ↔ ∃ i j, t = .register k (b + i) j ∧ args[i]? = some (.future j) := by
  induction args generalizing b with
  | nil => simp [registrations]
  | cons a args ih =>
    have tail : (∃ i j, t = .register k (b + i) j ∧ (a :: args)[i]? = some (.future j)) ↔
        (∃ j, t = .register k b j ∧ a = .future j) ∨
          ∃ i j, t = .register k (b + 1 + i) j ∧ args[i]? = some (.future j) := by
      constructor
      · rintro ⟨i, j, h1, h2⟩
        cases i with
        | zero => exact .inl ⟨j, h1, by simpa using h2⟩
        | succ i => exact .inr ⟨i, j, by rw [h1]; congr 1; omega, by simpa using h2⟩
      · rintro (⟨j, h1, h2⟩ | ⟨i, j, h1, h2⟩)
        · exact ⟨0, j, h1, by simp [h2]⟩
        · exact ⟨i + 1, j, by rw [h1]; congr 1; omega, by simpa using h2⟩
    rw [tail]
    cases a with
    | const v => simp [registrations, ih]
    | future j =>
      simp only [registrations, List.mem_cons, ih]
      constructor
      · rintro (h | h)
        · exact .inl ⟨j, h, rfl⟩
        · exact .inr h
      · rintro (⟨j', h, h'⟩ | h)
        · cases h'; exact .inl h
        · exact .inr h

theorem registrations_count (k b k' : Nat) (args : List (Arg V)) :
    (registrations k b args).countP (isReg k') = (if k = k' then countFutures args else 0) ∧
      (registrations k b args).countP (isSch k') = 0 := by
  induction args generalizing b with
  | nil => simp [registrations, countFutures]
  | cons a args ih =>
    cases a with
    | const v => simpa [registrations, countFutures] using ih (b + 1)
    | future j =>
      have := ih (b + 1)
      by_cases hk : k = k'
      · simp_all [registrations, countFutures, isReg, isSch]
      · simp_all [registrations, countFutures, isReg, isSch]

theorem registrations_toks (k b : Nat) (args : List (Arg V)) :
    ((registrations k b args).filterMap regTok).Nodup := by
  induction args generalizing b with
  | nil => simp [registrations]
  | cons a args ih =>
    cases a with
    | const v => exact ih (b + 1)
    | future j =>
      simp only [registrations, List.filterMap_cons, regTok, List.nodup_cons]
      refine ⟨?_, ih (b + 1)⟩
      intro hm
      obtain ⟨t, ht, he⟩ := List.mem_filterMap.mp hm
      obtain ⟨i, j', rfl, -⟩ := (registrations_mem k (b + 1) args t).mp ht
      simp [regTok] at he
      omega

/-- The steps of one call. -/
def callOf (k : Nat) (args : List (Arg V)) : List Todo :=
  if countFutures args = 0 then [.schedule k] else registrations k 0 args

theorem registrations_zero (k b : Nat) (args : List (Arg V)) (h : countFutures args = 0) :
    registrations k b args = [] := by
  induction args generalizing b with
  | nil => rfl
  | cons a args ih =>
    cases a with
    | const v => exact ih _ h
    | future j => simp [countFutures] at h

theorem callOf_reg (k : Nat) (args : List (Arg V)) (t : Todo) (hr : regTok t ≠ none) :
    t ∈ callOf k args ↔ t ∈ registrations k 0 args := by
  unfold callOf
  by_cases h : countFutures args = 0
  · rw [if_pos h, registrations_zero _ _ _ h]
    cases t with
    | schedule k => simp [regTok] at hr
    | register k' i j => simp
  · rw [if_neg h]

theorem callOf_toks (k : Nat) (args : List (Arg V)) :
    ((callOf k args).filterMap regTok).Nodup ∧ ∀ t ∈ (callOf k args).filterMap regTok, t.1 = k := by
  unfold callOf
  by_cases h : countFutures args = 0
  · rw [if_pos h]
    have : List.filterMap regTok [Todo.schedule k] = [] := rfl
    rw [this]
    exact ⟨List.nodup_nil, by simp⟩
  · rw [if_neg h]
    refine ⟨registrations_toks _ _ _, ?_⟩
    intro t ht
    obtain ⟨x, hx, he⟩ := List.mem_filterMap.mp ht
    obtain ⟨i, j, rfl, -⟩ := (registrations_mem k 0 args x).mp hx
    simp [regTok] at he
    rw [← he]

theorem callOf_count (k k' : Nat) (args : List (Arg V)) :
    (callOf k args).countP (isReg k') = (if k = k' then countFutures args else 0) ∧
      (callOf k args).countP (isSch k') = (if k = k' ∧ countFutures args = 0 then 1 else 0) := by
  unfold callOf
  by_cases h : countFutures args = 0
  · rw [if_pos h]
    by_cases hk : k = k' <;> simp [isReg, isSch, h, hk]
  · rw [if_neg h]
    have := registrations_count k 0 k' args
    simp [this, h]

theorem calls_eval (b : Nat) (op : O) (args : List (Arg V)) (rest : List (Node V O)) :
    calls b (.eval op args :: rest) = callOf b args ++ calls (b + 1) rest := rfl

theorem calls_mem (prog : List (Node V O)) (b k i j : Nat) :
    .register k i j ∈ calls b prog ↔ ∃ m, k = b + m ∧ (argsOf prog m)[i]? = some (.future j) := by
  induction prog generalizing b with
  | nil => simp [calls, argsOf]
  | cons n prog ih =>
    have tail : (∃ m, k = b + m ∧ (argsOf (n :: prog) m)[i]? = some (.future j)) ↔
        (k = b ∧ (argsOf (n :: prog) 0)[i]? = some (.future j)) ∨
          ∃ m, k = b + 1 + m ∧ (argsOf prog m)[i]? = some (.future j) := by
      constructor
      · rintro ⟨m, h1, h2⟩
        cases m with
        | zero => exact .inl ⟨by omega, h2⟩
        | succ m => exact .inr ⟨m, by omega, by simpa [argsOf] using h2⟩
      · rintro (⟨h1, h2⟩ | ⟨m, h1, h2⟩)
        · exact ⟨0, by omega, h2⟩
        · exact ⟨m + 1, by omega, by simpa [argsOf] using h2⟩
    rw [tail]
    cases n with
    | source => simp [calls, ih, argsOf]
    | eval op args =>
      rw [calls_eval, List.mem_append, ih, callOf_reg _ _ _ (by simp [regTok]), registrations_mem]
      simp only [Nat.zero_add, argsOf, List.getElem?_cons_zero]
      constructor
      · rintro (⟨i', j', h, h'⟩ | h)
        · cases h; exact .inl ⟨rfl, h'⟩
        · exact .inr h
      · rintro (⟨rfl, h'⟩ | h)
        · exact .inl ⟨i, j, rfl, h'⟩
        · exact .inr h

theorem calls_toks (prog : List (Node V O)) (b : Nat) :
    ((calls b prog).filterMap regTok).Nodup ∧ ∀ t ∈ (calls b prog).filterMap regTok, b ≤ t.1 := by
  induction prog generalizing b with
  | nil => simp [calls]
  | cons n prog ih =>
    obtain ⟨h1, h2⟩ := ih (b + 1)
    cases n with
    | source => exact ⟨h1, fun t ht => by have := h2 t ht; omega⟩
    | eval op args =>
      rw [calls_eval, List.filterMap_append]
      obtain ⟨h3, h4⟩ := callOf_toks b args
      constructor
      · rw [List.nodup_append]
        refine ⟨h3, h1, ?_⟩
        intro x hx y hy hxy
        have := h4 x hx
        have := h2 y hy
        rw [hxy] at *
        omega
      · intro t ht
        rcases List.mem_append.mp ht with ht | ht
        · have := h4 t ht; omega
        · have := h2 t ht; omega

/-- The node is a call of `async_eval`. -/
def isEval (prog : List (Node V O)) (k : Nat) : Bool :=
  match prog[k]? with
  | some (.eval _ _) => true
  | _ => false

theorem isEval_true {prog : List (Node V O)} {k : Nat} {op : O} {args : List (Arg V)}
    (h : prog[k]? = some (.eval op args)) : isEval prog k = true := by simp [isEval, h]

theorem isEval_false {prog : List (Node V O)} {k : Nat} (h : ∀ op args, prog[k]? ≠ some (.eval op args)) :
    isEval prog k = false := by
  unfold isEval
  split
  · rename_i op args he; exact absurd he (h op args)
  · rfl

/-- The number of futures among the inputs of `k`, and whether there are inputs but no futures. -/
theorem calls_count (prog : List (Node V O)) (b k : Nat) :
    (calls b prog).countP (isReg k) = (if b ≤ k then countFutures (argsOf prog (k - b)) else 0) ∧
    (calls b prog).countP (isSch k) = (if b ≤ k ∧ isEval prog (k - b) = true ∧
      countFutures (argsOf prog (k - b)) = 0 then 1 else 0) := by
  induction prog generalizing b with
  | nil => simp [calls, argsOf, countFutures, isEval]
  | cons n prog ih =>
    obtain ⟨h1, h2⟩ := ih (b + 1)
    rcases Nat.lt_trichotomy k b with hk | hk | hk
    · rw [if_neg (by omega)] at h1
      rw [if_neg (by omega)] at h2
      rw [if_neg (by omega), if_neg (by omega)]
      cases n with
      | source => exact ⟨h1, h2⟩
      | eval op args =>
        have := callOf_count b k args
        rw [if_neg (by omega), if_neg (by omega)] at this
        rw [calls_eval, List.countP_append, List.countP_append, h1, h2, this.1, this.2]
        exact ⟨rfl, rfl⟩
    · subst hk
      rw [if_neg (by omega)] at h1
      rw [if_neg (by omega)] at h2
      rw [if_pos (Nat.le_refl _), Nat.sub_self]
      cases n with
      | source =>
        refine ⟨h1, ?_⟩
        rw [if_neg (by simp [isEval])]
        exact h2
      | eval op args =>
        have := callOf_count k k args
        rw [calls_eval, List.countP_append, List.countP_append, h1, h2, this.1, this.2]
        simp [argsOf, isEval]
    · have hsub : k - b = (k - (b + 1)) + 1 := by omega
      have e1 : argsOf (n :: prog) (k - b) = argsOf prog (k - (b + 1)) := by rw [hsub]; simp [argsOf]
      have e2 : isEval (n :: prog) (k - b) = isEval prog (k - (b + 1)) := by rw [hsub]; simp [isEval]
      rw [if_pos (by omega)] at h1
      rw [if_pos (by omega), e1, e2]
      have h2' : (calls (b + 1) prog).countP (isSch k) = (if b ≤ k ∧ isEval prog (k - (b + 1)) = true ∧
          countFutures (argsOf prog (k - (b + 1))) = 0 then 1 else 0) := by
        rw [h2]
        have h3 : b + 1 ≤ k := hk
        have h4 : b ≤ k := by omega
        simp only [h3, h4]
      cases n with
      | source => exact ⟨h1, h2'⟩
      | eval op args =>
        have := callOf_count b k args
        rw [if_neg (by omega), if_neg (by omega)] at this
        rw [calls_eval, List.countP_append, List.countP_append, h1, h2', this.1, this.2]
        exact ⟨by omega, by omega⟩

/-! ### the invariant -/

/-- An error that was consumed for `k`. -/
def isErrOf (k : Nat) : Nat × Nat × Value V E → Bool
  | (k', _, .error _) => k' == k
  | _ => false

/-- All the inputs that are futures, wherever they are. -/
def toks (w : World V E) (done : List (Nat × Nat × Value V E)) : List (Nat × Nat) :=
  w.todo.filterMap regTok ++ (w.consumers.map (fun c => (c.2.1, c.2.2)) ++
    (w.pool.map (fun c => (c.1, c.2.1)) ++ done.map (fun c => (c.1, c.2.1))))

/-- What is known of the inputs of a countdown. -/
structure InputsOk (args : List (Arg V)) (inputs : List (Option V)) (k : Nat)
    (done : List (Nat × Nat × Value V E)) : Prop where
  len : inputs.length = args.length
  const : ∀ (i : Nat) v, args[i]? = some (.const v) → inputs[i]? = some (some v)
  got : ∀ (i : Nat) j v, args[i]? = some (.future j) → (k, i, .ok v) ∈ done → inputs[i]? = some (some v)
  wait : ∀ (i : Nat) j, args[i]? = some (.future j) → (∀ v, (k, i, .ok v) ∉ done) → inputs[i]? = some none

/-- The parts of the invariant that do not speak of the values of results. `done` are the consumers that were
called. -/
structure Core (prog : List (Node V O)) (w : World V E) (done : List (Nat × Nat × Value V E)) : Prop where
  perm : (toks w done).Perm ((calls 0 prog).filterMap regTok)
  todoArg : ∀ k i j, .register k i j ∈ w.todo → (argsOf prog k)[i]? = some (.future j)
  consArg : ∀ j k i, (j, k, i) ∈ w.consumers → (argsOf prog k)[i]? = some (.future j) ∧ w.value j = none
  poolArg : ∀ k i v, (k, i, v) ∈ w.pool → ∃ j, (argsOf prog k)[i]? = some (.future j) ∧ w.value j = some v
  doneArg : ∀ k i v, (k, i, v) ∈ done → ∃ j, (argsOf prog k)[i]? = some (.future j) ∧ w.value j = some v
  remaining : ∀ k, (w.countdown k).remaining = w.todo.countP (isReg k) + w.consumers.countP (·.2.1 == k) +
    w.pool.countP (·.1 == k) + done.countP (isErrOf k)
  reported : ∀ k, (w.countdown k).errorReported = true ↔ 0 < done.countP (isErrOf k)
  inputs : ∀ k, 0 < (w.countdown k).remaining ∨ k ∈ w.ready ∨ .schedule k ∈ w.todo →
    InputsOk (argsOf prog k) (w.countdown k).inputs k done
  full : ∀ k, k ∈ w.ready ∨ .schedule k ∈ w.todo → (w.countdown k).remaining = 0
  errors : ∀ k e, (k, e) ∈ w.errors → ∃ i, (k, i, .error e) ∈ done
  tasks : ∀ k ins, (k, ins) ∈ w.tasks → ∃ vs, allSet ins = some vs ∧ argValues w.value (argsOf prog k) vs
  fatal : w.fatal = false

/-- How many of the things that set the value of `k` there are. -/
def writers (w : World V E) (k : Nat) : Nat :=
  w.todo.countP (isSch k) + w.errors.countP (·.1 == k) + w.ready.count k + w.tasks.countP (·.1 == k) +
    (if (w.value k).isSome then 1 else 0)

/-- Whether the value of `k` is decided. -/
def decided (w : World V E) (k : Nat) : Prop :=
  (w.countdown k).errorReported = true ∨ (w.countdown k).remaining = 0

instance (w : World V E) (k : Nat) : Decidable (decided w k) := by unfold decided; infer_instance

/-- The invariant. -/
structure Inv (evalOp : O → List V → Value V E) (orphaned : E) (prog : List (Node V O)) (dropped : Prop)
    (w : World V E) (done : List (Nat × Nat × Value V E)) : Prop where
  core : Core prog w done
  one : ∀ k op args, prog[k]? = some (.eval op args) → writers w k = if decided w k then 1 else 0
  none : ∀ k, (∀ op args, prog[k]? ≠ some (.eval op args)) →
    w.todo.countP (isSch k) + w.errors.countP (·.1 == k) + w.ready.count k + w.tasks.countP (·.1 == k) = 0
  right : ∀ k op args r, prog[k]? = some (.eval op args) → w.value k = some r →
    Right evalOp orphaned w.value op args dropped r
  outside : ∀ k : Nat, prog[k]? = Option.none → w.value k = Option.none

theorem argsOf_eval {prog : List (Node V O)} {k : Nat} {op : O} {args : List (Arg V)}
    (h : prog[k]? = some (.eval op args)) : argsOf prog k = args := by simp [argsOf, h]

theorem argsOf_cases (prog : List (Node V O)) (k : Nat) :
    (∃ op, prog[k]? = some (.eval op (argsOf prog k))) ∨
      ((∀ op args, prog[k]? ≠ some (.eval op args)) ∧ argsOf prog k = []) := by
  cases h : prog[k]? with
  | none => exact .inr ⟨by simp, by simp [argsOf, h]⟩
  | some n => cases n with
    | source => exact .inr ⟨by simp, by simp [argsOf, h]⟩
    | eval op args => exact .inl ⟨op, by simp [argsOf, h]⟩

theorem readyInputs_ok (args : List (Arg V)) (k : Nat) :
    InputsOk args (readyInputs args) k ([] : List (Nat × Nat × Value V E)) := by
  refine ⟨?_, ?_, by simp, ?_⟩
  · induction args with
    | nil => rfl
    | cons a args ih => cases a <;> simp [readyInputs, ih]
  · induction args with
    | nil => simp
    | cons a args ih =>
      intro i v h
      cases i with
      | zero =>
        have : a = .const v := by simpa using h
        subst this
        rfl
      | succ i =>
        have := ih i v (by simpa using h)
        cases a <;> simpa [readyInputs] using this
  · induction args with
    | nil => simp
    | cons a args ih =>
      intro i j h _
      cases i with
      | zero =>
        have : a = .future j := by simpa using h
        subst this
        rfl
      | succ i =>
        have := ih i j (by simpa using h) (by simp)
        cases a <;> simpa [readyInputs] using this

theorem inv_start (evalOp : O → List V → Value V E) (orphaned : E) (prog : List (Node V O)) (dropped : Prop) :
    Inv evalOp orphaned prog dropped (start prog : World V E) [] where
  core := {
    perm := by simp [toks, start]
    todoArg := by
      intro k i j h
      obtain ⟨m, hm, h'⟩ := (calls_mem prog 0 k i j).mp h
      have : k = m := by omega
      rw [this]; exact h'
    consArg := by simp [start]
    poolArg := by simp [start]
    doneArg := by simp
    remaining := by
      intro k
      have := (calls_count prog 0 k).1
      simp only [Nat.zero_le, if_true, Nat.sub_zero] at this
      simp [start, this]
    reported := by simp [start]
    inputs := by
      intro k _
      exact readyInputs_ok _ _
    full := by
      rintro k (hk | hk)
      · simp [start] at hk
      · have h1 := (calls_count prog 0 k).2
        have h2 : 0 < (calls 0 prog).countP (isSch k) := List.countP_pos_iff.mpr ⟨_, hk, by simp [isSch]⟩
        rw [h1] at h2
        by_cases hc : 0 ≤ k ∧ isEval prog (k - 0) = true ∧ countFutures (argsOf prog (k - 0)) = 0
        · exact hc.2.2
        · rw [if_neg hc] at h2; omega
    errors := by simp [start]
    tasks := by simp [start]
    fatal := rfl }
  one := by
    intro k op args h
    have := (calls_count prog 0 k).2
    simp only [Nat.zero_le, Nat.sub_zero, true_and] at this
    simp only [isEval_true h, true_and] at this
    simp only [writers, start, this, decided]
    simp
  none := by
    intro k h
    have := (calls_count prog 0 k).2
    simp only [Nat.zero_le, Nat.sub_zero, true_and] at this
    rw [isEval_false h] at this
    simp [start, this]
  right := by simp [start]
  outside := by simp [start]

/-! ### values are set once -/

theorem argValue_mono {value : Nat → Option (Value V E)} {k : Nat} {v : Value V E} (h : value k = none)
    (a : Arg V) (x : Value V E) (ha : argValue value a = some x) :
    argValue (set value k (some v)) a = some x := by
  cases a with
  | const c => exact ha
  | future j =>
    have ha : value j = some x := ha
    by_cases hj : j = k
    · subst hj; rw [h] at ha; simp at ha
    · show set value k (some v) j = some x
      rw [set_other _ _ _ _ hj]; exact ha

theorem argValues_mono {value : Nat → Option (Value V E)} {k : Nat} {v : Value V E} (h : value k = none)
    (args : List (Arg V)) (vs : List V) (ha : argValues value args vs) :
    argValues (set value k (some v)) args vs := by
  unfold argValues at ha ⊢
  induction args generalizing vs with
  | nil => simpa using ha
  | cons a args ih =>
    cases vs with
    | nil => simp at ha
    | cons x vs =>
      simp only [List.map_cons, List.cons.injEq] at ha ⊢
      exact ⟨argValue_mono h a _ ha.1, ih vs ha.2⟩

theorem right_mono {evalOp : O → List V → Value V E} {orphaned : E} {value : Nat → Option (Value V E)} {k : Nat}
    {v : Value V E} (h : value k = none) {op : O} {args : List (Arg V)} {d : Prop} {r : Value V E}
    (hr : Right evalOp orphaned value op args d r) :
    Right evalOp orphaned (set value k (some v)) op args d r := by
  rcases hr with ⟨vs, h1, h2⟩ | ⟨j, e, h1, h2, h3⟩ | ⟨h1, h2, vs, h3⟩
  · exact .inl ⟨vs, argValues_mono h _ _ h1, h2⟩
  · exact .inr (.inl ⟨j, e, h1, argValue_mono h (.future j) _ h2, h3⟩)
  · exact .inr (.inr ⟨h1, h2, vs, argValues_mono h _ _ h3⟩)

theorem countP_split {α : Type} (p q : α → Bool) (l : List α) :
    (l.filter p).countP q + (l.filter (fun x => !p x)).countP q = l.countP q := by
  induction l with
  | nil => rfl
  | cons a l ih =>
    by_cases hp : p a <;> by_cases hq : q a <;> simp [hp, hq] <;> omega

theorem core_setValue {prog : List (Node V O)} {w : World V E} {done : List (Nat × Nat × Value V E)}
    (h : Core prog w done) {k : Nat} (v : Value V E) (hk : w.value k = none) :
    Core prog (setValue k v w) done := by
  unfold setValue
  rw [hk]
  have hne : (w.consumers.filter (fun c => c.1 ≠ k)) = w.consumers.filter (fun c => !decide (c.1 = k)) := by
    apply List.filter_congr
    intro c _
    simp
  have mono : ∀ j x, w.value j = some x → set w.value k (some v) j = some x := fun j x hj =>
    argValue_mono hk (.future j : Arg V) x hj
  refine {
    perm := ?_, todoArg := h.todoArg, consArg := ?_, poolArg := ?_, doneArg := ?_, remaining := ?_,
    reported := h.reported, inputs := h.inputs, full := h.full, errors := h.errors, tasks := ?_, fatal := h.fatal }
  · refine List.Perm.trans ?_ h.perm
    simp only [toks]
    refine List.Perm.append_left _ ?_
    rw [hne, List.map_append, List.map_map, List.append_assoc]
    have hp := (List.filter_append_perm (fun c => decide (c.1 = k)) w.consumers).map
      (fun c : Nat × Nat × Nat => (c.2.1, c.2.2))
    rw [List.map_append] at hp
    refine List.Perm.trans ?_ (hp.append_right _)
    have : (List.map ((fun c : Nat × Nat × Value V E => (c.1, c.2.1)) ∘ fun c : Nat × Nat × Nat => (c.2.1, c.2.2, v))
        (w.consumers.filter (fun c => decide (c.1 = k)))) =
        List.map (fun c => (c.2.1, c.2.2)) (w.consumers.filter (fun c => decide (c.1 = k))) := rfl
    rw [this]
    generalize List.map (fun c : Nat × Nat × Nat => (c.2.1, c.2.2)) (w.consumers.filter (fun c => decide (c.1 = k))) = A
    generalize List.map (fun c : Nat × Nat × Nat => (c.2.1, c.2.2)) (w.consumers.filter (fun c => !decide (c.1 = k))) = B
    generalize List.map (fun c : Nat × Nat × Value V E => (c.1, c.2.1)) w.pool = C
    generalize List.map (fun c : Nat × Nat × Value V E => (c.1, c.2.1)) done = D
    calc B ++ (C ++ (A ++ D)) = (B ++ C) ++ (A ++ D) := by simp
      _ |>.Perm ((B ++ C ++ A) ++ D) := by rw [← List.append_assoc]
      _ |>.Perm ((A ++ (B ++ C)) ++ D) := List.perm_append_comm.append_right _
      _ |>.Perm (A ++ B ++ (C ++ D)) := by simp
  · intro j k' i hm
    obtain ⟨hm, hj⟩ := List.mem_filter.mp hm
    have hj : j ≠ k := by simpa using hj
    obtain ⟨h1, h2⟩ := h.consArg j k' i hm
    exact ⟨h1, by show set w.value k (some v) j = none; rw [set_other _ _ _ _ hj]; exact h2⟩
  · intro k' i v' hm
    rcases List.mem_append.mp hm with hm | hm
    · obtain ⟨j, h1, h2⟩ := h.poolArg k' i v' hm
      exact ⟨j, h1, mono j _ h2⟩
    · obtain ⟨c, hc, he⟩ := List.mem_map.mp hm
      obtain ⟨hc, hck⟩ := List.mem_filter.mp hc
      obtain ⟨j, k'', i'⟩ := c
      have hck : j = k := by simpa using hck
      simp only [Prod.mk.injEq] at he
      obtain ⟨rfl, rfl, rfl⟩ := he
      exact ⟨j, (h.consArg _ _ _ hc).1, by rw [hck]; exact set_same _ _ _⟩
  · intro k' i v' hm
    obtain ⟨j, h1, h2⟩ := h.doneArg k' i v' hm
    exact ⟨j, h1, mono j _ h2⟩
  · intro k'
    rw [h.remaining k']
    simp only [hne, List.countP_append, List.countP_map]
    have := countP_split (fun c : Nat × Nat × Nat => decide (c.1 = k)) (fun c => c.2.1 == k') w.consumers
    have e2 : List.countP ((fun c : Nat × Nat × Value V E => c.1 == k') ∘ fun c : Nat × Nat × Nat => (c.2.1, c.2.2, v))
        (w.consumers.filter (fun c => decide (c.1 = k))) =
        List.countP (fun c => c.2.1 == k') (w.consumers.filter (fun c => decide (c.1 = k))) := rfl
    rw [e2]
    omega
  · intro k' ins hm
    obtain ⟨vs, h1, h2⟩ := h.tasks k' ins hm
    exact ⟨vs, h1, argValues_mono hk _ _ h2⟩

end Verif.AsyncEval
