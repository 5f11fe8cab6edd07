import Verif.AsyncEval.Live

/-!
C83: `async_eval` gives the result of the operator for the values of the futures, whatever the order in which
the threads run.
-/

namespace Verif.AsyncEval

variable {V E O : Type}

variable {evalOp : O → List V → Value V E} {internal orphaned : E} {prog : List (Node V O)}

/-- A small program: two sources, `0 + 5`, then `2 + 1`, and `2 + 2`. -/
def exampleProg : List (Node Int Unit) :=
  [.source, .source, .eval () [.future 0, .const 5], .eval () [.future 2, .future 1], .eval () [.future 2, .future 2]]

/-- Its operator: the sum, an error if it is above 100. -/
def exampleOp : Unit → List Int → Value Int String := fun _ l =>
  if l.foldl (· + ·) 0 > 100 then .error "big" else .ok (l.foldl (· + ·) 0)

/-- A run of it: some consumers are added before the values are set, some after. -/
def exampleOps : List (Op Int String) :=
  [.call, .call, .source 1 (.ok 10), .call, .source 0 (.ok 1), .consume 1, .schedule 0, .consume 0, .run 0, .call, .call,
   .consume 2, .consume 0, .consume 0, .schedule 0, .schedule 0, .run 1, .run 0]

/-- The values that a run sets. -/
def exampleValues (ops : List (Op Int String)) : Option (List (Option (Value Int String))) :=
  (run exampleOp "internal" "orphaned" exampleProg (start exampleProg) ops).map fun w => (List.range 5).map w.value

example : exampleValues exampleOps = some [some (.ok 1), some (.ok 10), some (.ok 6), some (.ok 16), some (.ok 12)] := by
  decide +kernel

/-- A run in which a task is dropped. -/
example : exampleValues [.call, .source 0 (.ok 1), .consume 0, .schedule 0, .drop 0, .call, .call, .consume 0, .report 0] =
    some [some (.ok 1), none, some (.error "orphaned"), some (.error "orphaned"), none] := by
  decide +kernel

theorem reached_inv {ops : List (Op V E)} {w : World V E} (h : Reached evalOp internal orphaned prog ops w) :
    ∃ done, Inv evalOp orphaned prog (∃ p, .drop p ∈ ops) w done :=
  inv_run (inv_start evalOp orphaned prog _) h fun p hp => ⟨p, hp⟩

/-- Whatever the threads do: nothing is set twice (the process does not stop), and a result is that of the operator for
the values of all the inputs, or the error of an input, or — only if the executor dropped a task — the error
"orphaned". -/
theorem C83_right {ops : List (Op V E)} {w : World V E} (h : Reached evalOp internal orphaned prog ops w) :
    w.fatal = false ∧ ∀ (k : Nat) op args r, prog[k]? = some (.eval op args) → w.value k = some r →
      Right evalOp orphaned w.value op args (∃ p, .drop p ∈ ops) r := by
  obtain ⟨done, hi⟩ := reached_inv h
  exact ⟨hi.core.fatal, hi.right⟩

example : ∃ w, Reached exampleOp "internal" "orphaned" exampleProg exampleOps w ∧ w.value 3 = some (.ok 16) := by
  have h : exampleValues exampleOps = some [some (.ok 1), some (.ok 10), some (.ok 6), some (.ok 16), some (.ok 12)] := by
    decide +kernel
  unfold exampleValues at h
  cases hr : run exampleOp "internal" "orphaned" exampleProg (start exampleProg) exampleOps with
  | none => rw [hr] at h; simp at h
  | some w =>
    rw [hr] at h
    simp [List.range, List.range.loop] at h
    exact ⟨w, hr, h.2.2.2.1⟩

/-- If all the inputs have values, the result (once it is set, and if no task was dropped) is that of the
operator. -/
theorem C83_value {ops : List (Op V E)} {w : World V E} (h : Reached evalOp internal orphaned prog ops w)
    (hn : NoDrop ops) {k : Nat} {op : O} {args : List (Arg V)} {r : Value V E} {vs : List V}
    (hk : prog[k]? = some (.eval op args)) (hr : w.value k = some r) (hv : argValues w.value args vs) :
    r = evalOp op vs := by
  rcases (C83_right h).2 k op args r hk hr with ⟨vs', h1, h2⟩ | ⟨j, e, h1, h2, h3⟩ | ⟨⟨p, hp⟩, -⟩
  · have : vs' = vs := by
      unfold argValues at hv h1
      rw [hv] at h1
      replace h1 := h1.symm
      clear hv h2
      induction vs' generalizing vs with
      | nil => cases vs with
        | nil => rfl
        | cons b vs => simp at h1
      | cons a vs' ih => cases vs with
        | nil => simp at h1
        | cons b vs =>
          simp only [List.map_cons, List.cons.injEq, Option.some.injEq, Value.ok.injEq] at h1
          rw [h1.1, ih h1.2]
    rw [h2, this]
  · exfalso
    have h4 : some (Value.error e) ∈ args.map (argValue w.value) :=
      List.mem_map.mpr ⟨.future j, h1, h2⟩
    unfold argValues at hv
    rw [hv] at h4
    obtain ⟨v, -, h5⟩ := List.mem_map.mp h4
    simp at h5
  · exact absurd hp (hn p)

/-- A value that is set stays. -/
theorem C83_stays {ops ops' : List (Op V E)} {w w' : World V E} (h : Reached evalOp internal orphaned prog ops w)
    (h' : Reached evalOp internal orphaned prog (ops ++ ops') w') {k : Nat} {r : Value V E} (hr : w.value k = some r) :
    w'.value k = some r := by
  have key : ∀ (ops : List (Op V E)) (w0 : World V E), run evalOp internal orphaned prog w0 ops = some w →
      run evalOp internal orphaned prog w0 (ops ++ ops') = run evalOp internal orphaned prog w ops' := by
    intro ops
    induction ops with
    | nil => intro w0 h; simp only [run, Option.some.injEq] at h; subst h; rfl
    | cons op ops ih =>
      intro w0 h
      simp only [run, List.cons_append] at h ⊢
      cases hs : step evalOp internal orphaned prog w0 op with
      | none => rw [hs] at h; simp at h
      | some w1 => rw [hs] at h; simp only; exact ih w1 h
  unfold Reached at h h'
  rw [key ops _ h] at h'
  exact run_keeps h' hr

/-- Two runs of a program, in which the sources get the same values: a result that is not an error in the
one is the same in the other. -/
theorem C83_same {ops₁ ops₂ : List (Op V E)} {w₁ w₂ : World V E}
    (h₁ : Reached evalOp internal orphaned prog ops₁ w₁) (h₂ : Reached evalOp internal orphaned prog ops₂ w₂)
    (hn : NoDrop ops₂) (ho : Ordered prog)
    (hs : ∀ (k : Nat) v₁ v₂, prog[k]? = some .source → w₁.value k = some v₁ → w₂.value k = some v₂ → v₁ = v₂) :
    ∀ k v r, w₁.value k = some (.ok v) → w₂.value k = some r → r = .ok v := by
  intro k
  induction k using Nat.strongRecOn with
  | ind k ih =>
    intro v r hv hr
    cases hk : prog[k]? with
    | none =>
      obtain ⟨done, hi⟩ := reached_inv h₁
      have := hi.outside k hk
      rw [hv] at this
      simp at this
    | some n =>
      cases n with
      | source => exact (hs k _ _ hk hv hr).symm
      | eval op args =>
        rcases (C83_right h₁).2 k op args _ hk hv with ⟨vs, h1, h2⟩ | ⟨j, e, h1, h2, h3⟩ | ⟨-, h3, -⟩
        · have hall : ∀ a ∈ args, ∀ x, argValue w₂.value a = some x → argValue w₁.value a = some x := by
            intro a ha x hx
            cases a with
            | const c => exact hx
            | future j =>
              have h4 : argValue w₁.value (.future j : Arg V) ∈ args.map (argValue w₁.value) := List.mem_map.mpr ⟨_, ha, rfl⟩
              unfold argValues at h1
              rw [h1] at h4
              obtain ⟨u, -, h5⟩ := List.mem_map.mp h4
              rw [← h5, ih j (ho k op args hk j ha) u x h5.symm hx]
          rcases (C83_right h₂).2 k op args _ hk hr with ⟨vs', h1', h2'⟩ | ⟨j, e, h1', h2', h3'⟩ | ⟨⟨p, hd⟩, -⟩
          · have : vs' = vs := by
              unfold argValues at h1 h1'
              clear hk h2 h2'
              induction args generalizing vs vs' with
              | nil =>
                have e1 : vs = [] := by simpa using h1.symm
                have e2 : vs' = [] := by simpa using h1'.symm
                rw [e1, e2]
              | cons a args iha =>
                cases vs with
                | nil => simp at h1
                | cons x vs =>
                  cases vs' with
                  | nil => simp at h1'
                  | cons x' vs' =>
                    simp only [List.map_cons, List.cons.injEq] at h1 h1'
                    have h6 := hall a List.mem_cons_self _ h1'.1
                    rw [h1.1] at h6
                    simp only [Option.some.injEq, Value.ok.injEq] at h6
                    rw [h6, iha vs h1.2 (fun a ha => hall a (List.mem_cons_of_mem _ ha)) vs' h1'.2]
            rw [h2', this, ← h2]
          · exfalso
            have h4 := hall (.future j) h1' (.error e) h2'
            have h5 : argValue w₁.value (.future j : Arg V) ∈ args.map (argValue w₁.value) := List.mem_map.mpr ⟨_, h1', rfl⟩
            unfold argValues at h1
            rw [h1, h4] at h5
            obtain ⟨u, -, h6⟩ := List.mem_map.mp h5
            simp at h6
          · exact absurd hd (hn p)
        · simp at h3
        · simp at h3

/-- When all threads and the executor are done, exactly these results are set: those with an input that is an error, and
those all inputs of which are set. -/
theorem C83_set {ops : List (Op V E)} {w : World V E} (h : Reached evalOp internal orphaned prog ops w)
    (hi : Idle evalOp internal orphaned prog w) {k : Nat} {op : O} {args : List (Arg V)}
    (hk : prog[k]? = some (.eval op args)) :
    (w.value k).isSome ↔ (∃ j e, .future j ∈ args ∧ w.value j = some (.error e)) ∨
      ∀ j, .future j ∈ args → (w.value j).isSome := by
  obtain ⟨done, hinv⟩ := reached_inv h
  constructor
  · intro hs
    obtain ⟨r, hr⟩ := Option.isSome_iff_exists.mp hs
    have hall : ∀ vs, argValues w.value args vs → ∀ j, .future j ∈ args → (w.value j).isSome := by
      intro vs h1 j hj
      have h4 : argValue w.value (.future j : Arg V) ∈ args.map (argValue w.value) := List.mem_map.mpr ⟨_, hj, rfl⟩
      unfold argValues at h1
      rw [h1] at h4
      obtain ⟨u, -, h5⟩ := List.mem_map.mp h4
      have h5 : w.value j = some (.ok u) := h5.symm
      rw [h5]
      rfl
    rcases hinv.right k op args r hk hr with ⟨vs, h1, -⟩ | ⟨j, e, h1, h2, -⟩ | ⟨-, -, vs, h1⟩
    · exact .inr (hall vs h1)
    · exact .inl ⟨j, e, h1, h2⟩
    · exact .inr (hall vs h1)
  · rintro (⟨j, e, h1, h2⟩ | h1)
    · exact idle_error hinv hi hk h1 h2
    · exact idle_all hinv hi hk h1

/-- When all threads and the executor are done, and the sources are set, all results are set. -/
theorem C83_all {ops : List (Op V E)} {w : World V E} (h : Reached evalOp internal orphaned prog ops w)
    (hi : Idle evalOp internal orphaned prog w) (ho : Ordered prog)
    (hs : ∀ k : Nat, prog[k]? = some .source → (w.value k).isSome) :
    ∀ k, k < prog.length → (w.value k).isSome := by
  intro k
  induction k using Nat.strongRecOn with
  | ind k ih =>
    intro hlt
    cases hk : prog[k]? with
    | none => have := List.getElem?_eq_none_iff.mp hk; omega
    | some n =>
      cases n with
      | source => exact hs k hk
      | eval op args =>
        refine (C83_set h hi hk).mpr (.inr fun j hj => ?_)
        have := ho k op args hk j hj
        exact ih j this (by omega)

/-- The program of the example is in order, and its run leaves nothing to do. -/
example : Ordered exampleProg := by
  intro k op args hk j hj
  match k with
  | 0 | 1 => simp [exampleProg] at hk
  | 2 | 3 | 4 =>
    simp [exampleProg] at hk
    rw [← hk] at hj
    simp at hj
    omega
  | k + 5 => simp [exampleProg] at hk

example : ∃ w, Reached exampleOp "internal" "orphaned" exampleProg exampleOps w ∧
    Idle exampleOp "internal" "orphaned" exampleProg w := by
  have h : ((run exampleOp "internal" "orphaned" exampleProg (start exampleProg) exampleOps).map fun w =>
      (w.todo.length, w.pool.length, w.errors.length, w.ready.length, w.tasks.length)) = some (0, 0, 0, 0, 0) := by
    decide +kernel
  cases hr : run exampleOp "internal" "orphaned" exampleProg (start exampleProg) exampleOps with
  | none => rw [hr] at h; simp at h
  | some w =>
    rw [hr] at h
    simp at h
    refine ⟨w, hr, ?_⟩
    intro op hop
    cases op with
    | source k v => exact absurd rfl (hop k v)
    | _ => simp [step, h]

/-- Every run ends: there is a bound for the number of steps. -/
theorem C83_ends (evalOp : O → List V → Value V E) (internal orphaned : E) (prog : List (Node V O)) :
    ∃ n, ∀ ops w, Reached evalOp internal orphaned prog ops w → ops.length ≤ n :=
  ⟨measureOf prog (start prog : World V E), fun _ _ h => run_length h⟩

example : Reached exampleOp "internal" "orphaned" exampleProg [] (start exampleProg) := rfl

end Verif.AsyncEval
