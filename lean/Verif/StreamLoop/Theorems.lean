import Verif.StreamLoop.Final

/-!
C42: whatever the interleaving, a stream loop writes what the loop writes as a sequential program and ends with
its status, unless it is cancelled; then it ends with the status of the cancellation.
-/

namespace Verif.StreamLoop

open Verif.StreamChain (Input)

set_option linter.unusedSectionVars false

variable {V T S : Type} [DecidableEq T] [DecidableEq S]

/-! ### for and while -/

/-- C42: a loop starts unless the name of `returns` or `yields` is the name of a variable of the state; a loop
with `yields` writes the initial value at once. -/
theorem C42_loop_start (c : Loop V T S) :
    (∀ name, c.start = .error name ↔ name = c.lastName ∧ ∃ v, (name, v) ∈ c.state.fields) ∧
      ∀ w, c.start = .ok w → w.items = (if c.yields then [c.lastValue] else []) ∧ w.closed = none := by
  constructor
  · intro name
    unfold Loop.start
    split
    · rename_i h
      obtain ⟨⟨n, v⟩, hv, hn⟩ := List.mem_map.mp h
      constructor
      · intro he
        injection he with he
        subst he
        exact ⟨rfl, v, by rw [← hn]; exact hv⟩
      · rintro ⟨rfl, _⟩; rfl
    · rename_i h
      constructor
      · intro he; cases he
      · rintro ⟨rfl, v, hv⟩
        exact absurd (List.mem_map.mpr ⟨_, hv, rfl⟩) h
  · intro w h
    unfold Loop.start at h
    split at h
    · cases h
    · injection h with h
      subst h
      exact ⟨rfl, rfl⟩

/-- C42: the items of the output are the first items that the loop writes as a sequential program. A cancelled
loop with `returns` has at most one item. -/
theorem C42_loop_items (c : Loop V T S) (w₀ : World V S (Place V S)) (h : c.start = .ok w₀) (ops : List (Op S)) :
    let w := run c.orphaned c.program w₀ ops
    (w.cancelled = none ∨ c.yields = true → ∃ n, w.items <+: (c.output n).1) ∧
      (c.yields = false → w.items.length ≤ 1) := by
  intro w
  have hn := (loop_starts h).1
  constructor
  · intro hc
    rcases items_of (loop_inv h ops) with ⟨n, hi⟩ | ⟨hcan, x, hl, hi⟩
    · obtain ⟨m, hm⟩ := at_prefix (at_after c hn n)
      exact ⟨m, by rw [hi] at hm; exact hm⟩
    · rcases hc with hc | hy
      · rw [show (run c.orphaned c.program w₀ ops).cancelled = none from hc] at hcan; cases hcan
      · obtain ⟨⟨n, hx⟩, _⟩ := late_yields hy hl
        obtain ⟨m, hm⟩ := at_prefix (at_after c hn n)
        exact ⟨m, by rw [hx, hi] at hm; exact hm⟩
  · intro hy
    rcases items_of (loop_inv h ops) with ⟨n, hi⟩ | ⟨_, x, hl, hi⟩
    · have := few_length (few_after hy n)
      rw [hi] at this
      exact this
    · have := few_length (few_late hy hl)
      rw [hi] at this
      exact this

/-- C42: a closed output has the items and the status of the loop as a sequential program, or the loop was
cancelled; then it has the status of the cancellation, or of a writer that was destroyed. -/
theorem C42_loop_closed (c : Loop V T S) (w₀ : World V S (Place V S)) (h : c.start = .ok w₀) (ops : List (Op S))
    (s : S) :
    let w := run c.orphaned c.program w₀ ops
    w.closed = some s → (∃ n, c.output n = (w.items, some s)) ∨
      w.cancelled = some s ∨ (s = c.orphaned ∧ w.cancelled.isSome = true) := by
  intro w hs
  rcases closed_by (loop_inv h ops) hs with ⟨n, h1, h2⟩ | h1
  · obtain ⟨m, hm⟩ := at_closed (at_after c (loop_starts h).1 n) h1
    rw [h2] at hm
    exact .inl ⟨m, hm⟩
  · exact .inr h1

/-- C42: when nothing is left to do and all streams ended, the output is closed. -/
theorem C42_loop_complete (c : Loop V T S) (w₀ : World V S (Place V S)) (h : c.start = .ok w₀) (ops : List (Op S)) :
    let w := run c.orphaned c.program w₀ ops
    Quiet c.orphaned c.program w → (∀ x ∈ w.readers, x.ended = true) → w.gone = false →
      (∃ n s, c.output n = (w.items, some s) ∧ w.closed = some s) ∨
        (w.cancelled.isSome = true ∧ w.closed.isSome = true) := by
  intro w hq he hg
  rcases quiet_closed (loop_inv h ops) hq he hg with ⟨n, s, h1, h2, h3⟩ | h1
  · obtain ⟨m, hm⟩ := at_closed (at_after c (loop_starts h).1 n) h1
    rw [h2] at hm
    exact .inl ⟨m, s, hm, h3⟩
  · exact .inr h1

/-- C42: a loop whose output is open and that has nothing to do waits for a stream in which there is nothing to
read. -/
theorem C42_loop_waits (c : Loop V T S) (w₀ : World V S (Place V S)) (h : c.start = .ok w₀) (ops : List (Op S)) :
    let w := run c.orphaned c.program w₀ ops
    Quiet c.orphaned c.program w → w.gone = false → w.closed = none → w.cancelled = none →
      ∃ (r : Nat) (x : Input V S), w.readers[r]? = some x ∧ x.read = x.ready ∧ x.ended = false := by
  intro w hq hg ho hc
  exact quiet_waits (loop_inv h ops) hq hg ho hc

/-- C42: a loop that ends as a sequential program ends as a routine: its steps are bounded. -/
theorem C42_loop_terminates (c : Loop V T S) (w₀ : World V S (Place V S)) (h : c.start = .ok w₀) (n : Nat)
    (hn : (c.output n).2.isSome = true) (ops : List (Op S)) :
    work c.orphaned c.program w₀ ops ≤
      28 * (8 * (n + match c.input with | none => 0 | some x => x.1.length) + 11 + others ops) := by
  have hs := loop_starts h
  have := starts_work (orphaned := c.orphaned) (loop_runs c hs.1) (loop_rank c) (loop_limit hs.1 hn) hs.2 ops
  unfold Loop.size at this
  cases hi : c.input <;> rw [hi] at this <;> exact this

/-- C42: after its output was closed or dropped, a loop takes a bounded number of steps, even if it does not
end. -/
theorem C42_loop_stops (c : Loop V T S) (w₀ : World V S (Place V S)) (h : c.start = .ok w₀)
    (ops more : List (Op S)) :
    let w := run c.orphaned c.program w₀ ops
    w.orphaned = true → work c.orphaned c.program w more ≤ 25 := by
  intro w ho
  have hs := loop_starts h
  exact Nat.le_trans (late_work (loop_runs c hs.1) (loop_rank c) more (loop_inv h ops) ho)
    (late_le (loop_rank c) _ _)

/-- C42: the cancellation closes an output that nobody closed, also while the loop waits. -/
theorem C42_loop_cancel (c : Loop V T S) (w₀ : World V S (Place V S)) (h : c.start = .ok w₀)
    (ops : List (Op S)) (s : S) :
    let w := run c.orphaned c.program w₀ ops
    let w' := run c.orphaned c.program w [.cancel s, .cancelRequest, .cancelClose]
    w.requested = false → w.gone = false → w.cancelled = none → w'.closed = some s ∧ w'.items = w.items := by
  intro w w' hr hg hc
  exact cancel_closes (loop_inv h ops) hr hg hc s

/-- C42: once closed, the output does not change. -/
theorem C42_loop_stable (c : Loop V T S) (w₀ : World V S (Place V S)) (h : c.start = .ok w₀)
    (ops more : List (Op S)) (s : S) :
    let w := run c.orphaned c.program w₀ ops
    let w' := run c.orphaned c.program w more
    w.closed = some s → w'.closed = some s ∧ w'.items = w.items := by
  intro w w' hs
  exact stable_run (loop_runs c (loop_starts h).1) more (loop_inv h ops) hs

/-- C42: the interleaving does not matter. -/
theorem C42_loop_deterministic (c : Loop V T S) (w₀ : World V S (Place V S)) (h : c.start = .ok w₀)
    (ops ops' : List (Op S)) (s s' : S) :
    let w := run c.orphaned c.program w₀ ops
    let w' := run c.orphaned c.program w₀ ops'
    w.cancelled = none → w'.cancelled = none → w.closed = some s → w'.closed = some s' →
      s = s' ∧ w.items = w'.items := by
  intro w w' hc hc' hs hs'
  have out : ∀ {ops : List (Op S)} {s : S}, (run c.orphaned c.program w₀ ops).cancelled = none →
      (run c.orphaned c.program w₀ ops).closed = some s →
      ∃ n, c.output n = ((run c.orphaned c.program w₀ ops).items, some s) := by
    intro ops s hc hs
    rcases C42_loop_closed c w₀ h ops s hs with h1 | h1 | ⟨_, h1⟩
    · exact h1
    · rw [hc] at h1; cases h1
    · rw [hc] at h1; cases h1
  obtain ⟨n, hn⟩ := out hc hs
  obtain ⟨n', hn'⟩ := out hc' hs'
  have e : c.output n = c.output n' := by
    rw [← output_mono c (n := n) (by rw [hn]; rfl) n', ← output_mono c (n := n') (by rw [hn']; rfl) n, Nat.add_comm]
  rw [hn, hn'] at e
  injection e with e1 e2
  injection e2 with e2
  exact ⟨e2, e1⟩

/-! ### reduce -/

/-- C42: the items of the output are the first items of the result, also when the reduction is cancelled. -/
theorem C42_reduce_items (c : Reduce V T S) (ops : List (Op S)) :
    (run c.orphaned c.program c.start ops).items <+: c.output.1 := by
  rcases items_of (reduce_inv c ops) with ⟨n, hi⟩ | ⟨_, x, hl, hi⟩
  · have := rat_prefix (rat_after c n)
    rw [hi] at this
    exact this
  · have := (reduce_late hl).1
    rw [hi] at this
    exact this

/-- C42: a closed output is the result, or the reduction was cancelled. -/
theorem C42_reduce_closed (c : Reduce V T S) (ops : List (Op S)) (s : S) :
    let w := run c.orphaned c.program c.start ops
    w.closed = some s → c.output = (w.items, s) ∨
      w.cancelled = some s ∨ (s = c.orphaned ∧ w.cancelled.isSome = true) := by
  intro w hs
  rcases closed_by (reduce_inv c ops) hs with ⟨n, h1, h2⟩ | h1
  · have := rat_closed (rat_after c n) h1
    rw [h2] at this
    exact .inl this
  · exact .inr h1

/-- C42: when nothing is left to do and the input ended, the output is closed. -/
theorem C42_reduce_complete (c : Reduce V T S) (ops : List (Op S)) :
    let w := run c.orphaned c.program c.start ops
    Quiet c.orphaned c.program w → (∀ x ∈ w.readers, x.ended = true) → w.gone = false →
      (∃ s, c.output = (w.items, s) ∧ w.closed = some s) ∨
        (w.cancelled.isSome = true ∧ w.closed.isSome = true) := by
  intro w hq he hg
  rcases quiet_closed (reduce_inv c ops) hq he hg with ⟨n, s, h1, h2, h3⟩ | h1
  · have := rat_closed (rat_after c n) h1
    rw [h2] at this
    exact .inl ⟨s, this, h3⟩
  · exact .inr h1

/-- C42: a reduction whose output is open and that has nothing to do waits for its input. -/
theorem C42_reduce_waits (c : Reduce V T S) (ops : List (Op S)) :
    let w := run c.orphaned c.program c.start ops
    Quiet c.orphaned c.program w → w.gone = false → w.closed = none → w.cancelled = none →
      ∃ (r : Nat) (x : Input V S), w.readers[r]? = some x ∧ x.read = x.ready ∧ x.ended = false := by
  intro w hq hg ho hc
  exact quiet_waits (reduce_inv c ops) hq hg ho hc

/-- C42: the steps of a reduction are bounded. -/
theorem C42_reduce_terminates (c : Reduce V T S) (ops : List (Op S)) :
    work c.orphaned c.program c.start ops ≤ 16 * (3 * c.input.length + 5 + others ops) :=
  starts_work (reduce_runs c) (reduce_rank c) (reduce_limit c) (reduce_starts c) ops

/-- C42: after its output was closed or dropped, a reduction reads at most one more item. -/
theorem C42_reduce_stops (c : Reduce V T S) (ops more : List (Op S)) :
    let w := run c.orphaned c.program c.start ops
    w.orphaned = true → work c.orphaned c.program w more ≤ 13 := by
  intro w ho
  exact Nat.le_trans (late_work (reduce_runs c) (reduce_rank c) more (reduce_inv c ops) ho)
    (late_le (reduce_rank c) _ _)

/-- C42: the cancellation closes an output that nobody closed. -/
theorem C42_reduce_cancel (c : Reduce V T S) (ops : List (Op S)) (s : S) :
    let w := run c.orphaned c.program c.start ops
    let w' := run c.orphaned c.program w [.cancel s, .cancelRequest, .cancelClose]
    w.requested = false → w.gone = false → w.cancelled = none → w'.closed = some s ∧ w'.items = w.items := by
  intro w w' hr hg hc
  exact cancel_closes (reduce_inv c ops) hr hg hc s

/-- C42: once closed, the output does not change. -/
theorem C42_reduce_stable (c : Reduce V T S) (ops more : List (Op S)) (s : S) :
    let w := run c.orphaned c.program c.start ops
    let w' := run c.orphaned c.program w more
    w.closed = some s → w'.closed = some s ∧ w'.items = w.items := by
  intro w w' hs
  exact stable_run (reduce_runs c) more (reduce_inv c ops) hs

/-! ### any routine -/

/-- C42: after the cancellation, a routine that waits is not resumed, whatever its hooks are. -/
theorem C42_not_resumed {L : Type} (orphaned : S) (program : L → Action V S L) (w : World V S L)
    (hc : w.cancelled.isSome = true) (ha : active w.pc = false) (ops : List (Op S)) :
    active (run orphaned program w ops).pc = false ∧ (run orphaned program w ops).items = w.items ∧
      (run orphaned program w ops).cancelled = w.cancelled := by
  induction ops generalizing w with
  | nil => exact ⟨ha, rfl, rfl⟩
  | cons op ops ih =>
    have hi : w.interrupted = true := by simp [World.interrupted, hc]
    have key : (step orphaned program w op).cancelled = w.cancelled ∧
        active (step orphaned program w op).pc = false ∧ (step orphaned program w op).items = w.items := by
      cases op with
      | produce r => simp only [step, World.change]; split <;> exact ⟨rfl, ha, rfl⟩
      | finish r => simp only [step, World.change]; split <;> exact ⟨rfl, ha, rfl⟩
      | drop => exact ⟨rfl, ha, rfl⟩
      | cancel s => simp [step, hc, ha]
      | cancelRequest =>
        simp only [step]
        split
        · split <;> exact ⟨rfl, ha, rfl⟩
        · exact ⟨rfl, ha, rfl⟩
      | cancelClose =>
        simp only [step]
        split
        · split
          · exact ⟨rfl, ha, rfl⟩
          · simp only [World.close]; split <;> exact ⟨rfl, ha, rfl⟩
        · exact ⟨rfl, ha, rfl⟩
      | destroy =>
        simp only [step, World.destroy]
        split
        · split
          · exact ⟨rfl, ha, rfl⟩
          · simp only [World.close]; split <;> exact ⟨rfl, ha, rfl⟩
        · exact ⟨rfl, ha, rfl⟩
      | routine =>
        simp only [step, World.routine]
        cases hpc : w.pc with
        | starting => simp [hi, active]
        | scheduled => rw [hpc] at ha; cases ha
        | running => rw [hpc] at ha; cases ha
        | closing s => rw [hpc] at ha; cases ha
        | checking r => simp [hi, active]
        | subscribing r =>
          simp only [World.subscribe]
          cases w.readers[r]? with
          | none => exact ⟨rfl, ha, rfl⟩
          | some x => simp only; split <;> exact ⟨rfl, rfl, rfl⟩
        | waiting r =>
          simp only [World.subscribe]
          cases w.readers[r]? with
          | none => exact ⟨rfl, ha, rfl⟩
          | some x => simp only; split <;> exact ⟨rfl, rfl, rfl⟩
        | called => simp [hi, active]
        | done => exact ⟨rfl, ha, rfl⟩
    obtain ⟨h1, h2, h3⟩ := key
    have := ih (step orphaned program w op) (by rw [h1]; exact hc) h2
    exact ⟨this.1, this.2.1.trans h3, this.2.2.trans h1⟩

/-! ### Examples -/

/-- A value is a number; 0 is a missing mask, 1 is present, and there is one type for the numbers below 100. -/
def exampleLoop (yields : Bool) : Loop Nat Bool Nat where
  typeOf v := v < 100
  slice v := if v = 0 then some ⟨true, .missing, .mask⟩ else if v = 1 then some ⟨true, .unit, .mask⟩ else none
  ok := 0
  orphaned := 1
  updateError
    | .notTuple => 2
    | .unexpected _ => 3
    | .wrongType _ => 4
  conditionError
    | .notSlice => 5
    | .notMask => 6
    | .emptyStream => 7
  yields := yields
  lastName := "out"
  lastValue := 50
  state := ⟨[("sum", 0)], by decide⟩
  input := some ([3, 4, 5, 6], 0)
  body item env := .ok (some ⟨[("out", 10 * item.getD 0), ("sum", (env.lookup "sum").getD 0 + item.getD 0)],
    by simp⟩)
  finalize := some fun env => .ok (some ⟨[("out", (env.lookup "sum").getD 0)], by simp⟩)
  condition := some fun env => .ok (.stream [if (env.lookup "sum").getD 0 < 12 then 1 else 0] 0)

/-- The loop as a sequential program. -/
example : (exampleLoop true).output 0 = ([50, 30, 40, 50], some 0) ∧
    (exampleLoop false).output 0 = ([50], some 0) ∧
    ({ exampleLoop true with condition := none }).output 0 = ([50, 30, 40, 50, 60, 18], some 0) ∧
    ({ exampleLoop false with condition := none }).output 0 = ([18], some 0) ∧
    ({ exampleLoop true with input := none, condition := none }).output 3 = ([50, 0, 0, 0], none) := by
  decide +kernel

/-- A run: the items of the input and of the condition streams become available one after the other. -/
def exampleRun (n : Nat) : List (Op Nat) :=
  (List.replicate n [Op.routine, .routine, .produce 1, .routine, .produce 0, .produce 2, .routine, .produce 3,
    .routine, .produce 4, .finish 0]).flatten

/-- The items, the status and whether the routine is blocked after a run. -/
def outcome (c : Loop Nat Bool Nat) (ops : List (Op Nat)) : Option (List Nat × Option Nat × Bool) :=
  match c.start with
  | .error _ => none
  | .ok w =>
    let w := run c.orphaned c.program w ops
    some (w.items, w.closed, blocked w)

example : outcome (exampleLoop true) (exampleRun 2) = some ([50], none, false) ∧
    outcome (exampleLoop true) (exampleRun 5) = some ([50, 30, 40], none, false) ∧
    outcome (exampleLoop true) (exampleRun 20) = some ([50, 30, 40, 50], some 0, true) ∧
    outcome (exampleLoop false) (exampleRun 20) = some ([50], some 0, true) := by decide +kernel

/-- A loop that is cancelled while it waits. -/
example : outcome (exampleLoop true) (List.replicate 20 .routine) = some ([50], none, true) ∧
    outcome (exampleLoop true) (List.replicate 20 .routine ++ [.cancel 9, .cancelRequest, .cancelClose]) =
      some ([50], some 9, true) := by decide +kernel

/-- A cancelled loop with `returns`: it finds that it is interrupted, and its value is written before the callback
of the cancellation closes the output. -/
example : outcome { exampleLoop false with condition := none }
      ([.routine, .routine, .cancel 9, .cancelRequest] ++ List.replicate 2 .routine ++ [.cancelClose]) =
    some ([50], some 9, false) := by decide +kernel

/-- A loop that assigns a variable that it does not have, and one that changes a type. -/
example : ({ exampleLoop true with body := fun _ _ => .ok (some ⟨[("x", 1)], by decide⟩) }).output 0 =
      ([50], some 3) ∧
    ({ exampleLoop true with body := fun _ _ => .ok (some ⟨[("out", 1), ("sum", 100)], by decide⟩) }).output 0 =
      ([50], some 4) ∧
    ({ exampleLoop true with body := fun _ _ => .ok none }).output 0 = ([50], some 2) ∧
    ({ exampleLoop true with condition := some fun _ => .ok (.value 7) }).output 0 = ([50], some 5) ∧
    ({ exampleLoop true with condition := some fun _ => .ok (.stream [] 0) }).output 0 = ([50], some 7) := by
  decide +kernel

/-- A loop with a name that is used twice. -/
example : (match ({ exampleLoop true with lastName := "sum" }).start with
    | .error name => name | .ok _ => "") = "sum" := by decide +kernel

/-- A reduction. -/
def exampleReduce : Reduce Nat Bool Nat where
  typeOf v := v < 100
  ok := 0
  orphaned := 1
  wrongType := 2
  initial := 7
  input := [1, 2, 3]
  ending := 0
  functor x y := .ok (2 * x + y)

example : exampleReduce.output = ([67], 0) ∧ ({ exampleReduce with input := [1, 2, 3, 4] }).output = ([], 2) ∧
    ({ exampleReduce with ending := 8 }).output = ([], 8) := by decide +kernel

example : (run 1 exampleReduce.program exampleReduce.start
      ([Op.routine, .routine, .routine, .produce 0, .routine, .routine, .produce 0, .routine, .routine, .produce 0] ++
        List.replicate 15 .routine)).items = [] ∧
    (run 1 exampleReduce.program exampleReduce.start
      ([Op.routine, .routine, .routine, .produce 0, .routine, .routine, .produce 0, .routine, .routine, .produce 0] ++
        List.replicate 15 .routine ++ [.finish 0] ++ List.replicate 15 .routine)).items = [67] ∧
    (run 1 exampleReduce.program exampleReduce.start
      ([Op.routine, .routine, .routine, .produce 0, .routine, .routine, .produce 0, .routine, .routine, .produce 0] ++
        List.replicate 15 .routine ++ [.finish 0] ++ List.replicate 15 .routine)).closed = some 0 := by
  decide +kernel

end Verif.StreamLoop
