import Verif.StreamMapUnordered.Lemmas

/-!
`stream.map_unordered` ends: the steps of the operator that change anything are finitely many.
-/

namespace Verif.StreamMapUnordered

open Verif.StreamMap (Config Output list_split res)

set_option linter.unusedSectionVars false

variable {A B S : Type} [DecidableEq S]

/-- The steps that a task may still need. -/
def Task.weight (t : Task) : Nat :=
  match t.phase with
  | .scheduled => 6
  | .pushing => 5
  | .writing => 4
  | .counting => 1
  | .failing => 2
  | .closing => 2
  | .stopping => 1

def weights (tasks : List Task) : Nat := (tasks.map Task.weight).sum

def pcWeight (pc : Pc) (readCount ready : Nat) (ended : Bool) : Nat :=
  match pc with
  | .start => 3
  | .loop => 2
  | .check => 3
  | .waiting => if readCount < ready || ended then 4 else 0
  | .closing => 1
  | .done => 0

def cancelWeight : Cancel → Nat
  | .idle => 0
  | .closing => 1
  | .flag => 2

/-- A bound of the number of steps. -/
def measure (w : World B S) : Nat :=
  10 * (w.ready - w.readCount) + pcWeight w.pc w.readCount w.ready w.ended + weights w.tasks +
    cancelWeight w.cancel + (!w.destroyed).toNat

theorem weights_set {tasks : List Task} {i : Nat} {t : Task} (t' : Task) (h : tasks[i]? = some t) :
    weights (tasks.set i t') + t.weight = weights tasks + t'.weight := by
  obtain ⟨pre, post, h1, h2, _⟩ := list_split h
  rw [h2, h1]
  simp [weights, List.sum_append]
  omega

theorem weights_erase {tasks : List Task} {i : Nat} {t : Task} (h : tasks[i]? = some t) :
    weights (tasks.eraseIdx i) + t.weight = weights tasks := by
  obtain ⟨pre, post, h1, _, h3⟩ := list_split h
  rw [h3, h1]
  simp [weights, List.sum_append]
  omega

/-- `Close` only changes the output. -/
theorem close_frame (w : World B S) (s : S) :
    (w.close s).ready = w.ready ∧ (w.close s).readCount = w.readCount ∧ (w.close s).pc = w.pc ∧
    (w.close s).ended = w.ended ∧ (w.close s).tasks = w.tasks ∧ (w.close s).cancel = w.cancel ∧
    (w.close s).destroyed = w.destroyed := by
  unfold World.close
  split <;> exact ⟨rfl, rfl, rfl, rfl, rfl, rfl, rfl⟩

/-- A task makes progress. -/
theorem task_decreases {c : Config A B S} {orphaned : S} {w : World B S} (h : Inv c orphaned w)
    {i : Nat} {t : Task} (ht : w.tasks[i]? = some t) : measure (w.task c i) < measure w := by
  obtain ⟨k, phase⟩ := t
  unfold World.task
  rw [ht]
  have hset := fun p => weights_set (⟨k, p⟩ : Task) ht
  have her := weights_erase ht
  cases phase with
  | scheduled =>
    simp only
    have h1 := hset .pushing
    simp only [Task.weight] at h1 her
    split
    · simp only [measure, World.finishTask]
      omega
    · simp only [measure, World.goto]
      omega
  | pushing =>
    simp only
    have h1 := hset .stopping
    have h2 := hset .closing
    have h3 := hset .writing
    simp only [Task.weight] at h1 h2 h3
    unfold World.push
    split
    · rename_i hn
      exfalso
      have h1 := h.actLt k (act_mem ht rfl)
      have h2 := h.readReady
      have h3 := h.readyAll
      rw [List.getElem?_eq_getElem (by omega)] at hn
      simp at hn
    · split
      · simp only [measure, World.goto]
        omega
      · simp only [measure, World.goto]
        omega
    · split
      · simp only [measure, World.goto]
        omega
      · simp only [measure, World.goto]
        omega
  | writing =>
    simp only
    have h1 := hset .counting
    have h2 := hset .failing
    simp only [Task.weight] at h1 h2
    obtain ⟨b, hb⟩ := h.taskWriting _ (List.mem_of_getElem? ht) rfl
    unfold res at hb
    unfold World.write
    simp only at hb
    rw [hb]
    simp only
    split
    · simp only [measure, World.goto]
      omega
    · simp only [measure, World.goto]
      omega
  | counting =>
    simp only [Task.weight] at her
    simp only [measure, World.finishTask]
    omega
  | failing =>
    have h1 := hset .stopping
    simp only [Task.weight] at h1
    simp only [measure, World.goto]
    omega
  | closing =>
    have h1 := hset .stopping
    simp only [Task.weight] at h1
    obtain ⟨s, hs⟩ := h.taskClosing _ (List.mem_of_getElem? ht) rfl
    unfold res at hs
    simp only at hs ⊢
    unfold World.closeTask
    rw [hs]
    simp only [measure, World.goto]
    obtain ⟨f1, f2, f3, f4, f5, f6, f7⟩ := close_frame w s
    rw [f1, f2, f3, f4, f5, f6, f7]
    omega
  | stopping =>
    simp only [Task.weight] at her
    simp only [measure, World.finishTask]
    omega

/-- The reader of items makes progress where it does not wait. -/
theorem reader_decreases {c : Config A B S} {w : World B S}
    (h2 : w.pc = .waiting → (w.readCount < w.ready || w.ended) = true) (h3 : w.pc ≠ .done) :
    measure (w.reader c) < measure w := by
  unfold World.reader
  split
  · rename_i hp
    simp only [measure, hp]
    cases w.stop <;> simp [pcWeight]
  · rename_i hp
    split
    · rename_i hlt
      have : weights (w.tasks ++ [⟨w.readCount, .scheduled⟩]) = weights w.tasks + 6 := by
        simp [weights, List.sum_append, Task.weight]
      simp only [measure, pcWeight, hp, this]
      omega
    · rename_i hlt
      split
      · unfold World.readerStatus
        split
        · simp only [measure, pcWeight, hp]
          omega
        · split
          · simp only [measure, pcWeight, hp]
            omega
          · simp only [measure, pcWeight, hp]
            omega
      · rename_i he
        have hn : ¬ ((decide (w.readCount < w.ready) || w.ended) = true) := by
          simp [hlt, he]
        simp only [measure, pcWeight, hp]
        rw [if_neg hn]
        omega
  · rename_i hp
    simp only [measure, hp]
    cases w.stop <;> simp [pcWeight]
  · rename_i hp
    rw [if_pos (h2 hp)]
    simp only [measure, hp]
    have h4 : pcWeight .waiting w.readCount w.ready w.ended = 4 := by
      simp only [pcWeight]
      rw [if_pos (h2 hp)]
    rw [h4]
    cases w.stop <;> simp [pcWeight] <;> omega
  · rename_i hp
    obtain ⟨f1, f2, f3, f4, f5, f6, f7⟩ := close_frame w c.ending
    simp only [measure, f1, f2, f5, f6, f7, hp, pcWeight]
    omega
  · rename_i hp
    exact absurd hp h3

theorem cancel_decreases {c : Config A B S} {orphaned : S} {w : World B S} (h : Inv c orphaned w)
    (hc : w.cancel ≠ .idle) : measure w.cancelStep < measure w := by
  obtain ⟨s, hs⟩ := Option.ne_none_iff_exists'.1 (h.cancelling hc)
  unfold World.cancelStep
  split
  · rename_i hcan
    split <;> simp only [measure, hcan, cancelWeight] <;> omega
  · rename_i status hcan hst
    obtain ⟨f1, f2, f3, f4, f5, f6, f7⟩ := close_frame w status
    simp only [measure, f1, f2, f3, f4, f5, f7, hcan, cancelWeight]
    omega
  · rename_i h1 h2
    cases hcan : w.cancel with
    | idle => exact absurd hcan hc
    | flag => exact absurd hcan h1
    | closing => exact absurd hs (h2 s hcan)

theorem destroy_decreases {c : Config A B S} {orphaned : S} {w : World B S}
    (hp : w.pc = .done ∧ w.tasks = [] ∧ w.cancel = .idle ∧ w.destroyed = false) :
    measure (w.destroy c orphaned) < measure w := by
  unfold World.destroy
  rw [if_pos hp]
  obtain ⟨f1, f2, f3, f4, f5, f6, f7⟩ := close_frame w c.ok
  simp only
  split
  · simp only [measure, f1, f2, f3, f4, f5, f6, hp.2.2.2]
    simp
  · simp only [measure, hp.2.2.2]
    simp

/-- A step of the operator changes nothing or makes progress. -/
theorem internal_decreases {c : Config A B S} {orphaned : S} {w : World B S} (h : Inv c orphaned w)
    {op : Op S} (hi : op.Internal) :
    step c orphaned w op = w ∨ measure (step c orphaned w op) < measure w := by
  cases op with
  | reader =>
    simp only [step]
    by_cases h3 : w.pc = .done
    · left
      simp [World.reader, h3]
    · by_cases h2 : w.pc = .waiting → (w.readCount < w.ready || w.ended) = true
      · exact .inr (reader_decreases h2 h3)
      · left
        rw [Classical.not_imp] at h2
        simp only [World.reader, h2.1]
        rw [if_neg h2.2]
  | task i =>
    simp only [step]
    cases ht : w.tasks[i]? with
    | none =>
      left
      simp [World.task, ht]
    | some t => exact .inr (task_decreases h ht)
  | cancelStep =>
    simp only [step]
    by_cases hc : w.cancel = .idle
    · left
      simp [World.cancelStep, hc]
    · exact .inr (cancel_decreases h hc)
  | destroy =>
    simp only [step]
    by_cases hp : w.pc = .done ∧ w.tasks = [] ∧ w.cancel = .idle ∧ w.destroyed = false
    · exact .inr (destroy_decreases hp)
    · left
      unfold World.destroy
      rw [if_neg hp]
  | _ => cases hi

/-- Where no step of the operator changes anything, nothing of it is left but a reader that waits for
the input. -/
theorem quiescent {c : Config A B S} {orphaned : S} {w : World B S} (h : Inv c orphaned w)
    (hq : ∀ op : Op S, op.Internal → step c orphaned w op = w) :
    w.tasks = [] ∧ w.cancel = .idle ∧
    ((w.pc = .done ∧ w.destroyed = true) ∨ (w.pc = .waiting ∧ w.ended = false)) := by
  have hne : ∀ w' : World B S, w' = w → ¬ measure w' < measure w := by
    intro w' he
    rw [he]
    omega
  have htasks : w.tasks = [] := by
    cases ht : w.tasks with
    | nil => rfl
    | cons t ts =>
      exfalso
      exact hne _ (hq (.task 0) trivial) (task_decreases (i := 0) (t := t) h (by rw [ht]; rfl))
  have hcan : w.cancel = .idle := by
    apply Classical.byContradiction
    intro hc
    exact hne _ (hq .cancelStep trivial) (cancel_decreases h hc)
  refine ⟨htasks, hcan, ?_⟩
  by_cases h3 : w.pc = .done
  · refine .inl ⟨h3, ?_⟩
    cases hd : w.destroyed with
    | true => rfl
    | false => exact absurd (destroy_decreases ⟨h3, htasks, hcan, hd⟩) (hne _ (hq .destroy trivial))
  · by_cases h2 : w.pc = .waiting → (w.readCount < w.ready || w.ended) = true
    · exact absurd (reader_decreases h2 h3) (hne _ (hq .reader trivial))
    · rw [Classical.not_imp] at h2
      refine .inr ⟨h2.1, ?_⟩
      have := h2.2
      rw [Bool.or_eq_true, not_or] at this
      simpa using this.2

end Verif.StreamMapUnordered
