import Verif.StreamMap.Lemmas

/-!
`stream.map` ends: the steps of the operator that change anything are finitely many.
-/

namespace Verif.StreamMap

set_option linter.unusedSectionVars false

variable {A B S : Type}

/-- The steps that a task may still need. -/
def Task.weight (t : Task) : Nat :=
  match t.phase with
  | .scheduled => 5
  | .pushing => 4
  | .draining => 2
  | .stopping => 1

def weights (tasks : List Task) : Nat := (tasks.map Task.weight).sum

def filled (buffer : List (Option B)) : Nat := buffer.countP Option.isSome

def pcWeight (pc : Pc) (readCount ready : Nat) (ended : Bool) : Nat :=
  match pc with
  | .start => 2
  | .loop => 1
  | .check => 2
  | .waiting => if readCount < ready || ended then 3 else 0
  | .done => 0

/-- A bound of the number of steps. -/
def measure (w : World B S) : Nat :=
  10 * (w.ready - w.readCount) + pcWeight w.pc w.readCount w.ready w.ended + weights w.tasks + filled w.sink.buffer

theorem weights_set {tasks : List Task} {i : Nat} {t t' : Task} (h : tasks[i]? = some t) :
    weights (tasks.set i t') + t.weight = weights tasks + t'.weight := by
  obtain ⟨pre, post, h1, h2, _⟩ := list_split h
  rw [h2, h1]
  simp [weights, List.sum_append]
  omega

theorem weights_erase {tasks : List Task} {i : Nat} {t : Task} (h : tasks[i]? = some t) :
    weights (tasks.eraseIdx i) + t.weight = weights tasks := by
  obtain ⟨pre, post, h1, _, h3⟩ := list_split h
  rw [h3, h1]
  simp [weights, List.sum_append]
  omega

theorem filled_set (xs : List (Option B)) (i : Nat) (b : B) :
    filled (xs.set i (some b)) ≤ filled xs + 1 := by
  induction xs generalizing i with
  | nil => simp [filled]
  | cons x xs ih =>
    cases i with
    | zero =>
      simp only [filled, List.set_cons_zero, List.countP_cons]
      split <;> split <;> omega
    | succ i =>
      have := ih i
      simp only [filled, List.set_cons_succ, List.countP_cons] at this ⊢
      omega

theorem filled_bufferSet (xs : List (Option B)) (i : Nat) (b : B) :
    filled (bufferSet xs i b) ≤ filled xs + 1 := by
  unfold bufferSet
  refine Nat.le_trans (filled_set _ _ _) ?_
  split
  · simp [filled, List.countP_replicate]
  · exact Nat.le_refl _

theorem pushStatus_buffer (s : Sink B S) (o : Output B S) (k : Nat) (status : S) :
    (s.pushStatus o k status).1.buffer = s.buffer := by
  unfold Sink.pushStatus
  split
  · simp only
    split <;> rfl
  · rfl

/-- A task that does not wait for the mutex makes progress. -/
theorem task_decreases {c : Config A B S} {w : World B S} (h : Inv c w) {i k : Nat} {phase : Phase}
    (ht : w.tasks[i]? = some ⟨k, phase⟩) (hp : phase = .pushing → w.sink.locked = false) :
    measure (w.task c i) < measure w := by
  unfold World.task
  rw [ht]
  cases phase with
  | scheduled =>
    simp only
    split
    · have := weights_set (t' := ⟨k, .pushing⟩) ht
      simp only [Task.weight] at this
      simp only [measure, World.goto]
      omega
    · have := weights_erase ht
      simp only [Task.weight] at this
      simp only [measure, World.finishTask]
      omega
  | pushing =>
    simp only
    rw [if_neg (by rw [hp rfl]; simp)]
    have hst := weights_set (t' := ⟨k, .stopping⟩) ht
    have hdr := weights_set (t' := ⟨k, .draining⟩) ht
    simp only [Task.weight] at hst hdr
    unfold World.push
    split
    · rename_i hn
      exfalso
      have h1 := h.actLt k (act_mem ht rfl)
      have h2 := h.readReady
      have h3 := h.readyAll
      rw [List.getElem?_eq_getElem (by omega)] at hn
      simp at hn
    · rename_i status hres
      have := pushStatus_buffer w.sink w.out k status
      simp only [measure, World.goto]
      rw [this]
      omega
    · rename_i b hres
      split
      · have := filled_bufferSet w.sink.buffer (k - w.sink.writeCount) b
        simp only [measure, World.goto]
        omega
      · simp only [measure, World.goto]
        omega
  | draining =>
    have hst := weights_set (t' := ⟨k, .stopping⟩) ht
    have her := weights_erase ht
    simp only [Task.weight] at hst her
    simp only
    have hend : measure (if w.sink.finalOffset = some w.sink.writeCount then
        { w with
          out := w.out.tryClose w.sink.finalStatus
          sink := { w.sink with finalOffset := some 0, locked := false } }.goto i k .stopping
        else { w with sink := { w.sink with locked := false } }.finishTask i) < measure w := by
      split
      · simp only [measure, World.goto]
        omega
      · simp only [measure, World.finishTask]
        omega
    unfold World.drain
    split
    · rename_i b rest hbuf
      have hf : filled w.sink.buffer = filled rest + 1 := by
        rw [hbuf]
        simp [filled]
      split
      · simp only [measure]
        omega
      · simp only [measure, World.goto]
        omega
    · exact hend
  | stopping =>
    have := weights_erase ht
    simp only [Task.weight] at this
    simp only [measure, World.finishTask]
    omega

/-- Where the reader of items does not wait for anything it makes progress. -/
theorem reader_decreases {c : Config A B S} {w : World B S}
    (h1 : w.pc = .loop → w.readCount < w.ready ∨ w.ended = false ∨ w.sink.locked = false)
    (h2 : w.pc = .waiting → (w.readCount < w.ready || w.ended) = true) (h3 : w.pc ≠ .done) :
    measure (w.reader c) < measure w := by
  have hchk : ∀ pc, pc = .start ∨ pc = .loop → w.pc ≠ .loop → w.pc ≠ .done →
      (pc = .start → w.pc = .waiting) → (w.pc = .waiting → (w.readCount < w.ready || w.ended) = true) →
      measure { w with pc := if w.stop then .done else pc } < measure w := by
    intro pc hpc hl hd hw hav
    cases hs : w.stop <;> cases hp : w.pc <;> rcases hpc with rfl | rfl <;>
      simp_all [measure, pcWeight] <;> omega
  unfold World.reader
  split
  · rename_i hp
    exact hchk .loop (.inr rfl) (by simp [hp]) h3 (fun hc => by cases hc) h2
  · rename_i hp
    split
    · rename_i hlt
      have : weights (w.tasks ++ [⟨w.readCount, .scheduled⟩]) = weights w.tasks + 5 := by
        simp [weights, List.sum_append, Task.weight]
      simp only [measure, pcWeight, hp, this]
      omega
    · rename_i hlt
      split
      · rename_i he
        rw [if_neg]
        · have hb := pushStatus_buffer w.sink w.out w.readCount c.ending
          simp only [measure, pcWeight, hp, hb]
          omega
        · rcases h1 hp with h | h | h
          · exact absurd h hlt
          · rw [he] at h
            cases h
          · rw [h]
            simp
      · rename_i he
        have hn : ¬ ((decide (w.readCount < w.ready) || w.ended) = true) := by
          simp [hlt, he]
        simp only [measure, pcWeight, hp]
        rw [if_neg hn]
        omega
  · rename_i hp
    exact hchk .loop (.inr rfl) (by simp [hp]) h3 (fun hc => by cases hc) h2
  · rename_i hp
    rw [if_pos (h2 hp)]
    exact hchk .start (.inl rfl) (by simp [hp]) h3 (fun _ => hp) h2
  · rename_i hp
    exact absurd hp h3

/-- A step of the operator changes nothing or makes progress. -/
theorem internal_decreases {c : Config A B S} {w : World B S} (h : Inv c w) {op : Op S}
    (hi : op.Internal) : step c w op = w ∨ measure (step c w op) < measure w := by
  cases op with
  | reader =>
    simp only [step]
    by_cases h3 : w.pc = .done
    · left
      simp [World.reader, h3]
    · by_cases h1 : w.pc = .loop → w.readCount < w.ready ∨ w.ended = false ∨ w.sink.locked = false
      · by_cases h2 : w.pc = .waiting → (w.readCount < w.ready || w.ended) = true
        · exact .inr (reader_decreases h1 h2 h3)
        · left
          rw [Classical.not_imp] at h2
          simp only [World.reader, h2.1]
          rw [if_neg h2.2]
      · left
        rw [Classical.not_imp, not_or, not_or] at h1
        obtain ⟨p1, p2, p3, p4⟩ := h1
        simp only [World.reader, p1]
        rw [if_neg p2, if_pos (by simpa using p3), if_pos (by simpa using p4)]
  | task i =>
    simp only [step]
    cases ht : w.tasks[i]? with
    | none =>
      left
      simp [World.task, ht]
    | some t =>
      obtain ⟨k, phase⟩ := t
      by_cases hp : phase = .pushing → w.sink.locked = false
      · exact .inr (task_decreases h ht hp)
      · rw [Classical.not_imp] at hp
        obtain ⟨rfl, hl⟩ := hp
        left
        simp only [World.task, ht]
        rw [if_pos (by simpa using hl)]
  | _ => cases hi

/-- Where no step of the operator changes anything, it has read the input and no task is left. -/
theorem quiescent {c : Config A B S} {w : World B S} (h : Inv c w)
    (hq : ∀ op : Op S, op.Internal → step c w op = w) :
    w.sink.locked = false ∧ w.tasks = [] ∧ (w.ended = true ∨ w.stop = true → w.pc = .done ∨
      (w.pc = .waiting ∧ w.ended = false)) := by
  have hne : ∀ w' : World B S, w' = w → ¬ measure w' < measure w := by
    intro w' he
    rw [he]
    omega
  have hlock : w.sink.locked = false := by
    cases hl : w.sink.locked with
    | false => rfl
    | true =>
      exfalso
      have h1 := h.lock
      rw [hl] at h1
      have h2 : 0 < drains w.tasks := by simp at h1; omega
      unfold drains at h2
      rw [List.countP_pos_iff] at h2
      obtain ⟨t, hm, hp⟩ := h2
      obtain ⟨i, hi⟩ := List.mem_iff_getElem?.1 hm
      obtain ⟨k, phase⟩ := t
      simp at hp
      subst hp
      exact hne _ (hq (.task i) trivial) (task_decreases h hi (fun hc => by cases hc))
  refine ⟨hlock, ?_, ?_⟩
  · cases ht : w.tasks with
    | nil => rfl
    | cons t ts =>
      exfalso
      obtain ⟨k, phase⟩ := t
      exact hne _ (hq (.task 0) trivial)
        (task_decreases (i := 0) (k := k) (phase := phase) h (by rw [ht]; rfl) (fun _ => hlock))
  · intro _
    by_cases h3 : w.pc = .done
    · exact .inl h3
    · by_cases h2 : w.pc = .waiting → (w.readCount < w.ready || w.ended) = true
      · exact absurd (reader_decreases (fun _ => .inr (.inr hlock)) h2 h3)
          (hne _ (hq .reader trivial))
      · rw [Classical.not_imp] at h2
        refine .inr ⟨h2.1, ?_⟩
        have := h2.2
        rw [Bool.or_eq_true, not_or] at this
        simpa using this.2

end Verif.StreamMap
