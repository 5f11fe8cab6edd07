import Verif.StreamMapUnordered.Spec
import Verif.StreamMap.Lemmas

/-!
The invariant of `stream.map_unordered`.
-/

namespace Verif.StreamMapUnordered

open Verif.StreamMap (Config Output list_split res)

set_option linter.unusedSectionVars false

variable {A B S : Type} [DecidableEq S]

/-! ### Lists of tasks -/

/-- The offset of a task that has not written its result. -/
def Task.active (t : Task) : Option Nat :=
  match t.phase with
  | .scheduled => some t.offset
  | .pushing => some t.offset
  | .writing => some t.offset
  | _ => none

/-- The offsets of these tasks. -/
def act (tasks : List Task) : List Nat := tasks.filterMap Task.active

/-- The number of tasks in a phase. -/
def num (phase : Phase) (tasks : List Task) : Nat := tasks.countP fun t => t.phase = phase

theorem act_append (xs ys : List Task) : act (xs ++ ys) = act xs ++ act ys := by
  simp [act]

theorem act_cons (t : Task) (ts : List Task) : act (t :: ts) = t.active.toList ++ act ts := by
  unfold act
  rw [List.filterMap_cons]
  cases t.active <;> rfl

theorem num_append (p : Phase) (xs ys : List Task) : num p (xs ++ ys) = num p xs + num p ys := by
  simp [num]

theorem num_cons (p : Phase) (t : Task) (ts : List Task) :
    num p (t :: ts) = num p ts + if t.phase = p then 1 else 0 := by
  simp [num, List.countP_cons]

theorem act_set_same {tasks : List Task} {i : Nat} {t t' : Task} (h : tasks[i]? = some t)
    (ha : t'.active = t.active) : act (tasks.set i t') = act tasks := by
  obtain ⟨pre, post, h1, h2, _⟩ := list_split h
  rw [h2, h1, act_append, act_append, act_cons, act_cons, ha]

/-- A task with this offset is not active any more. -/
structure Removed (tasks tasks' : List Task) (k : Nat) : Prop where
  nodup : (act tasks').Nodup
  mem : ∀ j, j ∈ act tasks' ↔ j ∈ act tasks ∧ j ≠ k
  len : (act tasks').length + 1 = (act tasks).length

theorem act_set_none {tasks : List Task} {i k : Nat} {t t' : Task} (h : tasks[i]? = some t)
    (ht : t.active = some k) (ht' : t'.active = none) (hn : (act tasks).Nodup) :
    Removed tasks (tasks.set i t') k := by
  obtain ⟨pre, post, h1, h2, _⟩ := list_split h
  rw [h1, act_append, act_cons, ht] at hn
  have e1 : act (tasks.set i t') = act pre ++ act post := by
    rw [h2, act_append, act_cons, ht']
    rfl
  have e2 : act tasks = act pre ++ k :: act post := by
    rw [h1, act_append, act_cons, ht]
    rfl
  simp only [Option.toList_some, List.singleton_append] at hn
  rw [List.nodup_append] at hn
  obtain ⟨n1, n2, n3⟩ := hn
  rw [List.nodup_cons] at n2
  refine ⟨?_, ?_, ?_⟩
  · rw [e1, List.nodup_append]
    exact ⟨n1, n2.2, fun a ha b hb => n3 a ha b (by simp [hb])⟩
  · intro j
    rw [e1, e2]
    simp only [List.mem_append, List.mem_cons]
    constructor
    · rintro (hj | hj)
      · exact ⟨.inl hj, n3 j hj k (by simp)⟩
      · exact ⟨.inr (.inr hj), fun hk => n2.1 (hk ▸ hj)⟩
    · rintro ⟨hj | hj | hj, hne⟩
      · exact .inl hj
      · exact absurd hj hne
      · exact .inr hj
  · rw [e1, e2]
    simp
    omega

theorem act_erase_none {tasks : List Task} {i : Nat} {t : Task} (h : tasks[i]? = some t)
    (ht : t.active = none) : act (tasks.eraseIdx i) = act tasks := by
  obtain ⟨pre, post, h1, _, h3⟩ := list_split h
  rw [h3, h1, act_append, act_append, act_cons, ht]
  rfl

theorem act_erase_some {tasks : List Task} {i k : Nat} {t : Task} (h : tasks[i]? = some t)
    (ht : t.active = some k) (hn : (act tasks).Nodup) :
    Removed tasks (tasks.eraseIdx i) k := by
  have hr := act_set_none (t' := ⟨k, .stopping⟩) h ht rfl hn
  obtain ⟨pre, post, h1, h2, h3⟩ := list_split h
  have e : act (tasks.set i ⟨k, .stopping⟩) = act (tasks.eraseIdx i) := by
    rw [h2, h3, act_append, act_cons, act_append]
    rfl
  exact ⟨e ▸ hr.nodup, fun j => by rw [← e]; exact hr.mem j, by rw [← e]; exact hr.len⟩

theorem act_mem {tasks : List Task} {i k : Nat} {t : Task} (h : tasks[i]? = some t)
    (ht : t.active = some k) : k ∈ act tasks :=
  List.mem_filterMap.2 ⟨t, List.mem_of_getElem? h, ht⟩

theorem num_set (p : Phase) {tasks : List Task} {i : Nat} {t : Task} (t' : Task)
    (h : tasks[i]? = some t) : num p (tasks.set i t') + (if t.phase = p then 1 else 0) =
      num p tasks + if t'.phase = p then 1 else 0 := by
  obtain ⟨pre, post, h1, h2, _⟩ := list_split h
  rw [h2, h1, num_append, num_append, num_cons, num_cons]
  omega

theorem num_erase (p : Phase) {tasks : List Task} {i : Nat} {t : Task} (h : tasks[i]? = some t) :
    num p (tasks.eraseIdx i) + (if t.phase = p then 1 else 0) = num p tasks := by
  obtain ⟨pre, post, h1, _, h3⟩ := list_split h
  rw [h3, h1, num_append, num_append, num_cons]
  omega

theorem num_pos {p : Phase} {tasks : List Task} {i : Nat} {t : Task} (h : tasks[i]? = some t)
    (ht : t.phase = p) : 0 < num p tasks := by
  unfold num
  rw [List.countP_pos_iff]
  exact ⟨t, List.mem_of_getElem? h, by simpa using ht⟩

theorem mem_set_cases {tasks : List Task} {i : Nat} {t t' : Task} (h : t ∈ tasks.set i t') :
    t ∈ tasks ∨ t = t' := List.mem_or_eq_of_mem_set h

/-! ### The invariant -/

/-- The number of threads before `Close`. -/
def closers (w : World B S) : Nat :=
  num .closing w.tasks + (if w.pc = .closing then 1 else 0) +
    (if w.cancel = .closing then 1 else 0)

/-- The items were written at these offsets. -/
def Written (c : Config A B S) (w : World B S) (offs : List Nat) : Prop :=
  offs.Nodup ∧ (∀ k ∈ offs, k < w.readCount ∧ k ∉ act w.tasks) ∧
    offs.map (res c) = w.out.items.map fun b => some (.ok b)

/-- What the output may be closed with. -/
def ClosedWith (c : Config A B S) (orphaned : S) (w : World B S) (s : S) : Prop :=
  w.cancelled = some s ∨ (∃ k, res c k = some (.error s)) ∨ (s = c.ending ∧ s ≠ c.ok) ∨
  (s = c.ok ∧ w.out.items.length = c.input.length ∧ c.ending = c.ok) ∨
  (s = orphaned ∧ w.out.gone = true)

structure Inv (c : Config A B S) (orphaned : S) (w : World B S) : Prop where
  readReady : w.readCount ≤ w.ready
  readyAll : w.ready ≤ c.input.length
  ended : w.ended = true → w.ready = c.input.length
  data : ∃ offs, Written c w offs
  actLt : ∀ k ∈ act w.tasks, k < w.readCount
  actNodup : (act w.tasks).Nodup
  count : w.writeCount + num .counting w.tasks = w.out.items.length
  cover : w.failed = false →
    w.out.items.length + (act w.tasks).length + num .failing w.tasks = w.readCount
  stop : w.stop = true → w.failed = true ∨ w.cancel = .flag
  stopping : ∀ t ∈ w.tasks, t.phase = .stopping → w.failed = true
  pcDone : w.pc = .done → w.failed = true ∨ w.cancel = .flag ∨ w.size = some w.readCount
  size : ∀ n, w.size = some n → n = w.readCount ∧ w.readCount = c.input.length ∧
    c.ending = c.ok ∧ w.pc = .done
  pcClosing : w.pc = .closing → c.ending ≠ c.ok
  oneCloser : closers w + w.out.requested.toNat ≤ w.failed.toNat
  failedWhy : w.failed = true → w.out.requested = true ∨ w.out.gone = true ∨ 0 < closers w
  failing : 0 < num .failing w.tasks → w.out.requested = true ∨ w.out.gone = true
  taskClosing : ∀ t ∈ w.tasks, t.phase = .closing → ∃ s, res c t.offset = some (.error s)
  taskWriting : ∀ t ∈ w.tasks, t.phase = .writing → ∃ b, res c t.offset = some (.ok b)
  cancelling : w.cancel ≠ .idle → w.cancelled ≠ none
  cancelled : w.cancelled ≠ none → w.failed = true ∨ w.cancel = .flag
  destroyed : w.destroyed = true →
    w.out.requested = true ∧ w.failed = true ∧ w.tasks = [] ∧ w.pc = .done ∧ w.cancel = .idle
  closed : ∀ s, w.out.closed = some s → ClosedWith c orphaned w s
  requested : w.out.requested = w.out.closed.isSome
  fatal : w.fatal = false

theorem inv_new (c : Config A B S) (orphaned : S) : Inv c orphaned ({} : World B S) where
  readReady := Nat.le_refl _
  readyAll := Nat.zero_le _
  ended := fun h => by cases h
  data := ⟨[], List.nodup_nil, (fun k h => by cases h), rfl⟩
  actLt := fun k h => by cases h
  actNodup := List.nodup_nil
  count := rfl
  cover := fun _ => rfl
  stop := fun h => by cases h
  stopping := fun t h => by cases h
  pcDone := fun h => by cases h
  size := fun n h => by cases h
  pcClosing := fun h => by cases h
  oneCloser := by simp [closers, num]
  failedWhy := fun h => by cases h
  failing := fun h => by simp [num] at h
  taskClosing := fun t h => by cases h
  taskWriting := fun t h => by cases h
  cancelling := fun h => absurd rfl h
  cancelled := fun h => absurd rfl h
  destroyed := fun h => by cases h
  closed := fun s h => by cases h
  requested := rfl
  fatal := rfl

/-- `Close` by a thread that was to call it is the only one. -/
theorem close_eq {w : World B S} (status : S) (h : w.out.requested = false) :
    w.close status =
      { w with out := { w.out with requested := true, closed := some status } } := by
  unfold World.close
  rw [h]
  simp

/-- Inv without the status of the output: the state in which a closer closes. -/
theorem inv_close {c : Config A B S} {orphaned : S} {w : World B S} (h : Inv c orphaned w)
    (status : S) (pc : Pc) (cancel : Cancel) (tasks : List Task)
    (hc : 0 < closers w)
    (hcl : closers { w with pc, cancel, tasks } + 1 = closers w)
    (hact : act tasks = act w.tasks) (hcount : num .counting tasks = num .counting w.tasks)
    (hstop : ∀ t ∈ tasks, t ∈ w.tasks ∨ t.phase = .stopping)
    (hpc : pc = w.pc ∨ (pc = .done ∧ w.pc = .closing)) (hcan : cancel = w.cancel ∨ cancel = .idle)
    (hst : ClosedWith c orphaned w status) :
    Inv c orphaned { w.close status with pc, cancel, tasks } := by
  have hcl0 := h.oneCloser
  have hf : w.failed = true := by
    cases hf : w.failed with
    | true => rfl
    | false =>
      rw [hf] at hcl0
      simp at hcl0
      omega
  have hr : w.out.requested = false := by
    cases hr : w.out.requested with
    | false => rfl
    | true =>
      rw [hf, hr] at hcl0
      simp at hcl0
      omega
  rw [close_eq status hr]
  rw [hf, hr] at hcl0
  simp at hcl0
  have hsub : ∀ t ∈ tasks, ∀ p, p ≠ .stopping → t.phase = p → t ∈ w.tasks := by
    intro t ht p hp hpt
    rcases hstop t ht with h1 | h1
    · exact h1
    · rw [hpt] at h1
      exact absurd h1 hp
  have hc0 : closers { w with pc, cancel, tasks } = 0 := by omega
  exact {
    readReady := h.readReady
    readyAll := h.readyAll
    ended := h.ended
    data := by
      obtain ⟨offs, h1, h2, h3⟩ := h.data
      refine ⟨offs, h1, ?_, h3⟩
      simp only
      rw [hact]
      exact h2
    actLt := by simp only; rw [hact]; exact h.actLt
    actNodup := by simp only; rw [hact]; exact h.actNodup
    count := by simp only; rw [hcount]; exact h.count
    cover := fun hc => by
      simp only at hc
      rw [hf] at hc
      cases hc
    stop := fun _ => .inl hf
    stopping := fun t _ _ => hf
    pcDone := fun _ => .inl hf
    size := fun n hn => by
      obtain ⟨s1, s2, s3, s4⟩ := h.size n hn
      refine ⟨s1, s2, s3, ?_⟩
      rcases hpc with rfl | ⟨_, h5⟩
      · exact s4
      · rw [s4] at h5
        cases h5
    pcClosing := fun hp => by
      rcases hpc with rfl | ⟨rfl, _⟩
      · exact h.pcClosing hp
      · cases hp
    oneCloser := by
      show closers { w with pc, cancel, tasks } + true.toNat ≤ w.failed.toNat
      rw [hc0, hf]
      simp
    failedWhy := fun _ => .inl rfl
    failing := fun _ => .inl rfl
    taskClosing := fun t ht hp => h.taskClosing t (hsub t ht _ (by simp) hp) hp
    taskWriting := fun t ht hp => h.taskWriting t (hsub t ht _ (by simp) hp) hp
    cancelling := fun hne => by
      rcases hcan with rfl | rfl
      · exact h.cancelling hne
      · exact absurd rfl hne
    cancelled := fun _ => .inl hf
    destroyed := fun hd => by
      have := (h.destroyed hd).1
      rw [hr] at this
      cases this
    closed := fun s hs => by
      cases hs
      exact hst
    requested := rfl
    fatal := h.fatal }

theorem inv_cancelStep {c : Config A B S} {orphaned : S} {w : World B S} (h : Inv c orphaned w) :
    Inv c orphaned w.cancelStep := by
  unfold World.cancelStep
  split
  · rename_i hc
    split
    · rename_i hf
      have hcl : closers { w with cancel := .idle } = closers w := by
        simp [closers, hc]
      exact { h with
        stop := fun _ => .inl hf
        cancelled := fun _ => .inl hf
        pcDone := fun _ => .inl hf
        oneCloser := by rw [hcl]; exact h.oneCloser
        failedWhy := by rw [hcl]; exact h.failedWhy
        cancelling := fun hne => absurd rfl hne
        destroyed := fun hd => by
          obtain ⟨d1, d2, d3, d4, d5⟩ := h.destroyed hd
          exact ⟨d1, d2, d3, d4, rfl⟩ }
    · rename_i hf
      have hf' : w.failed = false := by simpa using hf
      have hcl0 := h.oneCloser
      rw [hf'] at hcl0
      simp at hcl0
      obtain ⟨hcl0, hr⟩ := hcl0
      have hcl : closers { w with failed := true, cancel := .closing } = 1 := by
        simp [closers, hc] at hcl0 ⊢
        omega
      exact { h with
        cover := fun hc => by cases hc
        stop := fun _ => .inl rfl
        cancelled := fun _ => .inl rfl
        stopping := fun _ _ _ => rfl
        pcDone := fun _ => .inl rfl
        oneCloser := by
          rw [hcl]
          simp [hr]
        failedWhy := fun _ => .inr (.inr (by rw [hcl]; decide))
        cancelling := fun _ => h.cancelling (by rw [hc]; simp)
        destroyed := fun hd => by
          obtain ⟨d1, d2, d3, d4, d5⟩ := h.destroyed hd
          rw [hc] at d5
          cases d5 }
  · rename_i status hc hs
    have hpos : 0 < closers w := by
      simp [closers, hc]
    have := inv_close h status w.pc .idle w.tasks hpos (by simp [closers, hc]) rfl rfl
      (fun t ht => .inl ht) (.inl rfl) (.inr rfl) (.inl hs)
    have e : (w.close status).pc = w.pc ∧ (w.close status).tasks = w.tasks := by
      unfold World.close
      split <;> exact ⟨rfl, rfl⟩
    rw [← e.1, ← e.2] at this
    exact this
  · exact h

theorem inv_reader {c : Config A B S} {orphaned : S} {w : World B S} (h : Inv c orphaned w) :
    Inv c orphaned (w.reader c) := by
  -- a step that only changes `pc`
  have hgo : ∀ pc, pc ≠ .closing → w.pc ≠ .closing → w.pc ≠ .done →
      (pc = .done → w.stop = true) → Inv c orphaned { w with pc } := by
    intro pc hne hne' hnd hstop
    have hcl : closers { w with pc } = closers w := by
      simp [closers, hne, hne']
    exact { h with
      pcDone := fun hd => by
        rcases h.stop (hstop hd) with h1 | h1
        · exact .inl h1
        · exact .inr (.inl h1)
      size := fun n hn => absurd (h.size n hn).2.2.2 hnd
      pcClosing := fun hp => absurd hp hne
      oneCloser := by rw [hcl]; exact h.oneCloser
      failedWhy := by rw [hcl]; exact h.failedWhy
      destroyed := fun hd => absurd (h.destroyed hd).2.2.2.1 hnd }
  have hgo' : ∀ pc, pc ≠ .closing → pc ≠ .done → w.pc ≠ .closing → w.pc ≠ .done →
      Inv c orphaned { w with pc := if w.stop then .done else pc } := by
    intro pc h1 h2 h3 h4
    apply hgo _ _ h3 h4
    · intro hd
      split at hd
      · assumption
      · exact absurd hd h2
    · split
      · simp
      · exact h1
  unfold World.reader
  split
  · rename_i hp
    exact hgo' .loop (by simp) (by simp) (by simp [hp]) (by simp [hp])
  · rename_i hp
    split
    · rename_i hlt
      have hmem : ∀ j, j ∈ act (w.tasks ++ [⟨w.readCount, .scheduled⟩]) ↔
          j ∈ act w.tasks ∨ j = w.readCount := by
        intro j
        rw [act_append]
        simp [act, Task.active]
      have hlen : (act (w.tasks ++ [⟨w.readCount, .scheduled⟩])).length =
          (act w.tasks).length + 1 := by
        rw [act_append]
        simp [act, Task.active]
      have hnum : ∀ p, p ≠ .scheduled →
          num p (w.tasks ++ [⟨w.readCount, .scheduled⟩]) = num p w.tasks := by
        intro p hp
        rw [num_append]
        simp [num, hp.symm]
      have htask : ∀ t ∈ w.tasks ++ [⟨w.readCount, .scheduled⟩], ∀ p, p ≠ .scheduled →
          t.phase = p → t ∈ w.tasks := by
        intro t ht p hp hpt
        rcases List.mem_append.1 ht with ht | ht
        · exact ht
        · rw [List.mem_singleton] at ht
          subst ht
          exact absurd hpt.symm hp
      have hcl : closers { w with
          tasks := w.tasks ++ [⟨w.readCount, .scheduled⟩]
          readCount := w.readCount + 1
          pc := .check } = closers w := by
        simp [closers, hnum, hp]
      exact { h with
        readReady := hlt
        data := by
          obtain ⟨offs, h1, h2, h3⟩ := h.data
          refine ⟨offs, h1, ?_, h3⟩
          intro k hk
          obtain ⟨h4, h5⟩ := h2 k hk
          refine ⟨Nat.lt_succ_of_lt h4, fun hm => ?_⟩
          rcases (hmem k).1 hm with hm | hm
          · exact h5 hm
          · omega
        actLt := fun k hk => by
          rcases (hmem k).1 hk with hk | rfl
          · exact Nat.lt_succ_of_lt (h.actLt k hk)
          · exact Nat.lt_succ_self _
        actNodup := by
          simp only
          rw [act_append, List.nodup_append]
          refine ⟨h.actNodup, by simp [act, Task.active], ?_⟩
          intro a ha b hb
          simp [act, Task.active] at hb
          have := h.actLt a ha
          omega
        count := by
          simp only
          rw [hnum _ (by simp)]
          exact h.count
        cover := fun hf => by
          have := h.cover hf
          simp only
          rw [hnum _ (by simp), hlen]
          omega
        stopping := fun t ht hpt => h.stopping t (htask t ht _ (by simp) hpt) hpt
        pcDone := fun hd => by cases hd
        size := fun n hn => by
          have := (h.size n hn).2.2.2
          rw [hp] at this
          cases this
        pcClosing := fun hd => by cases hd
        oneCloser := by rw [hcl]; exact h.oneCloser
        failedWhy := by rw [hcl]; exact h.failedWhy
        failing := fun hpos => by
          simp only at hpos
          rw [hnum _ (by simp)] at hpos
          exact h.failing hpos
        taskClosing := fun t ht hpt => h.taskClosing t (htask t ht _ (by simp) hpt) hpt
        taskWriting := fun t ht hpt => h.taskWriting t (htask t ht _ (by simp) hpt) hpt
        destroyed := fun hd => by
          have := (h.destroyed hd).2.2.2.1
          rw [hp] at this
          cases this }
    · rename_i hlt
      have hsize : w.size = none := by
        cases hs : w.size with
        | none => rfl
        | some n =>
          have := (h.size n hs).2.2.2
          rw [hp] at this
          cases this
      have hnd : w.destroyed ≠ true := by
        intro hd
        have := (h.destroyed hd).2.2.2.1
        rw [hp] at this
        cases this
      split
      · rename_i hend
        have hN : w.readCount = c.input.length := by
          have := h.ended hend
          have := h.readReady
          omega
        unfold World.readerStatus
        split
        · rename_i hok
          have hcl : closers { w with size := some w.readCount, pc := .done } = closers w := by
            simp [closers, hp]
          exact { h with
            pcDone := fun _ => .inr (.inr rfl)
            size := fun n hn => by
              cases hn
              exact ⟨rfl, hN, hok, rfl⟩
            pcClosing := fun hd => by cases hd
            oneCloser := by rw [hcl]; exact h.oneCloser
            failedWhy := by rw [hcl]; exact h.failedWhy
            destroyed := fun hd => absurd hd hnd }
        · rename_i hok
          split
          · rename_i hf
            have hcl : closers { w with pc := .done } = closers w := by
              simp [closers, hp]
            exact { h with
              pcDone := fun _ => .inl hf
              size := fun n hn => by
                simp only at hn
                rw [hsize] at hn
                cases hn
              pcClosing := fun hd => by cases hd
              oneCloser := by rw [hcl]; exact h.oneCloser
              failedWhy := by rw [hcl]; exact h.failedWhy
              destroyed := fun hd => absurd hd hnd }
          · rename_i hf
            have hf' : w.failed = false := by simpa using hf
            have hcl0 := h.oneCloser
            rw [hf'] at hcl0
            simp at hcl0
            obtain ⟨hcl0, hr⟩ := hcl0
            have hcl : closers { w with failed := true, pc := .closing } = 1 := by
              simp [closers, hp] at hcl0 ⊢
              rw [hcl0.1, if_neg hcl0.2]
            exact { h with
              cover := fun hc => by cases hc
              stop := fun _ => .inl rfl
              cancelled := fun _ => .inl rfl
              stopping := fun _ _ _ => rfl
              pcDone := fun hd => by cases hd
              size := fun n hn => by
                simp only at hn
                rw [hsize] at hn
                cases hn
              pcClosing := fun _ => hok
              oneCloser := by
                rw [hcl]
                simp [hr]
              failedWhy := fun _ => .inr (.inr (by rw [hcl]; decide))
              destroyed := fun hd => absurd hd hnd }
      · exact hgo .waiting (by simp) (by simp [hp]) (by simp [hp]) (fun hc => by cases hc)
  · rename_i hp
    exact hgo' .loop (by simp) (by simp) (by simp [hp]) (by simp [hp])
  · rename_i hp
    split
    · exact hgo' .start (by simp) (by simp) (by simp [hp]) (by simp [hp])
    · exact h
  · rename_i hp
    have hpos : 0 < closers w := by
      simp only [closers, hp, if_true]
      omega
    have := inv_close h c.ending .done w.cancel w.tasks hpos
      (by simp [closers, hp]; omega) rfl rfl
      (fun t ht => .inl ht) (.inr ⟨rfl, hp⟩) (.inl rfl) (.inr (.inr (.inl ⟨rfl, h.pcClosing hp⟩)))
    have e : (w.close c.ending).cancel = w.cancel ∧ (w.close c.ending).tasks = w.tasks := by
      unfold World.close
      split <;> exact ⟨rfl, rfl⟩
    rw [← e.1, ← e.2] at this
    exact this
  · exact h

/-- A task ends, or goes to a phase in which it does not write, without anything else. -/
theorem inv_removed {c : Config A B S} {orphaned : S} {w : World B S} (h : Inv c orphaned w)
    (tasks : List Task) (k : Nat) (hr : Removed w.tasks tasks k) (hf : w.failed = true)
    (hnum : ∀ p, p = .counting ∨ p = .failing ∨ p = .closing → num p tasks = num p w.tasks)
    (hsub : ∀ t ∈ tasks, t ∈ w.tasks ∨ t.phase = .stopping) (hd : w.destroyed = false) :
    Inv c orphaned { w with tasks } := by
  have hcl : closers { w with tasks } = closers w := by
    simp [closers, hnum]
  have hsub' : ∀ t ∈ tasks, ∀ p, p ≠ .stopping → t.phase = p → t ∈ w.tasks := by
    intro t ht p hp hpt
    rcases hsub t ht with h1 | h1
    · exact h1
    · rw [hpt] at h1
      exact absurd h1 hp
  exact { h with
    data := by
      obtain ⟨offs, h1, h2, h3⟩ := h.data
      exact ⟨offs, h1, fun j hj => ⟨(h2 j hj).1, fun hm => (h2 j hj).2 ((hr.mem j).1 hm).1⟩, h3⟩
    actLt := fun j hj => h.actLt j ((hr.mem j).1 hj).1
    actNodup := hr.nodup
    count := by
      simp only
      rw [hnum _ (.inl rfl)]
      exact h.count
    cover := fun hc => by
      simp only at hc
      rw [hf] at hc
      cases hc
    stopping := fun _ _ _ => hf
    oneCloser := by rw [hcl]; exact h.oneCloser
    failedWhy := by rw [hcl]; exact h.failedWhy
    failing := fun hpos => by
      simp only at hpos
      rw [hnum _ (.inr (.inl rfl))] at hpos
      exact h.failing hpos
    taskClosing := fun t ht hp => h.taskClosing t (hsub' t ht _ (by simp) hp) hp
    taskWriting := fun t ht hp => h.taskWriting t (hsub' t ht _ (by simp) hp) hp
    destroyed := fun hc => by
      simp only at hc
      rw [hd] at hc
      cases hc }

/-- A task goes on before its write. -/
theorem inv_goto {c : Config A B S} {orphaned : S} {w : World B S} (h : Inv c orphaned w)
    (i k : Nat) (phase phase' : Phase) (ht : w.tasks[i]? = some ⟨k, phase⟩)
    (ha : (⟨k, phase'⟩ : Task).active = (⟨k, phase⟩ : Task).active)
    (hnum : ∀ p, p = .counting ∨ p = .failing ∨ p = .closing →
      num p (w.tasks.set i ⟨k, phase'⟩) = num p w.tasks)
    (hphase : phase' ≠ .stopping ∧ phase' ≠ .closing)
    (hwriting : phase' = .writing → ∃ b, res c k = some (.ok b)) (hd : w.destroyed = false) :
    Inv c orphaned (w.goto i k phase') := by
  unfold World.goto
  have hact : act (w.tasks.set i ⟨k, phase'⟩) = act w.tasks := act_set_same ht ha
  have hcl : closers { w with tasks := w.tasks.set i ⟨k, phase'⟩ } = closers w := by
    simp [closers, hnum]
  exact { h with
    data := by
      obtain ⟨offs, h1, h2, h3⟩ := h.data
      refine ⟨offs, h1, ?_, h3⟩
      simp only
      rw [hact]
      exact h2
    actLt := by simp only; rw [hact]; exact h.actLt
    actNodup := by simp only; rw [hact]; exact h.actNodup
    count := by
      simp only
      rw [hnum _ (.inl rfl)]
      exact h.count
    cover := fun hf => by
      have := h.cover hf
      simp only
      rw [hnum _ (.inr (.inl rfl)), hact]
      exact this
    stopping := fun t hm hp => by
      rcases mem_set_cases hm with hm | rfl
      · exact h.stopping t hm hp
      · exact absurd hp hphase.1
    oneCloser := by rw [hcl]; exact h.oneCloser
    failedWhy := by rw [hcl]; exact h.failedWhy
    failing := fun hpos => by
      simp only at hpos
      rw [hnum _ (.inr (.inl rfl))] at hpos
      exact h.failing hpos
    taskClosing := fun t hm hp => by
      rcases mem_set_cases hm with hm | rfl
      · exact h.taskClosing t hm hp
      · exact absurd hp hphase.2
    taskWriting := fun t hm hp => by
      rcases mem_set_cases hm with hm | rfl
      · exact h.taskWriting t hm hp
      · exact hwriting hp
    destroyed := fun hc => by
      simp only at hc
      rw [hd] at hc
      cases hc }

theorem inv_push {c : Config A B S} {orphaned : S} {w : World B S} (h : Inv c orphaned w)
    (i k : Nat) (ht : w.tasks[i]? = some ⟨k, .pushing⟩) (hd : w.destroyed = false) :
    Inv c orphaned (w.push c i k) := by
  have hstop := act_set_none (t' := ⟨k, .stopping⟩) ht rfl rfl h.actNodup
  have hstopping : w.failed = true → Inv c orphaned (w.goto i k .stopping) := by
    intro hf
    refine inv_removed h _ k hstop hf ?_ ?_ hd
    · intro p hp
      have := num_set p ⟨k, .stopping⟩ ht
      rcases hp with rfl | rfl | rfl <;> simpa using this
    · intro t hm
      rcases mem_set_cases hm with hm | rfl
      · exact .inl hm
      · exact .inr rfl
  unfold World.push
  split
  · exact h
  · rename_i status hres
    split
    · rename_i hf
      exact hstopping hf
    · rename_i hf
      have hf' : w.failed = false := by simpa using hf
      have hcl0 := h.oneCloser
      rw [hf'] at hcl0
      simp at hcl0
      obtain ⟨hcl0, hr⟩ := hcl0
      have hrem := act_set_none (t' := ⟨k, .closing⟩) ht rfl rfl h.actNodup
      have hnc := num_set .closing ⟨k, .closing⟩ ht
      have hncount := num_set .counting ⟨k, .closing⟩ ht
      have hnf := num_set .failing ⟨k, .closing⟩ ht
      simp at hnc hncount hnf
      unfold World.goto
      have hcl : closers { w with failed := true, tasks := w.tasks.set i ⟨k, .closing⟩ } = 1 := by
        simp only [closers] at hcl0 ⊢
        rw [hnc]
        omega
      exact { h with
        data := by
          obtain ⟨offs, h1, h2, h3⟩ := h.data
          exact ⟨offs, h1, fun j hj =>
            ⟨(h2 j hj).1, fun hm => (h2 j hj).2 ((hrem.mem j).1 hm).1⟩, h3⟩
        actLt := fun j hj => h.actLt j ((hrem.mem j).1 hj).1
        actNodup := hrem.nodup
        count := by
          simp only
          rw [hncount]
          exact h.count
        cover := fun hc => by cases hc
        stop := fun _ => .inl rfl
        cancelled := fun _ => .inl rfl
        stopping := fun _ _ _ => rfl
        pcDone := fun _ => .inl rfl
        oneCloser := by
          rw [hcl]
          simp [hr]
        failedWhy := fun _ => .inr (.inr (by rw [hcl]; decide))
        failing := fun hpos => by
          simp only at hpos
          rw [hnf] at hpos
          exact h.failing hpos
        taskClosing := fun t hm hp => by
          rcases mem_set_cases hm with hm | rfl
          · exact h.taskClosing t hm hp
          · exact ⟨status, hres⟩
        taskWriting := fun t hm hp => by
          rcases mem_set_cases hm with hm | rfl
          · exact h.taskWriting t hm hp
          · cases hp
        destroyed := fun hc => by
          simp only at hc
          rw [hd] at hc
          cases hc }
  · rename_i b hres
    split
    · rename_i hf
      exact hstopping hf
    · refine inv_goto h i k .pushing .writing ht rfl ?_ (by simp) (fun _ => ⟨b, hres⟩) hd
      intro p hp
      have := num_set p ⟨k, .writing⟩ ht
      rcases hp with rfl | rfl | rfl <;> simpa using this

theorem inv_write {c : Config A B S} {orphaned : S} {w : World B S} (h : Inv c orphaned w)
    (i k : Nat) (ht : w.tasks[i]? = some ⟨k, .writing⟩) (hd : w.destroyed = false) :
    Inv c orphaned (w.write c i k) := by
  unfold World.write
  split
  · rename_i b hres
    unfold Output.tryWrite
    by_cases hfail : (w.out.closed.isSome || w.out.gone) = true
    · rw [if_pos hfail]
      simp only
      have hrem := act_set_none (t' := ⟨k, .failing⟩) ht rfl rfl h.actNodup
      have hnc := num_set .closing ⟨k, .failing⟩ ht
      have hncount := num_set .counting ⟨k, .failing⟩ ht
      have hnf := num_set .failing ⟨k, .failing⟩ ht
      simp at hnc hncount hnf
      unfold World.goto
      have hcl : closers { w with tasks := w.tasks.set i ⟨k, .failing⟩ } = closers w := by
        simp [closers, hnc]
      have hlen := hrem.len
      exact { h with
        data := by
          obtain ⟨offs, h1, h2, h3⟩ := h.data
          exact ⟨offs, h1, fun j hj =>
            ⟨(h2 j hj).1, fun hm => (h2 j hj).2 ((hrem.mem j).1 hm).1⟩, h3⟩
        actLt := fun j hj => h.actLt j ((hrem.mem j).1 hj).1
        actNodup := hrem.nodup
        count := by
          simp only
          rw [hncount]
          exact h.count
        cover := fun hf => by
          have := h.cover hf
          simp only
          omega
        stopping := fun t hm hp => by
          rcases mem_set_cases hm with hm | rfl
          · exact h.stopping t hm hp
          · cases hp
        oneCloser := by rw [hcl]; exact h.oneCloser
        failedWhy := by rw [hcl]; exact h.failedWhy
        failing := fun _ => by
          rw [Bool.or_eq_true] at hfail
          rw [h.requested]
          exact hfail
        taskClosing := fun t hm hp => by
          rcases mem_set_cases hm with hm | rfl
          · exact h.taskClosing t hm hp
          · cases hp
        taskWriting := fun t hm hp => by
          rcases mem_set_cases hm with hm | rfl
          · exact h.taskWriting t hm hp
          · cases hp
        destroyed := fun hc => by
          simp only at hc
          rw [hd] at hc
          cases hc }
    · rw [if_neg hfail]
      simp only
      have hopen : w.out.closed = none := by
        cases hc : w.out.closed with
        | none => rfl
        | some s =>
          rw [hc] at hfail
          exact absurd rfl hfail
      have hrem := act_set_none (t' := ⟨k, .counting⟩) ht rfl rfl h.actNodup
      have hnc := num_set .closing ⟨k, .counting⟩ ht
      have hncount := num_set .counting ⟨k, .counting⟩ ht
      have hnf := num_set .failing ⟨k, .counting⟩ ht
      simp at hnc hncount hnf
      unfold World.goto
      have hcl : closers { w with
          out := { w.out with items := w.out.items ++ [b] }
          tasks := w.tasks.set i ⟨k, .counting⟩ } = closers w := by
        simp [closers, hnc]
      have hlen := hrem.len
      have hmem := act_mem (k := k) ht rfl
      exact { h with
        data := by
          obtain ⟨offs, h1, h2, h3⟩ := h.data
          refine ⟨offs ++ [k], ?_, ?_, ?_⟩
          · rw [List.nodup_append]
            refine ⟨h1, by simp, ?_⟩
            intro a ha b hb
            rw [List.mem_singleton] at hb
            subst hb
            intro he
            subst he
            exact (h2 a ha).2 hmem
          · intro j hj
            rcases List.mem_append.1 hj with hj | hj
            · exact ⟨(h2 j hj).1, fun hm => (h2 j hj).2 ((hrem.mem j).1 hm).1⟩
            · rw [List.mem_singleton] at hj
              subst hj
              exact ⟨h.actLt j hmem, fun hm => ((hrem.mem j).1 hm).2 rfl⟩
          · have hres' : res c k = some (.ok b) := hres
            simp [h3, hres']
        actLt := fun j hj => h.actLt j ((hrem.mem j).1 hj).1
        actNodup := hrem.nodup
        count := by
          have := h.count
          simp
          omega
        cover := fun hf => by
          have := h.cover hf
          simp
          omega
        stopping := fun t hm hp => by
          rcases mem_set_cases hm with hm | rfl
          · exact h.stopping t hm hp
          · cases hp
        oneCloser := by rw [hcl]; exact h.oneCloser
        failedWhy := by rw [hcl]; exact h.failedWhy
        failing := fun hpos => by
          simp only at hpos
          rw [hnf] at hpos
          exact h.failing hpos
        taskClosing := fun t hm hp => by
          rcases mem_set_cases hm with hm | rfl
          · exact h.taskClosing t hm hp
          · cases hp
        taskWriting := fun t hm hp => by
          rcases mem_set_cases hm with hm | rfl
          · exact h.taskWriting t hm hp
          · cases hp
        destroyed := fun hc => by
          simp only at hc
          rw [hd] at hc
          cases hc
        closed := fun s hs => by
          simp only at hs
          rw [hopen] at hs
          cases hs }
  · exact h

theorem inv_task {c : Config A B S} {orphaned : S} {w : World B S} (h : Inv c orphaned w) (i : Nat) :
    Inv c orphaned (w.task c i) := by
  have hdest : ∀ t, w.tasks[i]? = some t → w.destroyed = false := by
    intro t ht
    cases hd : w.destroyed with
    | false => rfl
    | true =>
      have := (h.destroyed hd).2.2.1
      rw [this] at ht
      cases ht
  unfold World.task
  split
  · exact h
  · rename_i k ht
    split
    · rename_i hf
      refine inv_removed h _ k (act_erase_some ht rfl h.actNodup) hf ?_ ?_ (hdest _ ht)
      · intro p hp
        have := num_erase p ht
        rcases hp with rfl | rfl | rfl <;> simpa using this
      · exact fun t hm => .inl (List.mem_of_mem_eraseIdx hm)
    · refine inv_goto h i k .scheduled .pushing ht rfl ?_ (by simp) (fun hc => by cases hc) (hdest _ ht)
      intro p hp
      have := num_set p ⟨k, .pushing⟩ ht
      rcases hp with rfl | rfl | rfl <;> simpa using this
  · rename_i k ht
    exact inv_push h i k ht (hdest _ ht)
  · rename_i k ht
    exact inv_write h i k ht (hdest _ ht)
  · rename_i k ht
    have hact := act_erase_none ht rfl
    have hnc := num_erase .closing ht
    have hncount := num_erase .counting ht
    have hnf := num_erase .failing ht
    simp at hnc hncount hnf
    unfold World.finishTask
    have hcl : closers { w with writeCount := w.writeCount + 1, tasks := w.tasks.eraseIdx i } =
        closers w := by
      simp [closers, hnc]
    have hd := hdest _ ht
    exact { h with
      data := by
        obtain ⟨offs, h1, h2, h3⟩ := h.data
        refine ⟨offs, h1, ?_, h3⟩
        simp only
        rw [hact]
        exact h2
      actLt := by simp only; rw [hact]; exact h.actLt
      actNodup := by simp only; rw [hact]; exact h.actNodup
      count := by
        have := h.count
        simp only
        omega
      cover := fun hf => by
        have := h.cover hf
        simp only
        rw [hnf, hact]
        exact this
      stopping := fun t hm hp => h.stopping t (List.mem_of_mem_eraseIdx hm) hp
      oneCloser := by rw [hcl]; exact h.oneCloser
      failedWhy := by rw [hcl]; exact h.failedWhy
      failing := fun hpos => by
        simp only at hpos
        rw [hnf] at hpos
        exact h.failing hpos
      taskClosing := fun t hm hp => h.taskClosing t (List.mem_of_mem_eraseIdx hm) hp
      taskWriting := fun t hm hp => h.taskWriting t (List.mem_of_mem_eraseIdx hm) hp
      destroyed := fun hc => by
        simp only at hc
        rw [hd] at hc
        cases hc }
  · rename_i k ht
    have hact : act (w.tasks.set i ⟨k, .stopping⟩) = act w.tasks := act_set_same ht rfl
    have hnc := num_set .closing ⟨k, .stopping⟩ ht
    have hncount := num_set .counting ⟨k, .stopping⟩ ht
    have hnf := num_set .failing ⟨k, .stopping⟩ ht
    simp at hnc hncount hnf
    have hwhy := h.failing (num_pos ht rfl)
    unfold World.goto
    have hcl : closers { w with failed := true, tasks := w.tasks.set i ⟨k, .stopping⟩ } =
        closers w := by
      simp [closers, hnc]
    have hd := hdest _ ht
    exact { h with
      data := by
        obtain ⟨offs, h1, h2, h3⟩ := h.data
        refine ⟨offs, h1, ?_, h3⟩
        simp only
        rw [hact]
        exact h2
      actLt := by simp only; rw [hact]; exact h.actLt
      actNodup := by simp only; rw [hact]; exact h.actNodup
      count := by
        simp only
        rw [hncount]
        exact h.count
      cover := fun hc => by cases hc
      stop := fun _ => .inl rfl
      cancelled := fun _ => .inl rfl
      stopping := fun _ _ _ => rfl
      pcDone := fun _ => .inl rfl
      oneCloser := by
        rw [hcl]
        have := h.oneCloser
        have hle : w.failed.toNat ≤ true.toNat := by cases w.failed <;> decide
        exact Nat.le_trans this hle
      failedWhy := fun _ => by
        rcases hwhy with h1 | h1
        · exact .inl h1
        · exact .inr (.inl h1)
      failing := fun _ => hwhy
      taskClosing := fun t hm hp => by
        rcases mem_set_cases hm with hm | rfl
        · exact h.taskClosing t hm hp
        · cases hp
      taskWriting := fun t hm hp => by
        rcases mem_set_cases hm with hm | rfl
        · exact h.taskWriting t hm hp
        · cases hp
      destroyed := fun hc => by
        simp only at hc
        rw [hd] at hc
        cases hc }
  · rename_i k ht
    unfold World.closeTask
    split
    · rename_i status hres
      have hact : act (w.tasks.set i ⟨k, .stopping⟩) = act w.tasks := act_set_same ht rfl
      have hnc := num_set .closing ⟨k, .stopping⟩ ht
      have hncount := num_set .counting ⟨k, .stopping⟩ ht
      have hnf := num_set .failing ⟨k, .stopping⟩ ht
      simp at hnc hncount hnf
      have hpos := num_pos ht rfl
      have := inv_close h status w.pc w.cancel (w.tasks.set i ⟨k, .stopping⟩)
        (by simp only [closers]; omega) (by simp only [closers]; omega) hact hncount
        (fun t hm => by
          rcases mem_set_cases hm with hm | rfl
          · exact .inl hm
          · exact .inr rfl)
        (.inl rfl) (.inl rfl) (.inr (.inl ⟨k, hres⟩))
      have e : (w.close status).pc = w.pc ∧ (w.close status).cancel = w.cancel ∧
          (w.close status).tasks = w.tasks := by
        unfold World.close
        split <;> exact ⟨rfl, rfl, rfl⟩
      unfold World.goto
      rw [e.2.2]
      rw [← e.1, ← e.2.1] at this
      exact this
    · exact h
  · rename_i k ht
    have hact := act_erase_none ht rfl
    have hnc := num_erase .closing ht
    have hncount := num_erase .counting ht
    have hnf := num_erase .failing ht
    simp at hnc hncount hnf
    have hf := h.stopping _ (List.mem_of_getElem? ht) rfl
    unfold World.finishTask
    have hcl : closers { w with stop := true, tasks := w.tasks.eraseIdx i } = closers w := by
      simp [closers, hnc]
    have hd := hdest _ ht
    exact { h with
      data := by
        obtain ⟨offs, h1, h2, h3⟩ := h.data
        refine ⟨offs, h1, ?_, h3⟩
        simp only
        rw [hact]
        exact h2
      actLt := by simp only; rw [hact]; exact h.actLt
      actNodup := by simp only; rw [hact]; exact h.actNodup
      count := by
        simp only
        rw [hncount]
        exact h.count
      cover := fun hc => by
        simp only at hc
        rw [hf] at hc
        cases hc
      stop := fun _ => .inl hf
      stopping := fun _ _ _ => hf
      oneCloser := by rw [hcl]; exact h.oneCloser
      failedWhy := by rw [hcl]; exact h.failedWhy
      failing := fun hpos => by
        simp only at hpos
        rw [hnf] at hpos
        exact h.failing hpos
      taskClosing := fun t hm hp => h.taskClosing t (List.mem_of_mem_eraseIdx hm) hp
      taskWriting := fun t hm hp => h.taskWriting t (List.mem_of_mem_eraseIdx hm) hp
      destroyed := fun hc => by
        simp only at hc
        rw [hd] at hc
        cases hc }

theorem inv_destroy {c : Config A B S} {orphaned : S} {w : World B S} (h : Inv c orphaned w) :
    Inv c orphaned (w.destroy c orphaned) := by
  unfold World.destroy
  split
  · rename_i hp
    obtain ⟨hpc, htasks, hcan, hnd⟩ := hp
    have hcl : closers w = 0 := by
      simp [closers, hpc, htasks, hcan, num]
    -- the end, with a status
    have hend : ∀ s, w.out.requested = false → ClosedWith c orphaned w s →
        Inv c orphaned { w with
          failed := true, destroyed := true,
          out := { w.out with requested := true, closed := some s } } := by
      intro s hr hs
      exact { h with
        cover := fun hc => by cases hc
        stop := fun _ => .inl rfl
        cancelled := fun _ => .inl rfl
        stopping := fun _ _ _ => rfl
        pcDone := fun _ => .inl rfl
        oneCloser := by
          show closers w + _ ≤ _
          rw [hcl]
          simp
        failedWhy := fun _ => .inl rfl
        failing := fun _ => .inl rfl
        destroyed := fun _ => ⟨rfl, rfl, htasks, hpc, hcan⟩
        closed := fun s' hs' => by
          cases hs'
          exact hs
        requested := rfl }
    by_cases hf : w.failed = false
    · have hcl0 := h.oneCloser
      rw [hf] at hcl0
      simp at hcl0
      have hsz : w.size = some w.readCount := by
        rcases h.pcDone hpc with h1 | h1 | h1
        · rw [hf] at h1
          cases h1
        · rw [hcan] at h1
          cases h1
        · exact h1
      obtain ⟨_, hN, hok, _⟩ := h.size _ hsz
      have hcov := h.cover hf
      have hcount := h.count
      rw [htasks] at hcov hcount
      simp [act, num] at hcov hcount
      have hwc : some w.writeCount = w.size := by
        rw [hsz, hcount, hcov]
      simp only
      rw [if_pos ⟨hf, hwc⟩, close_eq _ hcl0.2]
      have := hend c.ok hcl0.2 (.inr (.inr (.inr (.inl ⟨rfl, by omega, hok⟩))))
      unfold Output.tryClose
      simp only [if_true]
      exact this
    · simp only
      rw [if_neg (fun hc => hf hc.1)]
      have hf' : w.failed = true := by simpa using hf
      unfold Output.tryClose
      by_cases hr : w.out.requested = true
      · rw [if_pos hr]
        exact { h with
          cover := fun hc => by cases hc
          stop := fun _ => .inl rfl
          cancelled := fun _ => .inl rfl
          stopping := fun _ _ _ => rfl
          pcDone := fun _ => .inl rfl
          oneCloser := by
            show closers w + _ ≤ _
            rw [hcl, hr]
            simp
          failedWhy := fun _ => .inl hr
          destroyed := fun _ => ⟨hr, rfl, htasks, hpc, hcan⟩ }
      · rw [if_neg hr]
        have hg : w.out.gone = true := by
          rcases h.failedWhy hf' with h1 | h1 | h1
          · exact absurd h1 hr
          · exact h1
          · rw [hcl] at h1
            exact absurd h1 (Nat.lt_irrefl _)
        exact hend orphaned (by simpa using hr) (.inr (.inr (.inr (.inr ⟨rfl, hg⟩))))
  · exact h

theorem inv_step {c : Config A B S} {orphaned : S} {w : World B S} (h : Inv c orphaned w)
    (op : Op S) : Inv c orphaned (step c orphaned w op) := by
  cases op with
  | produce =>
    simp only [step]
    split
    · rename_i hp
      exact { h with
        readReady := Nat.le_succ_of_le h.readReady
        readyAll := hp.1
        ended := fun he => by
          simp only at he
          rw [hp.2] at he
          cases he }
    · exact h
  | finish =>
    simp only [step]
    split
    · rename_i hp
      exact { h with ended := fun _ => hp }
    · exact h
  | drop =>
    simp only [step]
    exact { h with
      failedWhy := fun hf => by
        rcases h.failedWhy hf with h1 | h1 | h1
        · exact .inl h1
        · exact .inr (.inl rfl)
        · exact .inr (.inr h1)
      failing := fun _ => .inr rfl
      closed := fun s hs => by
        rcases h.closed s hs with h1 | h1 | h1 | h1 | ⟨h1, _⟩
        · exact .inl h1
        · exact .inr (.inl h1)
        · exact .inr (.inr (.inl h1))
        · exact .inr (.inr (.inr (.inl h1)))
        · exact .inr (.inr (.inr (.inr ⟨h1, rfl⟩))) }
  | cancel status =>
    simp only [step]
    split
    · rename_i hp
      have hcan : w.cancel = .idle := by
        cases hc : w.cancel with
        | idle => rfl
        | _ => exact absurd hp.1 (h.cancelling (by rw [hc]; simp))
      have hcl : closers { w with cancelled := some status, stop := true, cancel := .flag } =
          closers w := by
        simp [closers, hcan]
      exact { h with
        stop := fun _ => .inr rfl
        cancelled := fun _ => .inr rfl
        pcDone := fun _ => .inr (.inl rfl)
        oneCloser := by rw [hcl]; exact h.oneCloser
        failedWhy := by rw [hcl]; exact h.failedWhy
        cancelling := fun _ => by simp
        destroyed := fun hd => by
          simp only at hd
          rw [hp.2] at hd
          cases hd
        closed := fun s hs => by
          rcases h.closed s hs with h1 | h1
          · rw [hp.1] at h1
            cases h1
          · exact .inr h1 }
    · exact h
  | cancelStep => exact inv_cancelStep h
  | reader => exact inv_reader h
  | task i => exact inv_task h i
  | destroy => exact inv_destroy h

theorem inv_run {c : Config A B S} {orphaned : S} (ops : List (Op S)) {w : World B S}
    (h : Inv c orphaned w) : Inv c orphaned (run c orphaned w ops) := by
  induction ops generalizing w with
  | nil => exact h
  | cons op ops ih => exact ih (inv_step h op)

end Verif.StreamMapUnordered
