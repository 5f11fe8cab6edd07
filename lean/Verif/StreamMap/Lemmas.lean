import Verif.StreamMap.Spec

/-!
The invariant of `stream.map`.
-/

namespace Verif.StreamMap

set_option linter.unusedSectionVars false

variable {A B S : Type}

/-! ### Lists of tasks -/

/-- The offset of a task that has not pushed its result. -/
def Task.active (t : Task) : Option Nat :=
  match t.phase with
  | .scheduled => some t.offset
  | .pushing => some t.offset
  | _ => none

/-- The offsets of these tasks. -/
def act (tasks : List Task) : List Nat := tasks.filterMap Task.active

/-- The number of tasks in the loop of `PushItem`. -/
def drains (tasks : List Task) : Nat := tasks.countP fun t => t.phase = .draining

theorem list_split {α : Type} {l : List α} {i : Nat} {t : α} (h : l[i]? = some t) :
    ∃ pre post, l = pre ++ t :: post ∧ (∀ t', l.set i t' = pre ++ t' :: post) ∧
      l.eraseIdx i = pre ++ post := by
  induction l generalizing i with
  | nil => simp at h
  | cons x xs ih =>
    cases i with
    | zero =>
      simp at h
      subst h
      exact ⟨[], xs, rfl, fun _ => rfl, rfl⟩
    | succ i =>
      obtain ⟨pre, post, h1, h2, h3⟩ := ih (by simpa using h)
      refine ⟨x :: pre, post, by rw [h1]; rfl, fun t' => ?_, ?_⟩
      · rw [List.set_cons_succ, h2]
        rfl
      · rw [List.eraseIdx_cons_succ, h3]
        rfl

theorem act_append (xs ys : List Task) : act (xs ++ ys) = act xs ++ act ys := by
  simp [act]

theorem act_cons (t : Task) (ts : List Task) : act (t :: ts) = t.active.toList ++ act ts := by
  unfold act
  rw [List.filterMap_cons]
  cases t.active <;> rfl

theorem drains_append (xs ys : List Task) : drains (xs ++ ys) = drains xs + drains ys := by
  simp [drains]

theorem drains_cons (t : Task) (ts : List Task) :
    drains (t :: ts) = drains ts + if t.phase = .draining then 1 else 0 := by
  simp [drains, List.countP_cons]

/-- A task goes on. -/
theorem act_set_same {tasks : List Task} {i : Nat} {t t' : Task} (h : tasks[i]? = some t)
    (ha : t'.active = t.active) : act (tasks.set i t') = act tasks := by
  obtain ⟨pre, post, h1, h2, _⟩ := list_split h
  rw [h2, h1, act_append, act_append, act_cons, act_cons, ha]

/-- A task has pushed its result. -/
theorem act_set_none {tasks : List Task} {i k : Nat} {t t' : Task} (h : tasks[i]? = some t)
    (ht : t.active = some k) (ht' : t'.active = none) (hn : (act tasks).Nodup) :
    (act (tasks.set i t')).Nodup ∧ ∀ j, j ∈ act (tasks.set i t') ↔ j ∈ act tasks ∧ j ≠ k := by
  obtain ⟨pre, post, h1, h2, _⟩ := list_split h
  rw [h2]
  rw [h1, act_append, act_cons, ht] at hn
  rw [h1, act_append, act_append, act_cons, act_cons, ht, ht']
  simp only [Option.toList_none, Option.toList_some, List.nil_append, List.singleton_append] at *
  rw [List.nodup_append] at hn ⊢
  obtain ⟨n1, n2, n3⟩ := hn
  rw [List.nodup_cons] at n2
  refine ⟨⟨n1, n2.2, fun a ha b hb => n3 a ha b (by simp [hb])⟩, ?_⟩
  intro j
  simp only [List.mem_append, List.mem_cons]
  constructor
  · rintro (hj | hj)
    · exact ⟨.inl hj, n3 j hj k (by simp)⟩
    · exact ⟨.inr (.inr hj), fun hk => n2.1 (hk ▸ hj)⟩
  · rintro ⟨hj | hj | hj, hne⟩
    · exact .inl hj
    · exact absurd hj hne
    · exact .inr hj

theorem act_erase_none {tasks : List Task} {i : Nat} {t : Task} (h : tasks[i]? = some t)
    (ht : t.active = none) : act (tasks.eraseIdx i) = act tasks := by
  obtain ⟨pre, post, h1, _, h3⟩ := list_split h
  rw [h3, h1, act_append, act_append, act_cons, ht]
  rfl

theorem act_erase_some {tasks : List Task} {i k : Nat} {t : Task} (h : tasks[i]? = some t)
    (ht : t.active = some k) (hn : (act tasks).Nodup) :
    (act (tasks.eraseIdx i)).Nodup ∧ ∀ j, j ∈ act (tasks.eraseIdx i) ↔ j ∈ act tasks ∧ j ≠ k := by
  have := act_set_none (t' := ⟨k, .stopping⟩) h ht rfl hn
  obtain ⟨pre, post, h1, h2, h3⟩ := list_split h
  rw [h2] at this
  rw [h3]
  rw [act_append, act_cons] at this
  rw [act_append]
  exact this

theorem act_mem {tasks : List Task} {i k : Nat} {t : Task} (h : tasks[i]? = some t)
    (ht : t.active = some k) : k ∈ act tasks :=
  List.mem_filterMap.2 ⟨t, List.mem_of_getElem? h, ht⟩

theorem drains_set {tasks : List Task} {i : Nat} {t t' : Task} (h : tasks[i]? = some t) :
    drains (tasks.set i t') + (if t.phase = .draining then 1 else 0) =
      drains tasks + if t'.phase = .draining then 1 else 0 := by
  obtain ⟨pre, post, h1, h2, _⟩ := list_split h
  rw [h2, h1, drains_append, drains_append, drains_cons, drains_cons]
  omega

theorem drains_erase {tasks : List Task} {i : Nat} {t : Task} (h : tasks[i]? = some t) :
    drains (tasks.eraseIdx i) + (if t.phase = .draining then 1 else 0) = drains tasks := by
  obtain ⟨pre, post, h1, _, h3⟩ := list_split h
  rw [h3, h1, drains_append, drains_append, drains_cons]
  omega

theorem drains_pos {tasks : List Task} {i : Nat} {t : Task} (h : tasks[i]? = some t)
    (ht : t.phase = .draining) : 0 < drains tasks := by
  unfold drains
  rw [List.countP_pos_iff]
  exact ⟨t, List.mem_of_getElem? h, by simpa using ht⟩

theorem mem_set_phase {tasks : List Task} {i k : Nat} {phase : Phase} {t : Task}
    (h : t ∈ tasks.set i ⟨k, phase⟩) : t ∈ tasks ∨ t.phase = phase := by
  rcases List.mem_or_eq_of_mem_set h with h | rfl
  · exact .inl h
  · exact .inr rfl

/-! ### The buffer -/

theorem bufferSet_get (buffer : List (Option B)) (i j : Nat) (b b' : B) :
    (bufferSet buffer i b)[j]? = some (some b') ↔
      (j = i ∧ b' = b) ∨ (j ≠ i ∧ buffer[j]? = some (some b')) := by
  unfold bufferSet
  by_cases hj : j = i
  · subst hj
    rw [List.getElem?_set_self]
    · simp [eq_comm]
    · split
      · simp
        omega
      · omega
  · rw [List.getElem?_set_ne (fun h => hj h.symm)]
    simp only [hj, false_and, ne_eq, not_false_eq_true, true_and, false_or]
    split
    · rename_i hlen
      by_cases hlt : j < buffer.length
      · rw [List.getElem?_append_left hlt]
      · rw [List.getElem?_append_right (by omega), List.getElem?_eq_none (l := buffer) (by omega),
          List.getElem?_replicate]
        split <;> simp
    · rfl

/-! ### The invariant -/

/-- What the task of an offset pushes. -/
def res (c : Config A B S) (k : Nat) : Option (Except S B) := (c.input[k]?).map c.result

/-- The output may be closed with this status after `n` items. -/
def Err (c : Config A B S) (n : Nat) (status : S) : Prop :=
  res c n = some (.error status) ∨ (n = c.input.length ∧ status = c.ending)

theorem err_not_ok {c : Config A B S} {n : Nat} {status : S} {b : B} (h : Err c n status)
    (hb : res c n = some (.ok b)) : False := by
  rcases h with h | ⟨h, _⟩
  · rw [hb] at h
    cases h
  · subst h
    simp [res] at hb

/-- The item at an offset was written, is in the buffer, or its task has not pushed it. -/
def Covered (w : World B S) (k : Nat) : Prop :=
  k ∈ act w.tasks ∨ k < w.sink.writeCount ∨
    ∃ b, w.sink.buffer[k - w.sink.writeCount]? = some (some b)

/-- The end of the output is known, and not all items before it are written. -/
def Pending (c : Config A B S) (w : World B S) (final : Nat) : Prop :=
  (w.sink.writeCount < final ∨ (w.sink.writeCount = final ∧ w.sink.locked = true)) ∧
  Err c final w.sink.finalStatus ∧ ∀ k, k < final → Covered w k

/-- The sink is at its end. -/
def Terminated (w : World B S) (final : Nat) : Prop :=
  final ≤ w.sink.writeCount ∧ w.sink.locked = false ∧ (w.out.requested = true ∨ w.out.gone = true)

structure Inv (c : Config A B S) (w : World B S) : Prop where
  len : w.sink.writeCount = w.out.items.length
  readReady : w.readCount ≤ w.ready
  readyAll : w.ready ≤ c.input.length
  ended : w.ended = true → w.ready = c.input.length
  writeRead : w.sink.writeCount ≤ w.readCount
  actLt : ∀ k ∈ act w.tasks, k < w.readCount
  actGe : ∀ k ∈ act w.tasks, w.sink.writeCount ≤ k
  actNodup : (act w.tasks).Nodup
  lock : drains w.tasks = if w.sink.locked then 1 else 0
  front : w.sink.locked = false → w.sink.finalOffset ≠ some 0 →
    ∀ b, w.sink.buffer[0]? ≠ some (some b)
  items : ∀ (k : Nat) (b : B), w.out.items[k]? = some b → res c k = some (.ok b)
  buf : ∀ (i : Nat) (b : B), w.sink.buffer[i]? = some (some b) →
    res c (w.sink.writeCount + i) = some (.ok b) ∧ w.sink.writeCount + i < w.readCount ∧
    w.sink.writeCount + i ∉ act w.tasks
  stopping : ∀ t ∈ w.tasks, t.phase = .stopping → w.sink.finalOffset ≠ none
  stop : w.stop = true → w.sink.finalOffset ≠ none ∨ w.cancelled ≠ none
  pcDone : w.pc = .done → w.sink.finalOffset ≠ none ∨ w.cancelled ≠ none
  unlimited : w.sink.finalOffset = none → ∀ k, k < w.readCount → Covered w k
  final : ∀ f, w.sink.finalOffset = some f → f ≤ w.readCount ∧ (Pending c w f ∨ Terminated w f)
  closed : ∀ s, w.out.closed = some s → w.cancelled = some s ∨ Err c w.out.items.length s
  requested : w.out.requested = true → w.cancelling = true ∨ w.out.closed ≠ none
  closedRequested : w.out.closed ≠ none → w.out.requested = true
  cancelling : w.cancelling = true →
    w.cancelled ≠ none ∧ w.out.requested = true ∧ w.out.closed = none

theorem inv_new (c : Config A B S) : Inv c (World.new c) := by
  refine ⟨rfl, Nat.le_refl _, Nat.zero_le _, (fun h => by cases h), Nat.le_refl _,
    (fun k h => by cases h), (fun k h => by cases h), List.nodup_nil, rfl, ?_, ?_, ?_,
    (fun t h => by cases h), (fun h => by cases h), (fun h => by cases h), ?_, (fun f h => by cases h),
    (fun s h => by cases h), (fun h => by cases h), (fun h => absurd rfl h), (fun h => by cases h)⟩
  · intro _ _ b hb
    cases hb
  · intro k b hb
    cases hb
  · intro i b hb
    cases hb
  · intro _ k hk
    exact absurd hk (Nat.not_lt_zero _)

theorem accepts_iff (s : Sink B S) (k : Nat) :
    s.accepts k = true ↔ ∀ f, s.finalOffset = some f → k < f := by
  unfold Sink.accepts
  cases s.finalOffset with
  | none => simp
  | some f => simp

theorem not_accepts (s : Sink B S) (k : Nat) (h : s.accepts k ≠ true) :
    ∃ f, s.finalOffset = some f ∧ f ≤ k := by
  unfold Sink.accepts at h
  cases hf : s.finalOffset with
  | none => rw [hf] at h; exact absurd rfl h
  | some f =>
    rw [hf] at h
    refine ⟨f, rfl, ?_⟩
    simp at h
    exact h

/-- An accepted offset: everything before it is covered. -/
theorem accepted_covered {c : Config A B S} {w : World B S} (h : Inv c w) {k : Nat}
    (ha : w.sink.accepts k = true) (hk : w.sink.writeCount ≤ k) (hr : k ≤ w.readCount) :
    ∀ j, j < k → Covered w j := by
  intro j hj
  cases hf : w.sink.finalOffset with
  | none => exact h.unlimited hf j (by omega)
  | some f =>
    have hlt := (accepts_iff _ _).1 ha f hf
    rcases (h.final f hf).2 with hp | ht
    · exact hp.2.2 j (by omega)
    · have := ht.1
      omega

/-- `PushStatus` in a state without lock, and the task that called it is gone. -/
theorem inv_pushStatus {c : Config A B S} {w : World B S} (h : Inv c w) (k : Nat) (status : S)
    (tasks : List Task) (pc : Pc) (hlock : w.sink.locked = false) (herr : Err c k status)
    (hk : w.sink.writeCount ≤ k) (hr : k ≤ w.readCount)
    (hact : ∀ j, j ∈ act tasks → j ∈ act w.tasks)
    (hact' : ∀ j, j ∈ act w.tasks → j ≠ k → j ∈ act tasks)
    (hn : (act tasks).Nodup) (hd : drains tasks = drains w.tasks) :
    Inv c { w with
      sink := (w.sink.pushStatus w.out k status).1
      out := (w.sink.pushStatus w.out k status).2
      tasks, pc } := by
  by_cases ha : w.sink.accepts k = true
  · have hcov := accepted_covered h ha hk hr
    have hcov' : ∀ j, j < k → j ∈ act tasks ∨ j < w.sink.writeCount ∨
        ∃ b, w.sink.buffer[j - w.sink.writeCount]? = some (some b) := by
      intro j hj
      rcases hcov j hj with h1 | h1
      · exact .inl (hact' j h1 (by omega))
      · exact .inr h1
    by_cases hkw : k = w.sink.writeCount
    · have hp : w.sink.pushStatus w.out k status =
          ({ w.sink with finalOffset := some k }, w.out.tryClose status) := by
        unfold Sink.pushStatus
        rw [if_pos ha]
        simp only
        rw [if_pos hkw]
      rw [hp]
      have hitems : (w.out.tryClose status).items = w.out.items := by
        unfold Output.tryClose
        split <;> rfl
      have hreq : (w.out.tryClose status).requested = true := by
        unfold Output.tryClose
        split
        · assumption
        · rfl
      refine ⟨?_, h.readReady, h.readyAll, h.ended, h.writeRead, fun j hj => h.actLt j (hact j hj),
        fun j hj => h.actGe j (hact j hj), hn, ?_, ?_, ?_, ?_, ?_, ?_, ?_, ?_, ?_, ?_, ?_, ?_, ?_⟩
      · simp only
        rw [hitems]
        exact h.len
      · rw [hd]
        exact h.lock
      · intro _ hne b hb
        by_cases hz : w.sink.finalOffset = some 0
        · have := (accepts_iff _ _).1 ha 0 hz
          omega
        · exact h.front hlock hz b hb
      · intro j b hj
        simp only at hj
        rw [hitems] at hj
        exact h.items j b hj
      · intro i b hb
        obtain ⟨h1, h2, h3⟩ := h.buf i b hb
        exact ⟨h1, h2, fun hm => h3 (hact _ hm)⟩
      · intro t _ _ hc
        cases hc
      · exact fun _ => .inl (by simp)
      · exact fun _ => .inl (by simp)
      · intro hc
        cases hc
      · intro f hf
        cases hf
        exact ⟨hr, .inr ⟨Nat.le_of_eq hkw, hlock, .inl hreq⟩⟩
      · intro s hs
        simp only at hs ⊢
        rw [hitems]
        unfold Output.tryClose at hs
        split at hs
        · exact h.closed s hs
        · cases hs
          right
          rw [← h.len, ← hkw]
          exact herr
      · intro _
        simp only
        unfold Output.tryClose
        split
        · rename_i hrq
          exact h.requested hrq
        · exact .inr (by simp)
      · exact fun _ => hreq
      · intro hc
        obtain ⟨c1, c2, c3⟩ := h.cancelling hc
        refine ⟨c1, hreq, ?_⟩
        simp only
        unfold Output.tryClose
        rw [if_pos c2]
        exact c3
    · have hp : w.sink.pushStatus w.out k status =
          ({ w.sink with finalOffset := some k, finalStatus := status }, w.out) := by
        unfold Sink.pushStatus
        rw [if_pos ha]
        simp only
        rw [if_neg hkw]
      rw [hp]
      refine ⟨h.len, h.readReady, h.readyAll, h.ended, h.writeRead,
        fun j hj => h.actLt j (hact j hj), fun j hj => h.actGe j (hact j hj), hn, ?_, ?_, h.items, ?_,
        ?_, ?_, ?_, ?_, ?_, h.closed, h.requested, h.closedRequested, h.cancelling⟩
      · rw [hd]
        exact h.lock
      · intro _ hne b hb
        by_cases hz : w.sink.finalOffset = some 0
        · have := (accepts_iff _ _).1 ha 0 hz
          omega
        · exact h.front hlock hz b hb
      · intro i b hb
        obtain ⟨h1, h2, h3⟩ := h.buf i b hb
        exact ⟨h1, h2, fun hm => h3 (hact _ hm)⟩
      · intro t _ _ hc
        cases hc
      · exact fun _ => .inl (by simp)
      · exact fun _ => .inl (by simp)
      · intro hc
        cases hc
      · intro f hf
        cases hf
        exact ⟨hr, .inl ⟨.inl (by simp only; omega), herr, hcov'⟩⟩
  · obtain ⟨f, hf, hfk⟩ := not_accepts _ _ ha
    have hp : w.sink.pushStatus w.out k status = (w.sink, w.out) := by
      unfold Sink.pushStatus
      rw [if_neg ha]
    rw [hp]
    refine ⟨h.len, h.readReady, h.readyAll, h.ended, h.writeRead,
      fun j hj => h.actLt j (hact j hj), fun j hj => h.actGe j (hact j hj), hn, ?_, h.front, h.items,
      ?_, ?_, h.stop, ?_, ?_, ?_, h.closed, h.requested, h.closedRequested, h.cancelling⟩
    · rw [hd]
      exact h.lock
    · intro i b hb
      obtain ⟨h1, h2, h3⟩ := h.buf i b hb
      exact ⟨h1, h2, fun hm => h3 (hact _ hm)⟩
    · intro t _ _ hc
      rw [hf] at hc
      cases hc
    · exact fun _ => .inl (by simp [hf])
    · intro hc
      rw [hf] at hc
      cases hc
    · intro f' hf'
      obtain ⟨h1, h2⟩ := h.final f' hf'
      refine ⟨h1, ?_⟩
      rcases h2 with ⟨p1, p2, p3⟩ | ht
      · refine .inl ⟨p1, p2, ?_⟩
        intro j hj
        rw [hf] at hf'
        cases hf'
        rcases p3 j hj with h1 | h1
        · exact .inl (hact' j h1 (by omega))
        · exact .inr h1
      · exact .inr ht

/-- A task that has not pushed anything ends because its offset is not accepted. -/
theorem inv_unneeded {c : Config A B S} {w : World B S} (h : Inv c w) (k : Nat)
    (tasks : List Task) (ha : w.sink.accepts k ≠ true)
    (hact : ∀ j, j ∈ act tasks → j ∈ act w.tasks)
    (hact' : ∀ j, j ∈ act w.tasks → j ≠ k → j ∈ act tasks)
    (hn : (act tasks).Nodup) (hd : drains tasks = drains w.tasks) :
    Inv c { w with tasks } := by
  obtain ⟨f, hf, hfk⟩ := not_accepts _ _ ha
  refine ⟨h.len, h.readReady, h.readyAll, h.ended, h.writeRead,
    fun j hj => h.actLt j (hact j hj), fun j hj => h.actGe j (hact j hj), hn, ?_, h.front, h.items,
    ?_, ?_, h.stop, h.pcDone, ?_, ?_, h.closed, h.requested, h.closedRequested, h.cancelling⟩
  · rw [hd]
    exact h.lock
  · intro i b hb
    obtain ⟨h1, h2, h3⟩ := h.buf i b hb
    exact ⟨h1, h2, fun hm => h3 (hact _ hm)⟩
  · intro t _ _ hc
    rw [hf] at hc
    cases hc
  · intro hc
    rw [hf] at hc
    cases hc
  · intro f' hf'
    obtain ⟨h1, h2⟩ := h.final f' hf'
    refine ⟨h1, ?_⟩
    rcases h2 with ⟨p1, p2, p3⟩ | ht
    · refine .inl ⟨p1, p2, ?_⟩
      intro j hj
      rw [hf] at hf'
      cases hf'
      rcases p3 j hj with h1 | h1
      · exact .inl (hact' j h1 (by omega))
      · exact .inr h1
    · exact .inr ht

/-- Steps that change neither tasks nor sink nor output. -/
theorem inv_frame {c : Config A B S} {w : World B S} (h : Inv c w) (pc : Pc) (stop : Bool)
    (hpc : pc = .done → w.sink.finalOffset ≠ none ∨ w.cancelled ≠ none)
    (hstop : stop = true → w.sink.finalOffset ≠ none ∨ w.cancelled ≠ none) :
    Inv c { w with pc, stop } :=
  ⟨h.len, h.readReady, h.readyAll, h.ended, h.writeRead, h.actLt, h.actGe, h.actNodup, h.lock,
    h.front, h.items, h.buf, h.stopping, hstop, hpc, h.unlimited, h.final, h.closed, h.requested,
    h.closedRequested, h.cancelling⟩

theorem inv_reader {c : Config A B S} {w : World B S} (h : Inv c w) : Inv c (w.reader c) := by
  unfold World.reader
  have hgo : ∀ pc, pc ≠ .done → Inv c { w with pc := if w.stop then .done else pc } := by
    intro pc hpc
    apply inv_frame h _ w.stop _ h.stop
    intro hd
    split at hd
    · rename_i hs
      exact h.stop hs
    · exact absurd hd hpc
  split
  · exact hgo .loop (by simp)
  · split
    · rename_i hlt
      have hmem : ∀ j, j ∈ act (w.tasks ++ [⟨w.readCount, .scheduled⟩]) ↔
          j ∈ act w.tasks ∨ j = w.readCount := by
        intro j
        rw [act_append]
        simp [act, Task.active]
      refine ⟨h.len, hlt, h.readyAll, h.ended, Nat.le_succ_of_le h.writeRead, ?_, ?_, ?_, ?_, h.front,
        h.items, ?_, ?_, h.stop, (fun hc => by cases hc), ?_, ?_, h.closed, h.requested,
        h.closedRequested, h.cancelling⟩
      · intro k hk
        rcases (hmem k).1 hk with hk | rfl
        · exact Nat.lt_succ_of_lt (h.actLt k hk)
        · exact Nat.lt_succ_self _
      · intro k hk
        rcases (hmem k).1 hk with hk | rfl
        · exact h.actGe k hk
        · exact h.writeRead
      · rw [act_append, List.nodup_append]
        refine ⟨h.actNodup, by simp [act, Task.active], ?_⟩
        intro a ha b hb
        simp [act, Task.active] at hb
        have := h.actLt a ha
        omega
      · rw [drains_append]
        have := h.lock
        simp [drains] at this ⊢
        exact this
      · intro i b hb
        obtain ⟨h1, h2, h3⟩ := h.buf i b hb
        refine ⟨h1, Nat.lt_succ_of_lt h2, ?_⟩
        intro hm
        rcases (hmem _).1 hm with hm | hm
        · exact h3 hm
        · simp only at hm
          omega
      · intro t ht hp
        rcases List.mem_append.1 ht with ht | ht
        · exact h.stopping t ht hp
        · rw [List.mem_singleton] at ht
          subst ht
          cases hp
      · intro hf k hk
        have hk' : k < w.readCount + 1 := hk
        by_cases he : k = w.readCount
        · exact .inl ((hmem k).2 (.inr he))
        · rcases h.unlimited hf k (by omega) with h1 | h1
          · exact .inl ((hmem k).2 (.inl h1))
          · exact .inr h1
      · intro f hf
        obtain ⟨h1, h2⟩ := h.final f hf
        refine ⟨Nat.le_succ_of_le h1, ?_⟩
        rcases h2 with ⟨p1, p2, p3⟩ | ht
        · refine .inl ⟨p1, p2, ?_⟩
          intro k hk
          rcases p3 k hk with h1 | h1
          · exact .inl ((hmem k).2 (.inl h1))
          · exact .inr h1
        · exact .inr ht
    · rename_i hlt
      split
      · rename_i hend
        split
        · exact h
        · rename_i hlock
          have hN : w.readCount = c.input.length := by
            have := h.ended hend
            have := h.readReady
            omega
          exact inv_pushStatus h w.readCount c.ending w.tasks .done (by simpa using hlock)
            (.inr ⟨hN, rfl⟩) h.writeRead (Nat.le_refl _) (fun _ hj => hj) (fun _ hj _ => hj)
            h.actNodup rfl
      · exact inv_frame h .waiting w.stop (fun hc => by cases hc) h.stop
  · exact hgo .loop (by simp)
  · split
    · exact hgo .start (by simp)
    · exact h
  · exact h

theorem inv_push {c : Config A B S} {w : World B S} (h : Inv c w) (i k : Nat)
    (ht : w.tasks[i]? = some ⟨k, .pushing⟩) (hlock : w.sink.locked = false) :
    Inv c (w.push c i k) := by
  have hmem := act_mem (k := k) ht rfl
  have hge := h.actGe k hmem
  have hlt := h.actLt k hmem
  have hstop := act_set_none (t' := ⟨k, .stopping⟩) ht rfl rfl h.actNodup
  have hdstop := drains_set (t' := ⟨k, .stopping⟩) ht
  unfold World.push
  split
  · exact h
  · rename_i status hres
    have := inv_pushStatus h k status (w.tasks.set i ⟨k, .stopping⟩) w.pc hlock (.inl hres) hge
      (Nat.le_of_lt hlt) (fun j hj => ((hstop.2 j).1 hj).1)
      (fun j hj hne => (hstop.2 j).2 ⟨hj, hne⟩) hstop.1 (by simpa using hdstop)
    exact this
  · rename_i b hres
    split
    · rename_i ha
      have hdr := act_set_none (t' := ⟨k, .draining⟩) ht rfl rfl h.actNodup
      have hddr := drains_set (t' := ⟨k, .draining⟩) ht
      have hb : ∀ (j : Nat) (b' : B),
          (bufferSet w.sink.buffer (k - w.sink.writeCount) b)[j]? = some (some b') ↔
          (j = k - w.sink.writeCount ∧ b' = b) ∨ (j ≠ k - w.sink.writeCount ∧
            w.sink.buffer[j]? = some (some b')) := fun j b' => bufferSet_get _ _ _ _ _
      have hcov : ∀ j, Covered w j →
          (j ∈ act (w.tasks.set i ⟨k, .draining⟩) ∨ j < w.sink.writeCount ∨
            ∃ b', (bufferSet w.sink.buffer (k - w.sink.writeCount) b)[j - w.sink.writeCount]? =
              some (some b')) := by
        intro j hj
        by_cases hjk : j = k
        · subst hjk
          exact .inr (.inr ⟨b, (hb _ _).2 (.inl ⟨rfl, rfl⟩)⟩)
        · rcases hj with h1 | h1 | ⟨b', h1⟩
          · exact .inl ((hdr.2 j).2 ⟨h1, hjk⟩)
          · exact .inr (.inl h1)
          · by_cases hlt : j < w.sink.writeCount
            · exact .inr (.inl hlt)
            · exact .inr (.inr ⟨b', (hb _ _).2 (.inr ⟨by omega, h1⟩)⟩)
      refine ⟨h.len, h.readReady, h.readyAll, h.ended, h.writeRead, ?_, ?_, hdr.1, ?_,
        (fun hc => by cases hc), h.items, ?_, ?_, h.stop, h.pcDone, ?_, ?_, h.closed, h.requested,
        h.closedRequested, h.cancelling⟩
      · exact fun j hj => h.actLt j ((hdr.2 j).1 hj).1
      · exact fun j hj => h.actGe j ((hdr.2 j).1 hj).1
      · have := h.lock
        rw [hlock] at this
        simp [World.goto] at hddr this ⊢
        omega
      · intro j b' hj
        rcases (hb j b').1 hj with ⟨rfl, rfl⟩ | ⟨hne, hj⟩
        · have he : w.sink.writeCount + (k - w.sink.writeCount) = k := by omega
          refine ⟨?_, ?_, ?_⟩
          · show res c (w.sink.writeCount + (k - w.sink.writeCount)) = _
            rw [he]
            exact hres
          · show w.sink.writeCount + (k - w.sink.writeCount) < w.readCount
            omega
          · intro hm
            have := ((hdr.2 _).1 hm).2
            exact this he
        · obtain ⟨h1, h2, h3⟩ := h.buf j b' hj
          exact ⟨h1, h2, fun hm => h3 ((hdr.2 _).1 hm).1⟩
      · intro t hm hp
        rcases mem_set_phase hm with hm | hm
        · exact h.stopping t hm hp
        · rw [hm] at hp
          cases hp
      · intro hf j hj
        exact hcov j (h.unlimited hf j hj)
      · intro f hf
        obtain ⟨h1, h2⟩ := h.final f hf
        have hkf := (accepts_iff _ _).1 ha f hf
        refine ⟨h1, .inl ?_⟩
        rcases h2 with ⟨p1, p2, p3⟩ | ht
        · exact ⟨.inl (Nat.lt_of_le_of_lt hge hkf), p2, fun j hj => hcov j (p3 j hj)⟩
        · have := ht.1
          omega
    · rename_i ha
      exact inv_unneeded h k _ ha (fun j hj => ((hstop.2 j).1 hj).1)
        (fun j hj hne => (hstop.2 j).2 ⟨hj, hne⟩) hstop.1 (by simpa using hdstop)

theorem inv_drain {c : Config A B S} {w : World B S} (h : Inv c w) (i k : Nat)
    (ht : w.tasks[i]? = some ⟨k, .draining⟩) : Inv c (w.drain i k) := by
  have hlock : w.sink.locked = true := by
    have h1 := h.lock
    have h2 := drains_pos ht rfl
    cases hl : w.sink.locked with
    | true => rfl
    | false =>
      rw [hl] at h1
      simp at h1
      omega
  have hd1 : drains w.tasks = 1 := by
    have := h.lock
    rw [hlock] at this
    exact this
  have hnot : ∀ f, ¬ Terminated w f := by
    intro f hf
    have := hf.2.1
    rw [hlock] at this
    cases this
  have hstop : act (w.tasks.set i ⟨k, .stopping⟩) = act w.tasks := act_set_same ht rfl
  have hdstop := drains_set (t' := ⟨k, .stopping⟩) ht
  have hd0 : drains (w.tasks.set i ⟨k, .stopping⟩) = 0 := by
    simp at hdstop
    omega
  -- the end of the loop without more items
  have hend : (∀ b rest, w.sink.buffer ≠ some b :: rest) →
      Inv c (if w.sink.finalOffset = some w.sink.writeCount then
        { w with
          out := w.out.tryClose w.sink.finalStatus
          sink := { w.sink with finalOffset := some 0, locked := false } }.goto i k .stopping
      else { w with sink := { w.sink with locked := false } }.finishTask i) := by
    intro hbuf
    split
    · rename_i hfin
      obtain ⟨hfr, hfp⟩ := h.final _ hfin
      have hp : Pending c w w.sink.writeCount := by
        rcases hfp with hp | hp
        · exact hp
        · exact absurd hp (hnot _)
      have hitems : (w.out.tryClose w.sink.finalStatus).items = w.out.items := by
        unfold Output.tryClose
        split <;> rfl
      have hreq : (w.out.tryClose w.sink.finalStatus).requested = true := by
        unfold Output.tryClose
        split
        · assumption
        · rfl
      unfold World.goto
      refine ⟨?_, h.readReady, h.readyAll, h.ended, h.writeRead, ?_, ?_, ?_, ?_, ?_, ?_, ?_, ?_, ?_, ?_,
        ?_, ?_, ?_, ?_, ?_, ?_⟩
      · simp only
        rw [hitems]
        exact h.len
      · simp only
        rw [hstop]
        exact h.actLt
      · simp only
        rw [hstop]
        exact h.actGe
      · simp only
        rw [hstop]
        exact h.actNodup
      · simp only
        rw [hd0]
        rfl
      · intro _ hc
        exact absurd rfl hc
      · intro j b hj
        simp only at hj
        rw [hitems] at hj
        exact h.items j b hj
      · intro j b hj
        simp only
        rw [hstop]
        exact h.buf j b hj
      · intro t _ _ hc
        cases hc
      · exact fun _ => .inl (by simp)
      · exact fun _ => .inl (by simp)
      · intro hc
        cases hc
      · intro f hf
        cases hf
        exact ⟨Nat.zero_le _, .inr ⟨Nat.zero_le _, rfl, .inl hreq⟩⟩
      · intro s hs
        simp only at hs ⊢
        rw [hitems]
        unfold Output.tryClose at hs
        split at hs
        · exact h.closed s hs
        · cases hs
          right
          rw [← h.len]
          exact hp.2.1
      · intro _
        simp only
        unfold Output.tryClose
        split
        · rename_i hrq
          exact h.requested hrq
        · exact .inr (by simp)
      · exact fun _ => hreq
      · intro hc
        obtain ⟨c1, c2, c3⟩ := h.cancelling hc
        refine ⟨c1, hreq, ?_⟩
        simp only
        unfold Output.tryClose
        rw [if_pos c2]
        exact c3
    · rename_i hfin
      have hact : act (w.tasks.eraseIdx i) = act w.tasks := act_erase_none ht rfl
      have hde := drains_erase ht
      unfold World.finishTask
      have hcov : ∀ j, Covered w j → Covered
          { w with tasks := w.tasks.eraseIdx i, sink := { w.sink with locked := false } } j := by
        intro j hj
        rcases hj with h1 | h1
        · left
          simp only
          rw [hact]
          exact h1
        · exact .inr h1
      refine ⟨h.len, h.readReady, h.readyAll, h.ended, h.writeRead, ?_, ?_, ?_, ?_, ?_, h.items, ?_, ?_,
        h.stop, h.pcDone, ?_, ?_, h.closed, h.requested, h.closedRequested, h.cancelling⟩
      · simp only
        rw [hact]
        exact h.actLt
      · simp only
        rw [hact]
        exact h.actGe
      · simp only
        rw [hact]
        exact h.actNodup
      · simp at hde ⊢
        omega
      · intro _ _ b hb
        cases hbf : w.sink.buffer with
        | nil =>
          simp only at hb
          rw [hbf] at hb
          cases hb
        | cons x rest =>
          simp only at hb
          rw [hbf] at hb
          simp at hb
          exact hbuf b rest (by rw [hbf, hb])
      · intro j b hj
        simp only
        rw [hact]
        exact h.buf j b hj
      · intro t hm hp
        exact h.stopping t (List.mem_of_mem_eraseIdx hm) hp
      · intro hf j hj
        exact hcov j (h.unlimited hf j hj)
      · intro f hf
        obtain ⟨h1, h2⟩ := h.final f hf
        refine ⟨h1, .inl ?_⟩
        rcases h2 with ⟨p1, p2, p3⟩ | ht
        · refine ⟨.inl ?_, p2, fun j hj => hcov j (p3 j hj)⟩
          rcases p1 with p1 | ⟨p1, _⟩
          · exact p1
          · exfalso
            apply hfin
            have hf' : w.sink.finalOffset = some f := hf
            rw [hf', p1]
        · exact absurd ht (hnot _)
  unfold World.drain
  split
  · rename_i b rest hbuf
    obtain ⟨hb1, hb2, hb3⟩ := h.buf 0 b (by rw [hbuf]; rfl)
    rw [Nat.add_zero] at hb1 hb2 hb3
    unfold Output.tryWrite
    by_cases hfail : (w.out.closed.isSome || w.out.gone) = true
    · rw [if_pos hfail]
      simp only
      unfold World.goto
      have hterm : w.out.requested = true ∨ w.out.gone = true := by
        rw [Bool.or_eq_true] at hfail
        rcases hfail with hc | hg
        · left
          apply h.closedRequested
          intro hn
          rw [hn] at hc
          cases hc
        · exact .inr hg
      refine ⟨h.len, h.readReady, h.readyAll, h.ended, h.writeRead, ?_, ?_, ?_, ?_, ?_, h.items, ?_, ?_,
        ?_, ?_, ?_, ?_, h.closed, h.requested, h.closedRequested, h.cancelling⟩
      · simp only
        rw [hstop]
        exact h.actLt
      · simp only
        rw [hstop]
        exact h.actGe
      · simp only
        rw [hstop]
        exact h.actNodup
      · simp only
        rw [hd0]
        rfl
      · intro _ hc
        exact absurd rfl hc
      · intro j b' hj
        simp only
        rw [hstop]
        exact h.buf j b' hj
      · intro t _ _ hc
        cases hc
      · exact fun _ => .inl (by simp)
      · exact fun _ => .inl (by simp)
      · intro hc
        cases hc
      · intro f hf
        cases hf
        exact ⟨Nat.zero_le _, .inr ⟨Nat.zero_le _, rfl, hterm⟩⟩
    · rw [if_neg hfail]
      simp only
      rw [Bool.or_eq_true, not_or] at hfail
      have hclosed : w.out.closed = none := by
        cases hc : w.out.closed with
        | none => rfl
        | some s =>
          rw [hc] at hfail
          exact absurd rfl hfail.1
      have hcov : ∀ j, Covered w j → (j ∈ act w.tasks ∨ j < w.sink.writeCount + 1 ∨
          ∃ b', rest[j - (w.sink.writeCount + 1)]? = some (some b')) := by
        intro j hj
        rcases hj with h1 | h1 | ⟨b', h1⟩
        · exact .inl h1
        · exact .inr (.inl (Nat.lt_succ_of_lt h1))
        · by_cases hlt : j < w.sink.writeCount + 1
          · exact .inr (.inl hlt)
          · rw [hbuf, show j - w.sink.writeCount = (j - (w.sink.writeCount + 1)) + 1 by omega] at h1
            exact .inr (.inr ⟨b', by simpa using h1⟩)
      refine ⟨?_, h.readReady, h.readyAll, h.ended, hb2, h.actLt, ?_, h.actNodup, h.lock, ?_, ?_, ?_,
        h.stopping, h.stop, h.pcDone, ?_, ?_, ?_, ?_, ?_, h.cancelling⟩
      · simp [h.len]
      · intro j hj
        have := h.actGe j hj
        have hne : j ≠ w.sink.writeCount := fun he => hb3 (he ▸ hj)
        show w.sink.writeCount + 1 ≤ j
        omega
      · intro hc
        simp only at hc
        rw [hlock] at hc
        cases hc
      · intro j b' hj
        simp only at hj
        by_cases hlt : j < w.out.items.length
        · rw [List.getElem?_append_left hlt] at hj
          exact h.items j b' hj
        · rw [List.getElem?_append_right (by omega)] at hj
          have he : j = w.out.items.length := by
            have := (List.getElem?_eq_some_iff.1 hj).1
            simp at this
            omega
          subst he
          simp at hj
          rw [← h.len, hb1, hj]
      · intro j b' hj
        obtain ⟨h1, h2, h3⟩ := h.buf (j + 1) b' (by rw [hbuf]; simpa using hj)
        have he : w.sink.writeCount + 1 + j = w.sink.writeCount + (j + 1) := by omega
        show res c (w.sink.writeCount + 1 + j) = _ ∧ w.sink.writeCount + 1 + j < _ ∧
          w.sink.writeCount + 1 + j ∉ _
        rw [he]
        exact ⟨h1, h2, h3⟩
      · intro hf j hj
        exact hcov j (h.unlimited hf j hj)
      · intro f hf
        obtain ⟨h1, h2⟩ := h.final f hf
        refine ⟨h1, .inl ?_⟩
        rcases h2 with ⟨p1, p2, p3⟩ | ht
        · refine ⟨?_, p2, fun j hj => hcov j (p3 j hj)⟩
          rcases p1 with p1 | ⟨p1, _⟩
          · show w.sink.writeCount + 1 < f ∨ (w.sink.writeCount + 1 = f ∧ w.sink.locked = true)
            by_cases he : w.sink.writeCount + 1 = f
            · exact .inr ⟨he, hlock⟩
            · exact .inl (by omega)
          · exfalso
            subst p1
            exact err_not_ok p2 hb1
        · exact absurd ht (hnot _)
      · intro s hs
        simp only at hs
        rw [hclosed] at hs
        cases hs
      · exact h.requested
      · exact h.closedRequested
  · rename_i hbuf
    exact hend hbuf

theorem inv_task {c : Config A B S} {w : World B S} (h : Inv c w) (i : Nat) :
    Inv c (w.task c i) := by
  unfold World.task
  split
  · exact h
  · rename_i k ht
    split
    · have hact : act (w.tasks.set i ⟨k, .pushing⟩) = act w.tasks := act_set_same ht rfl
      have hd := drains_set (t' := ⟨k, .pushing⟩) ht
      unfold World.goto
      have hcov : ∀ j, Covered w j → Covered { w with tasks := w.tasks.set i ⟨k, .pushing⟩ } j := by
        intro j hj
        rcases hj with h1 | h1
        · left
          simp only
          rw [hact]
          exact h1
        · exact .inr h1
      refine ⟨h.len, h.readReady, h.readyAll, h.ended, h.writeRead, ?_, ?_, ?_, ?_, h.front, h.items,
        ?_, ?_, h.stop, h.pcDone, ?_, ?_, h.closed, h.requested, h.closedRequested, h.cancelling⟩
      · simp only
        rw [hact]
        exact h.actLt
      · simp only
        rw [hact]
        exact h.actGe
      · simp only
        rw [hact]
        exact h.actNodup
      · have := h.lock
        simp at hd ⊢
        omega
      · intro j b hj
        simp only
        rw [hact]
        exact h.buf j b hj
      · intro t hm hp
        rcases mem_set_phase hm with hm | hm
        · exact h.stopping t hm hp
        · rw [hm] at hp
          cases hp
      · intro hf j hj
        exact hcov j (h.unlimited hf j hj)
      · intro f hf
        obtain ⟨h1, h2⟩ := h.final f hf
        refine ⟨h1, ?_⟩
        rcases h2 with ⟨p1, p2, p3⟩ | ht
        · exact .inl ⟨p1, p2, fun j hj => hcov j (p3 j hj)⟩
        · exact .inr ht
    · rename_i ha
      have he := act_erase_some ht rfl h.actNodup
      have hd := drains_erase ht
      exact inv_unneeded h k _ ha (fun j hj => ((he.2 j).1 hj).1)
        (fun j hj hne => (he.2 j).2 ⟨hj, hne⟩) he.1 (by simpa using hd)
  · rename_i k ht
    split
    · exact h
    · rename_i hl
      exact inv_push h i k ht (by simpa using hl)
  · rename_i k ht
    exact inv_drain h i k ht
  · rename_i k ht
    have hfin := h.stopping _ (List.mem_of_getElem? ht) rfl
    have hact : act (w.tasks.eraseIdx i) = act w.tasks := act_erase_none ht rfl
    have hd := drains_erase ht
    unfold World.finishTask
    have hcov : ∀ j, Covered w j →
        Covered { w with stop := true, tasks := w.tasks.eraseIdx i } j := by
      intro j hj
      rcases hj with h1 | h1
      · left
        simp only
        rw [hact]
        exact h1
      · exact .inr h1
    refine ⟨h.len, h.readReady, h.readyAll, h.ended, h.writeRead, ?_, ?_, ?_, ?_, h.front, h.items,
      ?_, ?_, fun _ => .inl hfin, h.pcDone, ?_, ?_, h.closed, h.requested, h.closedRequested,
      h.cancelling⟩
    · simp only
      rw [hact]
      exact h.actLt
    · simp only
      rw [hact]
      exact h.actGe
    · simp only
      rw [hact]
      exact h.actNodup
    · have := h.lock
      simp at hd ⊢
      omega
    · intro j b hj
      simp only
      rw [hact]
      exact h.buf j b hj
    · intro t hm hp
      exact h.stopping t (List.mem_of_mem_eraseIdx hm) hp
    · intro hf j hj
      exact hcov j (h.unlimited hf j hj)
    · intro f hf
      obtain ⟨h1, h2⟩ := h.final f hf
      refine ⟨h1, ?_⟩
      rcases h2 with ⟨p1, p2, p3⟩ | ht
      · exact .inl ⟨p1, p2, fun j hj => hcov j (p3 j hj)⟩
      · exact .inr ht

theorem inv_step {c : Config A B S} {w : World B S} (h : Inv c w) (op : Op S) :
    Inv c (step c w op) := by
  cases op with
  | produce =>
    simp only [step]
    split
    · rename_i hp
      refine ⟨h.len, Nat.le_succ_of_le h.readReady, hp.1, ?_, h.writeRead, h.actLt, h.actGe,
        h.actNodup, h.lock, h.front, h.items, h.buf, h.stopping, h.stop, h.pcDone, h.unlimited,
        h.final, h.closed, h.requested, h.closedRequested, h.cancelling⟩
      intro he
      simp only at he
      rw [hp.2] at he
      cases he
    · exact h
  | finish =>
    simp only [step]
    split
    · rename_i hp
      exact ⟨h.len, h.readReady, h.readyAll, fun _ => hp, h.writeRead, h.actLt, h.actGe,
        h.actNodup, h.lock, h.front, h.items, h.buf, h.stopping, h.stop, h.pcDone, h.unlimited,
        h.final, h.closed, h.requested, h.closedRequested, h.cancelling⟩
    · exact h
  | drop =>
    simp only [step]
    refine ⟨h.len, h.readReady, h.readyAll, h.ended, h.writeRead, h.actLt, h.actGe,
      h.actNodup, h.lock, h.front, h.items, h.buf, h.stopping, h.stop, h.pcDone, h.unlimited,
      ?_, h.closed, h.requested, h.closedRequested, h.cancelling⟩
    intro f hf
    obtain ⟨h1, h2⟩ := h.final f hf
    refine ⟨h1, ?_⟩
    rcases h2 with hp | ht
    · exact .inl hp
    · exact .inr ⟨ht.1, ht.2.1, .inr rfl⟩
  | cancel status =>
    simp only [step]
    have hc : ∀ s, w.cancelled = some s →
        (match w.cancelled with | none => some status | some s => some s) = some s := by
      intro s hs
      rw [hs]
    have hne : (match w.cancelled with | none => some status | some s => some s) ≠ none := by
      cases w.cancelled <;> simp
    refine ⟨h.len, h.readReady, h.readyAll, h.ended, h.writeRead, h.actLt, h.actGe,
      h.actNodup, h.lock, h.front, h.items, h.buf, h.stopping, fun _ => .inr hne, fun _ => .inr hne,
      h.unlimited, h.final, ?_, h.requested, h.closedRequested, ?_⟩
    · intro s hs
      rcases h.closed s hs with h1 | h1
      · exact .inl (hc s h1)
      · exact .inr h1
    · exact fun hcl => ⟨hne, (h.cancelling hcl).2⟩
  | cancelRequest =>
    simp only [step]
    split
    · rename_i hp
      have hne : w.cancelled ≠ none := by
        intro hn
        rw [hn] at hp
        exact absurd hp.1 (by simp)
      refine ⟨h.len, h.readReady, h.readyAll, h.ended, h.writeRead, h.actLt, h.actGe,
        h.actNodup, h.lock, h.front, h.items, h.buf, h.stopping, h.stop, h.pcDone, h.unlimited,
        ?_, h.closed, fun _ => .inl rfl, fun _ => rfl, fun _ => ⟨hne, rfl, ?_⟩⟩
      rotate_left
      · cases hcl : w.out.closed with
        | none => rfl
        | some s =>
          have := h.closedRequested (by rw [hcl]; simp)
          rw [hp.2] at this
          cases this
      intro f hf
      obtain ⟨h1, h2⟩ := h.final f hf
      refine ⟨h1, ?_⟩
      rcases h2 with hp | ht
      · exact .inl hp
      · exact .inr ⟨ht.1, ht.2.1, .inl rfl⟩
    · exact h
  | cancelClose =>
    simp only [step]
    split
    · rename_i hp
      obtain ⟨hne, hrq, _⟩ := h.cancelling hp
      refine ⟨h.len, h.readReady, h.readyAll, h.ended, h.writeRead, h.actLt, h.actGe,
        h.actNodup, h.lock, h.front, h.items, h.buf, h.stopping, h.stop, h.pcDone, h.unlimited,
        ?_, fun s hs => .inl hs, fun _ => .inr hne, fun _ => hrq, (fun hc => by cases hc)⟩
      intro f hf
      obtain ⟨h1, h2⟩ := h.final f hf
      refine ⟨h1, ?_⟩
      rcases h2 with hp | ht
      · exact .inl hp
      · exact .inr ⟨ht.1, ht.2.1, ht.2.2⟩
    · exact h
  | reader => exact inv_reader h
  | task i => exact inv_task h i

theorem inv_run {c : Config A B S} (ops : List (Op S)) {w : World B S} (h : Inv c w) :
    Inv c (run c w ops) := by
  induction ops generalizing w with
  | nil => exact h
  | cons op ops ih => exact ih (inv_step h op)

end Verif.StreamMap
