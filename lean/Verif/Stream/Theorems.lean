import Verif.Stream.Pending

/-!
# C37, C38: streams
-/

namespace Verif.Stream

set_option linter.unusedSectionVars false

variable {V S : Type}

/-! ### C37 -/

/-- Whatever happened to a stream, the next read of a reader that got `n` items returns item `n`;
if there is none yet, the status of a closed stream, and "empty" otherwise. -/
theorem C37_read (orphan : S) (w : World V S) (tr : Trace V S) (h : Reached orphan w tr) (r : Nat)
    (hr : Live r tr) :
    (step orphan w (.tryRead r)).2 = .read (nextRead tr (got r tr).length) := by
  have hi := reached_inv h
  have hs := (hi.core.live r).2 hr
  cases hq : w.reader r with
  | none => rw [hq] at hs; cases hs
  | some q =>
    simp only [step, hq]
    rw [read_eq w tr hi.core r q hq]

/-- The items of every reader are the written items in order, from the first one on. -/
theorem C37_prefix (orphan : S) (w : World V S) (tr : Trace V S) (h : Reached orphan w tr)
    (r : Nat) : got r tr = (written tr).take (got r tr).length :=
  (reached_inv h).core.items r

/-- A stream that is held gives new readers; they have not got any item. -/
theorem C37_makeReader (orphan : S) (w : World V S) (tr : Trace V S) (h : Reached orphan w tr)
    (hheld : ∀ e ∈ tr, e.1 ≠ .dropStream) :
    ∃ r, (step orphan w .makeReader).2 = .reader r ∧ r ∉ made tr ∧ got r tr = [] := by
  have hi := reached_inv h
  have hw : w.held = true := by
    cases hw : w.held with
    | true => rfl
    | false =>
      obtain ⟨e, he, he'⟩ := hi.core.held.1 hw
      exact absurd he' (hheld e he)
  refine ⟨w.readers.length, by simp [step, hw], ?_, hi.core.fresh _ (Nat.le_refl _)⟩
  intro hm
  have := reached_made h _ hm
  omega

/-- `TryWrite` writes, unless the stream is closed or no one can read it any more. -/
theorem C37_tryWrite (orphan : S) (w : World V S) (tr : Trace V S) (h : Reached orphan w tr)
    (v : V) : ∃ ok, (step orphan w (.tryWrite v)).2 = .result ok ∧
      (ok = true ↔ closedWith tr = none ∧ ¬ Gone tr) := by
  have hi := reached_inv h
  rw [← expired_iff w tr hi.core, ← hi.core.status]
  simp only [step, World.write, StreamImpl.write]
  by_cases he : w.expired = true
  · rw [if_pos he]
    exact ⟨false, rfl, by simp [he]⟩
  · rw [if_neg he]
    by_cases hs : w.stream.status.isSome = true
    · rw [if_pos hs]
      refine ⟨false, rfl, ?_⟩
      cases hst : w.stream.status with
      | none => rw [hst] at hs; cases hs
      | some s => simp
    · rw [if_neg hs]
      refine ⟨true, rfl, ?_⟩
      cases hst : w.stream.status with
      | none => simp [he]
      | some s => rw [hst] at hs; simp at hs

/-- `Write` fails if the stream is closed, is lost if no one can read it any more, and writes
otherwise. -/
theorem C37_write (orphan : S) (w : World V S) (tr : Trace V S) (h : Reached orphan w tr)
    (v : V) :
    (Gone tr → (step orphan w (.write v)).2 = .lost) ∧
    (¬ Gone tr → closedWith tr ≠ none → (step orphan w (.write v)).2 = .fatal) ∧
    (¬ Gone tr → closedWith tr = none → (step orphan w (.write v)).2 = .done) := by
  have hi := reached_inv h
  rw [← expired_iff w tr hi.core, ← hi.core.status]
  simp only [step, World.write, StreamImpl.write]
  refine ⟨?_, ?_, ?_⟩
  · intro he
    rw [if_pos he]
    rfl
  · intro he hs
    rw [if_neg he]
    cases hst : w.stream.status with
    | none => exact absurd hst hs
    | some s => rfl
  · intro he hs
    rw [if_neg he, hs]
    rfl

/-- The first request to close is accepted, later ones change nothing: `Close` fails, `TryClose` and
the destructor of the writer do nothing. -/
theorem C37_close (orphan : S) (w : World V S) (tr : Trace V S) (h : Reached orphan w tr)
    (status : S) :
    (step orphan w (.close status)).2 =
      (if (firstRequest orphan tr).isSome then .fatal else .done) ∧
    (step orphan w (.tryClose status)).2 = .done ∧ (step orphan w .destroyWriter).2 = .done ∧
    (∀ s, closedWith tr = some s → firstRequest orphan tr = some s) := by
  have hi := reached_inv h
  rw [← hi.closing.flag]
  simp only [step, World.setClosed]
  refine ⟨?_, ?_, ?_, hi.closing.status⟩
  all_goals split <;> rfl

/-- The thread of the first request closes the stream with its status; there is no other closing. -/
theorem C37_finish (orphan : S) (w : World V S) (tr : Trace V S) (h : Reached orphan w tr) :
    (∀ s, firstRequest orphan tr = some s → closedWith tr = none → ¬ Gone tr →
      (step orphan w .internalClose).2 = .finished s) ∧
    (∀ op s, (step orphan w op).2 = .finished s →
      op = .internalClose ∧ firstRequest orphan tr = some s ∧ closedWith tr = none) := by
  have hi := reached_inv h
  constructor
  · intro s hs hopen hgone
    rw [← expired_iff w tr hi.core] at hgone
    rcases hi.closing.closing with hc | ⟨s', hc, hreq, _⟩
    · rcases reached_waits h (by rw [hs]; rfl) hc with h | h
      · exact absurd hopen h
      · exact absurd h hgone
    · rw [hreq] at hs
      cases hs
      have hst : w.stream.status = none := by rw [hi.core.status]; exact hopen
      simp only [step, World.internalClose, hc]
      rw [if_neg hgone]
      simp [hst]
  · intro op s hout
    have hset : ∀ st f, (f = .fatal ∨ f = .done) → (w.setClosed st f).2 ≠ .finished s := by
      intro st f hf
      unfold World.setClosed
      rcases hf with rfl | rfl <;> split <;> simp
    have hwr : ∀ c v, (w.write c v).2 ≠ .finished s := by
      intro c v
      unfold World.write
      cases c <;> split <;> first | (split <;> simp) | simp
    cases op with
    | write v => exact absurd hout (hwr false v)
    | tryWrite v => exact absurd hout (hwr true v)
    | close st => exact absurd hout (hset st _ (.inl rfl))
    | tryClose st => exact absurd hout (hset st _ (.inr rfl))
    | destroyWriter => exact absurd hout (hset orphan _ (.inr rfl))
    | internalClose =>
      rcases hi.closing.closing with hc | ⟨s', hc, hreq, hopen⟩
      · simp [step, World.internalClose, hc] at hout
      · simp only [step, World.internalClose, hc] at hout
        split at hout
        · cases hout
        · have hst : w.stream.status = none := by rw [hi.core.status]; exact hopen
          simp [hst] at hout
          exact ⟨rfl, by rw [hreq, hout], hopen⟩
    | orphaned => simp [step] at hout
    | makeReader =>
      simp only [step] at hout
      split at hout <;> simp at hout
    | dropStream => simp [step] at hout
    | dropReader r => simp [step] at hout
    | tryRead r =>
      simp only [step] at hout
      split at hout <;> simp at hout
    | subscribe r cb =>
      simp only [step] at hout
      split at hout <;> simp at hout
    | call i =>
      simp only [step] at hout
      split at hout <;> simp at hout

/-- `Orphaned` says whether writing is useless. -/
theorem C37_orphaned (orphan : S) (w : World V S) (tr : Trace V S) (h : Reached orphan w tr) :
    ∃ b, (step orphan w .orphaned).2 = .result b ∧
      (b = true ↔ firstRequest orphan tr ≠ none ∨ Gone tr) := by
  have hi := reached_inv h
  refine ⟨_, rfl, ?_⟩
  rw [Bool.or_eq_true, expired_iff w tr hi.core, hi.closing.flag, Option.isSome_iff_ne_none]

/-- A chunk has just as many slots as make 512 bytes. -/
theorem C37_capacity (bytesize n : Nat) (h : 0 < bytesize) :
    defaultChunkCapacity bytesize ≤ n ↔ 512 ≤ n * bytesize := by
  unfold defaultChunkCapacity
  rw [if_pos (by omega)]
  constructor
  · intro hn
    have h1 := Nat.div_add_mod (512 + bytesize - 1) bytesize
    have h2 := Nat.mod_lt (512 + bytesize - 1) h
    have h3 : bytesize * ((512 + bytesize - 1) / bytesize) ≤ bytesize * n := Nat.mul_le_mul_left _ hn
    rw [Nat.mul_comm n]
    omega
  · intro hn
    have hlt : 512 + bytesize - 1 < (n + 1) * bytesize := by
      rw [Nat.succ_mul]
      omega
    have := (Nat.div_lt_iff_lt_mul h).2 hlt
    omega

/-! ### C38 -/

/-- A step can call a callback. -/
def Callable (orphan : S) (w : World V S) (cb i : Nat) : Prop :=
  (step orphan w (.call i)).2 = .called cb

theorem callable_iff (orphan : S) (w : World V S) (cb i : Nat) :
    Callable orphan w cb i ↔ w.pool[i]? = some cb := by
  unfold Callable
  simp only [step]
  cases w.pool[i]? <;> simp

theorem unique_of_count (l : List Nat) (x : Nat) (h : l.count x = 1) :
    ∃ i : Nat, l[i]? = some x ∧ ∀ j : Nat, l[j]? = some x → j = i := by
  induction l with
  | nil => simp at h
  | cons y ys ih =>
    by_cases hy : y = x
    · subst hy
      have hz : y ∉ ys := by
        rw [← List.count_eq_zero]
        simpa using h
      refine ⟨0, rfl, ?_⟩
      intro j hj
      cases j with
      | zero => rfl
      | succ j => exact absurd (List.mem_of_getElem? (by simpa using hj)) hz
    · rw [List.count_cons, if_neg (by simpa using hy), Nat.add_zero] at h
      obtain ⟨i, hi, hu⟩ := ih h
      refine ⟨i + 1, by simpa using hi, ?_⟩
      intro j hj
      cases j with
      | zero =>
        simp at hj
        exact absurd hj hy
      | succ j => rw [hu j (by simpa using hj)]

/-- A reader that got `n` items subscribes a callback. At any later time, if there is nothing more to
read, the callback was not called and cannot be called; otherwise it was called once and cannot be
called again, or it was not called and can be called, once. -/
theorem C38_exactly_once (orphan : S) (bytesize initialCapacity : Nat) (before after : List (Op V S))
    (r cb : Nat) (hlive : Live r (run orphan (World.new bytesize initialCapacity) before).2)
    (hops : ∀ r', Op.subscribe r' cb ∉ before ++ after) (w : World V S) (tr : Trace V S)
    (hrun : run orphan (World.new bytesize initialCapacity)
      (before ++ .subscribe r cb :: after) = (w, tr))
    (n : Nat) (hn : n = (got r (run orphan (World.new bytesize initialCapacity) before).2).length) :
    ((written tr).length = n ∧ closedWith tr = none →
      cb ∉ called tr ∧ ∀ i, ¬ Callable orphan w cb i) ∧
    (¬ ((written tr).length = n ∧ closedWith tr = none) →
      ((called tr).count cb = 1 ∧ ∀ i, ¬ Callable orphan w cb i) ∨
      (cb ∉ called tr ∧ ∃ i, Callable orphan w cb i ∧ ∀ j, Callable orphan w cb j → j = i)) := by
  have hi := inv_start orphan bytesize initialCapacity before
  have hzero := subscribed_ops orphan before (World.new bytesize initialCapacity) cb
    (fun r' hr' => hops r' (by simp [hr']))
  rw [run_append] at hrun
  generalize run orphan (World.new bytesize initialCapacity) before = b at *
  obtain ⟨w1, tr1⟩ := b
  simp only at *
  have hstart := sub_start orphan w1 tr1 hi r cb hzero hlive
  have hinv := inv_step orphan w1 tr1 hi (.subscribe r cb)
  rw [hstart.1] at hinv
  have hsub := sub_run orphan after _ _ hinv cb _ hstart.2 (fun r' hr' => hops r' (by simp [hr']))
  have hfin := inv_run orphan after _ _ hinv
  simp only [run, Prod.mk.injEq] at hrun
  obtain ⟨rfl, rfl⟩ := hrun
  rw [hstart.1, ← hn] at *
  rw [List.append_assoc, List.singleton_append] at hsub hfin
  have hcount := hfin.callbacks.count cb
  rw [hsub.once, List.count_append, List.count_append] at hcount
  simp only [callable_iff]
  constructor
  · intro hwait
    have hmem := List.count_pos_iff.2 (hsub.waits.2 hwait)
    refine ⟨?_, ?_⟩
    · rw [← List.count_eq_zero]
      omega
    · intro i hc
      have := List.count_pos_iff.2 (List.mem_of_getElem? hc)
      omega
  · intro hnow
    have hmem := List.count_eq_zero.2 (fun hm => hnow (hsub.waits.1 hm))
    rw [hmem] at hcount
    by_cases hp : (run orphan (step orphan w1 (.subscribe r cb)).1 after).1.pool.count cb = 0
    · left
      refine ⟨by omega, ?_⟩
      intro i hc
      exact List.count_eq_zero.1 hp (List.mem_of_getElem? hc)
    · right
      refine ⟨?_, unique_of_count _ _ (by omega)⟩
      rw [← List.count_eq_zero]
      omega

/-- A callback is not called more often than it was subscribed. -/
theorem C38_at_most (orphan : S) (w : World V S) (tr : Trace V S) (h : Reached orphan w tr)
    (cb : Nat) : (called tr).count cb ≤ (subscribed tr).count cb := by
  have := (reached_inv h).callbacks.count cb
  rw [List.count_append] at this
  omega

/-- A reader that exists can subscribe. -/
theorem C38_subscribe (orphan : S) (w : World V S) (tr : Trace V S) (h : Reached orphan w tr)
    (r cb : Nat) (hr : Live r tr) : (step orphan w (.subscribe r cb)).2 = .done := by
  have hi := reached_inv h
  have hs := (hi.core.live r).2 hr
  cases hq : w.reader r with
  | none => rw [hq] at hs; cases hs
  | some q => simp [step, hq]

/-! ### Examples -/

deriving instance DecidableEq for Chunk, StreamImpl, World

/-- Chunks of two items; two readers, the second made late; a subscription that waits and one that
does not. -/
def exampleOps : List (Op Nat Nat) :=
  [.makeReader, .subscribe 0 7, .write 10, .tryRead 0, .call 0, .tryRead 0, .tryWrite 11, .write 12,
    .makeReader, .tryRead 1, .subscribe 1 8, .close 1, .tryClose 2, .tryRead 0, .internalClose,
    .tryRead 0, .tryRead 0, .tryWrite 13, .call 0, .destroyWriter]

example : (run 99 (World.new 300 0) exampleOps).2.map Prod.snd =
    [.reader 0, .done, .done, .read (.item 10), .called 7, .read .empty, .result true, .done,
      .reader 1, .read (.item 10), .done, .done, .done, .read (.item 11), .finished 1,
      .read (.item 12), .read (.closed 1), .result false, .called 8, .done] := by decide +kernel

example : Reached 99 (run 99 (World.new 300 0) exampleOps).1 (run 99 (World.new 300 0) exampleOps).2 :=
  ⟨300, 0, exampleOps, rfl⟩

example : written (run 99 (World.new 300 0) exampleOps).2 = [10, 11, 12] := by decide +kernel

example : got 1 (run 99 (World.new 300 0) exampleOps).2 = [10] := by decide +kernel

example : closedWith (run 99 (World.new 300 0) exampleOps).2 = some 1 := by decide +kernel

example : Live 0 (run 99 (World.new 300 0) ([.makeReader, .write 1] : List (Op Nat Nat))).2 :=
  ⟨[], _, _, rfl, rfl, by decide +kernel⟩

/-- The stream is gone. -/
example : (run 99 (World.new 300 0)
    ([.makeReader, .dropStream, .dropReader 0, .write 1, .tryWrite 2, .orphaned, .makeReader] :
      List (Op Nat Nat))).2.map Prod.snd =
    [.reader 0, .done, .done, .lost, .result false, .result true, .invalid] := by decide +kernel

end Verif.Stream
