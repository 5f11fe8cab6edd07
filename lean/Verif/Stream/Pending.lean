import Verif.Stream.Invariant

/-!
Lemmas about requests to close and subscriptions that are not served yet.
-/

namespace Verif.Stream

set_option linter.unusedSectionVars false

variable {V S : Type}

theorem reached_inv {orphan : S} {w : World V S} {tr : Trace V S} (h : Reached orphan w tr) :
    Inv orphan w tr := by
  obtain ⟨b, c, ops, h⟩ := h
  have := inv_start orphan b c ops
  rw [h] at this
  exact this

/-- The readers, the handle and the callbacks after a step. -/
theorem write_frame (w : World V S) (checked : Bool) (v : V) :
    (w.write checked v).1.held = w.held ∧ (w.write checked v).1.readers = w.readers ∧
    (w.write checked v).1.closing = w.closing ∧ (w.write checked v).1.closedFlag = w.closedFlag := by
  unfold World.write
  split
  · exact ⟨rfl, rfl, rfl, rfl⟩
  · split <;> exact ⟨rfl, rfl, rfl, rfl⟩

theorem setClosed_frame (w : World V S) (status : S) (failure : Out V S) :
    (w.setClosed status failure).1.held = w.held ∧
    (w.setClosed status failure).1.readers = w.readers := by
  unfold World.setClosed
  split <;> exact ⟨rfl, rfl⟩

theorem internalClose_frame (w : World V S) :
    w.internalClose.1.held = w.held ∧ w.internalClose.1.readers = w.readers := by
  unfold World.internalClose
  split
  · exact ⟨rfl, rfl⟩
  · split <;> exact ⟨rfl, rfl⟩

theorem expired_of (w w' : World V S) (h1 : w'.held = w.held) (h2 : w'.readers = w.readers) :
    w'.expired = w.expired := by
  unfold World.expired
  rw [h1, h2]

theorem all_set (l : List (Option Reader)) (i : Nat) (h : l.all Option.isNone = true) :
    (l.set i none).all Option.isNone = true := by
  rw [List.all_eq_true] at *
  intro x hx
  rcases List.mem_or_eq_of_mem_set hx with hx | rfl
  · exact h x hx
  · rfl

theorem expired_reader (w : World V S) (h : w.expired = true) (r : Nat) : w.reader r = none := by
  unfold World.expired at h
  rw [Bool.and_eq_true, List.all_eq_true] at h
  unfold World.reader
  cases hr : w.readers[r]? with
  | none => rfl
  | some o =>
    have := h.2 o (List.mem_of_getElem? hr)
    cases o with
    | none => rfl
    | some q => cases this

/-- A stream that is gone stays so. -/
theorem expired_step (orphan : S) (w : World V S) (op : Op V S) (h : w.expired = true) :
    (step orphan w op).1.expired = true := by
  have hheld : w.held = false := by
    unfold World.expired at h
    rw [Bool.and_eq_true, Bool.not_eq_true'] at h
    exact h.1
  have hall : w.readers.all Option.isNone = true := by
    unfold World.expired at h
    rw [Bool.and_eq_true] at h
    exact h.2
  cases op with
  | write v =>
    have := write_frame w false v
    rw [← h]
    exact expired_of _ _ this.1 this.2.1
  | tryWrite v =>
    have := write_frame w true v
    rw [← h]
    exact expired_of _ _ this.1 this.2.1
  | close s =>
    have := setClosed_frame w s .fatal
    rw [← h]
    exact expired_of _ _ this.1 this.2
  | tryClose s =>
    have := setClosed_frame w s .done
    rw [← h]
    exact expired_of _ _ this.1 this.2
  | destroyWriter =>
    have := setClosed_frame w orphan .done
    rw [← h]
    exact expired_of _ _ this.1 this.2
  | internalClose =>
    have := internalClose_frame w
    rw [← h]
    exact expired_of _ _ this.1 this.2
  | orphaned => exact h
  | makeReader =>
    simp only [step, hheld, Bool.false_eq_true, if_false]
    exact h
  | dropStream =>
    simp only [step, World.expired, Bool.not_false, Bool.true_and]
    exact hall
  | dropReader r =>
    simp only [step, World.expired, hheld, Bool.not_false, Bool.true_and]
    exact all_set _ _ hall
  | tryRead r =>
    simp only [step, expired_reader w h r]
    exact h
  | subscribe r cb =>
    simp only [step, expired_reader w h r]
    exact h
  | call i =>
    simp only [step]
    split <;> exact h

/-- A request to close that is not served waits for its thread, unless the stream is gone. -/
def Waits (orphan : S) (w : World V S) (tr : Trace V S) : Prop :=
  (firstRequest orphan tr).isSome → w.closing = [] → closedWith tr ≠ none ∨ w.expired = true

theorem closing_step (orphan : S) (w : World V S) (op : Op V S)
    (h1 : closeRequest orphan op = none) (h2 : op ≠ .internalClose) :
    (step orphan w op).1.closing = w.closing := by
  cases op <;> simp only [step]
  case write v => exact (write_frame w false v).2.2.1
  case tryWrite v => exact (write_frame w true v).2.2.1
  case close => cases h1
  case tryClose => cases h1
  case destroyWriter => cases h1
  case internalClose => exact absurd rfl h2
  case makeReader => split <;> rfl
  case tryRead => split <;> rfl
  case subscribe => split <;> rfl
  case call => split <;> rfl

theorem waits_step (orphan : S) (w : World V S) (tr : Trace V S) (hi : Inv orphan w tr)
    (h : Waits orphan w tr) (op : Op V S) :
    Waits orphan (step orphan w op).1 (tr ++ [(op, (step orphan w op).2)]) := by
  intro hreq hc
  rw [closedWith_snoc]
  rw [firstRequest_snoc] at hreq
  by_cases hop : closeRequest orphan op = none
  · rw [hop, Option.or_none] at hreq
    by_cases hi' : op = .internalClose
    · subst hi'
      rcases hi.closing.closing with hcl | ⟨s, hcl, _, hopen⟩
      · rcases h hreq hcl with h | h
        · left
          cases hcw : closedWith tr with
          | none => exact absurd hcw h
          | some s => simp
        · exact .inr (expired_step orphan w _ h)
      · by_cases he : w.expired = true
        · exact .inr (expired_step orphan w _ he)
        · left
          have hst : w.stream.status = none := by rw [hi.core.status]; exact hopen
          simp only [step, World.internalClose, hcl]
          rw [if_neg he]
          simp [hst, closedBy]
    · rw [closing_step orphan w op hop hi'] at hc
      rcases h hreq hc with h | h
      · left
        cases hcw : closedWith tr with
        | none => exact absurd hcw h
        | some s => simp
      · exact .inr (expired_step orphan w _ h)
  · have hset : ∃ s f, step orphan w op = w.setClosed s f := by
      cases op with
      | close s => exact ⟨s, .fatal, rfl⟩
      | tryClose s => exact ⟨s, .done, rfl⟩
      | destroyWriter => exact ⟨orphan, .done, rfl⟩
      | _ => exact absurd rfl hop
    obtain ⟨s, f, hset⟩ := hset
    by_cases hf : w.closedFlag = true
    · have hw : (step orphan w op).1 = w := by
        rw [hset]
        unfold World.setClosed
        rw [if_pos hf]
      rw [hw] at hc ⊢
      have hfr : (firstRequest orphan tr).isSome := by
        rw [← hi.closing.flag]
        exact hf
      rcases h hfr hc with h | h
      · left
        cases hcw : closedWith tr with
        | none => exact absurd hcw h
        | some s => simp
      · exact .inr h
    · exfalso
      rw [hset] at hc
      unfold World.setClosed at hc
      rw [if_neg hf] at hc
      simp at hc

theorem waits_run (orphan : S) (ops : List (Op V S)) (w : World V S) (tr : Trace V S)
    (hi : Inv orphan w tr) (h : Waits orphan w tr) :
    Waits orphan (run orphan w ops).1 (tr ++ (run orphan w ops).2) := by
  induction ops generalizing w tr with
  | nil =>
    simp only [run, List.append_nil]
    exact h
  | cons op ops ih =>
    have := ih _ _ (inv_step orphan w tr hi op) (waits_step orphan w tr hi h op)
    simp only [run]
    simpa using this

theorem reached_waits {orphan : S} {w : World V S} {tr : Trace V S} (h : Reached orphan w tr) :
    Waits orphan w tr := by
  obtain ⟨b, c, ops, h⟩ := h
  have := waits_run orphan ops _ _ (inv_new orphan b c) (fun h => by cases h)
  rw [h] at this
  exact this

/-! ### Numbers of readers -/

theorem readers_length (orphan : S) (w : World V S) (op : Op V S) :
    w.readers.length ≤ (step orphan w op).1.readers.length ∧
    ((∃ r, (step orphan w op).2 = .reader r) →
      (step orphan w op).1.readers.length = w.readers.length + 1) := by
  cases op <;> simp only [step]
  case write v =>
    rw [(write_frame w false v).2.1]
    unfold World.write
    split
    · simp
    · split <;> simp
  case tryWrite v =>
    rw [(write_frame w true v).2.1]
    unfold World.write
    split
    · simp
    · split <;> simp
  case close s =>
    rw [(setClosed_frame w s .fatal).2]
    unfold World.setClosed
    split <;> simp
  case tryClose s =>
    rw [(setClosed_frame w s .done).2]
    unfold World.setClosed
    split <;> simp
  case destroyWriter =>
    rw [(setClosed_frame w orphan .done).2]
    unfold World.setClosed
    split <;> simp
  case internalClose =>
    rw [(internalClose_frame w).2]
    unfold World.internalClose
    split
    · simp
    · split
      · simp
      · simp only
        split <;> simp
  case makeReader =>
    split <;> simp
  case tryRead => split <;> simp
  case subscribe => split <;> simp
  case call => split <;> simp
  all_goals simp

theorem reader_out (orphan : S) (w : World V S) (op : Op V S) (r : Nat)
    (h : (step orphan w op).2 = .reader r) : r = w.readers.length := by
  cases op <;> simp only [step] at h
  case write v =>
    unfold World.write at h
    split at h
    · simp at h
    · split at h <;> simp at h
  case tryWrite v =>
    unfold World.write at h
    split at h
    · simp at h
    · split at h <;> simp at h
  case close s =>
    unfold World.setClosed at h
    split at h <;> simp at h
  case tryClose s =>
    unfold World.setClosed at h
    split at h <;> simp at h
  case destroyWriter =>
    unfold World.setClosed at h
    split at h <;> simp at h
  case internalClose =>
    unfold World.internalClose at h
    split at h
    · simp at h
    · split at h
      · simp at h
      · simp only at h
        split at h <;> simp at h
  case makeReader =>
    split at h <;> simp at h
    exact h.symm
  case tryRead => split at h <;> simp at h
  case subscribe => split at h <;> simp at h
  case call => split at h <;> simp at h
  all_goals simp at h

theorem made_run (orphan : S) (ops : List (Op V S)) (w : World V S) (tr : Trace V S)
    (h : ∀ r ∈ made tr, r < w.readers.length) :
    ∀ r ∈ made (tr ++ (run orphan w ops).2), r < (run orphan w ops).1.readers.length := by
  induction ops generalizing w tr with
  | nil =>
    simp only [run, List.append_nil]
    exact h
  | cons op ops ih =>
    have := ih (step orphan w op).1 (tr ++ [(op, (step orphan w op).2)]) (by
      intro r hr
      have hlen := readers_length orphan w op
      unfold made at hr
      rw [List.filterMap_append, List.mem_append] at hr
      rcases hr with hr | hr
      · have := h r hr
        have := hlen.1
        omega
      · simp only [List.filterMap_cons, List.filterMap_nil] at hr
        cases hout : (step orphan w op).2 <;> rw [hout] at hr <;> simp [madeBy] at hr
        rename_i r'
        subst hr
        have hr' := reader_out orphan w op _ hout
        subst hr'
        have := hlen.2 ⟨_, hout⟩
        omega)
    simp only [run]
    simpa using this

theorem reached_made {orphan : S} {w : World V S} {tr : Trace V S} (h : Reached orphan w tr) :
    ∀ r ∈ made tr, r < w.readers.length := by
  obtain ⟨b, c, ops, h⟩ := h
  have := made_run orphan ops (World.new b c) [] (by intro r hr; cases hr)
  rw [h] at this
  exact this

/-! ### One subscription -/

theorem write_callbacks (w : World V S) (checked : Bool) (v : V) (op : Op V S)
    (hop : op = if checked then .tryWrite v else .write v) :
    (writtenBy (op, (w.write checked v).2) = none ∧ closedBy (op, (w.write checked v).2) = none ∧
      (w.write checked v).1.stream = w.stream) ∨
    (writtenBy (op, (w.write checked v).2) ≠ none ∧ (w.write checked v).1.stream.callbacks = []) := by
  subst hop
  unfold World.write
  by_cases he : w.expired = true
  · rw [if_pos he]
    left
    cases checked <;> exact ⟨rfl, rfl, rfl⟩
  · rw [if_neg he]
    unfold StreamImpl.write
    by_cases hs : w.stream.status.isSome = true
    · rw [if_pos hs]
      left
      cases checked <;> exact ⟨rfl, rfl, rfl⟩
    · rw [if_neg hs]
      right
      cases checked <;> exact ⟨by simp [writtenBy], rfl⟩

theorem step_callbacks (orphan : S) (w : World V S) (tr : Trace V S) (hi : Inv orphan w tr)
    (op : Op V S) (cb : Nat) (hop : ∀ r, op ≠ .subscribe r cb) :
    (writtenBy (op, (step orphan w op).2) = none ∧ closedBy (op, (step orphan w op).2) = none ∧
      (cb ∈ (step orphan w op).1.stream.callbacks ↔ cb ∈ w.stream.callbacks)) ∨
    ((writtenBy (op, (step orphan w op).2) ≠ none ∨ closedBy (op, (step orphan w op).2) ≠ none) ∧
      (step orphan w op).1.stream.callbacks = []) := by
  have hset : ∀ (s : S) (f : Out V S), (f = .fatal ∨ f = .done) → closeRequest orphan op = some s →
      writtenBy (op, (w.setClosed s f).2) = none ∧ closedBy (op, (w.setClosed s f).2) = none ∧
      (cb ∈ (w.setClosed s f).1.stream.callbacks ↔ cb ∈ w.stream.callbacks) := by
    intro s f hf hreq
    unfold World.setClosed
    split
    · rcases hf with rfl | rfl
      · exact ⟨(by cases op <;> first | rfl | (cases hreq)), rfl, Iff.rfl⟩
      · exact ⟨(by cases op <;> first | rfl | (cases hreq)), rfl, Iff.rfl⟩
    · exact ⟨(by cases op <;> first | rfl | (cases hreq)), rfl, Iff.rfl⟩
  cases op with
  | write v =>
    rcases write_callbacks w false v (.write v) rfl with ⟨h1, h2, h3⟩ | ⟨h1, h2⟩
    · exact .inl ⟨h1, h2, by simp only [step]; rw [h3]⟩
    · exact .inr ⟨.inl h1, h2⟩
  | tryWrite v =>
    rcases write_callbacks w true v (.tryWrite v) rfl with ⟨h1, h2, h3⟩ | ⟨h1, h2⟩
    · exact .inl ⟨h1, h2, by simp only [step]; rw [h3]⟩
    · exact .inr ⟨.inl h1, h2⟩
  | close s => exact .inl (hset s .fatal (.inl rfl) rfl)
  | tryClose s => exact .inl (hset s .done (.inr rfl) rfl)
  | destroyWriter => exact .inl (hset orphan .done (.inr rfl) rfl)
  | internalClose =>
    simp only [step, World.internalClose]
    rcases hi.closing.closing with hc | ⟨s, hc, _, hopen⟩
    · rw [hc]
      exact .inl ⟨rfl, rfl, Iff.rfl⟩
    · rw [hc]
      simp only
      split
      · exact .inl ⟨rfl, rfl, Iff.rfl⟩
      · have hst : w.stream.status = none := by rw [hi.core.status]; exact hopen
        right
        unfold StreamImpl.close
        simp [hst, closedBy]
  | orphaned => exact .inl ⟨rfl, rfl, Iff.rfl⟩
  | makeReader =>
    simp only [step]
    split <;> exact .inl ⟨rfl, rfl, Iff.rfl⟩
  | dropStream => exact .inl ⟨rfl, rfl, Iff.rfl⟩
  | dropReader r => exact .inl ⟨rfl, rfl, Iff.rfl⟩
  | tryRead r =>
    simp only [step]
    split <;> exact .inl ⟨rfl, rfl, Iff.rfl⟩
  | subscribe r c =>
    simp only [step]
    split
    · exact .inl ⟨rfl, rfl, Iff.rfl⟩
    · rename_i q hq
      left
      refine ⟨rfl, rfl, ?_⟩
      have hspec := subscribe_spec w.stream _ hi.core.holds q _ (hi.core.readers r q hq) c
      simp only
      rw [hspec.1]
      have hne : cb ≠ c := fun h => hop r (by rw [h])
      split
      · simp [hne]
      · exact Iff.rfl
  | call i =>
    simp only [step]
    split <;> exact .inl ⟨rfl, rfl, Iff.rfl⟩

/-- A callback of a reader that had `n` items when it subscribed. -/
structure Sub (w : World V S) (tr : Trace V S) (cb n : Nat) : Prop where
  once : (subscribed tr).count cb = 1
  within : n ≤ (written tr).length
  waits : cb ∈ w.stream.callbacks ↔ (written tr).length = n ∧ closedWith tr = none

theorem sub_step (orphan : S) (w : World V S) (tr : Trace V S) (hi : Inv orphan w tr) (cb n : Nat)
    (h : Sub w tr cb n) (op : Op V S) (hop : ∀ r, op ≠ .subscribe r cb) :
    Sub (step orphan w op).1 (tr ++ [(op, (step orphan w op).2)]) cb n := by
  have hsb : (subscribedBy (op, (step orphan w op).2)).toList.count cb = 0 := by
    rw [List.count_eq_zero]
    intro hm
    cases op <;> cases hout : (step orphan w _).2 <;> rw [hout] at hm <;>
      simp [subscribedBy] at hm
    subst hm
    exact hop _ rfl
  constructor
  · rw [subscribed_snoc, List.count_append, h.once, hsb]
  · rw [written_snoc, List.length_append]
    have := h.within
    omega
  · rw [written_snoc, closedWith_snoc]
    rcases step_callbacks orphan w tr hi op cb hop with ⟨h1, h2, h3⟩ | ⟨h1, h2⟩
    · rw [h1, h2, h3, h.waits]
      simp
    · rw [h2]
      constructor
      · intro hm
        cases hm
      · rintro ⟨hl, hc⟩
        exfalso
        have hw := h.within
        rcases h1 with h1 | h1
        · cases hv : writtenBy (op, (step orphan w op).2) with
          | none => exact h1 hv
          | some v =>
            rw [hv] at hl
            simp at hl
            omega
        · cases hv : closedBy (op, (step orphan w op).2) with
          | none => exact h1 hv
          | some v =>
            rw [hv] at hc
            cases hcw : closedWith tr <;> rw [hcw] at hc <;> cases hc

theorem sub_run (orphan : S) (ops : List (Op V S)) (w : World V S) (tr : Trace V S)
    (hi : Inv orphan w tr) (cb n : Nat) (h : Sub w tr cb n)
    (hops : ∀ r, Op.subscribe r cb ∉ ops) :
    Sub (run orphan w ops).1 (tr ++ (run orphan w ops).2) cb n := by
  induction ops generalizing w tr with
  | nil =>
    simp only [run, List.append_nil]
    exact h
  | cons op ops ih =>
    have := ih _ _ (inv_step orphan w tr hi op)
      (sub_step orphan w tr hi cb n h op (fun r hr => hops r (by simp [hr])))
      (fun r hr => hops r (by simp [hr]))
    simp only [run]
    simpa using this

theorem subscribed_ops (orphan : S) (ops : List (Op V S)) (w : World V S) (cb : Nat)
    (h : ∀ r, Op.subscribe r cb ∉ ops) : (subscribed (run orphan w ops).2).count cb = 0 := by
  induction ops generalizing w with
  | nil => rfl
  | cons op ops ih =>
    have hrest := ih (step orphan w op).1 (fun r hr => h r (by simp [hr]))
    rw [List.count_eq_zero] at hrest ⊢
    simp only [run]
    intro hm
    unfold subscribed at hm
    rw [List.mem_filterMap] at hm
    obtain ⟨e, he, hcb⟩ := hm
    rcases List.mem_cons.1 he with rfl | he
    · cases op <;> cases hout : (step orphan w _).2 <;> rw [hout] at hcb <;>
        simp [subscribedBy] at hcb
      subst hcb
      exact h _ (List.mem_cons_self ..)
    · exact hrest (List.mem_filterMap.2 ⟨e, he, hcb⟩)

theorem sub_start (orphan : S) (w : World V S) (tr : Trace V S) (hi : Inv orphan w tr) (r cb : Nat)
    (hn : (subscribed tr).count cb = 0) (hlive : Live r tr) :
    (step orphan w (.subscribe r cb)).2 = .done ∧
    Sub (step orphan w (.subscribe r cb)).1 (tr ++ [(.subscribe r cb, .done)]) cb (got r tr).length := by
  have hsome := (hi.core.live r).2 hlive
  cases hq : w.reader r with
  | none => rw [hq] at hsome; cases hsome
  | some q =>
    simp only [step, hq]
    refine ⟨trivial, ?_, ?_, ?_⟩
    · rw [subscribed_snoc, List.count_append, hn]
      simp [subscribedBy]
    · rw [written_snoc]
      have := hi.core.items r
      have hlen := congrArg List.length this
      rw [List.length_take] at hlen
      simp [writtenBy]
      omega
    · have hspec := subscribe_spec w.stream _ hi.core.holds q _ (hi.core.readers r q hq) cb
      simp only
      rw [hspec.1, written_snoc, closedWith_snoc]
      simp only [writtenBy, closedBy, Option.toList_none, List.append_nil, Option.or_none]
      rw [← hi.core.status]
      have hnot : cb ∉ w.stream.callbacks := by
        have := hi.callbacks.count cb
        rw [hn, List.count_eq_zero] at this
        intro hm
        apply this
        simp [hm]
      by_cases hwait : w.stream.status = none ∧ (got r tr).length = (written tr).length
      · rw [if_pos hwait]
        simp [hwait.1, hwait.2]
      · rw [if_neg hwait]
        constructor
        · intro hm
          exact absurd hm hnot
        · rintro ⟨h1, h2⟩
          exact absurd ⟨h2, h1.symm⟩ hwait

end Verif.Stream
