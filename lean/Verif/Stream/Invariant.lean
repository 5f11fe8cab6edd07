import Verif.Stream.Lemmas

/-!
The invariant of a world and its history.
-/

namespace Verif.Stream

set_option linter.unusedSectionVars false

variable {V S : Type}

theorem written_snoc (tr : Trace V S) (e : Op V S × Out V S) :
    written (tr ++ [e]) = written tr ++ (writtenBy e).toList := by
  simp only [written, List.filterMap_append, List.filterMap_cons, List.filterMap_nil]
  cases writtenBy e <;> rfl

theorem got_snoc (r : Nat) (tr : Trace V S) (e : Op V S × Out V S) :
    got r (tr ++ [e]) = got r tr ++ (gotBy r e).toList := by
  simp only [got, List.filterMap_append, List.filterMap_cons, List.filterMap_nil]
  cases gotBy r e <;> rfl

theorem called_snoc (tr : Trace V S) (e : Op V S × Out V S) :
    called (tr ++ [e]) = called tr ++ (calledBy e).toList := by
  simp only [called, List.filterMap_append, List.filterMap_cons, List.filterMap_nil]
  cases calledBy e <;> rfl

theorem subscribed_snoc (tr : Trace V S) (e : Op V S × Out V S) :
    subscribed (tr ++ [e]) = subscribed tr ++ (subscribedBy e).toList := by
  simp only [subscribed, List.filterMap_append, List.filterMap_cons, List.filterMap_nil]
  cases subscribedBy e <;> rfl

theorem closedWith_snoc (tr : Trace V S) (e : Op V S × Out V S) :
    closedWith (tr ++ [e]) = (closedWith tr).or (closedBy e) := by
  simp only [closedWith, List.findSome?_append, List.findSome?_cons, List.findSome?_nil]
  cases closedBy e <;> rfl

theorem firstRequest_snoc (orphan : S) (tr : Trace V S) (e : Op V S × Out V S) :
    firstRequest orphan (tr ++ [e]) = (firstRequest orphan tr).or (closeRequest orphan e.1) := by
  simp only [firstRequest, List.findSome?_append, List.findSome?_cons, List.findSome?_nil]
  cases closeRequest orphan e.1 <;> rfl

theorem snoc_split {α : Type} {l : List α} {a b : α} {before after : List α}
    (h : l ++ [a] = before ++ b :: after) :
    (after = [] ∧ before = l ∧ b = a) ∨ ∃ after', after = after' ++ [a] ∧ l = before ++ b :: after' := by
  rcases List.eq_nil_or_concat after with rfl | ⟨after', x, rfl⟩
  · have := List.append_inj' h rfl
    exact .inl ⟨rfl, this.1.symm, (List.cons.inj this.2).1.symm⟩
  · rw [List.concat_eq_append] at h ⊢
    have h' : l ++ [a] = (before ++ b :: after') ++ [x] := by simpa using h
    have := List.append_inj' h' rfl
    have hx := (List.cons.inj this.2).1
    exact .inr ⟨after', by rw [hx], this.1⟩

theorem live_snoc (r : Nat) (tr : Trace V S) (e : Op V S × Out V S) :
    Live r (tr ++ [e]) ↔ (Live r tr ∧ e.1 ≠ .dropReader r) ∨ e = (.makeReader, .reader r) := by
  constructor
  · rintro ⟨before, out, after, h, rfl, hafter⟩
    rcases snoc_split h with ⟨_, _, rfl⟩ | ⟨after', rfl, rfl⟩
    · exact .inr rfl
    · exact .inl ⟨⟨before, _, after', rfl, rfl, fun x hx => hafter x (by simp [hx])⟩,
        hafter e (by simp)⟩
  · rintro (⟨⟨before, out, after, rfl, rfl, hafter⟩, he⟩ | rfl)
    · refine ⟨before, _, after ++ [e], by simp, rfl, ?_⟩
      intro x hx
      rcases List.mem_append.1 hx with hx | hx
      · exact hafter x hx
      · rw [List.mem_singleton] at hx
        subst hx
        exact he
    · exact ⟨tr, _, [], rfl, rfl, by simp⟩

/-- Items, status and readers. -/
structure Core (w : World V S) (tr : Trace V S) : Prop where
  holds : Holds w.stream (written tr)
  status : w.stream.status = closedWith tr
  readers : ∀ (r : Nat) (q : Reader), w.reader r = some q → At w.stream q (got r tr).length
  items : ∀ r : Nat, got r tr = (written tr).take (got r tr).length
  fresh : ∀ r : Nat, w.readers.length ≤ r → got r tr = []
  live : ∀ r : Nat, (w.reader r).isSome = true ↔ Live r tr
  held : w.held = false ↔ ∃ e ∈ tr, e.1 = .dropStream

/-- The requests to close. -/
structure Closing (orphan : S) (w : World V S) (tr : Trace V S) : Prop where
  flag : w.closedFlag = (firstRequest orphan tr).isSome
  closing : w.closing = [] ∨
    ∃ status, w.closing = [status] ∧ firstRequest orphan tr = some status ∧ closedWith tr = none
  status : ∀ status, closedWith tr = some status → firstRequest orphan tr = some status

/-- The callbacks. -/
structure Callbacks (w : World V S) (tr : Trace V S) : Prop where
  count : ∀ cb : Nat, (w.stream.callbacks ++ w.pool ++ called tr).count cb = (subscribed tr).count cb
  none : closedWith tr ≠ none → w.stream.callbacks = []

/-- All of it. -/
structure Inv (orphan : S) (w : World V S) (tr : Trace V S) : Prop where
  core : Core w tr
  closing : Closing orphan w tr
  callbacks : Callbacks w tr

theorem reader_lt {w : World V S} {r : Nat} {q : Reader} (h : w.reader r = some q) :
    r < w.readers.length := by
  unfold World.reader at h
  by_cases hr : r < w.readers.length
  · exact hr
  · rw [List.getElem?_eq_none (by omega)] at h
    cases h

theorem reader_set (w : World V S) (r j : Nat) (x : Option Reader) (hr : r < w.readers.length)
    (stream : StreamImpl V S) (held closedFlag : Bool) (closing : List S) (pool : List Nat) :
    (World.reader ⟨stream, held, w.readers.set r x, closedFlag, closing, pool⟩ j : Option Reader) =
      if j = r then x else w.reader j := by
  unfold World.reader
  simp only
  by_cases hj : j = r
  · subst hj
    rw [if_pos rfl, List.getElem?_set_self hr]
    rfl
  · rw [if_neg hj, List.getElem?_set_ne (fun h => hj h.symm)]

theorem expired_iff (w : World V S) (tr : Trace V S) (h : Core w tr) :
    w.expired = true ↔ Gone tr := by
  unfold World.expired Gone
  rw [Bool.and_eq_true, Bool.not_eq_true', h.held, List.all_eq_true]
  apply and_congr Iff.rfl
  constructor
  · intro hall r hl
    have hs := (h.live r).2 hl
    unfold World.reader at hs
    cases hr : w.readers[r]? with
    | none => rw [hr] at hs; cases hs
    | some o =>
      rw [hr] at hs
      have := hall o (List.mem_of_getElem? hr)
      cases o with
      | none => cases hs
      | some q => cases this
  · intro hnone o ho
    obtain ⟨r, hr⟩ := List.getElem?_of_mem ho
    cases o with
    | none => rfl
    | some q =>
      exfalso
      apply hnone r
      rw [← h.live r]
      unfold World.reader
      rw [hr]
      rfl

theorem inv_new (orphan : S) (bytesize initialCapacity : Nat) :
    Inv orphan (World.new bytesize initialCapacity : World V S) [] := by
  constructor
  · refine ⟨holds_new _ _, rfl, ?_, fun _ => by simp [got], fun _ _ => rfl, ?_, ?_⟩
    · intro r q h
      have := reader_lt h
      simp [World.new] at this
    · intro r
      constructor
      · intro h
        cases hr : (World.new bytesize initialCapacity : World V S).reader r with
        | none => rw [hr] at h; cases h
        | some q =>
          have := reader_lt hr
          simp [World.new] at this
      · rintro ⟨before, out, after, h, _⟩
        simp at h
    · simp [World.new]
  · exact ⟨rfl, .inl rfl, fun status h => by cases h⟩
  · exact ⟨fun cb => rfl, fun h => rfl⟩

/-- A step that changes neither items nor readers. -/
theorem core_quiet (w w' : World V S) (tr : Trace V S) (e : Op V S × Out V S) (h : Core w tr)
    (hs : w'.stream = w.stream ∨ ∃ cbs, w'.stream = { w.stream with callbacks := cbs })
    (hr : w'.readers = w.readers) (hh : w'.held = w.held)
    (h1 : writtenBy e = none) (h2 : ∀ r, gotBy r e = none) (h3 : closedBy e = none)
    (h4 : ∀ r, e.1 ≠ .dropReader r) (h5 : ∀ r, e ≠ (.makeReader, .reader r))
    (h6 : e.1 ≠ .dropStream) : Core w' (tr ++ [e]) := by
  have hw : written (tr ++ [e]) = written tr := by rw [written_snoc, h1]; simp
  have hg : ∀ r, got r (tr ++ [e]) = got r tr := by intro r; rw [got_snoc, h2]; simp
  have hc : closedWith (tr ++ [e]) = closedWith tr := by rw [closedWith_snoc, h3]; simp
  have hl : ∀ r, Live r (tr ++ [e]) ↔ Live r tr := by
    intro r
    rw [live_snoc]
    simp [h4 r, h5 r]
  have hreader : ∀ r, w'.reader r = w.reader r := by
    intro r
    unfold World.reader
    rw [hr]
  have hholds : Holds w'.stream (written tr) ∧ w'.stream.status = w.stream.status ∧
      ∀ q n, At w.stream q n → At w'.stream q n := by
    rcases hs with hs | ⟨cbs, hs⟩
    · rw [hs]
      exact ⟨h.holds, rfl, fun _ _ h => h⟩
    · rw [hs]
      have := h.holds
      exact ⟨⟨this.positive, this.default, this.fits, this.none, this.first, this.length,
        this.values⟩, rfl, fun _ _ h => h⟩
  refine ⟨by rw [hw]; exact hholds.1, ?_, ?_, ?_, ?_, ?_, ?_⟩
  · rw [hc, ← h.status]
    exact hholds.2.1
  · intro r q hq
    rw [hg, hreader] at *
    exact hholds.2.2 q _ (h.readers r q hq)
  · intro r
    rw [hg, hw]
    exact h.items r
  · intro r hlen
    rw [hg]
    exact h.fresh r (by rw [← hr]; exact hlen)
  · intro r
    rw [hreader, hl]
    exact h.live r
  · rw [hh, h.held]
    constructor
    · rintro ⟨x, hx, hx'⟩
      exact ⟨x, by simp [hx], hx'⟩
    · rintro ⟨x, hx, hx'⟩
      rcases List.mem_append.1 hx with hx | hx
      · exact ⟨x, hx, hx'⟩
      · rw [List.mem_singleton] at hx
        subst hx
        exact absurd hx' h6

theorem closing_quiet (orphan : S) (w w' : World V S) (tr : Trace V S) (e : Op V S × Out V S)
    (h : Closing orphan w tr) (hf : w'.closedFlag = w.closedFlag) (hc : w'.closing = w.closing)
    (h1 : closedBy e = none) (h2 : closeRequest orphan e.1 = none) :
    Closing orphan w' (tr ++ [e]) := by
  have hr : firstRequest orphan (tr ++ [e]) = firstRequest orphan tr := by
    rw [firstRequest_snoc, h2]; simp
  have hcl : closedWith (tr ++ [e]) = closedWith tr := by rw [closedWith_snoc, h1]; simp
  refine ⟨by rw [hf, hr]; exact h.flag, ?_, ?_⟩
  · rw [hc, hr, hcl]
    exact h.closing
  · rw [hr, hcl]
    exact h.status

theorem callbacks_quiet (w w' : World V S) (tr : Trace V S) (e : Op V S × Out V S)
    (h : Callbacks w tr) (hs : w'.stream.callbacks = w.stream.callbacks) (hp : w'.pool = w.pool)
    (h1 : closedBy e = none) (h2 : calledBy e = none) (h3 : subscribedBy e = none) :
    Callbacks w' (tr ++ [e]) := by
  have hcl : closedWith (tr ++ [e]) = closedWith tr := by rw [closedWith_snoc, h1]; simp
  refine ⟨?_, ?_⟩
  · intro cb
    rw [hs, hp, called_snoc, subscribed_snoc, h2, h3]
    simpa using h.count cb
  · rw [hcl, hs]
    exact h.none

theorem append_status (s : StreamImpl V S) (v : V) :
    (s.append v).status = s.status ∧ (s.append v).callbacks = s.callbacks := ⟨rfl, rfl⟩

theorem inv_write (orphan : S) (w : World V S) (tr : Trace V S) (h : Inv orphan w tr)
    (checked : Bool) (v : V) :
    Inv orphan (w.write checked v).1
      (tr ++ [(if checked then .tryWrite v else .write v, (w.write checked v).2)]) := by
  have hquiet : ∀ out : Out V S, (out = .lost ∨ out = .fatal ∨ out = .result false) →
      Inv orphan w (tr ++ [(if checked then .tryWrite v else .write v, out)]) := by
    intro out hout
    constructor
    · apply core_quiet w w tr _ h.core (.inl rfl) rfl rfl
      all_goals cases checked <;> rcases hout with rfl | rfl | rfl <;>
        simp [writtenBy, gotBy, closedBy]
    · apply closing_quiet orphan w w tr _ h.closing rfl rfl
      all_goals cases checked <;> rcases hout with rfl | rfl | rfl <;>
        simp [closedBy, closeRequest]
    · apply callbacks_quiet w w tr _ h.callbacks rfl rfl
      all_goals cases checked <;> rcases hout with rfl | rfl | rfl <;>
        simp [closedBy, calledBy, subscribedBy]
  unfold World.write
  split
  · apply hquiet
    cases checked
    · exact .inl rfl
    · exact .inr (.inr rfl)
  · unfold StreamImpl.write
    split
    · rename_i hw
      split at hw
      · cases hw
      · rename_i hst
        simp only [Prod.mk.injEq, Option.some.injEq] at hw
        obtain ⟨rfl, rfl⟩ := hw
        have hnone : w.stream.status = none := by
          cases hs : w.stream.status with
          | none => rfl
          | some s => rw [hs] at hst; simp at hst
        have hwb : writtenBy ((if checked then .tryWrite v else .write v :
            Op V S), (if checked then .result true else .done : Out V S)) = some v := by
          cases checked <;> rfl
        generalize he : ((if checked then .tryWrite v else .write v : Op V S),
            (if checked then .result true else .done : Out V S)) = e at hwb
        have h2 : ∀ r, gotBy r e = none := by
          intro r; rw [← he]; cases checked <;> rfl
        have h3 : closedBy e = none := by rw [← he]; cases checked <;> rfl
        have h4 : calledBy e = none := by rw [← he]; cases checked <;> rfl
        have h5 : subscribedBy e = none := by rw [← he]; cases checked <;> rfl
        have h6 : closeRequest orphan e.1 = none := by rw [← he]; cases checked <;> rfl
        have h7 : ∀ r, e.1 ≠ .dropReader r := by
          intro r; rw [← he]; cases checked <;> simp
        have h8 : ∀ r, e ≠ (.makeReader, .reader r) := by
          intro r; rw [← he]; cases checked <;> simp
        have h9 : e.1 ≠ .dropStream := by rw [← he]; cases checked <;> simp
        have hcl : closedWith (tr ++ [e]) = closedWith tr := by rw [closedWith_snoc, h3]; simp
        have hg : ∀ r, got r (tr ++ [e]) = got r tr := by intro r; rw [got_snoc, h2]; simp
        have hwr : written (tr ++ [e]) = written tr ++ [v] := by rw [written_snoc, hwb]; rfl
        have hopen : closedWith tr = none := by rw [← h.core.status]; exact hnone
        have hholds := holds_append w.stream (written tr) v h.core.holds
        constructor
        · refine ⟨?_, ?_, ?_, ?_, ?_, ?_, ?_⟩
          · rw [hwr]
            exact ⟨hholds.positive, hholds.default, hholds.fits, hholds.none, hholds.first,
              hholds.length, hholds.values⟩
          · rw [hcl, hopen]
            exact hnone
          · intro r q hq
            rw [hg]
            exact append_at w.stream v q _ (h.core.readers r q hq)
          · intro r
            have hit := h.core.items r
            have hle : (got r tr).length ≤ (written tr).length := by
              rw [hit, List.length_take]
              omega
            rw [hg, hwr, List.take_append_of_le_length hle]
            exact hit
          · intro r hlen
            rw [hg]
            exact h.core.fresh r hlen
          · intro r
            rw [live_snoc]
            have := h.core.live r
            simp only [h7 r, h8 r, ne_eq, not_false_eq_true, and_true, or_false]
            exact this
          · have := h.core.held
            simp only [List.mem_append, List.mem_singleton]
            rw [show (∃ x, (x ∈ tr ∨ x = e) ∧ x.1 = .dropStream) ↔ ∃ x ∈ tr, x.1 = .dropStream from
              ⟨fun ⟨x, hx, hx'⟩ => by
                rcases hx with hx | rfl
                · exact ⟨x, hx, hx'⟩
                · exact absurd hx' h9, fun ⟨x, hx, hx'⟩ => ⟨x, .inl hx, hx'⟩⟩]
            exact this
        · exact closing_quiet orphan w _ tr e h.closing rfl rfl h3 h6
        · constructor
          · intro cb
            rw [called_snoc, subscribed_snoc, h4, h5]
            have := h.callbacks.count cb
            simp only [Option.toList_none, List.append_nil, List.count_append,
              List.count_nil] at this ⊢
            omega
          · intro _
            rfl
    · rename_i hw
      split at hw
      · apply hquiet
        cases checked
        · exact .inr (.inl rfl)
        · exact .inr (.inr rfl)
      · cases hw

theorem inv_setClosed (orphan : S) (w : World V S) (tr : Trace V S) (h : Inv orphan w tr)
    (op : Op V S) (status : S) (failure : Out V S) (hf : failure = .fatal ∨ failure = .done)
    (hop : closeRequest orphan op = some status) :
    Inv orphan (w.setClosed status failure).1 (tr ++ [(op, (w.setClosed status failure).2)]) := by
  have hout : (w.setClosed status failure).2 = .fatal ∨ (w.setClosed status failure).2 = .done := by
    unfold World.setClosed
    split
    · exact hf
    · exact .inr rfl
  have hops : (∀ v, op ≠ .write v) ∧ (∀ v, op ≠ .tryWrite v) ∧ (∀ r, op ≠ .dropReader r) ∧
      op ≠ .dropStream ∧ op ≠ .makeReader ∧ ∀ r cb, op ≠ .subscribe r cb := by
    refine ⟨?_, ?_, ?_, ?_, ?_, ?_⟩ <;> intros <;> rintro rfl <;> cases hop
  have hcore : (w.setClosed status failure).1.stream = w.stream ∧
      (w.setClosed status failure).1.readers = w.readers ∧
      (w.setClosed status failure).1.held = w.held ∧
      (w.setClosed status failure).1.pool = w.pool := by
    unfold World.setClosed
    split <;> exact ⟨rfl, rfl, rfl, rfl⟩
  have hcb : closedBy (op, (w.setClosed status failure).2) = none := by
    rcases hout with ho | ho <;> rw [ho] <;> rfl
  constructor
  · apply core_quiet w _ tr _ h.core (.inl hcore.1) hcore.2.1 hcore.2.2.1
    · rcases hout with ho | ho <;> rw [ho] <;> cases op <;> simp_all [writtenBy]
    · intro r
      rcases hout with ho | ho <;> rw [ho] <;> cases op <;> simp_all [gotBy]
    · exact hcb
    · exact hops.2.2.1
    · intro r he
      exact hops.2.2.2.2.1 (congrArg Prod.fst he)
    · exact hops.2.2.2.1
  · have hcl : closedWith (tr ++ [(op, (w.setClosed status failure).2)]) = closedWith tr := by
      rw [closedWith_snoc, hcb]; simp
    have hreq : firstRequest orphan (tr ++ [(op, (w.setClosed status failure).2)]) =
        (firstRequest orphan tr).or (some status) := by rw [firstRequest_snoc, hop]
    have hflag := h.closing.flag
    cases hfr : firstRequest orphan tr with
    | some s0 =>
      rw [hfr] at hflag hreq
      have hw : (w.setClosed status failure).1 = w := by
        unfold World.setClosed
        rw [show w.closedFlag = true from hflag]
        rfl
      refine ⟨?_, ?_, ?_⟩
      · rw [hreq, hw, hflag]
        rfl
      · rw [hreq, hw, hcl, Option.some_or, ← hfr]
        exact h.closing.closing
      · rw [hreq, hcl, Option.some_or, ← hfr]
        exact h.closing.status
    | none =>
      rw [hfr] at hflag hreq
      have hopen : closedWith tr = none := by
        cases hc : closedWith tr with
        | none => rfl
        | some s =>
          have := h.closing.status s hc
          rw [hfr] at this
          cases this
      have hempty : w.closing = [] := by
        rcases h.closing.closing with hc | ⟨s, _, hc, _⟩
        · exact hc
        · rw [hfr] at hc
          cases hc
      have hw : (w.setClosed status failure).1 =
          { w with closedFlag := true, closing := w.closing ++ [status] } := by
        unfold World.setClosed
        rw [hflag]
        rfl
      refine ⟨?_, .inr ⟨status, ?_, ?_, ?_⟩, ?_⟩
      · rw [hreq, hw]
        rfl
      · rw [hw, hempty]
        rfl
      · rw [hreq]
        rfl
      · rw [hcl, hopen]
      · rw [hcl, hopen]
        intro s hs
        cases hs
  · apply callbacks_quiet w _ tr _ h.callbacks (by rw [hcore.1]) hcore.2.2.2 hcb
    · rcases hout with ho | ho <;> rw [ho] <;> cases op <;> simp_all [calledBy]
    · rcases hout with ho | ho <;> rw [ho] <;> cases op <;> simp_all [subscribedBy]

theorem inv_internalClose (orphan : S) (w : World V S) (tr : Trace V S) (h : Inv orphan w tr) :
    Inv orphan w.internalClose.1 (tr ++ [(.internalClose, w.internalClose.2)]) := by
  unfold World.internalClose
  rcases h.closing.closing with hc | ⟨status, hc, hreq, hopen⟩
  · rw [hc]
    constructor
    · apply core_quiet w _ tr _ h.core (.inl rfl) rfl rfl <;> simp [writtenBy, gotBy, closedBy]
    · apply closing_quiet orphan w _ tr _ h.closing rfl rfl <;> simp [closedBy, closeRequest]
    · apply callbacks_quiet w _ tr _ h.callbacks rfl rfl <;>
        simp [closedBy, calledBy, subscribedBy]
  · rw [hc]
    simp only
    split
    · constructor
      · apply core_quiet w { w with closing := [] } tr _ h.core (.inl rfl) rfl rfl <;> simp [writtenBy, gotBy, closedBy]
      · have hcl : closedWith (tr ++ [((.internalClose : Op V S), (.done : Out V S))]) =
            closedWith tr := by rw [closedWith_snoc]; simp [closedBy]
        have hfr : firstRequest orphan (tr ++ [((.internalClose : Op V S), (.done : Out V S))]) =
            firstRequest orphan tr := by rw [firstRequest_snoc]; simp [closeRequest]
        refine ⟨?_, .inl rfl, ?_⟩
        · rw [hfr]
          exact h.closing.flag
        · rw [hfr, hcl]
          exact h.closing.status
      · apply callbacks_quiet w { w with closing := [] } tr _ h.callbacks rfl rfl <;>
          simp [closedBy, calledBy, subscribedBy]
    · have hnone : w.stream.status = none := by rw [h.core.status]; exact hopen
      unfold StreamImpl.close
      simp only [hnone, Option.isSome_none, Bool.false_eq_true, if_false]
      generalize he : ((.internalClose : Op V S), (.finished status : Out V S)) = e
      have hw : written (tr ++ [e]) = written tr := by
        rw [written_snoc, ← he]; simp [writtenBy]
      have hg : ∀ r, got r (tr ++ [e]) = got r tr := by
        intro r; rw [got_snoc, ← he]; simp [gotBy]
      have hcl : closedWith (tr ++ [e]) = some status := by
        rw [closedWith_snoc, hopen, ← he]; rfl
      have hfr : firstRequest orphan (tr ++ [e]) = firstRequest orphan tr := by
        rw [firstRequest_snoc, ← he]; simp [closeRequest]
      constructor
      · have hh := h.core.holds
        refine ⟨?_, ?_, ?_, ?_, ?_, ?_, ?_⟩
        · rw [hw]
          exact ⟨hh.positive, hh.default, hh.fits, hh.none, hh.first, hh.length, hh.values⟩
        · rw [hcl]
        · intro r q hq
          rw [hg]
          exact h.core.readers r q hq
        · intro r
          rw [hg, hw]
          exact h.core.items r
        · intro r hr
          rw [hg]
          exact h.core.fresh r hr
        · intro r
          rw [live_snoc, ← he]
          simp only [ne_eq, reduceCtorEq, not_false_eq_true, and_true, Prod.mk.injEq, and_self,
            or_false]
          exact h.core.live r
        · have := h.core.held
          simp only [List.mem_append, List.mem_singleton]
          rw [show (∃ x, (x ∈ tr ∨ x = e) ∧ x.1 = .dropStream) ↔ ∃ x ∈ tr, x.1 = .dropStream from
            ⟨fun ⟨x, hx, hx'⟩ => by
              rcases hx with hx | rfl
              · exact ⟨x, hx, hx'⟩
              · rw [← he] at hx'
                exact absurd hx' (by simp), fun ⟨x, hx, hx'⟩ => ⟨x, .inl hx, hx'⟩⟩]
          exact this
      · refine ⟨?_, .inl rfl, ?_⟩
        · rw [hfr]
          exact h.closing.flag
        · intro s hs
          rw [hcl] at hs
          cases hs
          rw [hfr]
          exact hreq
      · constructor
        · intro cb
          rw [called_snoc, subscribed_snoc, ← he]
          have := h.callbacks.count cb
          simp only [calledBy, subscribedBy, Option.toList_none, List.append_nil,
            List.count_append, List.count_nil] at this ⊢
          omega
        · intro _
          rfl

/-- Which readers exist does not follow from anything else. -/
theorem held_snoc (tr : Trace V S) (e : Op V S × Out V S) (h : e.1 ≠ .dropStream) :
    (∃ x ∈ tr ++ [e], x.1 = .dropStream) ↔ ∃ x ∈ tr, x.1 = .dropStream := by
  constructor
  · rintro ⟨x, hx, hx'⟩
    rcases List.mem_append.1 hx with hx | hx
    · exact ⟨x, hx, hx'⟩
    · rw [List.mem_singleton] at hx
      subst hx
      exact absurd hx' h
  · rintro ⟨x, hx, hx'⟩
    exact ⟨x, by simp [hx], hx'⟩

theorem inv_quiet (orphan : S) (w : World V S) (tr : Trace V S) (h : Inv orphan w tr) (op : Op V S)
    (out : Out V S) (hop : op = .orphaned ∨ out = .invalid) (hout : ∀ status, out ≠ .finished status)
    (hcalled : ∀ cb, out ≠ .called cb)
    (h1 : closeRequest orphan op = none) (h2 : op ≠ .dropStream) (h3 : ∀ r, op ≠ .dropReader r) :
    Inv orphan w (tr ++ [(op, out)]) := by
  have hc : closedBy (op, out) = none := by
    cases out <;> simp_all [closedBy]
  have hcd : calledBy (op, out) = none := by
    cases out <;> simp_all [calledBy]
  constructor
  · apply core_quiet w w tr _ h.core (.inl rfl) rfl rfl
    · rcases hop with rfl | rfl
      · simp [writtenBy]
      · cases op <;> simp [writtenBy]
    · intro r
      rcases hop with rfl | rfl
      · simp [gotBy]
      · cases op <;> simp [gotBy]
    · exact hc
    · exact h3
    · rcases hop with rfl | rfl <;> simp
    · exact h2
  · exact closing_quiet orphan w w tr _ h.closing rfl rfl hc h1
  · apply callbacks_quiet w w tr _ h.callbacks rfl rfl hc hcd
    rcases hop with rfl | rfl
    · simp [subscribedBy]
    · cases op <;> simp [subscribedBy]

theorem inv_makeReader (orphan : S) (w : World V S) (tr : Trace V S) (h : Inv orphan w tr) :
    Inv orphan (step orphan w .makeReader).1 (tr ++ [(.makeReader, (step orphan w .makeReader).2)]) := by
  simp only [step]
  split
  · simp only
    generalize he : ((.makeReader : Op V S), (.reader w.readers.length : Out V S)) = e
    have hw : written (tr ++ [e]) = written tr := by rw [written_snoc, ← he]; simp [writtenBy]
    have hg : ∀ r, got r (tr ++ [e]) = got r tr := by
      intro r; rw [got_snoc, ← he]; simp [gotBy]
    have hcl : closedWith (tr ++ [e]) = closedWith tr := by
      rw [closedWith_snoc, ← he]; simp [closedBy]
    have hreader : ∀ r, World.reader { w with readers := w.readers ++ [some {}] } r =
        if r = w.readers.length then some {} else w.reader r := by
      intro r
      unfold World.reader
      simp only
      by_cases hr : r = w.readers.length
      · subst hr
        rw [if_pos rfl, List.getElem?_append_right (Nat.le_refl _), Nat.sub_self]
        rfl
      · rw [if_neg hr]
        by_cases hlt : r < w.readers.length
        · rw [List.getElem?_append_left hlt]
        · rw [List.getElem?_eq_none (by simp; omega), List.getElem?_eq_none (by omega)]
    constructor
    · refine ⟨?_, ?_, ?_, ?_, ?_, ?_, ?_⟩
      · rw [hw]
        exact h.core.holds
      · rw [hcl]
        exact h.core.status
      · intro r q hq
        rw [hreader] at hq
        rw [hg]
        split at hq
        · rename_i hr
          cases hq
          rw [h.core.fresh r (by omega)]
          exact at_new _
        · exact h.core.readers r q hq
      · intro r
        rw [hg, hw]
        exact h.core.items r
      · intro r hr
        rw [hg]
        apply h.core.fresh r
        simp at hr
        omega
      · intro r
        rw [hreader, live_snoc, ← he, ← h.core.live r]
        by_cases hr : r = w.readers.length
        · simp [hr]
        · have : w.readers.length ≠ r := fun h => hr h.symm
          simp [hr, this]
      · rw [held_snoc tr e (by rw [← he]; simp)]
        exact h.core.held
    · refine closing_quiet orphan w _ tr e h.closing ?_ ?_ ?_ ?_ <;> first | rfl | (rw [← he]; rfl)
    · refine callbacks_quiet w _ tr e h.callbacks ?_ ?_ ?_ ?_ ?_ <;> first | rfl | (rw [← he]; rfl)
  · apply inv_quiet orphan w tr h _ _ (.inr rfl) <;> simp [closeRequest]

theorem inv_dropStream (orphan : S) (w : World V S) (tr : Trace V S) (h : Inv orphan w tr) :
    Inv orphan { w with held := false } (tr ++ [(.dropStream, .done)]) := by
  have hw : written (tr ++ [(.dropStream, .done)]) = written tr := by
    rw [written_snoc]; simp [writtenBy]
  have hg : ∀ r, got r (tr ++ [(.dropStream, .done)]) = got r tr := by
    intro r; rw [got_snoc]; simp [gotBy]
  have hcl : closedWith (tr ++ [(.dropStream, .done)]) = closedWith tr := by
    rw [closedWith_snoc]; simp [closedBy]
  constructor
  · refine ⟨by rw [hw]; exact h.core.holds, by rw [hcl]; exact h.core.status, ?_, ?_, ?_, ?_, ?_⟩
    · intro r q hq
      rw [hg]
      exact h.core.readers r q hq
    · intro r
      rw [hg, hw]
      exact h.core.items r
    · intro r hr
      rw [hg]
      exact h.core.fresh r hr
    · intro r
      rw [live_snoc]
      simp only [ne_eq, reduceCtorEq, not_false_eq_true, and_true, Prod.mk.injEq, and_self, or_false]
      exact h.core.live r
    · simp
  · refine closing_quiet orphan w _ tr _ h.closing ?_ ?_ ?_ ?_ <;> rfl
  · refine callbacks_quiet w _ tr _ h.callbacks ?_ ?_ ?_ ?_ ?_ <;> rfl

theorem inv_dropReader (orphan : S) (w : World V S) (tr : Trace V S) (h : Inv orphan w tr)
    (r : Nat) :
    Inv orphan { w with readers := w.readers.set r none } (tr ++ [(.dropReader r, .done)]) := by
  have hw : written (tr ++ [(.dropReader r, .done)]) = written tr := by
    rw [written_snoc]; simp [writtenBy]
  have hg : ∀ j, got j (tr ++ [(.dropReader r, .done)]) = got j tr := by
    intro j; rw [got_snoc]; simp [gotBy]
  have hcl : closedWith (tr ++ [(.dropReader r, .done)]) = closedWith tr := by
    rw [closedWith_snoc]; simp [closedBy]
  have hreader : ∀ j, World.reader { w with readers := w.readers.set r none } j =
      if j = r then none else w.reader j := by
    intro j
    by_cases hr : r < w.readers.length
    · exact reader_set w r j none hr _ _ _ _ _
    · rw [List.set_eq_of_length_le (by omega)]
      by_cases hj : j = r
      · rw [if_pos hj]
        unfold World.reader
        simp only
        rw [List.getElem?_eq_none (by omega)]
        rfl
      · rw [if_neg hj]
  constructor
  · refine ⟨by rw [hw]; exact h.core.holds, by rw [hcl]; exact h.core.status, ?_, ?_, ?_, ?_, ?_⟩
    · intro j q hq
      rw [hreader] at hq
      rw [hg]
      split at hq
      · cases hq
      · exact h.core.readers j q hq
    · intro j
      rw [hg, hw]
      exact h.core.items j
    · intro j hj
      rw [hg]
      apply h.core.fresh j
      simpa using hj
    · intro j
      rw [hreader, live_snoc, ← h.core.live j]
      by_cases hj : j = r
      · simp [hj]
      · have : r ≠ j := fun h => hj h.symm
        simp [hj, this]
    · rw [held_snoc tr _ (by simp)]
      exact h.core.held
  · refine closing_quiet orphan w _ tr _ h.closing ?_ ?_ ?_ ?_ <;> rfl
  · refine callbacks_quiet w _ tr _ h.callbacks ?_ ?_ ?_ ?_ ?_ <;> rfl

theorem take_get_length {α : Type} (l : List α) (n : Nat) (x : α) (h : l[n]? = some x) :
    l.take (n + 1) = l.take n ++ [x] := by
  rw [List.take_add_one, h]
  rfl

/-- What a read returns is what the history says. -/
theorem read_eq (w : World V S) (tr : Trace V S) (h : Core w tr) (r : Nat) (q : Reader)
    (hq : w.reader r = some q) :
    (q.tryRead w.stream).2 = nextRead tr (got r tr).length := by
  rw [(tryRead_spec w.stream _ h.holds q _ (h.readers r q hq)).1, h.status]
  rfl

theorem inv_tryRead (orphan : S) (w : World V S) (tr : Trace V S) (h : Inv orphan w tr) (r : Nat) :
    Inv orphan (step orphan w (.tryRead r)).1 (tr ++ [(.tryRead r, (step orphan w (.tryRead r)).2)]) := by
  simp only [step]
  split
  · apply inv_quiet orphan w tr h _ _ (.inr rfl) <;> simp [closeRequest]
  · rename_i q hq
    simp only
    have hspec := tryRead_spec w.stream _ h.core.holds q _ (h.core.readers r q hq)
    have hres := read_eq w tr h.core r q hq
    have hlt := reader_lt hq
    generalize (q.tryRead w.stream).2 = result at hspec hres
    generalize (q.tryRead w.stream).1 = q' at hspec
    generalize he : ((.tryRead r : Op V S), (.read result : Out V S)) = e
    have hw : written (tr ++ [e]) = written tr := by rw [written_snoc, ← he]; simp [writtenBy]
    have hcl : closedWith (tr ++ [e]) = closedWith tr := by
      rw [closedWith_snoc, ← he]; simp [closedBy]
    have hother : ∀ j, j ≠ r → got j (tr ++ [e]) = got j tr := by
      intro j hj
      rw [got_snoc, ← he]
      have : r ≠ j := fun h => hj h.symm
      cases result <;> simp [gotBy, this]
    have hreader := fun j => reader_set w r j (some q') hlt w.stream w.held w.closedFlag w.closing w.pool
    have hgot : got r (tr ++ [e]) = (written tr).take (got r (tr ++ [e])).length ∧
        At w.stream q' (got r (tr ++ [e])).length := by
      rw [got_snoc, ← he]
      cases hwn : (written tr)[(got r tr).length]? with
      | none =>
        have hn : gotBy r ((.tryRead r : Op V S), (.read result : Out V S)) = none := by
          rw [hres]
          unfold nextRead
          rw [hwn]
          simp only
          cases closedWith tr <;> rfl
        rw [hn]
        simp only [Option.toList_none, List.append_nil]
        refine ⟨h.core.items r, ?_⟩
        have := hspec.2
        rw [if_neg (by have := List.getElem?_eq_none_iff.1 hwn; omega)] at this
        exact this
      | some v =>
        have hn : gotBy r ((.tryRead r : Op V S), (.read result : Out V S)) = some v := by
          rw [hres]
          unfold nextRead
          rw [hwn]
          simp [gotBy]
        rw [hn]
        simp only [Option.toList_some, List.length_append, List.length_singleton]
        refine ⟨?_, ?_⟩
        · rw [take_get_length _ _ _ hwn, ← h.core.items r]
        · have := hspec.2
          rw [if_pos (List.getElem?_eq_some_iff.1 hwn).1] at this
          exact this
    constructor
    · refine ⟨by rw [hw]; exact h.core.holds, by rw [hcl]; exact h.core.status, ?_, ?_, ?_, ?_, ?_⟩
      · intro j q'' hq''
        rw [hreader] at hq''
        split at hq''
        · rename_i hj
          cases hq''
          rw [hj]
          exact hgot.2
        · rename_i hj
          rw [hother j hj]
          exact h.core.readers j q'' hq''
      · intro j
        rw [hw]
        by_cases hj : j = r
        · rw [hj]
          exact hgot.1
        · rw [hother j hj]
          exact h.core.items j
      · intro j hj
        rw [List.length_set] at hj
        rw [hother j (by omega)]
        exact h.core.fresh j hj
      · intro j
        rw [hreader, live_snoc, ← h.core.live j, ← he]
        by_cases hj : j = r
        · subst hj
          simp [hq]
        · simp [hj]
      · rw [held_snoc tr _ (by rw [← he]; simp)]
        exact h.core.held
    · refine closing_quiet orphan w _ tr _ h.closing ?_ ?_ ?_ ?_ <;> first | rfl | (rw [← he]; rfl)
    · refine callbacks_quiet w _ tr _ h.callbacks ?_ ?_ ?_ ?_ ?_ <;> first | rfl | (rw [← he]; rfl)

theorem inv_subscribe (orphan : S) (w : World V S) (tr : Trace V S) (h : Inv orphan w tr) (r cb : Nat) :
    Inv orphan (step orphan w (.subscribe r cb)).1
      (tr ++ [(.subscribe r cb, (step orphan w (.subscribe r cb)).2)]) := by
  simp only [step]
  split
  · apply inv_quiet orphan w tr h _ _ (.inr rfl) <;> simp [closeRequest]
  · rename_i q hq
    have hspec := subscribe_spec w.stream _ h.core.holds q _ (h.core.readers r q hq) cb
    have hlt := reader_lt hq
    rcases hsub : q.subscribe w.stream cb with ⟨stream, q', now⟩
    rw [hsub] at hspec
    simp only at hspec ⊢
    generalize he : ((.subscribe r cb : Op V S), (.done : Out V S)) = e
    have hw : written (tr ++ [e]) = written tr := by rw [written_snoc, ← he]; simp [writtenBy]
    have hg : ∀ j, got j (tr ++ [e]) = got j tr := by
      intro j; rw [got_snoc, ← he]; simp [gotBy]
    have hcl : closedWith (tr ++ [e]) = closedWith tr := by
      rw [closedWith_snoc, ← he]; simp [closedBy]
    have hreader := fun j pool => reader_set w r j (some q') hlt stream w.held w.closedFlag w.closing pool
    have hh := h.core.holds
    have hstream : Holds stream (written tr) ∧ stream.status = w.stream.status ∧
        ∀ q n, At w.stream q n → At stream q n := by
      rw [hspec.1]
      split
      · exact ⟨⟨hh.positive, hh.default, hh.fits, hh.none, hh.first, hh.length, hh.values⟩, rfl,
          fun _ _ h => h⟩
      · exact ⟨hh, rfl, fun _ _ h => h⟩
    constructor
    · refine ⟨by rw [hw]; exact hstream.1, ?_, ?_, ?_, ?_, ?_, ?_⟩
      · rw [hcl, ← h.core.status]
        exact hstream.2.1
      · intro j q'' hq''
        rw [hreader] at hq''
        rw [hg]
        split at hq''
        · rename_i hj
          cases hq''
          rw [hj]
          exact hstream.2.2 _ _ hspec.2.1
        · exact hstream.2.2 _ _ (h.core.readers j q'' hq'')
      · intro j
        rw [hg, hw]
        exact h.core.items j
      · intro j hj
        rw [hg]
        exact h.core.fresh j (by simpa using hj)
      · intro j
        rw [hreader, live_snoc, ← h.core.live j, ← he]
        by_cases hj : j = r
        · subst hj
          simp [hq]
        · simp [hj]
      · rw [held_snoc tr _ (by rw [← he]; simp)]
        exact h.core.held
    · refine closing_quiet orphan w _ tr _ h.closing ?_ ?_ ?_ ?_ <;> first | rfl | (rw [← he]; rfl)
    · have hcd : called (tr ++ [e]) = called tr := by rw [called_snoc, ← he]; simp [calledBy]
      have hsb : subscribed (tr ++ [e]) = subscribed tr ++ [cb] := by
        rw [subscribed_snoc, ← he]; rfl
      constructor
      · intro c
        have hcount := h.callbacks.count c
        rw [hcd, hsb, List.count_append (l₁ := subscribed tr), ← hcount, hspec.1]
        simp only [List.count_append]
        by_cases hwait : w.stream.status = none ∧ (got r tr).length = (written tr).length
        · have hnow : now = false := by
            cases now with
            | false => rfl
            | true => exact absurd hwait (hspec.2.2.1 rfl)
          rw [if_pos hwait, hnow]
          simp only [List.count_append, Bool.false_eq_true, if_false]
          omega
        · rw [if_neg hwait, hspec.2.2.2 hwait]
          simp only [if_true, List.count_append]
          omega
      · rw [hcl]
        intro hc
        have hst : ¬ (w.stream.status = none ∧ (got r tr).length = (written tr).length) := by
          rintro ⟨hs, _⟩
          exact hc (by rw [← h.core.status]; exact hs)
        simp only
        rw [hspec.1, if_neg hst]
        exact h.callbacks.none hc

theorem count_eraseIdx (l : List Nat) (i cb c : Nat) (h : l[i]? = some cb) :
    (l.eraseIdx i).count c + [cb].count c = l.count c := by
  induction l generalizing i with
  | nil => simp at h
  | cons x xs ih =>
    cases i with
    | zero =>
      simp at h
      subst h
      simp [List.count_cons]
    | succ i =>
      have := ih i (by simpa using h)
      rw [List.eraseIdx_cons_succ]
      simp only [List.count_cons, List.count_nil] at this ⊢
      omega

theorem inv_call (orphan : S) (w : World V S) (tr : Trace V S) (h : Inv orphan w tr) (i : Nat) :
    Inv orphan (step orphan w (.call i)).1 (tr ++ [(.call i, (step orphan w (.call i)).2)]) := by
  simp only [step]
  split
  · apply inv_quiet orphan w tr h _ _ (.inr rfl) <;> simp [closeRequest]
  · rename_i cb hcb
    simp only
    have hcl : closedWith (tr ++ [((.call i : Op V S), (.called cb : Out V S))]) = closedWith tr := by
      rw [closedWith_snoc]; simp [closedBy]
    constructor
    · apply core_quiet w { w with pool := w.pool.eraseIdx i } tr _ h.core (.inl rfl) rfl rfl <;>
        simp [writtenBy, gotBy, closedBy]
    · refine closing_quiet orphan w _ tr _ h.closing ?_ ?_ ?_ ?_ <;> rfl
    · constructor
      · intro c
        rw [called_snoc, subscribed_snoc]
        have := h.callbacks.count c
        have he := count_eraseIdx w.pool i cb c hcb
        simp only [calledBy, subscribedBy, Option.toList_none, Option.toList_some, List.append_nil,
          List.count_append] at this ⊢
        omega
      · rw [hcl]
        exact h.callbacks.none

theorem inv_step (orphan : S) (w : World V S) (tr : Trace V S) (h : Inv orphan w tr) (op : Op V S) :
    Inv orphan (step orphan w op).1 (tr ++ [(op, (step orphan w op).2)]) := by
  cases op with
  | write v => exact inv_write orphan w tr h false v
  | tryWrite v => exact inv_write orphan w tr h true v
  | close s => exact inv_setClosed orphan w tr h _ s .fatal (.inl rfl) rfl
  | tryClose s => exact inv_setClosed orphan w tr h _ s .done (.inr rfl) rfl
  | destroyWriter => exact inv_setClosed orphan w tr h _ orphan .done (.inr rfl) rfl
  | internalClose => exact inv_internalClose orphan w tr h
  | orphaned => exact inv_quiet orphan w tr h _ _ (.inl rfl) (by simp [step]) (by simp [step]) rfl (by simp) (by simp)
  | makeReader => exact inv_makeReader orphan w tr h
  | dropStream => exact inv_dropStream orphan w tr h
  | dropReader r => exact inv_dropReader orphan w tr h r
  | tryRead r => exact inv_tryRead orphan w tr h r
  | subscribe r cb => exact inv_subscribe orphan w tr h r cb
  | call i => exact inv_call orphan w tr h i

theorem inv_run (orphan : S) (ops : List (Op V S)) (w : World V S) (tr : Trace V S)
    (h : Inv orphan w tr) :
    Inv orphan (run orphan w ops).1 (tr ++ (run orphan w ops).2) := by
  induction ops generalizing w tr with
  | nil =>
    simp only [run, List.append_nil]
    exact h
  | cons op ops ih =>
    have := ih _ _ (inv_step orphan w tr h op)
    simp only [run]
    simpa using this

theorem run_append (orphan : S) (w : World V S) (xs ys : List (Op V S)) :
    run orphan w (xs ++ ys) =
      ((run orphan (run orphan w xs).1 ys).1,
        (run orphan w xs).2 ++ (run orphan (run orphan w xs).1 ys).2) := by
  induction xs generalizing w with
  | nil => rfl
  | cons op ops ih =>
    simp only [List.cons_append, run]
    rw [ih]

/-- A history of a new stream. -/
theorem inv_start (orphan : S) (bytesize initialCapacity : Nat) (ops : List (Op V S)) :
    Inv orphan (run orphan (World.new bytesize initialCapacity) ops).1
      (run orphan (World.new bytesize initialCapacity) ops).2 := by
  have := inv_run orphan ops _ _ (inv_new orphan bytesize initialCapacity)
  simpa using this

end Verif.Stream
