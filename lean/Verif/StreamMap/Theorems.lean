import Verif.StreamMap.Progress

/-!
C39: the output of `stream.map` does not depend on the schedule.
-/

namespace Verif.StreamMap

set_option linter.unusedSectionVars false

variable {A B S : Type}

/-! ### The expected output -/

theorem expected_prefix (c : Config A B S) : ∀ (input : List A) (items : List B),
    (∀ (k : Nat) (b : B), items[k]? = some b → (input[k]?).map c.result = some (.ok b)) →
    items <+: (expected c.functor c.hasType c.wrongType c.ending input).1 := by
  intro input
  induction input with
  | nil =>
    intro items h
    cases items with
    | nil => exact List.nil_prefix
    | cons b bs =>
      have := h 0 b rfl
      simp at this
  | cons a rest ih =>
    intro items h
    cases items with
    | nil => exact List.nil_prefix
    | cons b bs =>
      have h0 := h 0 b rfl
      have hrest := ih bs fun (k : Nat) b' hk => by
        have := h (k + 1) b' (by simpa using hk)
        simpa using this
      simp only [List.getElem?_cons_zero, Option.map_some, Option.some.injEq, Config.result] at h0
      unfold expected
      cases hf : c.functor a with
      | error s =>
        rw [hf] at h0
        cases h0
      | ok b' =>
        rw [hf] at h0
        simp only at h0 ⊢
        split at h0
        · rename_i ht
          cases h0
          rw [if_pos ht]
          exact List.prefix_cons_inj _ |>.2 hrest
        · cases h0

theorem expected_exact (c : Config A B S) (s : S) : ∀ (input : List A) (items : List B),
    (∀ (k : Nat) (b : B), items[k]? = some b → (input[k]?).map c.result = some (.ok b)) →
    ((input[items.length]?).map c.result = some (.error s) ∨
      (items.length = input.length ∧ s = c.ending)) →
    expected c.functor c.hasType c.wrongType c.ending input = (items, s) := by
  intro input
  induction input with
  | nil =>
    intro items h he
    cases items with
    | nil =>
      rcases he with he | ⟨_, rfl⟩
      · simp at he
      · rfl
    | cons b bs =>
      have := h 0 b rfl
      simp at this
  | cons a rest ih =>
    intro items h he
    cases items with
    | nil =>
      rcases he with he | ⟨he, _⟩
      · simp only [List.length_nil, List.getElem?_cons_zero, Option.map_some, Option.some.injEq,
          Config.result] at he
        unfold expected
        cases hf : c.functor a with
        | error s' =>
          rw [hf] at he
          cases he
          rfl
        | ok b' =>
          rw [hf] at he
          simp only at he ⊢
          split at he
          · cases he
          · rename_i ht
            cases he
            rw [if_neg ht]
      · simp at he
    | cons b bs =>
      have h0 := h 0 b rfl
      have hrest := ih bs (fun (k : Nat) b' hk => by
        have := h (k + 1) b' (by simpa using hk)
        simpa using this) (by simpa using he)
      simp only [List.getElem?_cons_zero, Option.map_some, Option.some.injEq, Config.result] at h0
      unfold expected
      cases hf : c.functor a with
      | error s =>
        rw [hf] at h0
        cases h0
      | ok b' =>
        rw [hf] at h0
        simp only at h0 ⊢
        split at h0
        · rename_i ht
          cases h0
          rw [if_pos ht, hrest]
        · cases h0

theorem inv_exact {c : Config A B S} {w : World B S} (h : Inv c w) {s : S}
    (he : Err c w.out.items.length s) : (w.out.items, s) = c.expected :=
  (expected_exact c s c.input w.out.items h.items he).symm

theorem pushStatus_gone (s : Sink B S) (o : Output B S) (k : Nat) (st : S) :
    (s.pushStatus o k st).2.gone = o.gone := by
  unfold Sink.pushStatus
  split
  · simp only
    split
    · unfold Output.tryClose
      split <;> rfl
    · rfl
  · rfl

theorem reader_cancelled (c : Config A B S) (w : World B S) :
    (w.reader c).cancelled = w.cancelled ∧ (w.reader c).out.gone = w.out.gone := by
  have hp := pushStatus_gone w.sink w.out w.readCount c.ending
  unfold World.reader
  split
  · exact ⟨rfl, rfl⟩
  · split
    · exact ⟨rfl, rfl⟩
    · split
      · split
        · exact ⟨rfl, rfl⟩
        · exact ⟨rfl, hp⟩
      · exact ⟨rfl, rfl⟩
  · exact ⟨rfl, rfl⟩
  · split <;> exact ⟨rfl, rfl⟩
  · exact ⟨rfl, rfl⟩

theorem task_cancelled (c : Config A B S) (w : World B S) (i : Nat) :
    (w.task c i).cancelled = w.cancelled ∧ (w.task c i).out.gone = w.out.gone := by
  have hp := fun k s => pushStatus_gone w.sink w.out k s
  have hc : ∀ s, (w.out.tryClose s).gone = w.out.gone := by
    intro s
    unfold Output.tryClose
    split <;> rfl
  have hw : ∀ b, (w.out.tryWrite b).1.gone = w.out.gone := by
    intro b
    unfold Output.tryWrite
    split <;> rfl
  unfold World.task
  split
  · exact ⟨rfl, rfl⟩
  · split <;> exact ⟨rfl, rfl⟩
  · split
    · exact ⟨rfl, rfl⟩
    · unfold World.push
      split
      · exact ⟨rfl, rfl⟩
      · exact ⟨rfl, hp _ _⟩
      · split <;> exact ⟨rfl, rfl⟩
  · rename_i k ht
    unfold World.drain
    split
    · rename_i b rest hb
      have := hw b
      split
      · rename_i out heq
        rw [heq] at this
        exact ⟨rfl, this⟩
      · exact ⟨rfl, rfl⟩
    · split
      · exact ⟨rfl, hc _⟩
      · exact ⟨rfl, rfl⟩
  · exact ⟨rfl, rfl⟩

theorem cancelled_mem {c : Config A B S} (ops : List (Op S)) : ∀ (w : World B S) (s : S),
    (run c w ops).cancelled = some s → w.cancelled = some s ∨ .cancel s ∈ ops := by
  induction ops with
  | nil => exact fun w s h => .inl h
  | cons op ops ih =>
    intro w s h
    rcases ih _ s h with h1 | h1
    · cases op with
      | cancel s' =>
        simp only [step] at h1
        cases hc : w.cancelled with
        | none =>
          rw [hc] at h1
          simp only [Option.some.injEq] at h1
          subst h1
          exact .inr (List.mem_cons_self ..)
        | some s'' =>
          rw [hc] at h1
          exact .inl h1
      | reader => exact .inl (by rw [← (reader_cancelled c w).1]; exact h1)
      | task i => exact .inl (by rw [← (task_cancelled c w i).1]; exact h1)
      | produce => simp only [step] at h1; split at h1 <;> exact .inl h1
      | finish => simp only [step] at h1; split at h1 <;> exact .inl h1
      | drop => exact .inl h1
      | cancelRequest => simp only [step] at h1; split at h1 <;> exact .inl h1
      | cancelClose => simp only [step] at h1; split at h1 <;> exact .inl h1
    · exact .inr (List.mem_cons_of_mem _ h1)

theorem gone_mem {c : Config A B S} (ops : List (Op S)) : ∀ (w : World B S),
    (run c w ops).out.gone = true → w.out.gone = true ∨ .drop ∈ ops := by
  induction ops with
  | nil => exact fun w h => .inl h
  | cons op ops ih =>
    intro w h
    rcases ih _ h with h1 | h1
    · cases op with
      | drop => exact .inr (List.mem_cons_self ..)
      | reader => exact .inl (by rw [← (reader_cancelled c w).2]; exact h1)
      | task i => exact .inl (by rw [← (task_cancelled c w i).2]; exact h1)
      | produce => simp only [step] at h1; split at h1 <;> exact .inl h1
      | finish => simp only [step] at h1; split at h1 <;> exact .inl h1
      | cancel s => exact .inl h1
      | cancelRequest => simp only [step] at h1; split at h1 <;> exact .inl h1
      | cancelClose => simp only [step] at h1; split at h1 <;> exact .inl h1
    · exact .inr (List.mem_cons_of_mem _ h1)

/-! ### C39 -/

/-- In every state of every execution, the items of the output are the first of those that applying
the functor to the items in their order gives, up to the first error. The status of the output is
that of a cancellation, or all those items were written and it is the status they are followed by. -/
theorem C39_safe (c : Config A B S) (ops : List (Op S)) :
    (run c (World.new c) ops).out.items <+: c.expected.1 ∧
    ∀ s, (run c (World.new c) ops).out.closed = some s →
      .cancel s ∈ ops ∨ ((run c (World.new c) ops).out.items, s) = c.expected := by
  have h := inv_run ops (inv_new c)
  refine ⟨expected_prefix c c.input _ h.items, ?_⟩
  intro s hs
  rcases h.closed s hs with h1 | h1
  · rcases cancelled_mem ops _ s h1 with h2 | h2
    · cases h2
    · exact .inl h2
  · exact .inr (inv_exact h h1)

/-- When the input stream is closed and nothing of the operator is left to run, without cancellation
and with a reader of the output, the output has exactly those items and that status. -/
theorem C39_complete (c : Config A B S) (ops : List (Op S)) (hcancel : ∀ s, .cancel s ∉ ops)
    (hdrop : .drop ∉ ops) (hended : (run c (World.new c) ops).ended = true)
    (hquiet : ∀ op : Op S, op.Internal →
      step c (run c (World.new c) ops) op = run c (World.new c) ops) :
    (run c (World.new c) ops).out.items = c.expected.1 ∧
    (run c (World.new c) ops).out.closed = some c.expected.2 := by
  have h := inv_run ops (inv_new c)
  have hsafe := (C39_safe c ops).2
  have hc0 := cancelled_mem (c := c) ops (World.new c)
  have hg0 := gone_mem (c := c) ops (World.new c)
  generalize run c (World.new c) ops = w at *
  obtain ⟨hlock, htasks, hpc⟩ := quiescent h hquiet
  have hcn : w.cancelled = none := by
    cases hc : w.cancelled with
    | none => rfl
    | some s =>
      rcases hc0 s hc with h1 | h1
      · cases h1
      · exact absurd h1 (hcancel s)
  have hg : w.out.gone = false := by
    cases hg : w.out.gone with
    | false => rfl
    | true =>
      rcases hg0 hg with h1 | h1
      · cases h1
      · exact absurd h1 hdrop
  have hdone : w.pc = .done := by
    rcases hpc (.inl hended) with h1 | ⟨_, h1⟩
    · exact h1
    · rw [hended] at h1
      cases h1
  have hfin : w.sink.finalOffset ≠ none := by
    rcases h.pcDone hdone with h1 | h1
    · exact h1
    · exact absurd hcn h1
  obtain ⟨f, hf⟩ := Option.ne_none_iff_exists'.1 hfin
  have hterm : Terminated w f := by
    rcases (h.final f hf).2 with ⟨p1, p2, p3⟩ | ht
    · exfalso
      have hlt : w.sink.writeCount < f := by
        rcases p1 with p1 | ⟨_, p1⟩
        · exact p1
        · rw [hlock] at p1
          cases p1
      rcases p3 _ hlt with h1 | h1 | ⟨b, h1⟩
      · rw [htasks] at h1
        cases h1
      · omega
      · rw [Nat.sub_self] at h1
        refine h.front hlock ?_ b h1
        rw [hf]
        intro hz
        cases hz
        omega
    · exact ht
  have hreq : w.out.requested = true := by
    rcases hterm.2.2 with h1 | h1
    · exact h1
    · rw [hg] at h1
      cases h1
  have hcl : w.out.closed ≠ none := by
    rcases h.requested hreq with h1 | h1
    · exact absurd hcn (h.cancelling h1).1
    · exact h1
  obtain ⟨s, hs⟩ := Option.ne_none_iff_exists'.1 hcl
  rcases hsafe s hs with h1 | h1
  · exact absurd h1 (hcancel s)
  · rw [← h1]
    exact ⟨rfl, hs⟩

/-- The operator comes to this state: from every state of every execution, the number of its steps
that do anything is bounded, whatever their order. -/
theorem C39_terminates (c : Config A B S) (ops : List (Op S)) :
    ∃ n, ∀ busy, Busy c (run c (World.new c) ops) busy → busy.length ≤ n := by
  have h := inv_run ops (inv_new c)
  generalize run c (World.new c) ops = w at *
  refine ⟨measure w, ?_⟩
  intro busy hb
  induction hb with
  | nil w => exact Nat.zero_le _
  | cons hi hne _ ih =>
    have h1 := ih (inv_step h _)
    rcases internal_decreases h hi with h2 | h2
    · exact absurd h2 hne
    · rw [List.length_cons]
      omega

/-- A closed output stays as it is. -/
theorem C39_stable (c : Config A B S) (ops more : List (Op S)) (s : S)
    (hs : (run c (World.new c) ops).out.closed = some s) :
    (run c (World.new c) (ops ++ more)).out.items = (run c (World.new c) ops).out.items ∧
    (run c (World.new c) (ops ++ more)).out.closed = some s := by
  have happ : ∀ (xs ys : List (Op S)) w, run c w (xs ++ ys) = run c (run c w xs) ys := by
    intro xs ys
    induction xs with
    | nil => exact fun _ => rfl
    | cons x xs ih => exact fun w => ih _
  rw [happ]
  have h := inv_run ops (inv_new c)
  generalize run c (World.new c) ops = w at *
  suffices hgen : ∀ w', Inv c w' → w'.out.closed = some s → w'.out.items = w.out.items →
      (run c w' more).out.items = w.out.items ∧ (run c w' more).out.closed = some s from
    hgen w h hs rfl
  clear h hs happ ops
  induction more with
  | nil => exact fun w' _ h1 h2 => ⟨h2, h1⟩
  | cons op more ih =>
    intro w' h h1 h2
    have hreq : w'.out.requested = true := h.closedRequested (by rw [h1]; simp)
    have htc : ∀ st, w'.out.tryClose st = w'.out := by
      intro st
      unfold Output.tryClose
      rw [if_pos hreq]
    have hps : ∀ k st, (w'.sink.pushStatus w'.out k st).2 = w'.out := by
      intro k st
      unfold Sink.pushStatus
      split
      · simp only
        split
        · exact htc st
        · rfl
      · rfl
    have htw : ∀ b, w'.out.tryWrite b = (w'.out, false) := by
      intro b
      unfold Output.tryWrite
      rw [if_pos (by rw [h1]; rfl)]
    have hout : (step c w' op).out.items = w'.out.items ∧
        (step c w' op).out.closed = w'.out.closed := by
      cases op with
      | produce => simp only [step]; split <;> exact ⟨rfl, rfl⟩
      | finish => simp only [step]; split <;> exact ⟨rfl, rfl⟩
      | drop => exact ⟨rfl, rfl⟩
      | cancel st => exact ⟨rfl, rfl⟩
      | cancelRequest => simp only [step]; split <;> exact ⟨rfl, rfl⟩
      | cancelClose =>
        simp only [step]
        split
        · rename_i hc
          have := (h.cancelling hc).2.2
          rw [h1] at this
          cases this
        · exact ⟨rfl, rfl⟩
      | reader =>
        have := hps w'.readCount c.ending
        simp only [step]
        unfold World.reader
        split
        · exact ⟨rfl, rfl⟩
        · split
          · exact ⟨rfl, rfl⟩
          · split
            · split
              · exact ⟨rfl, rfl⟩
              · simp only
                rw [this]
                exact ⟨rfl, rfl⟩
            · exact ⟨rfl, rfl⟩
        · exact ⟨rfl, rfl⟩
        · split <;> exact ⟨rfl, rfl⟩
        · exact ⟨rfl, rfl⟩
      | task i =>
        simp only [step]
        unfold World.task
        split
        · exact ⟨rfl, rfl⟩
        · split <;> exact ⟨rfl, rfl⟩
        · rename_i k _
          split
          · exact ⟨rfl, rfl⟩
          · unfold World.push
            split
            · exact ⟨rfl, rfl⟩
            · rename_i st _
              have := hps k st
              simp only [World.goto]
              rw [this]
              exact ⟨rfl, rfl⟩
            · split <;> exact ⟨rfl, rfl⟩
        · unfold World.drain
          split
          · rename_i b rest _
            rw [htw b]
            exact ⟨rfl, rfl⟩
          · split
            · simp only [World.goto]
              rw [htc]
              exact ⟨rfl, rfl⟩
            · exact ⟨rfl, rfl⟩
        · exact ⟨rfl, rfl⟩
    exact ih _ (inv_step h op) (hout.2.trans h1) (hout.1.trans h2)

theorem cancel_sets {c : Config A B S} (ops : List (Op S)) {s : S} (hs : .cancel s ∈ ops) :
    ∀ w : World B S, (run c w ops).cancelled ≠ none := by
  have hkeep : ∀ (ops : List (Op S)) (w : World B S), w.cancelled ≠ none →
      (run c w ops).cancelled ≠ none := by
    intro ops
    induction ops with
    | nil => exact fun w h => h
    | cons op ops ih =>
      intro w h
      apply ih
      cases op with
      | cancel s' =>
        simp only [step]
        cases hc : w.cancelled <;> simp
      | reader => simp only [step]; rw [(reader_cancelled c w).1]; exact h
      | task i => simp only [step]; rw [(task_cancelled c w i).1]; exact h
      | produce => simp only [step]; split <;> exact h
      | finish => simp only [step]; split <;> exact h
      | drop => exact h
      | cancelRequest => simp only [step]; split <;> exact h
      | cancelClose => simp only [step]; split <;> exact h
  induction ops with
  | nil => cases hs
  | cons op ops ih =>
    intro w
    rcases List.mem_cons.1 hs with h1 | h1
    · subst h1
      refine hkeep ops (step c w (.cancel s)) ?_
      simp only [step]
      cases hc : w.cancelled <;> simp
    · exact ih h1 _

/-- A cancellation closes the output, whether the input stream is closed or not. -/
theorem C39_cancel (c : Config A B S) (ops : List (Op S)) (s : S) (hcancel : .cancel s ∈ ops)
    (hquiet : ∀ op : Op S, op.CancelWork →
      step c (run c (World.new c) ops) op = run c (World.new c) ops) :
    (run c (World.new c) ops).out.closed.isSome := by
  have h := inv_run ops (inv_new c)
  have hne := cancel_sets (c := c) ops hcancel (World.new c)
  generalize run c (World.new c) ops = w at *
  have hncl : w.cancelling = false := by
    cases hc : w.cancelling with
    | false => rfl
    | true =>
      have := hquiet .cancelClose trivial
      simp only [step] at this
      rw [if_pos hc] at this
      have h2 := congrArg World.cancelling this
      simp only at h2
      rw [hc] at h2
      cases h2
  have hreq : w.out.requested = true := by
    cases hr : w.out.requested with
    | true => rfl
    | false =>
      have := hquiet .cancelRequest trivial
      simp only [step] at this
      rw [if_pos ⟨Option.isSome_iff_ne_none.2 hne, hr⟩] at this
      have h2 := congrArg World.cancelling this
      simp only at h2
      rw [hncl] at h2
      cases h2
  rcases h.requested hreq with h1 | h1
  · rw [hncl] at h1
    cases h1
  · exact Option.isSome_iff_ne_none.2 h1

/-! ### Examples -/

/-- Ten times the item; 3 is an error. -/
def exConfig : Config Nat Nat String where
  input := [1, 2, 3, 4]
  ending := "OK"
  functor := fun n => if n = 3 then .error "three" else .ok (10 * n)
  hasType := fun n => n < 1000
  wrongType := fun _ => "type"
  ok := "OK"

/-- All four tasks are started; the last ends first, then the third with its error, then the second,
then the first, whose thread writes both items and the status. -/
def exOps : List (Op String) :=
  [.produce, .produce, .reader, .reader, .reader, .produce, .reader, .produce, .reader, .reader,
   .reader, .reader, .finish, .reader, .reader,
   .task 3, .task 3, .task 3, .task 2, .task 2, .task 2, .task 1, .task 1, .task 1,
   .task 0, .task 0, .task 0, .task 0, .task 0, .task 0, .reader]

/-- The hypotheses of `C39_complete` hold for `exOps`. -/
example :
    (∀ s, (.cancel s : Op String) ∉ exOps) ∧ (.drop : Op String) ∉ exOps ∧
    (run exConfig (World.new exConfig) exOps).ended = true ∧
    (run exConfig (World.new exConfig) exOps).tasks = [] ∧
    (run exConfig (World.new exConfig) exOps).pc = .done ∧
    (run exConfig (World.new exConfig) exOps).out.items = [10, 20] ∧
    (run exConfig (World.new exConfig) exOps).out.closed = some "three" := by
  refine ⟨fun s h => ?_, fun h => ?_, by decide +kernel, by decide +kernel, by decide +kernel,
    by decide +kernel, by decide +kernel⟩
  · simp [exOps] at h
  · simp [exOps] at h

example : exConfig.expected = ([10, 20], "three") := by decide +kernel

/-- A cancellation in between. -/
example :
    (run exConfig (World.new exConfig) (exOps.take 26 ++
      [.cancel "stop", .cancelRequest, .task 0, .cancelClose, .task 0])).out.items = [10] ∧
    (run exConfig (World.new exConfig) (exOps.take 26 ++
      [.cancel "stop", .cancelRequest, .task 0, .cancelClose, .task 0])).out.closed =
        some "stop" := by
  decide +kernel

end Verif.StreamMap
