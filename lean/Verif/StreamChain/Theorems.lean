import Verif.StreamChain.Progress

/-!
C41: the output of a stream chain is the concatenation of the added streams.
-/

namespace Verif.StreamChain

set_option linter.unusedSectionVars false

variable {B S : Type} [DecidableEq S]

theorem chain_append (ok : S) (pre rest : List (List B × S)) (h : ∀ y ∈ pre, y.2 = ok) :
    chain ok (pre ++ rest) = ((pre.flatMap fun y => y.1) ++ (chain ok rest).1, (chain ok rest).2) := by
  induction pre with
  | nil => simp
  | cons y pre ih =>
    obtain ⟨items, status⟩ := y
    have hs : status = ok := h (items, status) (by simp)
    have ih := ih fun y hy => h y (by simp [hy])
    rw [List.cons_append, chain, if_pos hs, ih, List.flatMap_cons, List.append_assoc]

theorem flow_append (ok : S) (pre rest : List (List B × Option S)) (h : ∀ y ∈ pre, y.2 = some ok) :
    flow ok (pre ++ rest) = ((pre.flatMap fun y => y.1) ++ (flow ok rest).1, (flow ok rest).2) := by
  induction pre with
  | nil => simp
  | cons y pre ih =>
    obtain ⟨items, status⟩ := y
    have hs : status = some ok := h (items, status) (by simp)
    subst hs
    have ih := ih fun y hy => h y (by simp [hy])
    rw [List.cons_append, flow, if_pos rfl, ih, List.flatMap_cons, List.append_assoc]

theorem contents_ok {ok : S} {pre : List (Input B S)} (h : ∀ y ∈ pre, y.Done ok) :
    ∀ y ∈ contents pre, y.2 = ok := by
  intro y hy
  obtain ⟨x, hx, rfl⟩ := List.mem_map.1 hy
  exact (h x hx).ok

theorem contents_items (pre : List (Input B S)) : ((contents pre).flatMap fun y => y.1) = allItems pre := by
  simp [contents, allItems, List.flatMap_map]

/-- The chain of streams of which the first ones have no error. -/
theorem chain_done {ok : S} {pre : List (Input B S)} (h : ∀ y ∈ pre, y.Done ok)
    (post : List (Input B S)) :
    chain ok (contents (pre ++ post)) =
      (allItems pre ++ (chain ok (contents post)).1, (chain ok (contents post)).2) := by
  rw [contents_append, chain_append ok _ _ (contents_ok h), contents_items]

theorem chain_cons_error {ok : S} {x : Input B S} (h : x.ending ≠ ok) (post : List (Input B S)) :
    chain ok (contents (x :: post)) = (x.items, x.ending) := by
  simp [contents, chain, h]

theorem chain_cons_prefix (ok : S) (x : Input B S) (post : List (Input B S)) :
    x.items <+: (chain ok (contents (x :: post))).1 := by
  simp only [contents, chain, List.map_cons]
  split
  · exact List.prefix_append _ _
  · exact List.prefix_rfl

theorem take_prefix_chain (ok : S) (x : Input B S) (n : Nat) (post : List (Input B S)) :
    x.items.take n <+: (chain ok (contents (x :: post))).1 :=
  (List.take_prefix n x.items).trans (chain_cons_prefix ok x post)

/-- What the output has. -/
theorem Inv.safe {ok : S} {w : World B S} (h : Inv ok w) :
    w.items <+: (chain ok (contents w.inputs)).1 ∧
    ∀ s, w.closed = some s →
      (w.items, s) = chain ok (contents w.inputs) ∧ (s = ok → w.released = true) := by
  cases h.state with
  | idle hthreads hqueue herr hdone hitems hclosed =>
    have hc := chain_done hdone []
    rw [List.append_nil] at hc
    refine ⟨?_, ?_⟩
    · rw [hc, hitems]
      exact List.prefix_append _ _
    · intro s hs
      rw [hclosed] at hs
      cases hd : w.destroyed with
      | false => rw [hd] at hs; cases hs
      | true =>
        rw [hd] at hs
        cases hs
        refine ⟨?_, fun _ => h.destroyed hd⟩
        rw [hc, hitems]
        simp [contents, chain]
  | failed pre post x hthreads hqueue herr hinputs hdone hfull hend hitems hclosed =>
    have hc := chain_done hdone (x :: post)
    rw [chain_cons_error hend, ← hinputs] at hc
    rw [hc]
    refine ⟨?_, ?_⟩
    · rw [hitems]
      exact List.prefix_rfl
    · intro s hs
      rw [hclosed] at hs
      cases hs
      exact ⟨by rw [hitems], fun he => absurd he hend⟩
  | busy pre post x pc hthreads hqueue herr hinputs hdone hpost hdestroyed hphase =>
    have hc := chain_done hdone (x :: post)
    rw [← hinputs] at hc
    have hno : ∀ n, w.items = allItems pre ++ x.items.take n → w.closed = none →
        w.items <+: (chain ok (contents w.inputs)).1 ∧ ∀ s, w.closed = some s →
      (w.items, s) = chain ok (contents w.inputs) ∧ (s = ok → w.released = true) := by
      intro n hn hcl
      refine ⟨?_, by intro s hs; rw [hcl] at hs; cases hs⟩
      rw [hc, hn]
      exact List.prefix_append_right_inj _ |>.2 (take_prefix_chain ok x n post)
    have hfl : w.items = allItems pre ++ x.items → w.items = allItems pre ++ x.items.take x.items.length := by
      intro hi
      rw [List.take_length]
      exact hi
    cases pc with
    | begin => exact hno _ hphase.1 hphase.2
    | reading a => exact hno _ hphase.2.1 hphase.2.2
    | subscribing a => exact hno _ hphase.2.1 hphase.2.2
    | waiting a => exact hno _ hphase.2.1 hphase.2.2
    | writing a b => exact hno _ hphase.2.2.2.1 hphase.2.2.2.2
    | closing s => exact hno _ (hfl hphase.2.2.2.1) hphase.2.2.2.2
    | popping => exact hno _ (hfl hphase.2.2.1) hphase.2.2.2
    | erroring =>
      obtain ⟨hfull, hend, hitems, hclosed⟩ := hphase
      rw [chain_cons_error hend] at hc
      rw [hc]
      refine ⟨?_, ?_⟩
      · rw [hitems]
        exact List.prefix_rfl
      · intro s hs
        rw [hclosed] at hs
        cases hs
        exact ⟨by rw [hitems], fun he => absurd he hend⟩

/-! ### The state in which nothing happens by itself -/

/-- No step of the chain does anything. -/
def Quiet (ok : S) (w : World B S) : Prop := ∀ op : Op B S, op.Internal → step ok w op = w

theorem done_written {ok : S} {x : Input B S} (hw : x.Wf) (h : x.Done ok) :
    x.written = (x.items, some ok) := by
  have h1 := hw.ended h.ended
  simp only [Input.written, h.ended, if_true, h.ok, h1, List.take_length]

theorem map_written {ok : S} {l : List (Input B S)} (hw : ∀ x ∈ l, x.Wf) (h : ∀ x ∈ l, x.Done ok) :
    (∀ y ∈ l.map Input.written, y.2 = some ok) ∧
    ((l.map Input.written).flatMap fun y => y.1) = allItems l := by
  induction l with
  | nil => exact ⟨(by intro y hy; cases hy), rfl⟩
  | cons x l ih =>
    have ih := ih (fun y hy => hw y (by simp [hy])) fun y hy => h y (by simp [hy])
    have hx := done_written (hw x (by simp)) (h x (by simp))
    refine ⟨?_, ?_⟩
    · intro y hy
      rw [List.map_cons, hx] at hy
      rcases List.mem_cons.1 hy with rfl | hy
      · rfl
      · exact ih.1 y hy
    · rw [List.map_cons, hx, List.flatMap_cons, ih.2, allItems_cons]

theorem quiet_flow {ok : S} {w : World B S} (h : Inv ok w) (hq : Quiet ok w) :
    w.items = (flow ok (w.inputs.map Input.written)).1 ∧
    (∀ s, (flow ok (w.inputs.map Input.written)).2 = some s → w.closed = some s) ∧
    ((flow ok (w.inputs.map Input.written)).2 = none →
      w.closed = if w.released = true ∧ ∀ x ∈ w.inputs, x.ended = true then some ok else none) := by
  cases h.state with
  | idle hthreads hqueue herr hdone hitems hclosed =>
    have hm := map_written h.wf hdone
    have hf := flow_append ok (w.inputs.map Input.written) [] hm.1
    rw [List.append_nil, hm.2] at hf
    rw [hf]
    simp only [flow, List.append_nil]
    refine ⟨hitems, (by intro s hs; cases hs), fun _ => ?_⟩
    have hall : ∀ x ∈ w.inputs, x.ended = true := fun x hx => (hdone x hx).ended
    by_cases hr : w.released = true
    · rw [if_pos ⟨hr, hall⟩]
      cases hd : w.destroyed with
      | true => rw [hclosed, hd]; rfl
      | false =>
        rw [hd] at hclosed
        have := hq .destroy trivial
        unfold step World.destroy at this
        simp only [hr, hthreads, hd, hqueue, herr, hclosed] at this
        have h2 := congrArg World.destroyed this
        simp [hd] at h2
    · rw [if_neg fun h' => hr h'.1]
      cases hd : w.destroyed with
      | true => exact absurd (h.destroyed hd) hr
      | false => rw [hclosed, hd]; rfl
  | failed pre post x hthreads hqueue herr hinputs hdone hfull hend hitems hclosed =>
    have hm := map_written (fun y hy => h.wf y (by rw [hinputs]; simp [hy])) hdone
    have hxw : x.Wf := h.wf x (by rw [hinputs]; simp)
    have hf := flow_append ok (pre.map Input.written) ((x :: post).map Input.written) hm.1
    rw [← List.map_append, hm.2, ← hinputs] at hf
    have hx : x.written = (x.items, some x.ending) := by
      simp only [Input.written, hfull.ended, if_true, hxw.ended hfull.ended, List.take_length]
    rw [List.map_cons, hx, flow, if_neg hend] at hf
    rw [hf]
    exact ⟨hitems, fun s hs => by cases hs; exact hclosed, fun hn => by cases hn⟩
  | busy pre post x pc hthreads hqueue herr hinputs hdone hpost hdestroyed hphase =>
    have hxw : x.Wf := h.wf x (by rw [hinputs]; simp)
    have ht := hq (.thread 0) trivial
    rw [range'_head] at hqueue
    have hth : (step ok w (.thread 0)).threads = [pc] := by rw [ht, hthreads]
    unfold step World.thread at ht hth
    cases pc with
    | begin =>
      simp [hthreads, hqueue, herr, World.goto] at hth
    | reading a =>
      obtain ⟨rfl, hitems, hclosed⟩ := hphase
      simp only [hthreads, List.getElem?_cons_zero, World.read, hinputs, getElem?_mid] at hth
      by_cases hlt : x.read < x.ready
      · have hlt' : x.read < x.items.length := by have := hxw.ready; omega
        rw [if_pos hlt, List.getElem?_eq_getElem hlt'] at hth
        simp [World.goto] at hth
      · rw [if_neg hlt] at hth
        by_cases he : x.ended = true
        · rw [if_pos he] at hth
          by_cases hok : x.ending = ok
          · rw [if_pos hok] at hth
            simp [World.goto, hthreads] at hth
          · rw [if_neg hok] at hth
            simp [World.goto, hthreads] at hth
        · rw [if_neg he] at hth
          simp [World.goto, hthreads] at hth
    | writing a b =>
      simp [hthreads, hphase.2.2.2.2, World.goto] at hth
    | closing s =>
      simp [hthreads, hphase.2.2.2.2, World.goto] at hth
    | erroring =>
      simp [hthreads, World.endThread] at hth
    | popping =>
      cases post with
      | nil => simp [hthreads, hqueue, World.endThread] at hth
      | cons y post =>
        rw [List.length_cons, range'_head] at hqueue
        simp [hthreads, hqueue, World.goto] at hth
    | subscribing a =>
      obtain ⟨rfl, hitems, hclosed⟩ := hphase
      simp only [hthreads, List.getElem?_cons_zero, World.subscribe, hinputs, getElem?_mid] at hth
      by_cases ha : x.available = true
      · rw [if_pos ha] at hth
        simp [World.goto, hthreads] at hth
      · rw [if_neg ha] at hth
        simp [World.goto, hthreads] at hth
    | waiting a =>
      obtain ⟨rfl, hitems, hclosed⟩ := hphase
      simp only [hthreads, List.getElem?_cons_zero, World.wake, hinputs, getElem?_mid] at hth
      by_cases ha : x.available = true
      · rw [if_pos ha] at hth
        simp [World.goto, hthreads] at hth
      · unfold Input.available at ha
        have he : x.ended = false := by
          cases he : x.ended with
          | false => rfl
          | true => rw [he] at ha; simp at ha
        have hr : x.read = x.ready := by
          have := hxw.read
          rw [he] at ha
          simp at ha
          omega
        have hm := map_written (fun y hy => h.wf y (by rw [hinputs]; simp [hy])) hdone
        have hf := flow_append ok (pre.map Input.written) ((x :: post).map Input.written) hm.1
        rw [← List.map_append, hm.2, ← hinputs] at hf
        have hx : x.written = (x.items.take x.ready, none) := by
          simp only [Input.written, he, Bool.false_eq_true, if_false]
        rw [List.map_cons, hx, flow] at hf
        rw [hf]
        refine ⟨by rw [hitems, hr], (by intro s hs; cases hs), fun _ => ?_⟩
        rw [hclosed]
        have hnot : ¬ (w.released = true ∧ ∀ x ∈ w.inputs, x.ended = true) := by
          intro h'
          have := h'.2 x (by rw [hinputs]; simp)
          rw [he] at this
          cases this
        simp only [if_neg hnot]

theorem flow_ended (ok : S) (l : List (Input B S)) (hw : ∀ x ∈ l, x.Wf) (h : ∀ x ∈ l, x.ended = true) :
    (flow ok (l.map Input.written)).1 = (chain ok (contents l)).1 ∧
    (flow ok (l.map Input.written)).2 =
      if (chain ok (contents l)).2 = ok then none else some (chain ok (contents l)).2 := by
  induction l with
  | nil => simp [flow, chain, contents]
  | cons x l ih =>
    have ih := ih (fun y hy => hw y (by simp [hy])) fun y hy => h y (by simp [hy])
    have he := h x (by simp)
    have hx : x.written = (x.items, some x.ending) := by
      simp only [Input.written, he, if_true, (hw x (by simp)).ended he, List.take_length]
    rw [List.map_cons, hx]
    simp only [contents] at ih
    by_cases hok : x.ending = ok
    · simp only [flow, contents, List.map_cons, chain, if_pos hok]
      exact ⟨by rw [ih.1], ih.2⟩
    · simp only [flow, contents, List.map_cons, chain, if_neg hok, and_self]

/-! ### The theorems -/

/-- C41: in every execution the output is a part of the concatenation of the added streams up to the first
error, and it is closed only with this error or after the destruction of the `StreamChain`, and only if it has
all of it. -/
theorem C41_chain_safe (ok : S) (ops : List (Op B S)) :
    (run ok ({} : World B S) ops).items <+: (chain ok (added ok ops)).1 ∧
    ∀ s, (run ok ({} : World B S) ops).closed = some s →
      ((run ok ({} : World B S) ops).items, s) = chain ok (added ok ops) ∧
      (s = ok → Op.release ∈ ops) := by
  have h := ((Inv.init ok).run ops).safe
  have hc := run_contents ok ops ({} : World B S)
  have hc' : contents (run ok ({} : World B S) ops).inputs = added ok ops := by
    rw [hc]
    simp [contents]
  rw [hc'] at h
  refine ⟨h.1, fun s hs => ⟨(h.2 s hs).1, fun he => ?_⟩⟩
  have := (run_released ok ops ({} : World B S)).1 ((h.2 s hs).2 he)
  exact this.elim (fun h' => by cases h') id

/-- C41: whenever the chain has nothing to do, the output has everything that can be known of the
concatenation from what was written to the streams so far. -/
theorem C41_chain_flow (ok : S) (ops : List (Op B S)) (w : World B S)
    (hw : w = run ok ({} : World B S) ops)
    (hq : ∀ op : Op B S, op.Internal → step ok w op = w) :
    w.items = (flow ok (w.inputs.map Input.written)).1 ∧
    (∀ s, (flow ok (w.inputs.map Input.written)).2 = some s → w.closed = some s) ∧
    ((flow ok (w.inputs.map Input.written)).2 = none →
      (Op.release ∈ ops ∧ (∀ x ∈ w.inputs, x.ended = true) → w.closed = some ok) ∧
      (¬ (Op.release ∈ ops ∧ (∀ x ∈ w.inputs, x.ended = true)) → w.closed = none)) := by
  have h := (Inv.init ok).run (B := B) ops
  rw [← hw] at h
  have hf := quiet_flow h hq
  have hr : w.released = true ↔ Op.release ∈ ops := by
    rw [hw, run_released]
    simp
  rw [← hr]
  refine ⟨hf.1, hf.2.1, fun hn => ⟨fun h' => ?_, fun h' => ?_⟩⟩
  · rw [hf.2.2 hn, if_pos h']
  · rw [hf.2.2 hn, if_neg h']

/-- C41: the inputs are the added streams. -/
theorem C41_chain_inputs (ok : S) (ops : List (Op B S)) :
    (run ok ({} : World B S) ops).inputs.map (fun x => (x.items, x.ending)) = added ok ops := by
  have hc := run_contents ok ops ({} : World B S)
  simpa [contents] using hc

/-- C41: when all added streams have ended and the chain has nothing to do, the output has the whole
concatenation, and it is closed if there is an error or if the `StreamChain` was destroyed. -/
theorem C41_chain_complete (ok : S) (ops : List (Op B S)) (w : World B S)
    (hw : w = run ok ({} : World B S) ops)
    (hq : ∀ op : Op B S, op.Internal → step ok w op = w)
    (he : ∀ x ∈ w.inputs, x.ended = true) :
    w.items = (chain ok (added ok ops)).1 ∧
    ((chain ok (added ok ops)).2 ≠ ok ∨ Op.release ∈ ops → w.closed = some (chain ok (added ok ops)).2) ∧
    ((chain ok (added ok ops)).2 = ok → Op.release ∉ ops → w.closed = none) := by
  have h := (Inv.init ok).run (B := B) ops
  rw [← hw] at h
  have hf := C41_chain_flow ok ops w hw hq
  have hc : contents w.inputs = added ok ops := by
    rw [hw]
    exact C41_chain_inputs ok ops
  have hl := flow_ended ok w.inputs h.wf he
  rw [hc] at hl
  refine ⟨by rw [hf.1, hl.1], ?_, ?_⟩
  · intro hor
    by_cases hok : (chain ok (added ok ops)).2 = ok
    · rw [hok]
      rw [if_pos hok] at hl
      exact (hf.2.2 hl.2).1 ⟨hor.elim (absurd hok) id, he⟩
    · rw [if_neg hok] at hl
      exact hf.2.1 _ hl.2
  · intro hok hr
    rw [if_pos hok] at hl
    exact (hf.2.2 hl.2).2 fun h' => hr h'.1

/-- C41: a chain that nobody writes to or adds to stops after so many steps. -/
theorem C41_chain_terminates (ok : S) (ops more : List (Op B S)) (w : World B S)
    (hw : w = run ok ({} : World B S) ops) (hb : Busy ok w more) :
    more.length ≤ 8 * (w.inputs.map fun x => x.ready).sum + 8 * w.inputs.length + 5 := by
  have h := (Inv.init ok).run (B := B) ops
  rw [← hw] at h
  exact Nat.le_trans (busy_weight hb h) (weight_le h)

/-- C41: no `CHECK` fails, and the output is never written or closed after its closing. -/
theorem C41_chain_not_fatal (ok : S) (ops : List (Op B S)) :
    (run ok ({} : World B S) ops).fatal = false :=
  ((Inv.init ok).run ops).fatal

theorem thread_stable {ok : S} {w : World B S} (h : Inv ok w) (j : Nat) (s : S) (hs : w.closed = some s) :
    (w.thread ok j).closed = some s ∧ (w.thread ok j).items = w.items := by
  have keep : w.closed = none → False := by intro hn; rw [hn] at hs; cases hs
  cases h.state with
  | idle hthreads => unfold World.thread; rw [hthreads]; exact ⟨hs, rfl⟩
  | failed pre post x hthreads => unfold World.thread; rw [hthreads]; exact ⟨hs, rfl⟩
  | busy pre post x pc hthreads hqueue herr hinputs hdone hpost hdestroyed hphase =>
    cases pc with
    | erroring =>
      unfold World.thread
      rw [hthreads]
      cases j with
      | zero => exact ⟨hs, rfl⟩
      | succ j => exact ⟨hs, rfl⟩
    | begin => exact (keep hphase.2).elim
    | reading a => exact (keep hphase.2.2).elim
    | subscribing a => exact (keep hphase.2.2).elim
    | waiting a => exact (keep hphase.2.2).elim
    | writing a b => exact (keep hphase.2.2.2.2).elim
    | closing s => exact (keep hphase.2.2.2.2).elim
    | popping => exact (keep hphase.2.2.2).elim

theorem step_stable {ok : S} {w : World B S} (h : Inv ok w) (op : Op B S) (s : S)
    (hs : w.closed = some s) : (step ok w op).closed = some s ∧ (step ok w op).items = w.items := by
  have hadd : ∀ x : Input B S, (w.addInput x).closed = some s ∧ (w.addInput x).items = w.items := by
    intro x
    unfold World.addInput
    split
    · exact ⟨hs, rfl⟩
    · split <;> exact ⟨hs, rfl⟩
  have hch : ∀ i f, (w.change i f).closed = some s ∧ (w.change i f).items = w.items := by
    intro i f
    unfold World.change
    split <;> exact ⟨hs, rfl⟩
  cases op with
  | add items ending => exact hadd _
  | addItem b => exact hadd _
  | addError s =>
    simp only [step]
    split
    · exact ⟨hs, rfl⟩
    · exact hadd _
  | produce i => exact hch _ _
  | finish i => exact hch _ _
  | thread j => exact thread_stable h j s hs
  | release => exact ⟨hs, rfl⟩
  | destroy =>
    simp only [step]
    unfold World.destroy World.die
    rw [hs]
    repeat' split
    all_goals first
      | exact ⟨hs, rfl⟩
      | exact ⟨rfl, rfl⟩
      | (rename_i hn; exact absurd rfl hn)

/-- C41: once closed, the output does not change any more. -/
theorem C41_chain_stable (ok : S) (ops more : List (Op B S)) (s : S)
    (hs : (run ok ({} : World B S) ops).closed = some s) :
    (run ok (run ok ({} : World B S) ops) more).closed = some s ∧
    (run ok (run ok ({} : World B S) ops) more).items = (run ok ({} : World B S) ops).items := by
  have h := (Inv.init ok).run (B := B) ops
  generalize run ok ({} : World B S) ops = w at hs h
  induction more generalizing w with
  | nil => exact ⟨hs, rfl⟩
  | cons op more ih =>
    have hst := step_stable h op s hs
    have := ih (step ok w op) hst.1 (h.step op)
    exact ⟨this.1, by rw [← hst.2]; exact this.2⟩

/-- C41: a single item and an error are streams that have ended; another stream has nothing at first. -/
theorem C41_chain_add (ok : S) (ops : List (Op B S)) (op : Op B S) (stream : List B × S)
    (hr : Op.release ∉ ops) (hop : op.added ok = some stream) :
    ∃ x : Input B S, (step ok (run ok ({} : World B S) ops) op).inputs =
        (run ok ({} : World B S) ops).inputs ++ [x] ∧
      x.written = match op with
        | .add _ _ => ([], none)
        | _ => (stream.1, some stream.2) := by
  have hrel : (run ok ({} : World B S) ops).released = false := by
    cases h : (run ok ({} : World B S) ops).released with
    | false => rfl
    | true =>
      have := (run_released ok ops ({} : World B S)).1 h
      exact absurd (this.elim (fun h' => by cases h') id) hr
  cases op with
  | add items ending =>
    cases hop
    refine ⟨{ items, ending }, ?_, rfl⟩
    simp only [step, addInput_inputs, hrel]
    rfl
  | addItem b =>
    cases hop
    refine ⟨{ items := [b], ending := ok, ready := 1, ended := true }, ?_, rfl⟩
    simp only [step, addInput_inputs, hrel]
    rfl
  | addError s =>
    simp only [Op.added] at hop
    split at hop
    · cases hop
    · rename_i hs
      cases hop
      refine ⟨{ items := [], ending := s, ended := true }, ?_, rfl⟩
      simp only [step, if_neg hs, addInput_inputs, hrel]
      rfl
  | _ => cases hop

/-! ### Examples -/

/-- Two streams; the second one is ready first. The third one fails, and the fourth one is not used. -/
def exampleOps : List (Op Nat Nat) :=
  [.add [1, 2] 0, .add [3] 0, .thread 0, .thread 0, .produce 1, .finish 1, .thread 0, .addError 7,
   .produce 0, .addItem 9, .thread 0, .thread 0, .thread 0, .thread 0, .produce 0, .finish 0]

example : chain 0 (added 0 exampleOps) = ([1, 2, 3], 7) := by decide +kernel

example : (run 0 {} exampleOps).items = [1] ∧ (run 0 {} exampleOps).closed = none ∧
    (run 0 {} exampleOps).threads.length = 1 := by decide +kernel

example : (run 0 {} (exampleOps ++ List.replicate 20 (.thread 0))).items = [1, 2, 3] ∧
    (run 0 {} (exampleOps ++ List.replicate 20 (.thread 0))).closed = some 7 ∧
    (run 0 {} (exampleOps ++ List.replicate 20 (.thread 0))).threads.length = 0 := by decide +kernel

/-- A chain without an error is closed when it is destroyed and has read everything. -/
example : (run 0 {} ([.addItem 4, .add [5] 0, .release, .produce 1, .destroy, .finish 1] ++
      List.replicate 20 (.thread 0) ++ [.destroy] : List (Op Nat Nat))).items = [4, 5] ∧
    (run 0 {} ([.addItem 4, .add [5] 0, .release, .produce 1, .destroy, .finish 1] ++
      List.replicate 20 (.thread 0) ++ [.destroy] : List (Op Nat Nat))).closed = some 0 := by decide +kernel

/-- While a stream is incomplete, the chain waits. -/
example : ((run 0 {} ([.add [1, 2] 0, .addItem 9, .produce 0] ++
      List.replicate 20 (.thread 0) : List (Op Nat Nat))).items,
    (run 0 {} ([.add [1, 2] 0, .addItem 9, .produce 0] ++
      List.replicate 20 (.thread 0) : List (Op Nat Nat))).inputs.map Input.written) =
    ([1], [([1], none), ([9], some 0)]) := by decide +kernel

end Verif.StreamChain
