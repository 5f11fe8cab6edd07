import Verif.StreamInterleave.Progress

/-!
C41: the output of an interleave is a merge of its inputs.
-/

namespace Verif.StreamInterleave

open Verif.StreamChain (Input Outside outside_produce outside_finish)

set_option linter.unusedSectionVars false

variable {B S : Type} [DecidableEq S]

/-! ### What was added -/

theorem before_cons (op : Op B S) (ops : List (Op B S)) (h : op ≠ .release) :
    before (op :: ops) = op :: before ops := by
  cases op with
  | release => exact absurd rfl h
  | _ => rfl

theorem goto_released (w : World B S) (i : Nat) (x : Source B S) (pc : Pc B S) :
    (w.goto i x pc).released = w.released := rfl

theorem step_released (ok : S) (w : World B S) (op : Op B S) (h : op ≠ .release) :
    (step ok w op).released = w.released := by
  cases op with
  | release => exact absurd rfl h
  | add items ending => simp only [step]; split <;> rfl
  | addItem b => simp only [step, World.addItem]; split <;> rfl
  | addError s => simp only [step]; split <;> rfl
  | produce i => simp only [step, World.change]; split <;> rfl
  | finish i => simp only [step, World.change]; split <;> rfl
  | source i =>
    simp only [step]
    unfold World.sourceStep World.read
    repeat' split
    all_goals first
      | rfl
      | (unfold World.goto; exact close_released _ _)
  | call k =>
    simp only [step]
    unfold World.callStep
    repeat' split
    all_goals first
      | rfl
      | exact close_released _ _
  | drop => rfl
  | destroy =>
    simp only [step]
    unfold World.destroy
    repeat' split
    all_goals first
      | rfl
      | exact close_released _ _

theorem run_released (ok : S) (ops : List (Op B S)) : ∀ (w : World B S),
    ((run ok w ops).released = true ↔ w.released = true ∨ Op.release ∈ ops) := by
  induction ops with
  | nil => intro w; simp [run]
  | cons op ops ih =>
    intro w
    show (run ok (step ok w op) ops).released = true ↔ _
    rw [ih]
    by_cases h : op = .release
    · subst h
      simp [step]
    · rw [step_released ok w op h, List.mem_cons]
      exact ⟨fun h' => h'.elim .inl fun h' => .inr (.inr h'),
        fun h' => h'.elim .inl fun h' => h'.elim (fun e => absurd e.symm h) .inr⟩

/-- The added streams. -/
def contents (sources : List (Source B S)) : List (List B × S) :=
  sources.map fun x => (x.input.items, x.input.ending)

theorem contents_set {l : List (Source B S)} {i : Nat} {x y : Source B S} (h : l[i]? = some x)
    (hi : y.input.items = x.input.items) (he : y.input.ending = x.input.ending) :
    contents (l.set i y) = contents l := by
  unfold contents
  apply List.ext_getElem?
  intro k
  simp only [List.getElem?_map, List.getElem?_set]
  by_cases hk : i = k
  · subst hk
    have hlt : i < l.length := (List.getElem?_eq_some_iff.1 h).1
    rw [if_pos rfl, if_pos hlt, h]
    simp [hi, he]
  · rw [if_neg hk]

theorem sourceStep_contents (ok : S) (w : World B S) {i : Nat} {x : Source B S}
    (hx : w.sources[i]? = some x) : contents (w.sourceStep ok i x).sources = contents w.sources := by
  have hg : ∀ (w' : World B S) (y : Source B S) (pc : Pc B S), w'.sources = w.sources →
      y.input.items = x.input.items → y.input.ending = x.input.ending →
      contents (w'.goto i y pc).sources = contents w.sources := by
    intro w' y pc hw hi he
    unfold World.goto
    simp only [hw]
    exact contents_set hx hi he
  unfold World.sourceStep World.read
  repeat' split
  all_goals first
    | rfl
    | exact hg _ _ _ rfl rfl rfl
    | exact hg _ _ _ (close_sources _ _) rfl rfl

theorem callStep_sources (w : World B S) (k : Nat) (c : Call S) :
    (w.callStep k c).sources = w.sources := by
  unfold World.callStep
  repeat' split
  all_goals first
    | rfl
    | exact close_sources _ _

theorem destroy_sources (ok : S) (w : World B S) : (w.destroy ok).sources = w.sources := by
  unfold World.destroy
  repeat' split
  all_goals first
    | rfl
    | exact close_sources _ _

theorem change_contents (w : World B S) (i : Nat) {f : Input B S → Input B S} (hf : Outside f) :
    contents (w.change i f).sources = contents w.sources := by
  unfold World.change
  split
  · rfl
  · rename_i x hx
    exact contents_set hx (hf.items _) (hf.ending _)

theorem step_contents (ok : S) (w : World B S) (op : Op B S) :
    contents (step ok w op).sources =
      contents w.sources ++ if w.released then [] else op.stream.toList := by
  cases op with
  | add items ending =>
    simp only [step]
    by_cases h : w.released = true
    · simp [h]
    · simp [h, contents, Op.stream]
  | addItem b => simp only [step, World.addItem]; split <;> simp [Op.stream]
  | addError s => simp only [step]; split <;> simp [Op.stream]
  | produce i => simp [step, Op.stream, change_contents w i outside_produce]
  | finish i => simp [step, Op.stream, change_contents w i outside_finish]
  | source i =>
    simp only [step, Op.stream]
    cases hx : w.sources[i]? with
    | none => simp
    | some x => simp [sourceStep_contents ok w hx]
  | call k =>
    simp only [step, Op.stream]
    cases hc : w.calls[k]? with
    | none => simp
    | some c => simp [callStep_sources]
  | drop => simp [step, Op.stream]
  | release => simp [step, Op.stream]
  | destroy => simp [step, Op.stream, destroy_sources]

def statuses (calls : List (Call S)) : List S := calls.map Call.status

theorem statuses_set {l : List (Call S)} {k : Nat} {c d : Call S} (h : l[k]? = some c)
    (hs : d.status = c.status) : statuses (l.set k d) = statuses l := by
  unfold statuses
  apply List.ext_getElem?
  intro m
  simp only [List.getElem?_map, List.getElem?_set]
  by_cases hk : k = m
  · subst hk
    have hlt : k < l.length := (List.getElem?_eq_some_iff.1 h).1
    rw [if_pos rfl, if_pos hlt, h]
    simp [hs]
  · rw [if_neg hk]

theorem sourceStep_calls (ok : S) (w : World B S) (i : Nat) (x : Source B S) :
    (w.sourceStep ok i x).calls = w.calls := by
  unfold World.sourceStep World.read
  repeat' split
  all_goals first
    | rfl
    | exact close_calls _ _

theorem callStep_statuses (w : World B S) {k : Nat} {c : Call S} (hc : w.calls[k]? = some c) :
    statuses (w.callStep k c).calls = statuses w.calls := by
  unfold World.callStep
  repeat' split
  all_goals first
    | rfl
    | exact statuses_set hc rfl

theorem destroy_calls (ok : S) (w : World B S) : (w.destroy ok).calls = w.calls := by
  unfold World.destroy
  repeat' split
  all_goals first
    | rfl
    | exact close_calls _ _

theorem step_statuses (ok : S) (w : World B S) (op : Op B S) :
    statuses (step ok w op).calls =
      statuses w.calls ++ if w.released then [] else (op.error ok).toList := by
  cases op with
  | add items ending => simp only [step]; split <;> simp [Op.error]
  | addItem b => simp only [step, World.addItem]; split <;> simp [Op.error]
  | addError s =>
    simp only [step]
    by_cases h : w.released = true
    · simp [h]
    · by_cases hs : s = ok
      · simp [h, Op.error, hs]
      · simp [h, statuses, Op.error, hs, Call.status]
  | produce i => simp only [step, World.change]; split <;> simp [Op.error]
  | finish i => simp only [step, World.change]; split <;> simp [Op.error]
  | source i =>
    simp only [step, Op.error]
    cases hx : w.sources[i]? with
    | none => simp
    | some x => simp [sourceStep_calls]
  | call k =>
    simp only [step, Op.error]
    cases hc : w.calls[k]? with
    | none => simp
    | some c => simp [callStep_statuses w hc]
  | drop => simp [step, Op.error]
  | release => simp [step, Op.error]
  | destroy => simp [step, Op.error, destroy_calls]

/-- A list that every step before the destruction extends. -/
theorem run_collect {C : Type} (ok : S) (get : World B S → List C) (f : Op B S → Option C)
    (hrel : f .release = none)
    (hstep : ∀ w op, get (step ok w op) = get w ++ if w.released then [] else (f op).toList)
    (ops : List (Op B S)) : ∀ (w : World B S),
    get (run ok w ops) = get w ++ if w.released then [] else (before ops).filterMap f := by
  induction ops with
  | nil => intro w; simp [run, before]
  | cons op ops ih =>
    intro w
    show get (run ok (step ok w op) ops) = _
    rw [ih, hstep, List.append_assoc]
    congr 1
    by_cases h : op = .release
    · subst h
      simp [step, before, hrel]
    · rw [step_released ok w op h, before_cons op ops h]
      by_cases hr : w.released = true
      · simp [hr]
      · cases hf : f op with
        | none => simp [hr, hf]
        | some c => simp [hr, hf]

theorem run_inv (ok : S) (ops : List (Op B S)) : ∀ (w : World B S) (tagged : List (Option Nat × B))
    (single : List B), Inv ok w tagged single →
    ∃ tagged', Inv ok (run ok w ops) tagged'
      (single ++ if w.released then [] else (before ops).filterMap Op.item) := by
  induction ops with
  | nil => intro w tagged single h; exact ⟨tagged, by simpa [run, before] using h⟩
  | cons op ops ih =>
    intro w tagged single h
    obtain ⟨tagged', h'⟩ := h.step op
    obtain ⟨tagged'', h''⟩ := ih _ _ _ h'
    refine ⟨tagged'', ?_⟩
    have he : single ++ singleStep w op ++ (if (step ok w op).released then []
        else (before ops).filterMap Op.item) =
        single ++ if w.released then [] else (before (op :: ops)).filterMap Op.item := by
      rw [List.append_assoc]
      congr 1
      unfold singleStep
      by_cases hr : op = .release
      · subst hr
        simp [step, before, Op.item]
      · rw [step_released ok w op hr, before_cons op ops hr]
        by_cases hr : w.released = true
        · simp [hr]
        · cases hf : op.item with
          | none => simp [hr, hf]
          | some c => simp [hr, hf]
    rw [← he]
    exact h''

theorem run_streams (ok : S) (ops : List (Op B S)) :
    contents (run ok ({} : World B S) ops).sources = streams ops := by
  have := run_collect ok (fun w : World B S => contents w.sources) Op.stream rfl (step_contents ok) ops {}
  simpa [contents, streams] using this

theorem run_errors (ok : S) (ops : List (Op B S)) :
    statuses (run ok ({} : World B S) ops).calls = errors ok ops := by
  have := run_collect ok (fun w : World B S => statuses w.calls) (Op.error ok) rfl (step_statuses ok) ops {}
  simpa [statuses, errors] using this

theorem run_main (ok : S) (ops : List (Op B S)) :
    ∃ tagged, Inv ok (run ok ({} : World B S) ops) tagged (singles ops) := by
  have := run_inv ok ops ({} : World B S) [] [] (Inv.init ok)
  simpa [singles] using this

theorem At.prefix_items {ok : S} {r st : Bool} {x : Input B S} {items : List B} {pc : Pc B S}
    (h : At ok r st x items pc) : items <+: x.items := by
  cases pc with
  | reading => have h : items = _ := h; rw [h]; exact List.take_prefix _ _
  | subscribing => have h : items = _ := h; rw [h]; exact List.take_prefix _ _
  | waiting => have h : items = _ := h; rw [h]; exact List.take_prefix _ _
  | writing b => rw [h.2.2]; exact List.take_prefix _ _
  | requesting s => rw [h.2.2.2]; exact List.prefix_rfl
  | closing s => rw [h.2.2.2.1]; exact List.prefix_rfl
  | finished =>
    rcases h with h | h
    · rw [h.2.1]; exact List.prefix_rfl
    · exact h.2

/-! ### The theorems -/

/-- C41: in every execution the output is a merge of parts of the streams and of the single items, each in its
order. It is closed with OK only if the `StreamInterleave` was destroyed, no error was added, all streams
ended with OK, and all items are there; otherwise with an error that was added or with that of a stream all
items of which are there. -/
theorem C41_interleave_safe (ok : S) (ops : List (Op B S)) :
    ∃ tagged : List (Option Nat × B),
      tagged.map (fun t => t.2) = (run ok ({} : World B S) ops).items ∧
      (∀ t ∈ tagged, ∀ i, t.1 = some i → i < (streams ops).length) ∧
      (∀ (i : Nat) (stream : List B × S), (streams ops)[i]? = some stream →
        part (some i) tagged <+: stream.1) ∧
      part none tagged <+: singles ops ∧
      ∀ s, (run ok ({} : World B S) ops).closed = some s →
        (s = ok ∧ Op.release ∈ ops ∧ errors ok ops = [] ∧ part none tagged = singles ops ∧
          ∀ (i : Nat) (stream : List B × S), (streams ops)[i]? = some stream →
            stream.2 = ok ∧ part (some i) tagged = stream.1) ∨
        (s ≠ ok ∧ (s ∈ errors ok ops ∨
          ∃ (i : Nat) (stream : List B × S), (streams ops)[i]? = some stream ∧
            stream.2 = s ∧ part (some i) tagged = stream.1)) := by
  obtain ⟨tagged, h⟩ := run_main (B := B) ok ops
  have hs := run_streams (B := B) ok ops
  have he := run_errors (B := B) ok ops
  have hr := run_released ok ops ({} : World B S)
  generalize run ok ({} : World B S) ops = w at h hs he hr
  have hget : ∀ (i : Nat) (stream : List B × S), (streams ops)[i]? = some stream →
      ∃ x, w.sources[i]? = some x ∧ stream = (x.input.items, x.input.ending) := by
    intro i stream hi
    rw [← hs] at hi
    simp only [contents, List.getElem?_map, Option.map_eq_some_iff] at hi
    obtain ⟨x, hx, rfl⟩ := hi
    exact ⟨x, hx, rfl⟩
  refine ⟨tagged, h.items, ?_, ?_, h.single_prefix, ?_⟩
  · rw [← hs]
    simpa [contents] using h.places
  · intro i stream hi
    obtain ⟨x, hx, rfl⟩ := hget i stream hi
    exact (h.pcs i x hx).prefix_items
  · intro s hcs
    by_cases hok : s = ok
    · subst hok
      obtain ⟨h1, h2, h3, h4⟩ := h.closed_ok hcs
      refine .inl ⟨rfl, (hr.1 h1).elim (fun h' => by cases h') id, ?_, h3, ?_⟩
      · rw [← he, h2]
        rfl
      · intro i stream hi
        obtain ⟨x, hx, rfl⟩ := hget i stream hi
        exact (h4 i x hx).2
    · refine .inr ⟨hok, ?_⟩
      rcases h.closed_error s hcs hok with ⟨c, hc, hce⟩ | ⟨i, x, hx, h1, h2, h3⟩
      · refine .inl ?_
        rw [← he]
        exact List.mem_map.2 ⟨c, hc, hce⟩
      · refine .inr ⟨i, (x.input.items, x.input.ending), ?_, h1, h3⟩
        rw [← hs]
        simp [contents, hx]

/-- No step of the interleave does anything. -/
def Quiet (ok : S) (w : World B S) : Prop := ∀ op : Op B S, op.Internal → step ok w op = w

theorem quiet_source {ok : S} {w : World B S} {tagged : List (Option Nat × B)} {single : List B}
    (h : Inv ok w tagged single) (hq : Quiet ok w) {i : Nat} {x : Source B S}
    (hx : w.sources[i]? = some x) :
    (x.pc = .finished) ∨ (x.pc = .waiting ∧ x.input.read = x.input.ready ∧ x.input.ended = false) := by
  have ht := hq (.source i) trivial
  have hwf := h.wf x (List.mem_of_getElem? hx)
  simp only [step, hx] at ht
  by_cases hw : x.pc = .waiting
  · refine .inr ⟨hw, ?_⟩
    obtain ⟨input, pc⟩ := x
    simp only at hw
    subst hw
    simp only [World.sourceStep] at ht
    by_cases ha : input.available = true
    · rw [if_pos ha] at ht
      have := congrArg (fun w => w.sources[i]?) ht
      have hlt : i < w.sources.length := (List.getElem?_eq_some_iff.1 hx).1
      simp only [World.goto] at this
      rw [List.getElem?_set_self hlt, hx] at this
      cases this
    · unfold Input.available at ha
      simp only [Bool.or_eq_true, decide_eq_true_eq, not_or, Bool.not_eq_true] at ha
      have := hwf.read
      simp only at this
      exact ⟨by simp only; omega, ha.2⟩
  · by_cases hf : x.pc = .finished
    · exact .inl hf
    · exfalso
      have hne : w.sourceStep ok i x ≠ w := by
        intro he
        have hs := congrArg (fun w => w.sources[i]?) he
        have hlt : i < w.sources.length := (List.getElem?_eq_some_iff.1 hx).1
        obtain ⟨input, pc⟩ := x
        have habs : ∀ (w' : World B S) (y : Source B S) (p : Pc B S),
            w'.sources.length = w.sources.length →
            (w'.goto i y p).sources[i]? = w.sources[i]? → p = pc := by
          intro w' y p hl he
          unfold World.goto at he
          rw [List.getElem?_set_self (hl ▸ hlt), hx] at he
          exact congrArg Source.pc (Option.some.inj he)
        cases pc with
        | waiting => exact hw rfl
        | finished => exact hf rfl
        | reading =>
          simp only [World.sourceStep, World.read] at hs
          by_cases hlt : input.read < input.ready
          · have hlt2 : input.read < input.items.length := by
              have := hwf.ready
              simp only at this
              omega
            rw [if_pos hlt, List.getElem?_eq_getElem hlt2] at hs
            simp only at hs
            cases habs _ _ _ rfl hs
          · rw [if_neg hlt] at hs
            by_cases he : input.ended = true
            · rw [if_pos he] at hs
              by_cases hok : input.ending = ok
              · rw [if_pos hok] at hs
                cases habs _ _ _ rfl hs
              · rw [if_neg hok] at hs
                cases habs _ _ _ rfl hs
            · rw [if_neg he] at hs
              cases habs _ _ _ rfl hs
        | writing b =>
          simp only [World.sourceStep] at hs
          split at hs
          · cases habs _ _ _ rfl hs
          · cases habs _ _ _ rfl hs
        | requesting s =>
          simp only [World.sourceStep] at hs
          split at hs
          · cases habs _ _ _ rfl hs
          · cases habs _ _ _ rfl hs
        | closing s =>
          simp only [World.sourceStep] at hs
          cases habs _ _ _ (by rw [close_sources]) hs
        | subscribing =>
          simp only [World.sourceStep] at hs
          split at hs
          · cases habs _ _ _ rfl hs
          · cases habs _ _ _ rfl hs
      exact hne ht

theorem quiet_call {ok : S} {w : World B S} (hq : Quiet ok w) {k : Nat} {c : Call S}
    (hc : w.calls[k]? = some c) : c.isFinished = true := by
  have ht := hq (.call k) trivial
  simp only [step, hc] at ht
  have hlt : k < w.calls.length := (List.getElem?_eq_some_iff.1 hc).1
  have hs := congrArg (fun w => w.calls[k]?) ht
  cases c with
  | finished s => rfl
  | requesting s =>
    simp only [World.callStep] at hs
    split at hs
    · rw [List.getElem?_set_self hlt, hc] at hs
      cases hs
    · rw [List.getElem?_set_self hlt, hc] at hs
      cases hs
  | closing s =>
    simp only [World.callStep] at hs
    rw [List.getElem?_set_self hlt, hc] at hs
    cases hs

theorem quiet_closers {ok : S} {w : World B S} {tagged : List (Option Nat × B)} {single : List B}
    (h : Inv ok w tagged single) (hq : Quiet ok w) : closers w.sources w.calls = 0 := by
  unfold closers
  have h1 : ∀ x ∈ w.sources, (if x.pc.isClosing then 1 else 0) = 0 := by
    intro x hx
    obtain ⟨i, hi⟩ := List.mem_iff_getElem?.1 hx
    rcases quiet_source h hq hi with hp | hp
    · rw [hp]; rfl
    · rw [hp.1]; rfl
  have h2 : ∀ c ∈ w.calls, (if c.isClosing then 1 else 0) = 0 := by
    intro c hc
    obtain ⟨k, hk⟩ := List.mem_iff_getElem?.1 hc
    have := quiet_call hq hk
    cases c with
    | finished s => rfl
    | _ => cases this
  have hz : ∀ {C : Type} (l : List C), (l.map fun _ => 0).sum = 0 := by
    intro C l
    induction l with
    | nil => rfl
    | cons a l ih => simp [ih]
  rw [List.map_congr_left h1, List.map_congr_left h2, hz, hz]

/-- C41: whenever the interleave has nothing to do and the output is neither closed nor dropped, the output has
everything that was written to the streams so far, there was no error, and either the `StreamInterleave` is
still there or a stream has not ended. -/
theorem C41_interleave_flow (ok : S) (ops : List (Op B S)) (w : World B S)
    (hw : w = run ok ({} : World B S) ops)
    (hq : ∀ op : Op B S, op.Internal → step ok w op = w)
    (hgone : w.gone = false) (hclosed : w.closed = none) :
    (∃ tagged : List (Option Nat × B),
      tagged.map (fun t => t.2) = w.items ∧
      part none tagged = singles ops ∧
      (∀ t ∈ tagged, ∀ i, t.1 = some i → i < w.sources.length) ∧
      ∀ (i : Nat) x, w.sources[i]? = some x →
        part (some i) tagged = x.input.items.take x.input.ready ∧
        (x.input.ended = true → x.input.ending = ok)) ∧
    errors ok ops = [] ∧
    (Op.release ∈ ops → ∃ x ∈ w.sources, x.input.ended = false) := by
  obtain ⟨tagged, h⟩ := run_main (B := B) ok ops
  have he := run_errors (B := B) ok ops
  have hr := run_released ok ops ({} : World B S)
  rw [← hw] at h he hr
  have hst : w.stopped = false := by
    unfold World.stopped
    rw [hclosed, hgone]
    rfl
  have hcl := quiet_closers h hq
  have hreq : w.requested = false := by
    have := h.eq hgone
    rw [hcl, hclosed] at this
    cases hb : w.requested with
    | false => rfl
    | true => rw [hb] at this; simp [flag] at this
  have hfin : ∀ (i : Nat) x, w.sources[i]? = some x → x.pc = .finished →
      x.input.Full ∧ x.input.ending = ok ∧ part (some i) tagged = x.input.items := by
    intro i x hx hp
    have hat := h.pcs i x hx
    rw [hp, hst, hreq] at hat
    rcases hat with hat | hat
    · refine ⟨hat.1, ?_, hat.2.1⟩
      by_cases he : x.input.ending = ok
      · exact he
      · exact absurd (hat.2.2 he) (by simp)
    · exact absurd hat.1 (by simp)
  have hnil : w.calls = [] := by
    cases hcs : w.calls with
    | nil => rfl
    | cons c cs =>
      have hk : w.calls[0]? = some c := by rw [hcs]; rfl
      have := (h.errors c (List.mem_of_getElem? hk)).2 (quiet_call hq hk)
      rw [hreq] at this
      cases this
  refine ⟨⟨tagged, h.items, h.single_all hst, h.places, ?_⟩, ?_, ?_⟩
  · intro i x hx
    have hwf := h.wf x (List.mem_of_getElem? hx)
    rcases quiet_source h hq hx with hp | ⟨hp, hrd, hend⟩
    · obtain ⟨hf, hok, hitems⟩ := hfin i x hx hp
      refine ⟨?_, fun _ => hok⟩
      rw [hitems, hwf.ended hf.ended, List.take_length]
    · refine ⟨?_, fun he => by rw [hend] at he; cases he⟩
      have hat := h.pcs i x hx
      rw [hp] at hat
      have hat : part (some i) tagged = _ := hat
      rw [hat, hrd]
  · rw [← he, hnil]
    rfl
  · intro hrel
    have hrel' : w.released = true := hr.2 (.inr hrel)
    refine Classical.byContradiction fun hno => ?_
    have hall : w.sources.all Source.isFinished = true := by
      rw [List.all_eq_true]
      intro x hx
      obtain ⟨i, hi⟩ := List.mem_iff_getElem?.1 hx
      rcases quiet_source h hq hi with hp | ⟨hp, hrd, hend⟩
      · unfold Source.isFinished
        rw [hp]
      · exact absurd ⟨x, hx, hend⟩ hno
    have hd := hq .destroy trivial
    simp only [step, World.destroy, hrel', hall, hnil, List.all_nil, hreq] at hd
    cases hdes : w.destroyed with
    | true =>
      have := (h.destroyed hdes).2
      rw [hreq] at this
      cases this
    | false =>
      rw [hdes] at hd
      have := congrArg World.destroyed hd
      simp [hdes] at this

/-- C41: when all streams have ended and the interleave has nothing to do, the output is closed if the
`StreamInterleave` was destroyed or if there was an error. -/
theorem C41_interleave_complete (ok : S) (ops : List (Op B S)) (w : World B S)
    (hw : w = run ok ({} : World B S) ops)
    (hq : ∀ op : Op B S, op.Internal → step ok w op = w) (hgone : w.gone = false) :
    (Op.release ∈ ops ∧ (∀ x ∈ w.sources, x.input.ended = true) ∨ errors ok ops ≠ [] ∨
      (∃ x ∈ w.sources, x.input.ended = true ∧ x.input.ending ≠ ok)) → ∃ s, w.closed = some s := by
  intro hor
  cases hc : w.closed with
  | some s => exact ⟨s, rfl⟩
  | none =>
    exfalso
    obtain ⟨⟨tagged, _, _, _, h1⟩, h2, h3⟩ := C41_interleave_flow ok ops w hw hq hgone hc
    rcases hor with ⟨hrel, hall⟩ | herr | ⟨x, hx, he, hn⟩
    · obtain ⟨x, hx, he⟩ := h3 hrel
      rw [hall x hx] at he
      cases he
    · exact herr h2
    · obtain ⟨i, hi⟩ := List.mem_iff_getElem?.1 hx
      exact hn ((h1 i x hi).2 he)

/-- C41: the inputs are the added streams. -/
theorem C41_interleave_inputs (ok : S) (ops : List (Op B S)) :
    (run ok ({} : World B S) ops).sources.map (fun x => (x.input.items, x.input.ending)) = streams ops :=
  run_streams ok ops

/-- C41: an interleave that nobody writes to or adds to stops after so many steps. -/
theorem C41_interleave_terminates (ok : S) (ops more : List (Op B S)) (w : World B S)
    (hw : w = run ok ({} : World B S) ops) (hb : Busy ok w more) :
    more.length ≤ 8 * (w.sources.map fun x => x.input.ready).sum + 6 * (streams ops).length +
      2 * (errors ok ops).length + 1 := by
  obtain ⟨tagged, h⟩ := run_main (B := B) ok ops
  have hs := congrArg List.length (run_streams (B := B) ok ops)
  have he := congrArg List.length (run_errors (B := B) ok ops)
  rw [← hw] at h hs he
  simp only [contents, statuses, List.length_map] at hs he
  rw [← hs, ← he]
  exact Nat.le_trans (busy_weight hb _ _ h) (weight_le w)

/-- C41: the output is never closed twice. -/
theorem C41_interleave_not_fatal (ok : S) (ops : List (Op B S)) :
    (run ok ({} : World B S) ops).fatal = false := by
  obtain ⟨tagged, h⟩ := run_main (B := B) ok ops
  exact h.fatal

theorem close_stable (w : World B S) (s s' : S) (hs : w.closed = some s) :
    (w.close s').closed = some s ∧ (w.close s').items = w.items := by
  unfold World.close
  split
  · exact ⟨hs, rfl⟩
  · split
    · exact ⟨hs, rfl⟩
    · rename_i hn
      rw [hs] at hn
      exact absurd rfl hn

theorem step_stable (ok : S) (w : World B S) (op : Op B S) (s : S)
    (hs : w.closed = some s) : (step ok w op).closed = some s ∧ (step ok w op).items = w.items := by
  have hst : w.stopped = true := by
    unfold World.stopped
    rw [hs]
    rfl
  cases op with
  | add items ending => simp only [step]; split <;> exact ⟨hs, rfl⟩
  | addItem b =>
    have : step ok w (.addItem b) = w := by simp [step, World.addItem, hst]
    rw [this]
    exact ⟨hs, rfl⟩
  | addError s => simp only [step]; split <;> exact ⟨hs, rfl⟩
  | produce i => simp only [step, World.change]; split <;> exact ⟨hs, rfl⟩
  | finish i => simp only [step, World.change]; split <;> exact ⟨hs, rfl⟩
  | source i =>
    simp only [step]
    unfold World.sourceStep World.read
    rw [hst]
    repeat' split
    all_goals first
      | exact ⟨hs, rfl⟩
      | exact close_stable w s _ hs
      | (rename_i hn; exact absurd rfl hn)
  | call k =>
    simp only [step]
    unfold World.callStep
    repeat' split
    all_goals first
      | exact ⟨hs, rfl⟩
      | exact close_stable w s _ hs
  | drop => exact ⟨hs, rfl⟩
  | release => exact ⟨hs, rfl⟩
  | destroy =>
    simp only [step]
    unfold World.destroy
    repeat' split
    all_goals first
      | exact ⟨hs, rfl⟩
      | exact close_stable w s _ hs

/-- C41: once closed, the output does not change any more. -/
theorem C41_interleave_stable (ok : S) (w : World B S) (more : List (Op B S)) (s : S)
    (hs : w.closed = some s) :
    (run ok w more).closed = some s ∧ (run ok w more).items = w.items := by
  induction more generalizing w with
  | nil => exact ⟨hs, rfl⟩
  | cons op more ih =>
    have hst := step_stable ok w op s hs
    have := ih (step ok w op) hst.1
    exact ⟨this.1, by rw [← hst.2]; exact this.2⟩

/-! ### Examples -/

/-- Two streams, the second of which is ready first. -/
def exampleOps : List (Op Nat Nat) :=
  [.add [1, 2] 0, .add [3] 0, .produce 1, .finish 1, .source 0, .source 1, .addItem 9, .source 1, .source 1,
   .source 0, .produce 0, .source 0, .source 0, .source 0, .source 0, .source 0]

example : (run 0 {} exampleOps).items = [9, 3, 1] ∧ (run 0 {} exampleOps).closed = none := by
  decide +kernel

/-- The same with an item in another order. -/
example : (run 0 {} (exampleOps ++ [.release, .produce 0, .finish 0, .source 0, .source 0, .source 0, .source 0,
      .source 0, .destroy])).items = [9, 3, 1, 2] ∧
    (run 0 {} (exampleOps ++ [.release, .produce 0, .finish 0, .source 0, .source 0, .source 0, .source 0,
      .source 0, .destroy])).closed = some 0 := by decide +kernel

/-- The items by their place. -/
example : (part none [(none, 9), (some 1, 3), (some 0, 1), (some 0, 2)],
    part (some 0) [(none, 9), (some 1, 3), (some 0, 1), (some 0, 2)],
    part (some 1) [(none, 9), (some 1, 3), (some 0, 1), (some 0, 2)]) = ([9], [1, 2], [3]) := by decide +kernel

/-- Of two errors one wins, and what is written after it is dropped. -/
example : (run 0 {} ([.add [] 5, .finish 0, .source 0, .addError 7, .call 0, .source 0, .call 0, .addItem 9,
      .source 0] : List (Op Nat Nat))).items = [] ∧
    (run 0 {} ([.add [] 5, .finish 0, .source 0, .addError 7, .call 0, .source 0, .call 0, .addItem 9,
      .source 0] : List (Op Nat Nat))).closed = some 7 := by decide +kernel

/-- Between the flag and the closing of the stream, an item can still be written. -/
example : (run 0 {} ([.addError 7, .call 0, .addItem 9, .call 0] : List (Op Nat Nat))).items = [9] ∧
    (run 0 {} ([.addError 7, .call 0, .addItem 9, .call 0] : List (Op Nat Nat))).closed = some 7 := by
  decide +kernel

end Verif.StreamInterleave
