import Verif.StreamInterleave.Spec
import Verif.StreamChain.Lemmas

/-!
The invariant of an interleave.
-/

namespace Verif.StreamInterleave

open Verif.StreamChain (Input Outside outside_produce outside_finish)

set_option linter.unusedSectionVars false

variable {B S : Type} [DecidableEq S]

theorem part_append (p : Option Nat) (l : List (Option Nat × B)) (t : Option Nat) (b : B) :
    part p (l ++ [(t, b)]) = part p l ++ if t = p then [b] else [] := by
  unfold part
  rw [List.filterMap_append]
  by_cases h : t = p
  · simp [h]
  · simp [h]

/-- What is known of an input and of its items in the output. -/
def At (ok : S) (requested stopped : Bool) (x : Input B S) (items : List B) : Pc B S → Prop
  | .reading => items = x.items.take x.read
  | .subscribing => items = x.items.take x.read
  | .waiting => items = x.items.take x.read
  | .writing b => 0 < x.read ∧ x.items[x.read - 1]? = some b ∧ items = x.items.take (x.read - 1)
  | .requesting s => x.Full ∧ s = x.ending ∧ s ≠ ok ∧ items = x.items
  | .closing s => x.Full ∧ s = x.ending ∧ s ≠ ok ∧ items = x.items ∧ requested = true
  | .finished => (x.Full ∧ items = x.items ∧ (x.ending ≠ ok → requested = true)) ∨
      (stopped = true ∧ items <+: x.items)

def Pc.isClosing : Pc B S → Bool
  | .closing _ => true
  | _ => false

def Call.isClosing : Call S → Bool
  | .closing _ => true
  | _ => false

def Call.status : Call S → S
  | .requesting s => s
  | .closing s => s
  | .finished s => s

/-- The number of threads that will close the output. -/
def closers (sources : List (Source B S)) (calls : List (Call S)) : Nat :=
  (sources.map fun x => if x.pc.isClosing then 1 else 0).sum +
    (calls.map fun c => if c.isClosing then 1 else 0).sum

/-- A number for a flag. -/
def flag (b : Bool) : Nat := if b then 1 else 0

structure Inv (ok : S) (w : World B S) (tagged : List (Option Nat × B)) (single : List B) : Prop where
  wf : ∀ x ∈ w.sources, x.input.Wf
  items : tagged.map (fun t => t.2) = w.items
  places : ∀ t ∈ tagged, ∀ i, t.1 = some i → i < w.sources.length
  pcs : ∀ (i : Nat) x, w.sources[i]? = some x →
    At ok w.requested w.stopped x.input (part (some i) tagged) x.pc
  single_prefix : part none tagged <+: single
  single_all : w.stopped = false → part none tagged = single
  errors : ∀ c ∈ w.calls, c.status ≠ ok ∧ (c.isFinished = true → w.requested = true)
  le : closers w.sources w.calls + flag w.closed.isSome ≤ flag w.requested
  eq : w.gone = false → closers w.sources w.calls + flag w.closed.isSome = flag w.requested
  destroyed : w.destroyed = true → w.released = true ∧ w.requested = true
  closed_ok : w.closed = some ok → w.released = true ∧ w.calls = [] ∧ part none tagged = single ∧
    ∀ (i : Nat) x, w.sources[i]? = some x →
      x.input.Full ∧ x.input.ending = ok ∧ part (some i) tagged = x.input.items
  closed_error : ∀ s, w.closed = some s → s ≠ ok →
    (∃ c ∈ w.calls, c.status = s) ∨
    ∃ (i : Nat) (x : _), w.sources[i]? = some x ∧ x.input.ending = s ∧ x.input.Full ∧
      part (some i) tagged = x.input.items
  fatal : w.fatal = false

theorem Inv.init (ok : S) : Inv ok ({} : World B S) [] [] where
  wf := by intro x hx; cases hx
  items := rfl
  places := by intro t ht; cases ht
  pcs := by intro i x hx; cases hx
  single_prefix := List.prefix_rfl
  single_all := fun _ => rfl
  errors := by intro c hc; cases hc
  le := by simp [closers, flag]
  eq := by simp [closers, flag]
  destroyed := by intro h; cases h
  closed_ok := by intro h; cases h
  closed_error := by intro s h; cases h
  fatal := rfl

/-! ### Small facts -/

theorem At.mono {ok : S} {r r' st st' : Bool} {x : Input B S} {items : List B} {pc : Pc B S}
    (h : At ok r st x items pc) (hr : r = true → r' = true) (hs : st = true → st' = true) :
    At ok r' st' x items pc := by
  cases pc with
  | closing s => exact ⟨h.1, h.2.1, h.2.2.1, h.2.2.2.1, hr h.2.2.2.2⟩
  | finished =>
    rcases h with h | h
    · exact .inl ⟨h.1, h.2.1, fun he => hr (h.2.2 he)⟩
    · exact .inr ⟨hs h.1, h.2⟩
  | _ => exact h

theorem At.outside {ok : S} {r st : Bool} {x : Input B S} {items : List B} {pc : Pc B S}
    {f : Input B S → Input B S} (hf : Outside f)
    (h : At ok r st x items pc) : At ok r st (f x) items pc := by
  cases pc <;> simp only [At, hf.items, hf.ending, hf.read] at h ⊢
  case requesting => exact ⟨hf.full h.1, h.2⟩
  case closing => exact ⟨hf.full h.1, h.2⟩
  case finished =>
    rcases h with h | h
    · exact .inl ⟨hf.full h.1, h.2⟩
    · exact .inr h
  all_goals exact h

theorem sum_set {C : Type} (f : C → Nat) : ∀ (l : List C) (i : Nat) (x y : C), l[i]? = some x →
    ((l.set i y).map f).sum + f x = (l.map f).sum + f y := by
  intro l
  induction l with
  | nil => intro i x y h; cases h
  | cons a l ih =>
    intro i x y h
    cases i with
    | zero =>
      cases h
      simp only [List.set_cons_zero, List.map_cons, List.sum_cons]
      omega
    | succ i =>
      have := ih i x y (by simpa using h)
      simp only [List.set_cons_succ, List.map_cons, List.sum_cons]
      omega

theorem closers_set {sources : List (Source B S)} {calls : List (Call S)} {i : Nat} {x y : Source B S}
    (h : sources[i]? = some x) :
    closers (sources.set i y) calls + flag x.pc.isClosing = closers sources calls + flag y.pc.isClosing := by
  unfold closers flag
  have := sum_set (fun x : Source B S => if x.pc.isClosing = true then 1 else 0) sources i x y h
  omega

theorem closers_call {sources : List (Source B S)} {calls : List (Call S)} {k : Nat} {c d : Call S}
    (h : calls[k]? = some c) :
    closers sources (calls.set k d) + flag c.isClosing = closers sources calls + flag d.isClosing := by
  unfold closers flag
  have := sum_set (fun c : Call S => if c.isClosing = true then 1 else 0) calls k c d h
  omega

theorem getElem?_set_cases {C : Type} {l : List C} {i k : Nat} {y z : C}
    (h : (l.set i y)[k]? = some z) : (k = i ∧ z = y) ∨ (k ≠ i ∧ l[k]? = some z) := by
  rw [List.getElem?_set] at h
  by_cases hk : i = k
  · rw [if_pos hk] at h
    split at h
    · exact .inl ⟨hk.symm, by cases h; rfl⟩
    · cases h
  · rw [if_neg hk] at h
    exact .inr ⟨fun e => hk e.symm, h⟩

theorem mem_set_of {C : Type} {P : C → Prop} {l : List C} {i : Nat} {z : C}
    (h : ∀ x ∈ l, P x) (hz : P z) : ∀ x ∈ l.set i z, P x := by
  intro x hx
  rcases List.mem_or_eq_of_mem_set hx with h' | h'
  · exact h x h'
  · exact h' ▸ hz

/-! ### Steps of an input -/

/-- A step that changes one input only. -/
theorem Inv.goto {ok : S} {w : World B S} {tagged : List (Option Nat × B)} {single : List B}
    (h : Inv ok w tagged single) {i : Nat} {x y : Source B S} (hx : w.sources[i]? = some x)
    (hc : x.pc.isClosing = false) (hc' : y.pc.isClosing = false) (hwf : y.input.Wf)
    (hitems : y.input.items = x.input.items) (hending : y.input.ending = x.input.ending)
    (hfull : x.input.Full → y.input.Full)
    (hat : At ok w.requested w.stopped y.input (part (some i) tagged) y.pc) :
    Inv ok { w with sources := w.sources.set i y } tagged single := by
  have hcl := closers_set (calls := w.calls) (y := y) hx
  rw [hc, hc'] at hcl
  have hcl : closers (w.sources.set i y) w.calls = closers w.sources w.calls := by omega
  exact { h with
    wf := mem_set_of h.wf hwf
    places := by
      intro t ht k hk
      simp only [List.length_set]
      exact h.places t ht k hk
    pcs := by
      intro k z hz
      rcases getElem?_set_cases hz with ⟨rfl, rfl⟩ | ⟨_, hz⟩
      · exact hat
      · exact h.pcs k z hz
    le := by simp only [hcl]; exact h.le
    eq := by simp only [hcl]; exact h.eq
    closed_ok := by
      intro hok
      obtain ⟨h1, h2, h3, h4⟩ := h.closed_ok hok
      refine ⟨h1, h2, h3, ?_⟩
      intro k z hz
      rcases getElem?_set_cases hz with ⟨rfl, rfl⟩ | ⟨_, hz⟩
      · have := h4 _ x hx
        exact ⟨hfull this.1, hending ▸ this.2.1, hitems ▸ this.2.2⟩
      · exact h4 k z hz
    closed_error := by
      intro s hs hne
      rcases h.closed_error s hs hne with h' | ⟨k, z, hz, h1, h2, h3⟩
      · exact .inl h'
      · refine .inr ?_
        by_cases hk : k = i
        · subst hk
          rw [hx] at hz
          cases hz
          have hlt : k < w.sources.length := (List.getElem?_eq_some_iff.1 hx).1
          exact ⟨k, y, by simp [hlt], hending ▸ h1, hfull h2, hitems ▸ h3⟩
        · exact ⟨k, z, by rw [List.getElem?_set_ne (Ne.symm hk)]; exact hz, h1, h2, h3⟩ }

/-- `TryWrite` writes an item. -/
theorem Inv.write {ok : S} {w : World B S} {tagged : List (Option Nat × B)} {single : List B}
    (h : Inv ok w tagged single) {i : Nat} {x : Source B S} {b : B} (hx : w.sources[i]? = some x)
    (hpc : x.pc = .writing b) (hst : w.stopped = false) :
    Inv ok { w with items := w.items ++ [b], sources := w.sources.set i { x with pc := .reading } }
      (tagged ++ [(some i, b)]) single := by
  have hcl := closers_set (calls := w.calls) (y := { x with pc := .reading }) hx
  rw [hpc] at hcl
  have hcl : closers (w.sources.set i { x with pc := .reading }) w.calls = closers w.sources w.calls := by
    simpa [Pc.isClosing] using hcl
  have hlt : i < w.sources.length := (List.getElem?_eq_some_iff.1 hx).1
  have hclosed : w.closed = none := by
    unfold World.stopped at hst
    cases hcs : w.closed with
    | none => rfl
    | some s => rw [hcs] at hst; simp at hst
  have hnone : part none (tagged ++ [(some i, b)]) = part none tagged := by
    rw [part_append, if_neg (by simp), List.append_nil]
  exact { h with
    wf := mem_set_of h.wf (h.wf x (List.mem_of_getElem? hx))
    items := by simp [h.items]
    places := by
      intro t ht k hk
      simp only [List.length_set]
      rcases List.mem_append.1 ht with ht | ht
      · exact h.places t ht k hk
      · cases List.mem_singleton.1 ht
        cases hk
        exact hlt
    pcs := by
      intro k z hz
      rcases getElem?_set_cases hz with ⟨rfl, rfl⟩ | ⟨hk, hz⟩
      · have hat := h.pcs k x hx
        rw [hpc] at hat
        obtain ⟨hpos, hb, hitems⟩ := hat
        show part (some k) (tagged ++ [(some k, b)]) = x.input.items.take x.input.read
        rw [part_append, if_pos rfl, hitems]
        obtain ⟨m, hm⟩ : ∃ m, x.input.read = m + 1 := ⟨x.input.read - 1, by omega⟩
        rw [hm, Nat.add_sub_cancel] at hb ⊢
        rw [List.take_add_one, hb]
        rfl
      · rw [part_append, if_neg (by simp; exact fun e => hk e.symm), List.append_nil]
        exact h.pcs k z hz
    single_prefix := by rw [hnone]; exact h.single_prefix
    single_all := by intro hs; rw [hnone]; exact h.single_all hs
    le := by simp only [hcl]; exact h.le
    eq := by simp only [hcl]; exact h.eq
    closed_ok := by intro hok; simp only [hclosed] at hok; cases hok
    closed_error := by intro s hs; simp only [hclosed] at hs; cases hs }

theorem flag_le (b : Bool) : flag b ≤ 1 := by cases b <;> simp [flag]

/-- Nothing was requested: the output is open and nobody will close it. -/
theorem Inv.open_of_not_requested {ok : S} {w : World B S} {tagged : List (Option Nat × B)}
    {single : List B} (h : Inv ok w tagged single) (hr : w.requested = false) :
    w.closed = none ∧ closers w.sources w.calls = 0 := by
  have := h.le
  rw [hr] at this
  simp only [flag, Bool.false_eq_true, if_false, Nat.le_zero, Nat.add_eq_zero_iff] at this
  refine ⟨?_, this.1⟩
  cases hc : w.closed with
  | none => rfl
  | some s => rw [hc] at this; simp at this

/-- `test_and_set` of `TryClose` in `ProcessInput`. -/
theorem Inv.request {ok : S} {w : World B S} {tagged : List (Option Nat × B)} {single : List B}
    (h : Inv ok w tagged single) {i : Nat} {x : Source B S} {s : S} (hx : w.sources[i]? = some x)
    (hpc : x.pc = .requesting s) (hr : w.requested = false) :
    Inv ok { w with requested := true, sources := w.sources.set i { x with pc := .closing s } }
      tagged single := by
  have ho := h.open_of_not_requested hr
  have hcl := closers_set (calls := w.calls) (y := { x with pc := .closing s }) hx
  rw [hpc, ho.2] at hcl
  have hcl : closers (w.sources.set i { x with pc := .closing s }) w.calls = 1 := by
    simpa [Pc.isClosing, flag] using hcl
  exact { h with
    wf := mem_set_of h.wf (h.wf x (List.mem_of_getElem? hx))
    places := by
      intro t ht k hk
      simp only [List.length_set]
      exact h.places t ht k hk
    pcs := by
      intro k z hz
      rcases getElem?_set_cases hz with ⟨rfl, rfl⟩ | ⟨hk, hz⟩
      · have hat := h.pcs k x hx
        rw [hpc] at hat
        exact ⟨hat.1, hat.2.1, hat.2.2.1, hat.2.2.2, rfl⟩
      · exact (h.pcs k z hz).mono (fun _ => rfl) id
    errors := fun c hc => ⟨(h.errors c hc).1, fun _ => rfl⟩
    le := by simp only [hcl, ho.1]; simp [flag]
    eq := by intro _; simp only [hcl, ho.1]; simp [flag]
    destroyed := fun hd => ⟨(h.destroyed hd).1, rfl⟩
    closed_ok := by intro hok; simp only [ho.1] at hok; cases hok
    closed_error := by intro s hs; simp only [ho.1] at hs; cases hs }

/-- What `close` does for the only closer. -/
theorem close_cases {w : World B S} (s : S) (h : w.closed = none) :
    (w.gone = true ∧ w.close s = w) ∨ (w.gone = false ∧ w.close s = { w with closed := some s }) := by
  unfold World.close
  cases hg : w.gone with
  | true => exact .inl ⟨rfl, by simp⟩
  | false => exact .inr ⟨rfl, by simp [h]⟩

/-- The end of `TryClose` in `ProcessInput`. -/
theorem Inv.closeSource {ok : S} {w : World B S} {tagged : List (Option Nat × B)} {single : List B}
    (h : Inv ok w tagged single) {i : Nat} {x : Source B S} {s : S} (hx : w.sources[i]? = some x)
    (hpc : x.pc = .closing s) : Inv ok ((w.close s).goto i x .finished) tagged single := by
  have hcl := closers_set (calls := w.calls) (y := { x with pc := .finished }) hx
  rw [hpc] at hcl
  have hcl : closers (w.sources.set i { x with pc := .finished }) w.calls + 1 =
      closers w.sources w.calls := by
    simpa [Pc.isClosing, flag] using hcl
  have hle := h.le
  have hfr := flag_le w.requested
  have hclosed : w.closed = none := by
    cases hc : w.closed with
    | none => rfl
    | some s => rw [hc] at hle; simp only [flag, Option.isSome_some, if_true] at hle hfr; omega
  have hzero : closers (w.sources.set i { x with pc := .finished }) w.calls = 0 := by omega
  have hat := h.pcs i x hx
  rw [hpc] at hat
  obtain ⟨hfull, hs, hne, hitems, hreq⟩ := hat
  have hlt : i < w.sources.length := (List.getElem?_eq_some_iff.1 hx).1
  have hpl : ∀ t ∈ tagged, ∀ (k : Nat), t.1 = some k →
      k < (w.sources.set i { x with pc := .finished }).length := by
    intro t ht k hk
    rw [List.length_set]
    exact h.places t ht k hk
  rcases close_cases s hclosed with ⟨hg, hcl'⟩ | ⟨hg, hcl'⟩
  · rw [hcl']
    unfold World.goto
    exact { h with
      wf := mem_set_of h.wf (h.wf x (List.mem_of_getElem? hx))
      places := hpl
      pcs := by
        intro k z hz
        rcases getElem?_set_cases hz with ⟨rfl, rfl⟩ | ⟨hk, hz⟩
        · exact .inl ⟨hfull, hitems, fun _ => hreq⟩
        · exact h.pcs k z hz
      le := by simp only [hzero, hclosed, flag, Option.isSome_none, Bool.false_eq_true, if_false]; omega
      eq := by intro hg'; simp only [hg] at hg'; cases hg'
      closed_ok := by intro hok; simp only [hclosed] at hok; cases hok
      closed_error := by intro s hs; simp only [hclosed] at hs; cases hs }
  · rw [hcl']
    unfold World.goto
    exact { h with
      wf := mem_set_of h.wf (h.wf x (List.mem_of_getElem? hx))
      places := hpl
      pcs := by
        intro k z hz
        rcases getElem?_set_cases hz with ⟨rfl, rfl⟩ | ⟨hk, hz⟩
        · exact .inl ⟨hfull, hitems, fun _ => hreq⟩
        · exact (h.pcs k z hz).mono id (fun _ => rfl)
      single_all := by intro hst; cases hst
      le := by simp only [hzero, hreq]; simp [flag]
      eq := by intro _; simp only [hzero, hreq]; simp [flag]
      closed_ok := by intro hok; cases hok; exact absurd rfl hne
      closed_error := by
        intro s' hs' _
        cases hs'
        exact .inr ⟨i, { x with pc := .finished }, by simp [hlt], hs.symm, hfull, hitems⟩ }

theorem Inv.sourceStep {ok : S} {w : World B S} {tagged : List (Option Nat × B)} {single : List B}
    (h : Inv ok w tagged single) {i : Nat} {x : Source B S} (hx : w.sources[i]? = some x) :
    ∃ tagged', Inv ok (w.sourceStep ok i x) tagged' single := by
  have hwf := h.wf x (List.mem_of_getElem? hx)
  have hat := h.pcs i x hx
  obtain ⟨input, pc⟩ := x
  cases pc with
  | reading =>
    refine ⟨tagged, ?_⟩
    simp only [World.sourceStep, World.read]
    by_cases hlt : input.read < input.ready
    · have hlt' : input.read < input.items.length := by have := hwf.ready; simp only at this; omega
      rw [if_pos hlt, List.getElem?_eq_getElem hlt']
      have hnf : ¬ input.Full := fun hf => by have := hf.read; omega
      refine h.goto hx rfl rfl ⟨by simp only; omega, hwf.ready, hwf.ended⟩ rfl rfl
        (fun hf => absurd hf hnf) ⟨by simp, ?_, ?_⟩
      · simp [List.getElem?_eq_getElem hlt']
      · have : part (some i) tagged = input.items.take input.read := hat
        simpa using this
    · rw [if_neg hlt]
      by_cases he : input.ended = true
      · have hfull : input.Full :=
          ⟨he, by have h1 := hwf.read; have h2 := hwf.ended he; simp only at h1 h2; omega⟩
        have hitems : part (some i) tagged = input.items := by
          have : part (some i) tagged = input.items.take input.read := hat
          rw [this, hfull.read, List.take_length]
        rw [if_pos he]
        by_cases hok : input.ending = ok
        · rw [if_pos hok]
          exact h.goto hx rfl rfl hwf rfl rfl id (.inl ⟨hfull, hitems, fun hn => absurd hok hn⟩)
        · rw [if_neg hok]
          exact h.goto hx rfl rfl hwf rfl rfl id ⟨hfull, rfl, hok, hitems⟩
      · rw [if_neg he]
        exact h.goto hx rfl rfl hwf rfl rfl id hat
  | writing b =>
    simp only [World.sourceStep]
    by_cases hst : w.stopped = true
    · rw [if_pos hst]
      refine ⟨tagged, h.goto hx rfl rfl hwf rfl rfl id (.inr ⟨hst, ?_⟩)⟩
      rw [hat.2.2]
      exact List.take_prefix _ _
    · rw [if_neg hst]
      exact ⟨_, h.write hx rfl (by simpa using hst)⟩
  | requesting s =>
    simp only [World.sourceStep]
    obtain ⟨hfull, hs, hne, hitems⟩ := hat
    by_cases hr : w.requested = true
    · rw [if_pos hr]
      exact ⟨tagged, h.goto hx rfl rfl hwf rfl rfl id (.inl ⟨hfull, hitems, fun _ => hr⟩)⟩
    · rw [if_neg hr]
      exact ⟨tagged, h.request hx rfl (by simpa using hr)⟩
  | closing s => exact ⟨tagged, h.closeSource hx rfl⟩
  | subscribing =>
    simp only [World.sourceStep]
    split
    · exact ⟨tagged, h.goto hx rfl rfl hwf rfl rfl id hat⟩
    · exact ⟨tagged, h.goto hx rfl rfl hwf rfl rfl id hat⟩
  | waiting =>
    simp only [World.sourceStep]
    split
    · exact ⟨tagged, h.goto hx rfl rfl hwf rfl rfl id hat⟩
    · exact ⟨tagged, h⟩
  | finished => exact ⟨tagged, h⟩

/-! ### Steps of `AddError` -/

theorem Inv.callStep {ok : S} {w : World B S} {tagged : List (Option Nat × B)} {single : List B}
    (h : Inv ok w tagged single) {k : Nat} {c : Call S} (hc : w.calls[k]? = some c) :
    Inv ok (w.callStep k c) tagged single := by
  have herr := h.errors c (List.mem_of_getElem? hc)
  have hne : w.calls ≠ [] := by intro e; rw [e] at hc; cases hc
  have hnotok : w.closed = some ok → False := fun hok => hne (h.closed_ok hok).2.1
  have hmem : ∀ d, d.status = c.status → ∀ s, (∃ c ∈ w.calls, c.status = s) →
      ∃ c ∈ w.calls.set k d, c.status = s := by
    intro d hd s ⟨e, he, hes⟩
    obtain ⟨m, hm⟩ := List.mem_iff_getElem?.1 he
    by_cases hmk : m = k
    · subst hmk
      rw [hc] at hm
      cases hm
      have hlt : m < w.calls.length := (List.getElem?_eq_some_iff.1 hc).1
      exact ⟨d, List.mem_iff_getElem?.2 ⟨m, by simp [hlt]⟩, by rw [hd, hes]⟩
    · exact ⟨e, List.mem_iff_getElem?.2 ⟨m, by rw [List.getElem?_set_ne (Ne.symm hmk)]; exact hm⟩, hes⟩
  cases c with
  | finished s => exact h
  | requesting s =>
    simp only [World.callStep]
    by_cases hr : w.requested = true
    · rw [if_pos hr]
      have hcl := closers_call (sources := w.sources) (d := .finished s) hc
      have hcl : closers w.sources (w.calls.set k (.finished s)) = closers w.sources w.calls := by
        simpa [Call.isClosing] using hcl
      exact { h with
        errors := mem_set_of h.errors ⟨herr.1, fun _ => hr⟩
        le := by simp only [hcl]; exact h.le
        eq := by simp only [hcl]; exact h.eq
        closed_ok := fun hok => (hnotok hok).elim
        closed_error := fun s' hs' hn => (h.closed_error s' hs' hn).imp (hmem (.finished s) rfl s') id }
    · rw [if_neg hr]
      have ho := h.open_of_not_requested (by simpa using hr)
      have hcl := closers_call (sources := w.sources) (d := .closing s) hc
      rw [ho.2] at hcl
      have hcl : closers w.sources (w.calls.set k (.closing s)) = 1 := by
        simpa [Call.isClosing, flag] using hcl
      exact { h with
        pcs := fun i x hx => (h.pcs i x hx).mono (fun _ => rfl) id
        errors := mem_set_of (fun c hc => ⟨(h.errors c hc).1, fun _ => rfl⟩) ⟨herr.1, fun _ => rfl⟩
        le := by simp only [hcl, ho.1]; simp [flag]
        eq := by intro _; simp only [hcl, ho.1]; simp [flag]
        destroyed := fun hd => ⟨(h.destroyed hd).1, rfl⟩
        closed_ok := fun hok => (hnotok hok).elim
        closed_error := by intro s hs; simp only [ho.1] at hs; cases hs }
  | closing s =>
    simp only [World.callStep]
    have hcl := closers_call (sources := w.sources) (d := .finished s) hc
    have hcl : closers w.sources (w.calls.set k (.finished s)) + 1 = closers w.sources w.calls := by
      simpa [Call.isClosing, flag] using hcl
    have hle := h.le
    have hfr := flag_le w.requested
    have hclosed : w.closed = none := by
      cases hc : w.closed with
      | none => rfl
      | some s => rw [hc] at hle; simp only [flag, Option.isSome_some, if_true] at hle hfr; omega
    have hzero : closers w.sources (w.calls.set k (.finished s)) = 0 := by omega
    have hreq : w.requested = true := by
      cases hr : w.requested with
      | true => rfl
      | false => have := (h.open_of_not_requested hr).2; omega
    rcases close_cases s hclosed with ⟨hg, hcl'⟩ | ⟨hg, hcl'⟩
    · rw [hcl']
      exact { h with
        errors := mem_set_of h.errors ⟨herr.1, fun _ => hreq⟩
        le := by simp only [hzero, hclosed, flag, Option.isSome_none, Bool.false_eq_true, if_false]; omega
        eq := by intro hg'; simp only [hg] at hg'; cases hg'
        closed_ok := fun hok => (hnotok hok).elim
        closed_error := by intro s hs; simp only [hclosed] at hs; cases hs }
    · rw [hcl']
      exact { h with
        pcs := fun i x hx => (h.pcs i x hx).mono id (fun _ => rfl)
        single_all := by intro hst; cases hst
        errors := mem_set_of h.errors ⟨herr.1, fun _ => hreq⟩
        le := by simp only [hzero, hreq]; simp [flag]
        eq := by intro _; simp only [hzero, hreq]; simp [flag]
        closed_ok := by intro hok; cases hok; exact absurd rfl herr.1
        closed_error := by
          intro s' hs' _
          cases hs'
          have hlt : k < w.calls.length := (List.getElem?_eq_some_iff.1 hc).1
          exact .inl ⟨.finished s, List.mem_iff_getElem?.2 ⟨k, by simp [hlt]⟩, rfl⟩ }

/-! ### The other steps -/

theorem Inv.change {ok : S} {w : World B S} {tagged : List (Option Nat × B)} {single : List B}
    (h : Inv ok w tagged single) (i : Nat) {f : Input B S → Input B S} (hf : Outside f) :
    Inv ok (w.change i f) tagged single := by
  unfold World.change
  cases hx : w.sources[i]? with
  | none => exact h
  | some x =>
    have hcl := closers_set (calls := w.calls) (y := { x with input := f x.input }) hx
    have hcl : closers (w.sources.set i { x with input := f x.input }) w.calls =
        closers w.sources w.calls := by
      simpa using hcl
    exact { h with
      wf := mem_set_of h.wf (hf.wf _ (h.wf x (List.mem_of_getElem? hx)))
      places := by
        intro t ht k hk
        simp only [List.length_set]
        exact h.places t ht k hk
      pcs := by
        intro k z hz
        rcases getElem?_set_cases hz with ⟨rfl, rfl⟩ | ⟨_, hz⟩
        · exact (h.pcs _ x hx).outside hf
        · exact h.pcs k z hz
      le := by simp only [hcl]; exact h.le
      eq := by simp only [hcl]; exact h.eq
      closed_ok := by
        intro hok
        obtain ⟨h1, h2, h3, h4⟩ := h.closed_ok hok
        refine ⟨h1, h2, h3, ?_⟩
        intro k z hz
        rcases getElem?_set_cases hz with ⟨rfl, rfl⟩ | ⟨_, hz⟩
        · have := h4 _ x hx
          exact ⟨hf.full this.1, by rw [hf.ending]; exact this.2.1, by rw [hf.items]; exact this.2.2⟩
        · exact h4 k z hz
      closed_error := by
        intro s hs hne
        rcases h.closed_error s hs hne with h' | ⟨k, z, hz, h1, h2, h3⟩
        · exact .inl h'
        · refine .inr ?_
          by_cases hk : k = i
          · subst hk
            rw [hx] at hz
            cases hz
            have hlt : k < w.sources.length := (List.getElem?_eq_some_iff.1 hx).1
            exact ⟨k, { x with input := f x.input }, by simp [hlt], by rw [hf.ending]; exact h1,
              hf.full h2, by rw [hf.items]; exact h3⟩
          · exact ⟨k, z, by rw [List.getElem?_set_ne (Ne.symm hk)]; exact hz, h1, h2, h3⟩ }

theorem Inv.destroy {ok : S} {w : World B S} {tagged : List (Option Nat × B)} {single : List B}
    (h : Inv ok w tagged single) : Inv ok (w.destroy ok) tagged single := by
  unfold World.destroy
  by_cases hc : (w.released && w.sources.all Source.isFinished && w.calls.all Call.isFinished &&
      !w.destroyed) = true
  · rw [if_pos hc]
    simp only [Bool.and_eq_true, List.all_eq_true] at hc
    obtain ⟨⟨⟨hrel, hsrc⟩, hcalls⟩, hd⟩ := hc
    by_cases hr : w.requested = true
    · rw [if_pos hr]
      exact { h with destroyed := fun _ => ⟨hrel, hr⟩ }
    · rw [if_neg hr]
      have hr' : w.requested = false := by simpa using hr
      have ho := h.open_of_not_requested hr'
      have hnil : w.calls = [] := by
        cases hcs : w.calls with
        | nil => rfl
        | cons c cs =>
          have hm : c ∈ w.calls := by rw [hcs]; simp
          exact absurd ((h.errors c hm).2 (hcalls c hm)) hr
      rcases close_cases ok ho.1 with ⟨hg, hcl'⟩ | ⟨hg, hcl'⟩
      · rw [hcl']
        exact { h with
          pcs := fun i x hx => (h.pcs i x hx).mono (fun _ => rfl) id
          errors := fun c hc => ⟨(h.errors c hc).1, fun _ => rfl⟩
          le := by simp only [ho]; simp [flag]
          eq := by intro hg'; simp only [hg] at hg'; cases hg'
          destroyed := fun _ => ⟨hrel, rfl⟩ }
      · rw [hcl']
        have hst : w.stopped = false := by
          unfold World.stopped
          rw [ho.1, hg]
          rfl
        exact { h with
          pcs := fun i x hx => (h.pcs i x hx).mono (fun _ => rfl) (fun _ => rfl)
          single_all := by intro hs; cases hs
          errors := fun c hc => ⟨(h.errors c hc).1, fun _ => rfl⟩
          le := by simp only [ho]; simp [flag]
          eq := by intro _; simp only [ho]; simp [flag]
          destroyed := fun _ => ⟨hrel, rfl⟩
          closed_ok := by
            intro _
            refine ⟨hrel, hnil, h.single_all hst, ?_⟩
            intro i x hx
            have hfin := hsrc x (List.mem_of_getElem? hx)
            have hat := h.pcs i x hx
            unfold Source.isFinished at hfin
            cases hpc : x.pc with
            | finished =>
              rw [hpc, hst, hr'] at hat
              rcases hat with hat | hat
              · refine ⟨hat.1, ?_, hat.2.1⟩
                by_cases he : x.input.ending = ok
                · exact he
                · exact absurd (hat.2.2 he) (by simp)
              · exact absurd hat.1 (by simp)
            | _ => rw [hpc] at hfin; cases hfin
          closed_error := by intro s hs hn; cases hs; exact absurd rfl hn }
  · rw [if_neg hc]
    exact h

theorem closers_append (sources : List (Source B S)) (calls : List (Call S)) (x : Source B S)
    (h : x.pc.isClosing = false) : closers (sources ++ [x]) calls = closers sources calls := by
  simp [closers, h]

theorem closers_append_call (sources : List (Source B S)) (calls : List (Call S)) (c : Call S)
    (h : c.isClosing = false) : closers sources (calls ++ [c]) = closers sources calls := by
  simp [closers, h]

theorem part_fresh {n : Nat} : ∀ {l : List (Option Nat × B)},
    (∀ t ∈ l, ∀ i, t.1 = some i → i < n) → part (some n) l = [] := by
  intro l h
  unfold part
  rw [List.filterMap_eq_nil_iff]
  intro t ht
  by_cases he : t.1 = some n
  · exact absurd (h t ht n he) (Nat.lt_irrefl _)
  · simp [he]

/-- The single items after a step. -/
def singleStep (w : World B S) (op : Op B S) : List B := if w.released then [] else op.item.toList

theorem Inv.step {ok : S} {w : World B S} {tagged : List (Option Nat × B)} {single : List B}
    (h : Inv ok w tagged single) (op : Op B S) :
    ∃ tagged', Inv ok (step ok w op) tagged' (single ++ singleStep w op) := by
  have hsame : op.item = none → single ++ singleStep w op = single := by
    intro hn
    unfold singleStep
    rw [hn]
    simp
  cases op with
  | add items ending =>
    rw [hsame rfl]
    simp only [StreamInterleave.step]
    split
    · exact ⟨tagged, h⟩
    · rename_i hrel
      refine ⟨tagged, ?_⟩
      have hcl := closers_append w.sources w.calls ({ input := { items, ending } } : Source B S) rfl
      have hnotok : w.closed = some ok → False := fun hok => hrel (h.closed_ok hok).1
      exact { h with
        wf := by
          intro x hx
          rcases List.mem_append.1 hx with hx | hx
          · exact h.wf x hx
          · cases List.mem_singleton.1 hx
            exact ⟨Nat.le_refl _, Nat.zero_le _, by intro he; cases he⟩
        places := by
          intro t ht k hk
          have := h.places t ht k hk
          simp only [List.length_append, List.length_singleton]
          omega
        pcs := by
          intro i x hx
          rw [List.getElem?_append] at hx
          split at hx
          · exact h.pcs i x hx
          · rename_i hlt
            have hi : i = w.sources.length := by
              have := (List.getElem?_eq_some_iff.1 hx).1
              simp only [List.length_singleton] at this
              omega
            subst hi
            rw [Nat.sub_self] at hx
            cases hx
            rw [part_fresh h.places]
            rfl
        le := by simp only [hcl]; exact h.le
        eq := by simp only [hcl]; exact h.eq
        closed_ok := fun hok => (hnotok hok).elim
        closed_error := fun s hs hn => (h.closed_error s hs hn).imp id
          fun ⟨i, x, hx, h'⟩ => ⟨i, x, by
            rw [List.getElem?_append_left (List.getElem?_eq_some_iff.1 hx).1]
            exact hx, h'⟩ }
  | addItem b =>
    simp only [StreamInterleave.step, World.addItem, singleStep, Op.item]
    by_cases hrel : w.released = true
    · rw [hrel]
      simp only [Bool.true_or, if_true, List.append_nil]
      exact ⟨tagged, h⟩
    · rw [if_neg hrel]
      by_cases hst : w.stopped = true
      · rw [if_pos (by simp [hst])]
        refine ⟨tagged, { h with
          single_prefix := h.single_prefix.trans (List.prefix_append _ _)
          single_all := by intro hs; rw [hst] at hs; cases hs
          closed_ok := fun hok => absurd (h.closed_ok hok).1 hrel }⟩
      · rw [if_neg (by simp [hrel, hst])]
        have hst' : w.stopped = false := by simpa using hst
        have hall := h.single_all hst'
        have hclosed : w.closed = none := by
          unfold World.stopped at hst'
          cases hcs : w.closed with
          | none => rfl
          | some s => rw [hcs] at hst'; simp at hst'
        have hnone : part none (tagged ++ [(none, b)]) = single ++ [b] := by
          rw [part_append, if_pos rfl, hall]
        refine ⟨tagged ++ [(none, b)], { h with
          items := by simp [h.items]
          places := by
            intro t ht k hk
            rcases List.mem_append.1 ht with ht | ht
            · exact h.places t ht k hk
            · cases List.mem_singleton.1 ht
              cases hk
          pcs := by
            intro k z hz
            rw [part_append, if_neg (by simp), List.append_nil]
            exact h.pcs k z hz
          single_prefix := by rw [hnone]; exact List.prefix_rfl
          single_all := fun _ => hnone
          closed_ok := by intro hok; simp only [hclosed] at hok; cases hok
          closed_error := by intro s hs; simp only [hclosed] at hs; cases hs }⟩
  | addError s =>
    rw [hsame rfl]
    simp only [StreamInterleave.step]
    by_cases hc : (w.released || decide (s = ok)) = true
    · rw [if_pos hc]
      exact ⟨tagged, h⟩
    · rw [if_neg hc]
      simp only [Bool.or_eq_true, decide_eq_true_eq, not_or] at hc
      have hcl := closers_append_call w.sources w.calls (.requesting s) rfl
      have hnotok : w.closed = some ok → False := fun hok => hc.1 (h.closed_ok hok).1
      refine ⟨tagged, { h with
        errors := by
          intro c hcm
          rcases List.mem_append.1 hcm with hcm | hcm
          · exact h.errors c hcm
          · cases List.mem_singleton.1 hcm
            exact ⟨hc.2, by intro hf; cases hf⟩
        le := by simp only [hcl]; exact h.le
        eq := by simp only [hcl]; exact h.eq
        closed_ok := fun hok => (hnotok hok).elim
        closed_error := fun s hs hn => (h.closed_error s hs hn).imp
          (fun ⟨c, hm, hcs⟩ => ⟨c, List.mem_append_left _ hm, hcs⟩) id }⟩
  | produce i =>
    rw [hsame rfl]
    exact ⟨tagged, h.change i outside_produce⟩
  | finish i =>
    rw [hsame rfl]
    exact ⟨tagged, h.change i outside_finish⟩
  | source i =>
    rw [hsame rfl]
    simp only [StreamInterleave.step]
    cases hx : w.sources[i]? with
    | none => exact ⟨tagged, h⟩
    | some x => exact h.sourceStep hx
  | call k =>
    rw [hsame rfl]
    simp only [StreamInterleave.step]
    cases hc : w.calls[k]? with
    | none => exact ⟨tagged, h⟩
    | some c => exact ⟨tagged, h.callStep hc⟩
  | drop =>
    rw [hsame rfl]
    have hmono : w.stopped = true → ({ w with gone := true } : World B S).stopped = true := by
      intro _
      simp [World.stopped]
    exact ⟨tagged, { h with
      pcs := fun i x hx => (h.pcs i x hx).mono id hmono
      single_all := by intro hs; simp [World.stopped, StreamInterleave.step] at hs
      eq := by intro hg; cases hg }⟩
  | release =>
    rw [hsame rfl]
    exact ⟨tagged, { h with
      destroyed := fun hd => ⟨rfl, (h.destroyed hd).2⟩
      closed_ok := fun hok => ⟨rfl, (h.closed_ok hok).2⟩ }⟩
  | destroy =>
    rw [hsame rfl]
    exact ⟨tagged, h.destroy⟩

end Verif.StreamInterleave
