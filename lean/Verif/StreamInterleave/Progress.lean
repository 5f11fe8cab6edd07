import Verif.StreamInterleave.Lemmas

/-!
An interleave cannot go on for ever by itself.
-/

namespace Verif.StreamInterleave

open Verif.StreamChain (Input)

set_option linter.unusedSectionVars false

variable {B S : Type} [DecidableEq S]

/-- A bound on the steps of `ProcessInput` until it reads something. -/
def rank (available : Bool) : Pc B S → Nat
  | .reading => 5
  | .writing _ => 6
  | .requesting _ => 2
  | .closing _ => 1
  | .subscribing => if available then 6 else 1
  | .waiting => if available then 6 else 0
  | .finished => 0

def Source.weight (x : Source B S) : Nat :=
  8 * (x.input.ready - x.input.read) + rank x.input.available x.pc

def Call.weight : Call S → Nat
  | .requesting _ => 2
  | .closing _ => 1
  | .finished _ => 0

def weight (sources : List (Source B S)) (calls : List (Call S)) (destroyed : Bool) : Nat :=
  (sources.map Source.weight).sum + (calls.map Call.weight).sum + flag (!destroyed)

def World.weight (w : World B S) : Nat := StreamInterleave.weight w.sources w.calls w.destroyed

theorem close_sources (w : World B S) (s : S) : (w.close s).sources = w.sources := by
  unfold World.close
  repeat' split
  all_goals rfl

theorem close_calls (w : World B S) (s : S) : (w.close s).calls = w.calls := by
  unfold World.close
  repeat' split
  all_goals rfl

theorem close_destroyed (w : World B S) (s : S) : (w.close s).destroyed = w.destroyed := by
  unfold World.close
  repeat' split
  all_goals rfl

theorem close_released (w : World B S) (s : S) : (w.close s).released = w.released := by
  unfold World.close
  repeat' split
  all_goals rfl

/-- A step of an input that makes it lighter. -/
theorem weight_set {w w' : World B S} {i : Nat} {x y : Source B S} (hx : w.sources[i]? = some x)
    (hs : w'.sources = w.sources.set i y) (hc : w'.calls = w.calls) (hd : w'.destroyed = w.destroyed)
    (hlt : y.weight < x.weight) : w'.weight < w.weight := by
  unfold World.weight StreamInterleave.weight
  rw [hs, hc, hd]
  have := sum_set Source.weight w.sources i x y hx
  omega

theorem source_weight {ok : S} {w : World B S} {tagged : List (Option Nat × B)} {single : List B}
    (h : Inv ok w tagged single) {i : Nat} {x : Source B S} (hx : w.sources[i]? = some x)
    (hne : w.sourceStep ok i x ≠ w) : (w.sourceStep ok i x).weight < w.weight := by
  have hwf := h.wf x (List.mem_of_getElem? hx)
  obtain ⟨input, pc⟩ := x
  cases pc with
  | reading =>
    simp only [World.sourceStep, World.read]
    by_cases hlt : input.read < input.ready
    · have hlt' : input.read < input.items.length := by have := hwf.ready; simp only at this; omega
      rw [if_pos hlt, List.getElem?_eq_getElem hlt']
      refine weight_set hx rfl rfl rfl ?_
      simp only [Source.weight, rank]
      omega
    · rw [if_neg hlt]
      by_cases he : input.ended = true
      · rw [if_pos he]
        by_cases hok : input.ending = ok
        · rw [if_pos hok]
          refine weight_set hx rfl rfl rfl ?_
          simp only [Source.weight, rank]
          omega
        · rw [if_neg hok]
          refine weight_set hx rfl rfl rfl ?_
          simp only [Source.weight, rank]
          omega
      · rw [if_neg he]
        refine weight_set hx rfl rfl rfl ?_
        have ha : input.available = false := by
          unfold Input.available
          simp [hlt, he]
        simp only [Source.weight, rank, ha, Bool.false_eq_true, if_false]
        omega
  | writing b =>
    simp only [World.sourceStep]
    split
    · refine weight_set hx rfl rfl rfl ?_
      simp only [Source.weight, rank]
      omega
    · refine weight_set hx rfl rfl rfl ?_
      simp only [Source.weight, rank]
      omega
  | requesting s =>
    simp only [World.sourceStep]
    split
    · refine weight_set hx rfl rfl rfl ?_
      simp only [Source.weight, rank]
      omega
    · refine weight_set hx rfl rfl rfl ?_
      simp only [Source.weight, rank]
      omega
  | closing s =>
    simp only [World.sourceStep]
    refine weight_set (w' := (w.close s).goto i _ .finished) hx
      (by unfold World.goto; rw [close_sources]) (by unfold World.goto; exact close_calls w s)
      (by unfold World.goto; exact close_destroyed w s) ?_
    simp only [Source.weight, rank]
    omega
  | subscribing =>
    simp only [World.sourceStep]
    by_cases ha : input.available = true
    · rw [if_pos ha]
      refine weight_set hx rfl rfl rfl ?_
      simp only [Source.weight, rank, ha, if_true]
      omega
    · rw [if_neg ha]
      refine weight_set hx rfl rfl rfl ?_
      simp only [Source.weight, rank, if_neg ha]
      omega
  | waiting =>
    simp only [World.sourceStep] at hne ⊢
    by_cases ha : input.available = true
    · rw [if_pos ha]
      refine weight_set hx rfl rfl rfl ?_
      simp only [Source.weight, rank, ha, if_true]
      omega
    · rw [if_neg ha] at hne
      exact absurd rfl hne
  | finished => exact absurd rfl hne

theorem weight_call {w w' : World B S} {k : Nat} {c d : Call S} (hc : w.calls[k]? = some c)
    (hs : w'.sources = w.sources) (hcs : w'.calls = w.calls.set k d) (hd : w'.destroyed = w.destroyed)
    (hlt : d.weight < c.weight) : w'.weight < w.weight := by
  unfold World.weight StreamInterleave.weight
  rw [hs, hcs, hd]
  have := sum_set Call.weight w.calls k c d hc
  omega

theorem call_weight {w : World B S} {k : Nat} {c : Call S} (hc : w.calls[k]? = some c)
    (hne : w.callStep k c ≠ w) : (w.callStep k c).weight < w.weight := by
  cases c with
  | finished s => exact absurd rfl hne
  | requesting s =>
    simp only [World.callStep]
    split
    · exact weight_call hc rfl rfl rfl (by simp [Call.weight])
    · exact weight_call hc rfl rfl rfl (by simp [Call.weight])
  | closing s =>
    exact weight_call (d := .finished s) hc (close_sources w s) rfl (close_destroyed w s)
      (by simp [Call.weight])

theorem destroy_weight {ok : S} {w : World B S} (hne : w.destroy ok ≠ w) :
    (w.destroy ok).weight < w.weight := by
  unfold World.destroy at hne ⊢
  by_cases hc : (w.released && w.sources.all Source.isFinished && w.calls.all Call.isFinished &&
      !w.destroyed) = true
  · rw [if_pos hc]
    simp only [Bool.and_eq_true] at hc
    split
    · unfold World.weight StreamInterleave.weight
      simp only [hc.2, flag]
      simp
    · unfold World.weight StreamInterleave.weight
      simp only [close_sources, close_calls, hc.2, flag]
      simp
  · rw [if_neg hc] at hne
    exact absurd rfl hne

theorem busy_weight {ok : S} {w : World B S} {ops : List (Op B S)} (hb : Busy ok w ops) :
    ∀ tagged single, Inv ok w tagged single → ops.length ≤ w.weight := by
  induction hb with
  | nil w => intro _ _ _; exact Nat.zero_le _
  | @cons w op ops hi hne _ ih =>
    intro tagged single h
    obtain ⟨tagged', h'⟩ := h.step op
    have hlt : (step ok w op).weight < w.weight := by
      cases op with
      | source i =>
        simp only [step] at hne ⊢
        cases hx : w.sources[i]? with
        | none => rw [hx] at hne; exact absurd rfl hne
        | some x => rw [hx] at hne; exact source_weight h hx hne
      | call k =>
        simp only [step] at hne ⊢
        cases hc : w.calls[k]? with
        | none => rw [hc] at hne; exact absurd rfl hne
        | some c => rw [hc] at hne; exact call_weight hc hne
      | destroy => exact destroy_weight hne
      | _ => exact absurd hi id
    have := ih _ _ h'
    simp only [List.length_cons]
    omega

theorem weight_le (w : World B S) :
    w.weight ≤ 8 * (w.sources.map fun x => x.input.ready).sum + 6 * w.sources.length +
      2 * w.calls.length + 1 := by
  have h1 : ∀ l : List (Source B S), (l.map Source.weight).sum ≤
      8 * (l.map fun x => x.input.ready).sum + 6 * l.length := by
    intro l
    induction l with
    | nil => simp
    | cons x l ih =>
      simp only [List.map_cons, List.sum_cons, List.length_cons]
      have hr : rank x.input.available x.pc ≤ 6 := by
        cases x.pc <;> cases x.input.available <;> simp [rank]
      have : x.weight ≤ 8 * x.input.ready + 6 := by
        unfold Source.weight
        omega
      omega
  have h2 : ∀ l : List (Call S), (l.map Call.weight).sum ≤ 2 * l.length := by
    intro l
    induction l with
    | nil => simp
    | cons c l ih =>
      simp only [List.map_cons, List.sum_cons, List.length_cons]
      have : c.weight ≤ 2 := by cases c <;> simp [Call.weight]
      omega
  have h3 := flag_le (!w.destroyed)
  have h1 := h1 w.sources
  have h2 := h2 w.calls
  unfold World.weight StreamInterleave.weight
  omega

end Verif.StreamInterleave
