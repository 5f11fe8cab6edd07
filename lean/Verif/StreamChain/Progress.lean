import Verif.StreamChain.Lemmas

/-!
A stream chain cannot go on for ever by itself.
-/

namespace Verif.StreamChain

set_option linter.unusedSectionVars false

variable {B S : Type} [DecidableEq S]

/-- The number of items that can still be read. -/
def unread (inputs : List (Input B S)) : Nat := (inputs.map fun x => x.ready - x.read).sum

/-- A bound on the steps of the thread until it reads something. -/
def rank (available : Bool) : Pc B S → Nat
  | .begin => 3
  | .reading _ => 2
  | .subscribing _ => if available then 4 else 1
  | .waiting _ => if available then 4 else 0
  | .writing _ _ => 3
  | .closing _ => 1
  | .erroring => 0
  | .popping => 1

/-- The rank of all threads. -/
def threadRank (inputs : List (Input B S)) (queue : List Nat) : List (Pc B S) → Nat
  | [] => 0
  | pc :: _ => rank (((queue.head?.bind fun a => inputs[a]?).map Input.available).getD false) pc

def weight (inputs : List (Input B S)) (queue : List Nat) (threads : List (Pc B S))
    (destroyed : Bool) : Nat :=
  8 * unread inputs + 8 * queue.length + threadRank inputs queue threads + if destroyed then 0 else 1

def World.weight (w : World B S) : Nat := StreamChain.weight w.inputs w.queue w.threads w.destroyed

theorem unread_append (a b : List (Input B S)) : unread (a ++ b) = unread a + unread b := by
  simp [unread]

theorem unread_cons (x : Input B S) (b : List (Input B S)) :
    unread (x :: b) = x.ready - x.read + unread b := by
  simp [unread]

theorem threadRank_mid (pre post : List (Input B S)) (x : Input B S) (queue : List Nat) (pc : Pc B S) :
    threadRank (pre ++ x :: post) (pre.length :: queue) [pc] = rank x.available pc := by
  simp [threadRank]

theorem rank_le (a : Bool) (pc : Pc B S) : rank a pc ≤ 4 := by
  cases pc <;> cases a <;> simp [rank]

theorem thread_weight {ok : S} {w : World B S} (h : Inv ok w) (j : Nat)
    (hne : w.thread ok j ≠ w) : (w.thread ok j).weight < w.weight := by
  cases h.state with
  | idle hthreads => exact absurd (by unfold World.thread; rw [hthreads]; rfl) hne
  | failed pre post x hthreads => exact absurd (by unfold World.thread; rw [hthreads]; rfl) hne
  | busy pre post x pc hthreads hqueue herr hinputs hdone hpost hdestroyed hphase =>
    have hxw : x.Wf := h.wf x (by rw [hinputs]; simp)
    rw [range'_head] at hqueue
    cases j with
    | succ j => exact absurd (by unfold World.thread; rw [hthreads]; rfl) hne
    | zero =>
    unfold World.thread at hne ⊢
    cases pc with
    | begin =>
      simp only [hthreads, hqueue, herr, List.getElem?_cons_zero, Bool.false_eq_true, if_false, World.goto,
        List.set_cons_zero]
      unfold World.weight weight
      simp only [hqueue, hthreads, hinputs, threadRank_mid, rank]
      omega
    | reading a =>
      obtain ⟨rfl, hitems, hclosed⟩ := hphase
      simp only [hthreads, List.getElem?_cons_zero, World.read, hinputs, getElem?_mid]
      by_cases hlt : x.read < x.ready
      · have hlt' : x.read < x.items.length := by have := hxw.ready; omega
        rw [if_pos hlt, List.getElem?_eq_getElem hlt']
        simp only [World.goto, set_mid, List.set_cons_zero]
        unfold World.weight weight
        simp only [hqueue, hthreads, hinputs, threadRank_mid, rank, unread_append, unread_cons]
        omega
      · rw [if_neg hlt]
        by_cases he : x.ended = true
        · rw [if_pos he]
          by_cases hok : x.ending = ok
          · rw [if_pos hok]
            unfold World.weight weight World.goto
            simp only [hqueue, hthreads, hinputs, threadRank_mid, rank, List.set_cons_zero]
            omega
          · rw [if_neg hok]
            unfold World.weight weight World.goto
            simp only [hqueue, hthreads, hinputs, threadRank_mid, rank, List.set_cons_zero]
            omega
        · rw [if_neg he]
          have ha : x.available = false := by
            unfold Input.available
            simp [hlt, he]
          unfold World.weight weight World.goto
          simp only [hqueue, hthreads, hinputs, threadRank_mid, rank, List.set_cons_zero, ha,
            Bool.false_eq_true, if_false]
          omega
    | writing a b =>
      obtain ⟨rfl, hpos, hb, hitems, hclosed⟩ := hphase
      simp only [hthreads, List.getElem?_cons_zero, hclosed, Option.isSome_none, Bool.false_eq_true, if_false,
        World.goto, List.set_cons_zero]
      unfold World.weight weight
      simp only [hqueue, hthreads, hinputs, threadRank_mid, rank]
      omega
    | closing s =>
      obtain ⟨hfull, rfl, hok, hitems, hclosed⟩ := hphase
      simp only [hthreads, List.getElem?_cons_zero, hclosed, Option.isSome_none, Bool.false_eq_true, if_false,
        World.goto, List.set_cons_zero]
      unfold World.weight weight
      simp only [hqueue, hthreads, hinputs, threadRank_mid, rank]
      omega
    | erroring =>
      simp only [hthreads, List.getElem?_cons_zero, World.endThread]
      unfold World.weight weight
      simp only [hqueue, hthreads, List.eraseIdx_cons_zero, threadRank, List.length_cons, List.length_nil]
      omega
    | popping =>
      cases post with
      | nil =>
        rw [List.length_nil, List.range'_zero] at hqueue
        simp only [hthreads, List.getElem?_cons_zero, hqueue, World.endThread]
        unfold World.weight weight
        simp only [hqueue, hthreads, List.eraseIdx_cons_zero, threadRank, List.length_cons, List.length_nil]
        omega
      | cons y post =>
        rw [List.length_cons, range'_head] at hqueue
        simp only [hthreads, List.getElem?_cons_zero, hqueue, World.goto, List.set_cons_zero]
        unfold World.weight weight
        simp only [hqueue, hthreads, threadRank, List.length_cons, rank]
        omega
    | subscribing a =>
      obtain ⟨rfl, hitems, hclosed⟩ := hphase
      simp only [hthreads, List.getElem?_cons_zero, World.subscribe, hinputs, getElem?_mid]
      by_cases ha : x.available = true
      · rw [if_pos ha]
        unfold World.weight weight World.goto
        simp only [hqueue, hthreads, hinputs, threadRank_mid, rank, List.set_cons_zero, ha, if_true]
        omega
      · rw [if_neg ha]
        unfold World.weight weight World.goto
        simp only [hqueue, hthreads, hinputs, threadRank_mid, rank, List.set_cons_zero, if_neg ha]
        omega
    | waiting a =>
      obtain ⟨rfl, hitems, hclosed⟩ := hphase
      simp only [hthreads, List.getElem?_cons_zero, World.wake, hinputs, getElem?_mid] at hne ⊢
      by_cases ha : x.available = true
      · rw [if_pos ha]
        unfold World.weight weight World.goto
        simp only [hqueue, hthreads, hinputs, threadRank_mid, rank, List.set_cons_zero, ha, if_true]
        omega
      · rw [if_neg ha] at hne
        exact absurd rfl hne

theorem destroy_weight {ok : S} {w : World B S} (h : Inv ok w)
    (hne : w.destroy ok ≠ w) : (w.destroy ok).weight < w.weight := by
  unfold World.destroy at hne ⊢
  by_cases hc : w.released = true ∧ w.threads.length = 0 ∧ w.destroyed = false
  · rw [if_pos hc]
    cases h.state with
    | idle hthreads hqueue herr hdone hitems hclosed =>
      rw [hc.2.2] at hclosed
      simp only [hqueue, herr, hclosed, ne_eq, not_true_eq_false, if_false, Bool.false_eq_true,
        Option.isSome_none]
      unfold World.weight weight
      simp only [hqueue, hthreads, hc.2.2, Bool.false_eq_true, if_false, if_true, threadRank]
      omega
    | failed pre post x hthreads hqueue herr hinputs hdone hfull hend hitems hclosed =>
      simp only [hqueue, herr, ne_eq, not_true_eq_false, if_false, if_true]
      unfold World.weight weight
      simp only [hqueue, hthreads, hc.2.2, Bool.false_eq_true, if_false, if_true, threadRank]
      omega
    | busy pre post x pc hthreads =>
      rw [hthreads] at hc
      exact absurd hc.2.1 (by simp)
  · rw [if_neg hc] at hne
    exact absurd rfl hne

theorem busy_weight {ok : S} {w : World B S} {ops : List (Op B S)} (hb : Busy ok w ops) :
    Inv ok w → ops.length ≤ w.weight := by
  induction hb with
  | nil w => intro _; exact Nat.zero_le _
  | @cons w op ops hi hne _ ih =>
    intro h
    have h' := h.step op
    have hlt : (step ok w op).weight < w.weight := by
      cases op with
      | thread j => exact thread_weight h j hne
      | destroy => exact destroy_weight h hne
      | _ => exact absurd hi id
    have := ih h'
    simp only [List.length_cons]
    omega

theorem weight_le {ok : S} {w : World B S} (h : Inv ok w) :
    w.weight ≤ 8 * (w.inputs.map fun x => x.ready).sum + 8 * w.inputs.length + 5 := by
  have hu : ∀ l : List (Input B S), unread l ≤ (l.map fun x => x.ready).sum := by
    intro l
    induction l with
    | nil => simp [unread]
    | cons x l ih =>
      rw [unread_cons, List.map_cons, List.sum_cons]
      omega
  have := hu w.inputs
  unfold World.weight weight
  cases h.state with
  | idle hthreads hqueue =>
    simp only [hthreads, hqueue, threadRank, List.length_nil]
    split <;> omega
  | failed pre post x hthreads hqueue =>
    simp only [hthreads, hqueue, threadRank, List.length_nil]
    split <;> omega
  | busy pre post x pc hthreads hqueue herr hinputs =>
    have hr : threadRank w.inputs w.queue w.threads ≤ 4 := by
      rw [hthreads, threadRank]
      exact rank_le _ _
    have hq : w.queue.length ≤ w.inputs.length := by
      rw [hqueue, hinputs]
      simp
    split <;> omega

end Verif.StreamChain
