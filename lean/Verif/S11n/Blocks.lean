import Verif.S11n.Encode

/-! The sizes of the parts. -/

namespace Verif.S11n

variable {P Q : Type}

theorem partCost_addId (len : P → Nat) (p : Part P) (hi lo : BitVec 64) :
    partCost len (p.addId hi lo) = partCost len p + 16 := by
  simp only [partCost, Part.addId, List.length_append, List.length_singleton]
  omega

theorem partCost_add (K : Kit P) (p : Part P) (t : Plain) (v : P) :
    partCost K.length (p.add t v) = partCost K.length p + K.size t v := by
  cases t <;> simp [partCost, Part.add, Kit.size] <;> omega

theorem partCost_empty (len : P → Nat) : partCost len (.empty : Part P) = 0 := by
  simp [partCost, Part.empty]

/-- The part being written. -/
def Enc.current (e : Enc P Q) : Part P := if e.inExtra then e.extra else e.main

/-- The parts that are complete. -/
def Enc.complete (e : Enc P Q) : List (Part P) := if e.inExtra then e.main :: e.extras else []

/-- The sizes of the parts written so far. -/
structure Sizes (K : Kit P) (limit M : Nat) (e : Enc P Q) : Prop where
  current : partCost K.length e.current = e.size
  le : e.size ≤ limit
  complete : ∀ p ∈ e.complete, limit < partCost K.length p ∧ partCost K.length p ≤ limit + M
  noExtra : e.inExtra = false → e.extras = [] ∧ e.extra = .empty

theorem cost_eq (K : Kit P) (t : Plain) (v : P) : cost K.length (.plain t v : Cell P Q) = K.size t v := by
  cases t <;> rfl

theorem addElement_size (K : Kit P) (e : Enc P Q) (c : Cell P Q) :
    (addElement K e c).size = e.size + cost K.length c ∧
    partCost K.length (addElement K e c).current = partCost K.length e.current + cost K.length c ∧
    (addElement K e c).inExtra = e.inExtra ∧ (addElement K e c).extras = e.extras ∧
    (e.inExtra = true → (addElement K e c).main = e.main) ∧
    (e.inExtra = false → (addElement K e c).extra = e.extra) := by
  cases c with
  | objectId hi lo =>
    unfold addElement Enc.modifyCurrent
    cases h : e.inExtra <;> simp [Enc.current, h, partCost_addId, cost]
  | plain t v =>
    unfold addElement Enc.modifyCurrent
    cases h : e.inExtra <;> simp [Enc.current, h, partCost_add, cost_eq]
  | _ => exact ⟨rfl, rfl, rfl, rfl, fun _ => rfl, fun _ => rfl⟩

theorem addCell_sizes (K : Kit P) (limit M : Nat) (k : Kind) {e : Enc P Q} (h : Sizes K limit M e) (i : Nat)
    (c : Cell P Q) (hc : cost K.length c ≤ M) : Sizes K limit M (addCell K limit k e i c) := by
  obtain ⟨a1, a2, a3, a4, a5, a6⟩ := addElement_size K { e with types := e.types.set i k.id } c
  have hcur : ({ e with types := e.types.set i k.id } : Enc P Q).current = e.current := rfl
  rw [hcur, h.current] at a2
  simp only at a1 a3 a4 a5 a6
  have hle := h.le
  unfold addCell
  simp only
  generalize addElement K { e with types := e.types.set i k.id } c = e1 at a1 a2 a3 a4 a5 a6 ⊢
  have hcomp : e1.complete = e.complete := by
    unfold Enc.complete
    rw [a3]
    cases hin : e.inExtra with
    | true => simp [a4, a5 hin]
    | false => simp
  by_cases hl : e1.size > limit
  · rw [if_pos hl]
    unfold finalizeBlock
    cases hin : e.inExtra with
    | true =>
      rw [a3, hin, if_pos rfl]
      have hcur1 : e1.current = e1.extra := by simp [Enc.current, a3, hin]
      refine ⟨?_, Nat.zero_le _, ?_, ?_⟩
      · simp [Enc.current, a3, hin, partCost_empty]
      · intro p hp
        simp only [Enc.complete, a3, hin, if_true] at hp
        rw [← List.cons_append, List.mem_append] at hp
        rcases hp with hp | hp
        · refine h.complete p ?_
          rw [← hcomp]
          simpa [Enc.complete, a3, hin] using hp
        · simp only [List.mem_singleton] at hp
          subst hp
          rw [← hcur1, a2]
          omega
      · intro hf
        simp [a3, hin] at hf
    | false =>
      rw [a3, hin, if_neg (by simp)]
      have hcur1 : e1.current = e1.main := by simp [Enc.current, a3, hin]
      obtain ⟨n1, n2⟩ := h.noExtra hin
      refine ⟨?_, Nat.zero_le _, ?_, ?_⟩
      · simp [Enc.current, a6 hin, n2, partCost_empty]
      · intro p hp
        simp only [Enc.complete, a4, n1, if_true, List.mem_singleton] at hp
        subst hp
        rw [← hcur1, a2]
        omega
      · intro hf
        simp at hf
  · rw [if_neg hl]
    refine ⟨by rw [a2, a1], by omega, by rw [hcomp]; exact h.complete, ?_⟩
    intro hf
    rw [a3] at hf
    rw [a4, a6 hf]
    exact h.noExtra hf

theorem visitKind_sizes (K : Kit P) (limit M : Nat) (k : Kind) (cells : List (Cell P Q)) (i : Nat)
    {e : Enc P Q} (h : Sizes K limit M e) (hc : ∀ c ∈ cells, cost K.length c ≤ M) :
    Sizes K limit M (visitKind K limit k i cells e) := by
  induction cells generalizing i e with
  | nil => exact h
  | cons c cs ih =>
    unfold visitKind
    by_cases hk : c.kind = some k
    · rw [if_pos hk]
      exact ih (i + 1) (addCell_sizes K limit M k h i c (hc c (by simp))) fun x hx => hc x (by simp [hx])
    · rw [if_neg hk]
      exact ih (i + 1) h fun x hx => hc x (by simp [hx])

theorem visitValues_sizes (K : Kit P) (limit M : Nat) (cells : List (Cell P Q)) (order : List Kind)
    {e : Enc P Q} (h : Sizes K limit M e) (hc : ∀ c ∈ cells, cost K.length c ≤ M) :
    Sizes K limit M (visitValues K limit cells order e) := by
  induction order generalizing e with
  | nil => exact h
  | cons k ks ih => exact ih (visitKind_sizes K limit M k cells 0 h hc)

theorem encode_sizes (K : Kit P) (limit M : Nat) (order : List Kind) (cells : List (Cell P Q))
    (hc : ∀ c ∈ cells, cost K.length c ≤ M) :
    ∃ (extras : List (Part P)) (exprs : List Q), (encode K limit order cells).2 = exprs.map .exprQuote ++ extras.map .bytes ∧
      (encode K limit order cells).1.extraPartCount = extras.length ∧
      (∀ p ∈ (encode K limit order cells).1.part :: extras, partCost K.length p ≤ limit + M) ∧
      (∀ p ∈ ((encode K limit order cells).1.part :: extras).dropLast, limit < partCost K.length p) ∧
      ∀ p ∈ extras, 0 < partCost K.length p := by
  have h0 : Sizes K limit M (⟨initialTypes cells, .empty, .empty, false, [], [], 0, 0, 0⟩ : Enc P Q) :=
    ⟨partCost_empty _, Nat.zero_le _, by simp [Enc.complete], fun _ => ⟨rfl, rfl⟩⟩
  have h := visitValues_sizes K limit M cells order h0 hc
  unfold encode
  simp only
  generalize visitValues K limit cells order ⟨initialTypes cells, .empty, .empty, false, [], [], 0, 0, 0⟩ = e
    at h ⊢
  refine ⟨_, _, rfl, rfl, ?_⟩
  have hle := h.le
  have hcur := h.current
  cases hin : e.inExtra with
  | false =>
    obtain ⟨n1, n2⟩ := h.noExtra hin
    simp only [Bool.false_and, Bool.false_eq_true, if_false, n1]
    simp only [Enc.current, hin, Bool.false_eq_true, if_false] at hcur
    refine ⟨?_, by simp, by simp⟩
    intro p hp
    simp only [List.mem_singleton] at hp
    subst hp
    omega
  | true =>
    have hcomp := h.complete
    simp only [Enc.complete, hin, if_true] at hcomp
    simp only [Enc.current, hin, if_true] at hcur
    by_cases hs : e.size > 0
    · simp only [Bool.true_and, hs, decide_true, if_true, finalizeBlock, hin]
      refine ⟨?_, ?_, ?_⟩
      · intro p hp
        rw [← List.cons_append, List.mem_append] at hp
        rcases hp with hp | hp
        · exact (hcomp p hp).2
        · simp only [List.mem_singleton] at hp
          subst hp
          omega
      · intro p hp
        rw [← List.cons_append, List.dropLast_concat] at hp
        exact (hcomp p hp).1
      · intro p hp
        rcases List.mem_append.1 hp with hp | hp
        · have := (hcomp p (by simp [hp])).1
          omega
        · simp only [List.mem_singleton] at hp
          subst hp
          omega
    · simp only [Bool.true_and, hs, decide_false, Bool.false_eq_true, if_false]
      refine ⟨fun p hp => (hcomp p hp).2, fun p hp => (hcomp p (List.dropLast_subset _ hp)).1, fun p hp => ?_⟩
      have := (hcomp p (by simp [hp])).1
      omega

end Verif.S11n
