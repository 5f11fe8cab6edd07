import Verif.Compare.Order
import Verif.Compare.Read

/-! The comparison: what is found at one place, and the invariant of the loop. -/

namespace Verif.Compare

open Verif.ObjectId
open Verif.Uuid
open Verif.Traverse (Bag Name Pair Transitions getTransitions)

/-- A comparator does what the rules say. -/
structure Follows (c : Comparator) (ρ : Rules) : Prop where
  equal : ∀ l r, c.equal l r = true ↔ ρ.alike l r
  deep : ∀ l r, c.deep l r = true ↔ ρ.deep l r
  left : ∀ k p, c.lhsOnly k p = true ↔ ρ.left (labelOf k) p
  right : ∀ k q, c.rhsOnly k q = true ↔ ρ.right (labelOf k) q
  both : ∀ k p q, c.mismatch k p q = true ↔ ρ.both (labelOf k) p q
  missing : ∀ l r, ρ.alike l r → l.1 = .missing → r.1 = .missing

section
variable {c : Comparator} {ρ : Rules} (F : Follows c ρ) {bl br : Bag}
include F

theorem addToCompare_ok {st : State} {l r : Pair} (h : ρ.alike l r) :
    ∃ st', addToCompare c st l r = .ok st' ∧ st'.diffs = st.diffs ∧ st'.edges = st.edges ∧
      (∀ x, x ∈ st'.tokens ↔ x ∈ st.tokens ∨ x = (l, r)) ∧
      (∀ x, x ∈ st'.stack ↔ x ∈ st.stack ∨ (x ∉ st.tokens ∧ x = (l, r) ∧ ρ.deep x.1 x.2)) := by
  unfold addToCompare
  by_cases h1 : (l, r) ∈ st.tokens
  · rw [if_pos h1]
    refine ⟨st, rfl, rfl, rfl, ?_, ?_⟩
    · intro x
      refine ⟨.inl, ?_⟩
      rintro (h | rfl)
      · exact h
      · exact h1
    · intro x
      refine ⟨.inl, ?_⟩
      rintro (h | ⟨h2, rfl, _⟩)
      · exact h
      · exact absurd h1 h2
  · rw [if_neg h1, if_neg (by rintro ⟨h2, h3⟩; exact h3 (F.missing _ _ h h2))]
    refine ⟨_, rfl, rfl, rfl, ?_, ?_⟩
    · intro x; simp only [List.mem_cons]; exact or_comm
    · intro x
      simp only
      by_cases hd : c.deep l r = true
      · rw [if_pos hd]
        simp only [List.mem_cons]
        constructor
        · rintro (rfl | h2)
          · exact .inr ⟨h1, rfl, (F.deep _ _).mp hd⟩
          · exact .inl h2
        · rintro (h2 | ⟨_, rfl, _⟩)
          · exact .inr h2
          · exact .inl rfl
      · rw [if_neg hd]
        refine ⟨.inl, ?_⟩
        rintro (h2 | ⟨_, rfl, h3⟩)
        · exact h2
        · exact absurd ((F.deep _ _).mpr h3) hd

variable (ρ bl br) in
/-- The tokens that are made by steps. -/
def NewToken (l r : Pair) (tl tr : Transitions) (ss : List Step) (x : Pair × Pair) : Prop :=
  ∃ k k', .both k k' ∈ ss ∧ transitionByKey bl l.1 l.2 tl k = .ok x.1 ∧
    transitionByKey br r.1 r.2 tr k' = .ok x.2 ∧ ρ.alike x.1 x.2

variable (ρ bl br) in
/-- The transitions that are saved by steps. -/
def NewEdge (place : Pair × Pair) (l r : Pair) (tl tr : Transitions) (ss : List Step)
    (x : (Pair × Pair) × TKey × (Pair × Pair)) : Prop :=
  x.1 = place ∧ ∃ k', .both x.2.1 k' ∈ ss ∧ transitionByKey bl l.1 l.2 tl x.2.1 = .ok x.2.2.1 ∧
    transitionByKey br r.1 r.2 tr k' = .ok x.2.2.2 ∧ ρ.alike x.2.2.1 x.2.2.2

variable (ρ bl br) in
/-- The differences that are recorded by steps. -/
def NewDiff (place : Pair × Pair) (l r : Pair) (tl tr : Transitions) (ss : List Step) (d : Diff) : Prop :=
  (∃ k p, .left k ∈ ss ∧ transitionByKey bl l.1 l.2 tl k = .ok p ∧ ρ.left (labelOf k) p ∧
    d = .lhsOnly place k p) ∨
  (∃ k q, .right k ∈ ss ∧ transitionByKey br r.1 r.2 tr k = .ok q ∧ ρ.right (labelOf k) q ∧
    d = .rhsOnly place k q) ∨
  (∃ k k' p q, .both k k' ∈ ss ∧ transitionByKey bl l.1 l.2 tl k = .ok p ∧
    transitionByKey br r.1 r.2 tr k' = .ok q ∧ ¬ ρ.alike p q ∧ ρ.both (labelOf k) p q ∧
    d = .mismatch place k p q)

variable (bl br) in
/-- A step can be read. -/
def StepReads (l r : Pair) (tl tr : Transitions) : Step → Prop
  | .left k => ∃ p, transitionByKey bl l.1 l.2 tl k = .ok p
  | .right k => ∃ q, transitionByKey br r.1 r.2 tr k = .ok q
  | .both k k' => (∃ p, transitionByKey bl l.1 l.2 tl k = .ok p) ∧
      ∃ q, transitionByKey br r.1 r.2 tr k' = .ok q

/-- The effect of one step. -/
theorem doStep_ok {place : Pair × Pair} {l r : Pair} {tl tr : Transitions} {st : State} {s : Step}
    (h : StepReads bl br l r tl tr s) :
    ∃ st', doStep c bl br place l r tl tr st s = .ok st' ∧
      (∀ x, x ∈ st'.tokens ↔ x ∈ st.tokens ∨ NewToken ρ bl br l r tl tr [s] x) ∧
      (∀ x, x ∈ st'.edges ↔ x ∈ st.edges ∨ NewEdge ρ bl br place l r tl tr [s] x) ∧
      (∀ d, d ∈ st'.diffs ↔ d ∈ st.diffs ∨ NewDiff ρ bl br place l r tl tr [s] d) ∧
      (∀ x, x ∈ st'.stack ↔ x ∈ st.stack ∨
        (x ∉ st.tokens ∧ NewToken ρ bl br l r tl tr [s] x ∧ ρ.deep x.1 x.2)) := by
  cases s with
  | left k =>
    obtain ⟨p, hp⟩ := h
    simp only [doStep, hp]
    refine ⟨_, rfl, ?_, ?_, ?_, ?_⟩
    · intro x; split <;> simp [NewToken]
    · intro x; split <;> simp [NewEdge]
    · intro d
      by_cases hm : c.lhsOnly k p = true
      · rw [if_pos hm]
        have := (F.left _ _).mp hm
        simp only [List.mem_cons, NewDiff, List.not_mem_nil, or_false, Step.left.injEq]
        constructor
        · rintro (rfl | h)
          · exact .inr (.inl ⟨k, p, rfl, hp, this, rfl⟩)
          · exact .inl h
        · rintro (h | ⟨k', p', rfl, h1, _, rfl⟩ | ⟨_, _, h, _⟩ | ⟨_, _, _, _, h, _⟩)
          · exact .inr h
          · rw [hp] at h1; cases h1; exact .inl rfl
          · cases h
          · cases h
      · rw [if_neg hm]
        have := fun h => hm ((F.left k p).mpr h)
        simp only [List.mem_cons, NewDiff, List.not_mem_nil, or_false, Step.left.injEq]
        refine ⟨.inl, ?_⟩
        rintro (h | ⟨k', p', rfl, h1, h2, rfl⟩ | ⟨_, _, h, _⟩ | ⟨_, _, _, _, h, _⟩)
        · exact h
        · rw [hp] at h1; cases h1; exact absurd h2 this
        · cases h
        · cases h
    · intro x; split <;> simp [NewToken]
  | right k =>
    obtain ⟨p, hp⟩ := h
    simp only [doStep, hp]
    refine ⟨_, rfl, ?_, ?_, ?_, ?_⟩
    · intro x; split <;> simp [NewToken]
    · intro x; split <;> simp [NewEdge]
    · intro d
      by_cases hm : c.rhsOnly k p = true
      · rw [if_pos hm]
        have := (F.right _ _).mp hm
        simp only [List.mem_cons, NewDiff, List.not_mem_nil, or_false, Step.right.injEq]
        constructor
        · rintro (rfl | h)
          · exact .inr (.inr (.inl ⟨k, p, rfl, hp, this, rfl⟩))
          · exact .inl h
        · rintro (h | ⟨_, _, h, _⟩ | ⟨k', p', rfl, h1, _, rfl⟩ | ⟨_, _, _, _, h, _⟩)
          · exact .inr h
          · cases h
          · rw [hp] at h1; cases h1; exact .inl rfl
          · cases h
      · rw [if_neg hm]
        have := fun h => hm ((F.right k p).mpr h)
        simp only [List.mem_cons, NewDiff, List.not_mem_nil, or_false, Step.right.injEq]
        refine ⟨.inl, ?_⟩
        rintro (h | ⟨_, _, h, _⟩ | ⟨k', p', rfl, h1, h2, rfl⟩ | ⟨_, _, _, _, h, _⟩)
        · exact h
        · cases h
        · rw [hp] at h1; cases h1; exact absurd h2 this
        · cases h
    · intro x; split <;> simp [NewToken]
  | both k k' =>
    obtain ⟨⟨p, hp⟩, q, hq⟩ := h
    simp only [doStep, hp, hq]
    have htok : ∀ x, NewToken ρ bl br l r tl tr [.both k k'] x ↔ x = (p, q) ∧ ρ.alike p q := by
      intro x
      simp only [NewToken, List.mem_cons, List.not_mem_nil, or_false, Step.both.injEq]
      constructor
      · rintro ⟨_, _, ⟨rfl, rfl⟩, h1, h2, h3⟩
        rw [hp] at h1; rw [hq] at h2
        cases x; cases h1; cases h2
        exact ⟨rfl, h3⟩
      · rintro ⟨rfl, h⟩
        exact ⟨k, k', ⟨rfl, rfl⟩, hp, hq, h⟩
    have hedge : ∀ x, NewEdge ρ bl br place l r tl tr [.both k k'] x ↔
        x = (place, k, (p, q)) ∧ ρ.alike p q := by
      intro x
      simp only [NewEdge, List.mem_cons, List.not_mem_nil, or_false, Step.both.injEq]
      constructor
      · rintro ⟨h0, _, ⟨h4, rfl⟩, h1, h2, h3⟩
        obtain ⟨x1, x2, x3, x4⟩ := x
        simp only at h0 h4 h1 h2 h3
        subst h0 h4
        rw [hp] at h1; rw [hq] at h2
        cases h1; cases h2
        exact ⟨rfl, h3⟩
      · rintro ⟨rfl, h⟩
        exact ⟨rfl, k', ⟨rfl, rfl⟩, hp, hq, h⟩
    have hdiff : ∀ d, NewDiff ρ bl br place l r tl tr [.both k k'] d ↔
        d = .mismatch place k p q ∧ ¬ ρ.alike p q ∧ ρ.both (labelOf k) p q := by
      intro d
      simp only [NewDiff, List.mem_cons, List.not_mem_nil, or_false, Step.both.injEq]
      constructor
      · rintro (⟨_, _, h, _⟩ | ⟨_, _, h, _⟩ | ⟨_, _, _, _, ⟨rfl, rfl⟩, h1, h2, h3, h4, rfl⟩)
        · cases h
        · cases h
        · rw [hp] at h1; rw [hq] at h2
          cases h1; cases h2
          exact ⟨rfl, h3, h4⟩
      · rintro ⟨rfl, h1, h2⟩
        exact .inr (.inr ⟨k, k', p, q, ⟨rfl, rfl⟩, hp, hq, h1, h2, rfl⟩)
    by_cases he : c.equal p q = true
    · have ha := (F.equal _ _).mp he
      obtain ⟨st', h1, h2, h3, h4, h5⟩ := addToCompare_ok F (st := st) ha
      rw [if_pos he, h1]
      refine ⟨_, rfl, ?_, ?_, ?_, ?_⟩
      · intro x; rw [htok]; simp only [h4, ha, and_true]
      · intro x; rw [hedge]; simp only [List.mem_cons, h3, ha, and_true]; exact or_comm
      · intro d; rw [hdiff]; simp only [h2, ha, not_true_eq_false, false_and, and_false, or_false]
      · intro x; rw [htok]; simp only [h5, ha, and_true]
    · have ha : ¬ ρ.alike p q := fun h => he ((F.equal _ _).mpr h)
      rw [if_neg he]
      refine ⟨_, rfl, ?_, ?_, ?_, ?_⟩
      · intro x; rw [htok]; split <;> simp [ha]
      · intro x; rw [hedge]; split <;> simp [ha]
      · intro d
        rw [hdiff]
        by_cases hm : c.mismatch k p q = true
        · rw [if_pos hm]
          simp only [List.mem_cons, ha, (F.both _ _ _).mp hm, not_false_eq_true, and_true]
          exact or_comm
        · rw [if_neg hm]
          have : ¬ ρ.both (labelOf k) p q := fun h => hm ((F.both k p q).mpr h)
          simp only [this, and_false, or_false]
      · intro x; rw [htok]; split <;> simp [ha]

theorem doSteps_ok {place : Pair × Pair} {l r : Pair} {tl tr : Transitions} :
    ∀ (ss : List Step) (st : State), (∀ s ∈ ss, StepReads bl br l r tl tr s) →
    ∃ st', doSteps c bl br place l r tl tr st ss = .ok st' ∧
      (∀ x, x ∈ st'.tokens ↔ x ∈ st.tokens ∨ NewToken ρ bl br l r tl tr ss x) ∧
      (∀ x, x ∈ st'.edges ↔ x ∈ st.edges ∨ NewEdge ρ bl br place l r tl tr ss x) ∧
      (∀ d, d ∈ st'.diffs ↔ d ∈ st.diffs ∨ NewDiff ρ bl br place l r tl tr ss d) ∧
      (∀ x, x ∈ st'.stack ↔ x ∈ st.stack ∨
        (x ∉ st.tokens ∧ NewToken ρ bl br l r tl tr ss x ∧ ρ.deep x.1 x.2))
  | [], st, _ => by
    refine ⟨st, rfl, ?_, ?_, ?_, ?_⟩ <;> intro x <;> simp [NewToken, NewEdge, NewDiff]
  | s :: ss, st, h => by
    obtain ⟨st1, h1, a1, a2, a3, a4⟩ := doStep_ok F (place := place) (st := st) (h s (by simp))
    obtain ⟨st2, h2, b1, b2, b3, b4⟩ := doSteps_ok (place := place) ss st1
      (fun s' hs' => h s' (by simp [hs']))
    have htok : ∀ x, NewToken ρ bl br l r tl tr (s :: ss) x ↔
        NewToken ρ bl br l r tl tr [s] x ∨ NewToken ρ bl br l r tl tr ss x := by
      intro x
      simp only [NewToken, List.mem_cons, List.not_mem_nil, or_false, or_and_right, exists_or]
    refine ⟨st2, by simp only [doSteps, h1, h2], ?_, ?_, ?_, ?_⟩
    · intro x; rw [b1, a1, htok, or_assoc]
    · intro x
      have : NewEdge ρ bl br place l r tl tr (s :: ss) x ↔
          NewEdge ρ bl br place l r tl tr [s] x ∨ NewEdge ρ bl br place l r tl tr ss x := by
        simp only [NewEdge, List.mem_cons, List.not_mem_nil, or_false, or_and_right, exists_or,
          and_or_left]
      rw [b2, a2, this, or_assoc]
    · intro x
      have : NewDiff ρ bl br place l r tl tr (s :: ss) x ↔
          NewDiff ρ bl br place l r tl tr [s] x ∨ NewDiff ρ bl br place l r tl tr ss x := by
        simp only [NewDiff, List.mem_cons, List.not_mem_nil, or_false, or_and_right, exists_or]
        grind
      rw [b3, a3, this, or_assoc]
    · intro x
      rw [b4, a4, htok, a1]
      grind

omit F in
theorem doStep_reads {place : Pair × Pair} {l r : Pair} {tl tr : Transitions} {st st' : State}
    {s : Step} (h : doStep c bl br place l r tl tr st s = .ok st') : StepReads bl br l r tl tr s := by
  cases s with
  | left k =>
    simp only [doStep] at h
    split at h
    · cases h
    · rename_i p hp; exact ⟨p, hp⟩
  | right k =>
    simp only [doStep] at h
    split at h
    · cases h
    · rename_i p hp; exact ⟨p, hp⟩
  | both k k' =>
    simp only [doStep] at h
    split at h
    · cases h
    · rename_i p hp
      split at h
      · cases h
      · rename_i q hq
        exact ⟨⟨p, hp⟩, q, hq⟩

omit F in
theorem doSteps_reads {place : Pair × Pair} {l r : Pair} {tl tr : Transitions} {st' : State} :
    ∀ (ss : List Step) (st : State), doSteps c bl br place l r tl tr st ss = .ok st' →
      ∀ s ∈ ss, StepReads bl br l r tl tr s
  | [], _, _, s, hs => by simp at hs
  | s :: ss, st, h, s', hs' => by
    simp only [doSteps] at h
    split at h
    · cases h
    · rename_i st1 h1
      rcases List.mem_cons.mp hs' with rfl | hs'
      · exact doStep_reads h1
      · exact doSteps_reads ss st1 h s' hs'

end

end Verif.Compare
