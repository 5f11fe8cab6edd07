import Verif.Compare.Run

/-! What is found at one place. -/

namespace Verif.Compare

open Verif.ObjectId
open Verif.Uuid
open Verif.Traverse (Bag Name Pair Transitions getTransitions)

/-- The saved transition. -/
def seeEdge (x : (Pair × Pair) × TKey × (Pair × Pair)) : (Pair × Pair) × Label × (Pair × Pair) :=
  (x.1, labelOf x.2.1, x.2.2)

/-- The keys of an item are of some kind. -/
def KeysIn (K : TKey → Prop) (b : Bag) (p : Pair) : Prop :=
  ∀ e t, OwnSchema b p e → getTransitions b p.1 e true = .ok t → ∀ k ∈ transitionKeys t, K k

/-- The parts that both items have and that are alike. -/
def TokenAt (ρ : Rules) (bl br : Bag) (place x : Pair × Pair) : Prop :=
  ∃ n, Has bl place.1 n x.1 ∧ Has br place.2 n x.2 ∧ ρ.alike x.1 x.2

/-- The transitions to these. -/
def EdgeAt (ρ : Rules) (bl br : Bag) (x : (Pair × Pair) × Label × (Pair × Pair)) : Prop :=
  Has bl x.1.1 x.2.1 x.2.2.1 ∧ Has br x.1.2 x.2.1 x.2.2.2 ∧ ρ.alike x.2.2.1 x.2.2.2

/-- The differences that matter. -/
def DiffAt (ρ : Rules) (bl br : Bag) (place : Pair × Pair) (d : Difference) : Prop :=
  (∃ n p, Has bl place.1 n p ∧ (∀ q, ¬ Has br place.2 n q) ∧ ρ.left n p ∧ d = .left place n p) ∨
  (∃ n q, Has br place.2 n q ∧ (∀ p, ¬ Has bl place.1 n p) ∧ ρ.right n q ∧ d = .right place n q) ∨
  (∃ n p q, Has bl place.1 n p ∧ Has br place.2 n q ∧ ¬ ρ.alike p q ∧ ρ.both n p q ∧
    d = .both place n p q)

theorem has_iff {b : Bag} (hb : BagOk b) {p : Pair} {e : Item} (ho : OwnSchema b p e)
    {t : Transitions} (ht : getTransitions b p.1 e true = .ok t)
    (hr : ∀ k ∈ transitionKeys t, ∃ q, transitionByKey b p.1 e t k = .ok q) (n : Label) (q : Pair) :
    Has b p n q ↔ ∃ k ∈ transitionKeys t, labelOf k = n ∧ transitionByKey b p.1 e t k = .ok q := by
  constructor
  · rintro ⟨e', h1, h2⟩
    cases ho.unique h1
    obtain ⟨k, hk, hn⟩ := key_of_part ht h2
    obtain ⟨q', hq⟩ := hr k hk
    have := part_of_key ht hk hq
    rw [hn] at this
    cases this.unique hb h2
    exact ⟨k, hk, hn, hq⟩
  · rintro ⟨k, hk, rfl, hq⟩
    exact ⟨e, ho, part_of_key ht hk hq⟩

theorem has_label {b : Bag} (hb : BagOk b) {p : Pair} {e : Item} (ho : OwnSchema b p e)
    {t : Transitions} (ht : getTransitions b p.1 e true = .ok t)
    (hr : ∀ k ∈ transitionKeys t, ∃ q, transitionByKey b p.1 e t k = .ok q) (n : Label) :
    (∀ q, ¬ Has b p n q) ↔ ∀ k ∈ transitionKeys t, labelOf k ≠ n := by
  constructor
  · intro h k hk hn
    obtain ⟨q, hq⟩ := hr k hk
    exact h q ((has_iff hb ho ht hr n q).mpr ⟨k, hk, hn, hq⟩)
  · intro h q hq
    obtain ⟨k, hk, hn, _⟩ := (has_iff hb ho ht hr n q).mp hq
    exact h k hk hn

section
variable {c : Comparator} {ρ : Rules} (F : Follows c ρ) {bl br : Bag} (hbl : BagOk bl) (hbr : BagOk br)
  {K : TKey → Prop} (O : OrderOk c.order K)
include F hbl hbr O

theorem compareAt_ok {place : Pair × Pair} (hl : CanRead bl place.1) (hr : CanRead br place.2)
    (kl : KeysIn K bl place.1) (kr : KeysIn K br place.2) (st : State) :
    ∃ st', compareAt c bl br place st = .ok st' ∧
      (∀ x, x ∈ st'.tokens ↔ x ∈ st.tokens ∨ TokenAt ρ bl br place x) ∧
      (∀ x, x ∈ st'.edges.map seeEdge ↔ x ∈ st.edges.map seeEdge ∨ (x.1 = place ∧ EdgeAt ρ bl br x)) ∧
      (∀ d, d ∈ st'.diffs.map see ↔ d ∈ st.diffs.map see ∨ DiffAt ρ bl br place d) ∧
      (∀ x, x ∈ st'.stack ↔ x ∈ st.stack ∨
        (x ∉ st.tokens ∧ TokenAt ρ bl br place x ∧ ρ.deep x.1 x.2)) := by
  obtain ⟨⟨xl, el⟩, ol, tl, gl, rl⟩ := (canRead_iff hbl _).mp hl
  obtain ⟨⟨xr, er⟩, or_, tr, gr, rr⟩ := (canRead_iff hbr _).mp hr
  obtain ⟨e1, own1⟩ := ownSchema_ok ol
  obtain ⟨e2, own2⟩ := ownSchema_ok or_
  simp only at e1 e2 own1 own2 gl gr rl rr
  subst e1 e2
  have hmem := mem_steps_sort O (kl el tl own1 gl) (kr er tr own2 gr) (keys_nodup hbl gl)
    (keys_nodup hbr gr)
  have HL := has_iff hbl own1 gl rl
  have HR := has_iff hbr own2 gr rr
  have NL := has_label hbl own1 gl rl
  have NR := has_label hbr own2 gr rr
  simp only [compareAt, ol, or_, gl, gr]
  have hsr : ∀ s ∈ steps c.order (sortKeys c.order (transitionKeys tl))
      (sortKeys c.order (transitionKeys tr)),
      StepReads bl br (place.1.1, el) (place.2.1, er) tl tr s := by
    intro s hs
    rw [hmem] at hs
    cases s with
    | left k => exact rl k hs.1
    | right k => exact rr k hs.1
    | both k k' => exact ⟨rl k hs.1, rr k' hs.2.1⟩
  obtain ⟨st', h1, a1, a2, a3, a4⟩ := doSteps_ok F (place := place) _ st hsr
  have htok : ∀ x, NewToken ρ bl br (place.1.1, el) (place.2.1, er) tl tr
      (steps c.order (sortKeys c.order (transitionKeys tl)) (sortKeys c.order (transitionKeys tr))) x
      ↔ TokenAt ρ bl br place x := by
    intro x
    simp only [NewToken, hmem, StepIs, TokenAt, HL, HR]
    constructor
    · rintro ⟨k, k', ⟨h2, h3, h4⟩, h5, h6, h7⟩
      exact ⟨labelOf k, ⟨k, h2, rfl, h5⟩, ⟨k', h3, h4.symm, h6⟩, h7⟩
    · rintro ⟨n, ⟨k, h2, rfl, h5⟩, ⟨k', h3, h4, h6⟩, h7⟩
      exact ⟨k, k', ⟨h2, h3, h4.symm⟩, h5, h6, h7⟩
  refine ⟨st', h1, ?_, ?_, ?_, ?_⟩
  · intro x; rw [a1, htok]
  · intro x
    simp only [List.mem_map, a2, or_and_right, exists_or]
    refine or_congr Iff.rfl ?_
    simp only [NewEdge, hmem, StepIs, EdgeAt]
    constructor
    · rintro ⟨y, ⟨rfl, k', ⟨h2, h3, h4⟩, h5, h6, h7⟩, rfl⟩
      exact ⟨rfl, (HL _ _).mpr ⟨_, h2, rfl, h5⟩, (HR _ _).mpr ⟨k', h3, h4.symm, h6⟩, h7⟩
    · rintro ⟨h2, h3, h4, h5⟩
      rw [h2] at h3 h4
      obtain ⟨k, h6, h7, h8⟩ := (HL _ _).mp h3
      obtain ⟨k', h9, h10, h11⟩ := (HR _ _).mp h4
      refine ⟨(place, k, x.2.2), ⟨rfl, k', ⟨h6, h9, h7.trans h10.symm⟩, h8, h11, h5⟩, ?_⟩
      simp only [seeEdge, h7, ← h2]
  · intro d
    simp only [List.mem_map, a3, or_and_right, exists_or]
    refine or_congr Iff.rfl ?_
    simp only [NewDiff, hmem, StepIs, DiffAt]
    constructor
    · rintro ⟨d', ⟨k, p, ⟨h2, h3⟩, h4, h5, rfl⟩ | ⟨k, p, ⟨h2, h3⟩, h4, h5, rfl⟩ |
        ⟨k, k', p, q, ⟨h2, h3, h4⟩, h5, h6, h7, h8, rfl⟩, rfl⟩
      · exact .inl ⟨labelOf k, p, (HL _ _).mpr ⟨k, h2, rfl, h4⟩, (NR _).mpr h3, h5, rfl⟩
      · exact .inr (.inl ⟨labelOf k, p, (HR _ _).mpr ⟨k, h2, rfl, h4⟩, (NL _).mpr h3, h5, rfl⟩)
      · exact .inr (.inr ⟨labelOf k, p, q, (HL _ _).mpr ⟨k, h2, rfl, h5⟩,
          (HR _ _).mpr ⟨k', h3, h4.symm, h6⟩, h7, h8, rfl⟩)
    · rintro (⟨n, p, h2, h3, h4, rfl⟩ | ⟨n, q, h2, h3, h4, rfl⟩ | ⟨n, p, q, h2, h3, h4, h5, rfl⟩)
      · obtain ⟨k, h6, rfl, h7⟩ := (HL _ _).mp h2
        exact ⟨_, .inl ⟨k, p, ⟨h6, (NR _).mp h3⟩, h7, h4, rfl⟩, rfl⟩
      · obtain ⟨k, h6, rfl, h7⟩ := (HR _ _).mp h2
        exact ⟨_, .inr (.inl ⟨k, q, ⟨h6, (NL _).mp h3⟩, h7, h4, rfl⟩), rfl⟩
      · obtain ⟨k, h6, rfl, h7⟩ := (HL _ _).mp h2
        obtain ⟨k', h8, h9, h10⟩ := (HR _ _).mp h3
        exact ⟨_, .inr (.inr ⟨k, k', p, q, ⟨h6, h8, h9.symm⟩, h7, h10, h4, h5, rfl⟩), rfl⟩
  · intro x; rw [a4, htok]

omit F in
theorem compareAt_reads {place : Pair × Pair} {st st' : State}
    (kl : KeysIn K bl place.1) (kr : KeysIn K br place.2) (h : compareAt c bl br place st = .ok st') :
    CanRead bl place.1 ∧ CanRead br place.2 := by
  unfold compareAt at h
  split at h
  · cases h
  rename_i l ol
  split at h
  · cases h
  rename_i r or_
  split at h
  · cases h
  rename_i tl gl
  split at h
  · cases h
  rename_i tr gr
  obtain ⟨xl, el⟩ := l
  obtain ⟨xr, er⟩ := r
  obtain ⟨e1, own1⟩ := ownSchema_ok ol
  obtain ⟨e2, own2⟩ := ownSchema_ok or_
  simp only at e1 e2 own1 own2 gl gr
  subst e1 e2
  have hmem := mem_steps_sort O (kl el tl own1 gl) (kr er tr own2 gr) (keys_nodup hbl gl)
    (keys_nodup hbr gr)
  have hs := doSteps_reads _ _ h
  refine ⟨(canRead_iff hbl _).mpr ⟨_, ol, tl, gl, ?_⟩, (canRead_iff hbr _).mpr ⟨_, or_, tr, gr, ?_⟩⟩
  · intro k hk
    by_cases hex : ∃ k' ∈ transitionKeys tr, labelOf k = labelOf k'
    · obtain ⟨k', h1, h2⟩ := hex
      exact (hs (.both k k') ((hmem _).mpr ⟨hk, h1, h2⟩)).1
    · exact hs (.left k) ((hmem _).mpr ⟨hk, fun k' h1 h2 => hex ⟨k', h1, h2.symm⟩⟩)
  · intro k hk
    by_cases hex : ∃ k' ∈ transitionKeys tl, labelOf k' = labelOf k
    · obtain ⟨k', h1, h2⟩ := hex
      exact (hs (.both k' k) ((hmem _).mpr ⟨h1, hk, h2⟩)).2
    · exact hs (.right k) ((hmem _).mpr ⟨hk, fun k' h1 h2 => hex ⟨k', h1, h2⟩⟩)

end

/-! ### The stack -/

/-- Nothing is twice on the stack, and everything there has a token. -/
def StackOk (st : State) : Prop := st.stack.Nodup ∧ ∀ x ∈ st.stack, x ∈ st.tokens

theorem addToCompare_stack {c : Comparator} {st st' : State} {l r : Pair} (hs : StackOk st)
    (h : addToCompare c st l r = .ok st') : StackOk st' := by
  unfold addToCompare at h
  split at h
  · cases h; exact hs
  · rename_i h1
    split at h
    · cases h
    · cases h
      by_cases hd : c.deep l r = true
      · simp only [StackOk, if_pos hd, List.nodup_cons, List.mem_cons]
        refine ⟨⟨fun h2 => h1 (hs.2 _ h2), hs.1⟩, ?_⟩
        rintro x (rfl | h2)
        · exact .inl rfl
        · exact .inr (hs.2 x h2)
      · simp only [StackOk, if_neg hd, List.mem_cons]
        exact ⟨hs.1, fun x hx => .inr (hs.2 x hx)⟩

theorem doSteps_stack {c : Comparator} {bl br : Bag} {place : Pair × Pair} {l r : Pair}
    {tl tr : Transitions} {st' : State} : ∀ (ss : List Step) (st : State), StackOk st →
    doSteps c bl br place l r tl tr st ss = .ok st' → StackOk st'
  | [], st, hs, h => by cases h; exact hs
  | s :: ss, st, hs, h => by
    simp only [doSteps] at h
    split at h
    · cases h
    rename_i st1 h1
    refine doSteps_stack ss st1 ?_ h
    cases s with
    | left k =>
      simp only [doStep] at h1
      split at h1
      · cases h1
      · cases h1; split <;> exact hs
    | right k =>
      simp only [doStep] at h1
      split at h1
      · cases h1
      · cases h1; split <;> exact hs
    | both k k' =>
      simp only [doStep] at h1
      split at h1
      · cases h1
      split at h1
      · cases h1
      split at h1
      · split at h1
        · cases h1
        · rename_i h2
          cases h1
          have := addToCompare_stack hs h2
          exact this
      · cases h1; split <;> exact hs

theorem compareAt_stack {c : Comparator} {bl br : Bag} {place : Pair × Pair} {st st' : State}
    (hs : StackOk st) (h : compareAt c bl br place st = .ok st') : StackOk st' := by
  unfold compareAt at h
  split at h
  · cases h
  split at h
  · cases h
  split at h
  · cases h
  split at h
  · cases h
  exact doSteps_stack _ _ hs h

end Verif.Compare
