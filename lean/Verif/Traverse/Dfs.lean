import Verif.Traverse.Model

/-! The depth first search of the traverser: invariants for any graph. -/

namespace Verif.Traverse

open Verif.ObjectId
open Verif.Uuid

/-- `q` can be reached from `p`. -/
inductive Reach (E : Pair → Pair → Prop) (p : Pair) : Pair → Prop where
  | refl : Reach E p p
  | step {q r : Pair} : Reach E p q → E q r → Reach E p r

theorem Reach.trans {E : Pair → Pair → Prop} {p q r : Pair} (h1 : Reach E p q)
    (h2 : Reach E q r) : Reach E p r := by
  induction h2 with
  | refl => exact h1
  | step _ e ih => exact .step ih e

theorem Reach.one {E : Pair → Pair → Prop} {p q : Pair} (h : E p q) : Reach E p q :=
  .step .refl h

/-- The invariant of the search, before finished items are moved. -/
structure Inv (E : Pair → Pair → Prop) (root : Pair → Prop) (stack : List Pair)
    (on : List (Nat × Pair)) (used order : List Pair) : Prop where
  mem : ∀ p, p ∈ used ↔ p ∈ order ∨ p ∈ on.map (·.2)
  nodup : (on.map (·.2) ++ order).Nodup
  levels : on.Pairwise (fun a c => c.1 ≤ a.1)
  top : ∀ a ∈ on, a.1 ≤ stack.length
  seg : ∀ a ∈ on, ∀ q ∈ stack.take (stack.length - a.1), Reach E a.2 q
  chain : on.Pairwise (fun a c => Reach E c.2 a.2)
  cover : ∀ a ∈ on, ∀ q, E a.2 q → q ∈ used ∨ q ∈ stack.take (stack.length - a.1)
  done : ∀ l p r, order = l ++ p :: r → ∀ q, E p q → q ∈ l ∨ Reach E q p
  closed : ∀ p ∈ order, ∀ q, E p q → q ∈ used
  sound : ∀ p, p ∈ stack ∨ p ∈ used → ∃ r, root r ∧ Reach E r p
  roots : ∀ r, root r → r ∈ used ∨ r ∈ stack

section
variable {E : Pair → Pair → Prop} {root : Pair → Prop}

/-- One item is moved to the order. -/
theorem Inv.move {stack : List Pair} {p : Pair} {on : List (Nat × Pair)} {used order : List Pair}
    (h : Inv E root stack ((stack.length, p) :: on) used order) :
    Inv E root stack on used (order ++ [p]) := by
  have hc : ∀ q, E p q → q ∈ used := by
    intro q e
    rcases h.cover (stack.length, p) (by simp) q e with h1 | h1
    · exact h1
    · simp at h1
  refine ⟨?_, ?_, ?_, ?_, ?_, ?_, ?_, ?_, ?_, h.sound, h.roots⟩
  · intro q
    rw [h.mem]
    simp only [List.map_cons, List.mem_cons, List.mem_append, List.not_mem_nil, or_false]
    constructor
    · rintro (h1 | h1 | h1)
      · exact .inl (.inl h1)
      · exact .inl (.inr h1)
      · exact .inr h1
    · rintro ((h1 | h1) | h1)
      · exact .inl h1
      · exact .inr (.inl h1)
      · exact .inr (.inr h1)
  · have := h.nodup
    simp only [List.map_cons, List.cons_append] at this
    refine (List.Perm.nodup_iff ?_).mp this
    rw [← List.append_assoc]
    exact (List.perm_append_singleton p _).symm
  · exact (List.pairwise_cons.mp h.levels).2
  · intro a ha; exact h.top a (List.mem_cons_of_mem _ ha)
  · intro a ha; exact h.seg a (List.mem_cons_of_mem _ ha)
  · exact (List.pairwise_cons.mp h.chain).2
  · intro a ha; exact h.cover a (List.mem_cons_of_mem _ ha)
  · intro l p' r heq q e
    rcases List.append_eq_append_iff.mp heq with ⟨m, h1, h2⟩ | ⟨m, h1, h2⟩
    · -- l = order ++ m
      cases m with
      | nil =>
        simp at h2
        obtain ⟨rfl, rfl⟩ := h2
        have := hc q e
        rw [h.mem] at this
        rcases this with h3 | h3
        · left; rw [h1]; simpa using h3
        · right
          simp only [List.map_cons, List.mem_cons] at h3
          rcases h3 with rfl | h3
          · exact .refl
          · obtain ⟨a, ha, rfl⟩ := List.mem_map.mp h3
            exact (List.pairwise_cons.mp h.chain).1 a ha
      | cons x m => simp at h2
    · cases m with
      | nil =>
        simp at h2
        obtain ⟨rfl, rfl⟩ := h2
        have := hc q e
        rw [h.mem] at this
        rcases this with h3 | h3
        · left; rw [h1] at h3; simpa using h3
        · right
          simp only [List.map_cons, List.mem_cons] at h3
          rcases h3 with rfl | h3
          · exact .refl
          · obtain ⟨a, ha, rfl⟩ := List.mem_map.mp h3
            exact (List.pairwise_cons.mp h.chain).1 a ha
      | cons x m =>
        simp only [List.cons_append, List.cons.injEq] at h2
        obtain ⟨rfl, h2⟩ := h2
        exact h.done l p' m h1 q e
  · intro p' hp' q e
    rcases List.mem_append.mp hp' with h1 | h1
    · exact h.closed p' h1 q e
    · simp at h1; subst h1; exact hc q e

/-- The finished items are moved: afterwards every open item has something above it. -/
theorem Inv.flush {stack : List Pair} {used : List Pair} :
    ∀ (on : List (Nat × Pair)) (order : List Pair), Inv E root stack on used order →
      Inv E root stack (Traverse.flush stack.length on order).1 used
          (Traverse.flush stack.length on order).2 ∧
        ∀ a ∈ (Traverse.flush stack.length on order).1, a.1 < stack.length := by
  intro on
  induction on with
  | nil => intro order h; exact ⟨h, by simp [Traverse.flush]⟩
  | cons a on ih =>
    obtain ⟨m, p⟩ := a
    intro order h
    unfold Traverse.flush
    by_cases hm : m = stack.length
    · rw [if_pos hm]
      subst hm
      exact ih _ h.move
    · rw [if_neg hm]
      refine ⟨h, ?_⟩
      intro a ha
      have ht := h.top (m, p) (by simp)
      have hlt : m < stack.length := by simp at ht; omega
      rcases List.mem_cons.mp ha with rfl | ha
      · exact hlt
      · have := (List.pairwise_cons.mp h.levels).1 a ha
        simp at this
        omega

/-- An item that was seen before is dropped from the stack. -/
theorem Inv.drop {p : Pair} {rest : List Pair} {on : List (Nat × Pair)} {used order : List Pair}
    (h : Inv E root (p :: rest) on used order) (hlt : ∀ a ∈ on, a.1 < (p :: rest).length)
    (hu : p ∈ used) : Inv E root rest on used order := by
  have hseg : ∀ a ∈ on, (p :: rest).take ((p :: rest).length - a.1) =
      p :: rest.take (rest.length - a.1) := by
    intro a ha
    have := hlt a ha
    simp only [List.length_cons] at this ⊢
    rw [show rest.length + 1 - a.1 = (rest.length - a.1) + 1 from by omega]
    rfl
  refine ⟨h.mem, h.nodup, h.levels, ?_, ?_, h.chain, ?_, h.done, h.closed, ?_, ?_⟩
  · intro a ha; have := hlt a ha; simp at this; omega
  · intro a ha q hq
    apply h.seg a ha
    rw [hseg a ha]
    exact List.mem_cons_of_mem _ hq
  · intro a ha q e
    rcases h.cover a ha q e with h1 | h1
    · exact .inl h1
    · rw [hseg a ha] at h1
      rcases List.mem_cons.mp h1 with rfl | h1
      · exact .inl hu
      · exact .inr h1
  · intro q hq
    apply h.sound
    rcases hq with h1 | h1
    · exact .inl (List.mem_cons_of_mem _ h1)
    · exact .inr h1
  · intro r hr
    rcases h.roots r hr with h1 | h1
    · exact .inl h1
    · rcases List.mem_cons.mp h1 with rfl | h1
      · exact .inl hu
      · exact .inr h1

/-- A new item is opened: what it refers to is put on the stack. -/
theorem Inv.open {p : Pair} {rest ks : List Pair} {on : List (Nat × Pair)} {used order : List Pair}
    (h : Inv E root (p :: rest) on used order) (hlt : ∀ a ∈ on, a.1 < (p :: rest).length)
    (hu : p ∉ used) (hk : ∀ q, E p q ↔ q ∈ ks) :
    Inv E root (ks ++ rest) ((rest.length, p) :: on) (p :: used) order := by
  have hseg : ∀ a ∈ on, (p :: rest).take ((p :: rest).length - a.1) =
      p :: rest.take (rest.length - a.1) := by
    intro a ha
    have := hlt a ha
    simp only [List.length_cons] at this ⊢
    rw [show rest.length + 1 - a.1 = (rest.length - a.1) + 1 from by omega]
    rfl
  have hseg' : ∀ a ∈ on, (ks ++ rest).take ((ks ++ rest).length - a.1) =
      ks ++ rest.take (rest.length - a.1) := by
    intro a ha
    have := hlt a ha
    simp only [List.length_cons, List.length_append] at this ⊢
    rw [List.take_append, List.take_of_length_le (by omega),
      show ks.length + rest.length - a.1 - ks.length = rest.length - a.1 from by omega]
  have htop : (ks ++ rest).take ((ks ++ rest).length - rest.length) = ks := by simp
  have hreach : ∀ a ∈ on, Reach E a.2 p := by
    intro a ha
    apply h.seg a ha
    rw [hseg a ha]
    simp
  refine ⟨?_, ?_, ?_, ?_, ?_, ?_, ?_, h.done, ?_, ?_, ?_⟩
  · intro q
    simp only [List.mem_cons, List.map_cons, h.mem]
    constructor
    · rintro (h1 | h1 | h1)
      · exact .inr (.inl h1)
      · exact .inl h1
      · exact .inr (.inr h1)
    · rintro (h1 | h1 | h1)
      · exact .inr (.inl h1)
      · exact .inl h1
      · exact .inr (.inr h1)
  · simp only [List.map_cons, List.cons_append, List.nodup_cons]
    refine ⟨?_, h.nodup⟩
    intro hm
    apply hu
    rw [h.mem]
    rcases List.mem_append.mp hm with h1 | h1
    · exact .inr h1
    · exact .inl h1
  · refine List.pairwise_cons.mpr ⟨?_, h.levels⟩
    intro a ha
    have := hlt a ha
    simp at this ⊢
    omega
  · intro a ha
    rcases List.mem_cons.mp ha with rfl | ha
    · simp
    · have := hlt a ha
      simp at this ⊢
      omega
  · intro a ha q hq
    rcases List.mem_cons.mp ha with rfl | ha
    · rw [htop] at hq
      exact .one ((hk q).mpr hq)
    · rw [hseg' a ha] at hq
      rcases List.mem_append.mp hq with h1 | h1
      · exact .step (hreach a ha) ((hk q).mpr h1)
      · apply h.seg a ha
        rw [hseg a ha]
        exact List.mem_cons_of_mem _ h1
  · refine List.pairwise_cons.mpr ⟨hreach, h.chain⟩
  · intro a ha q e
    rcases List.mem_cons.mp ha with rfl | ha
    · right; rw [htop]; exact (hk q).mp e
    · rcases h.cover a ha q e with h1 | h1
      · exact .inl (List.mem_cons_of_mem _ h1)
      · rw [hseg a ha] at h1
        rcases List.mem_cons.mp h1 with rfl | h1
        · exact .inl (by simp)
        · right; rw [hseg' a ha]; exact List.mem_append_right _ h1
  · intro p' hp' q e
    exact List.mem_cons_of_mem _ (h.closed p' hp' q e)
  · intro q hq
    have hp := h.sound p (.inl (by simp))
    rcases hq with h1 | h1
    · rcases List.mem_append.mp h1 with h1 | h1
      · obtain ⟨r, hr, hr2⟩ := hp
        exact ⟨r, hr, .step hr2 ((hk q).mpr h1)⟩
      · exact h.sound q (.inl (List.mem_cons_of_mem _ h1))
    · rcases List.mem_cons.mp h1 with rfl | h1
      · exact hp
      · exact h.sound q (.inr h1)
  · intro r hr
    rcases h.roots r hr with h1 | h1
    · exact .inl (List.mem_cons_of_mem _ h1)
    · rcases List.mem_cons.mp h1 with rfl | h1
      · exact .inl (by simp)
      · exact .inr (List.mem_append_right _ h1)

/-- At the start only the roots are on the stack. -/
theorem Inv.init (stack : List Pair) (hr : ∀ r, root r ↔ r ∈ stack) :
    Inv E root stack [] [] [] := by
  refine ⟨by simp, by simp, by simp, by simp, by simp, by simp, by simp, by simp, by simp, ?_, ?_⟩
  · intro p hp
    rcases hp with h | h
    · exact ⟨p, (hr p).mpr h, .refl⟩
    · simp at h
  · intro r h; exact .inr ((hr r).mp h)

/-- What holds when the stack is empty. -/
theorem Inv.final {on : List (Nat × Pair)} {used order : List Pair}
    (h : Inv E root [] on used order) (hlt : ∀ a ∈ on, a.1 < ([] : List Pair).length) :
    order.Nodup ∧ (∀ p, p ∈ order ↔ ∃ r, root r ∧ Reach E r p) ∧
      ∀ l p r, order = l ++ p :: r → ∀ q, E p q → q ∈ l ∨ Reach E q p := by
  have hon : on = [] := by
    cases on with
    | nil => rfl
    | cons a on => exact absurd (hlt a (by simp)) (by simp)
  subst hon
  have hm : ∀ p, p ∈ used ↔ p ∈ order := by intro p; rw [h.mem]; simp
  refine ⟨by simpa using h.nodup, ?_, h.done⟩
  intro p
  constructor
  · intro hp; exact h.sound p (.inr ((hm p).mpr hp))
  · rintro ⟨r, hr, hp⟩
    induction hp with
    | refl =>
      rcases h.roots r hr with h1 | h1
      · exact (hm r).mp h1
      · simp at h1
    | step _ e ih => exact (hm _).mp (h.closed _ ih _ e)

end

end Verif.Traverse
