import Verif.SchemaHelper.Analyze

/-! The artifacts in terms of paths. -/

namespace Verif.SchemaHelper

open Verif.Path

section
variable {t : Text} {b : Store} {s : Item}

/-- The first entry of the analysis of a schema. -/
def rootWork (s : Item) : Work := ⟨.none, .none, s⟩

theorem start_root (b : Store) (s : Item) (only : Bool) : Start b (rootWork s) only :=
  ⟨.inl ⟨rfl, rfl⟩, fun _ => rfl⟩

theorem edge_place {w0 w : Work} {id : Id} {a : Action} (h : EdgeWork b w0 w id a) {p : List Action}
    (hp : Reaches b s p (.struct id)) : NodeAt b s (p ++ [a]) (placeOf w) := by
  obtain ⟨par, act, child⟩ := w
  have h1 := h.parent
  have h2 := h.action
  have h3 := h.step
  simp only at h1 h2 h3
  subst h1; subst h2
  cases child with
  | struct id' => exact .struct (hp.snoc h3)
  | dtype d => exact .leaf hp h3

theorem work_place {w : Work} (h : IsWork b (rootWork s) w) : ∃ p, NodeAt b s p (placeOf w) := by
  rcases h with rfl | ⟨id, a, h⟩
  · refine ⟨[], ?_⟩
    cases s with
    | struct id => exact .struct .nil
    | dtype d => exact .root rfl
  · obtain ⟨p, hp⟩ := h.reach
    exact ⟨p ++ [a], edge_place h hp⟩

theorem step_edge {id : Id} {a : Action} {i : Item} {p : List Action}
    (hp : Reaches b s p (.struct id)) (hs : Step b (.struct id) a i) :
    EdgeWork b (rootWork s) ⟨some (.struct id), some a, i⟩ id a := ⟨rfl, rfl, hs, p, hp⟩

theorem place_work {p : List Action} {n : Node} (h : NodeAt b s p n) :
    ∃ w, IsWork b (rootWork s) w ∧ placeOf w = n := by
  cases h with
  | @struct p id h =>
    rcases List.eq_nil_or_concat p with rfl | ⟨q, a, rfl⟩
    · cases h; exact ⟨_, .inl rfl, rfl⟩
    · rw [List.concat_eq_append] at h
      obtain ⟨j, h1, h2⟩ := h.snoc_inv
      obtain ⟨id', rfl⟩ := h2.isStruct
      exact ⟨_, .inr ⟨_, _, step_edge h1 h2⟩, rfl⟩
  | root h => subst h; exact ⟨_, .inl rfl, rfl⟩
  | leaf h1 h2 => exact ⟨_, .inr ⟨_, _, step_edge h1 h2⟩, rfl⟩

theorem NodeAt.glue (hb : AttrsOnce b) {p q r : List Action} {m n : Node} (h1 : NodeAt b s p n)
    (h2 : NodeAt b s q n) (h3 : NodeAt b s (q ++ r) m) : NodeAt b s (p ++ r) m := by
  rcases List.eq_nil_or_concat r with rfl | ⟨r', a, rfl⟩
  · rw [List.append_nil] at h3 ⊢
    rw [h3.functional hb h2]; exact h1
  · rw [List.concat_eq_append] at *
    have move : ∀ x j, Reaches b s (q ++ x) j → Reaches b s (p ++ x) j := by
      intro x j h
      obtain ⟨k, h4, h5⟩ := h.split
      rw [h4.functional hb h2.reaches] at h5
      exact h1.reaches.append h5
    generalize hx : q ++ (r' ++ [a]) = x at h3
    cases h3 with
    | struct h => exact .struct (move _ _ (by rw [hx]; exact h))
    | root _ => simp at hx
    | @leaf p0 id a' d h4 h5 =>
      rw [← List.append_assoc] at hx ⊢
      obtain ⟨h6, h7⟩ := List.append_inj' hx rfl
      cases h7
      exact .leaf (move _ _ (by rw [h6]; exact h4)) h5

theorem nodeAt_ok {only : Bool} {st : Artifacts} (ha : Analyzed t b (rootWork s) only st)
    {p : List Action} {n : Node} (h : NodeAt b s p n) : n.Ok := by
  obtain ⟨w, hw, rfl⟩ := place_work h
  exact (ha.good w hw).1

/-- In an analyzed schema, a path has a name exactly if it leads somewhere. -/
theorem name_iff (ht : TextLaws t) (hb : AttrsOnce b) {only : Bool} {st : Artifacts}
    (ha : Analyzed t b (rootWork s) only st) (p : List Action) (x : Name) :
    nodeNameForPath t b s p = .ok x ↔ ∃ n, NodeAt b s p n ∧ nodeName t n = x := by
  constructor
  · intro h
    by_cases hr : ∃ i, Reaches b s p i
    · obtain ⟨i, hi⟩ := hr
      obtain ⟨n, hn, _⟩ := hi.nodeAt
      rw [nameForPath_ok hb t hn (nodeAt_ok ha hn)] at h
      cases h
      exact ⟨n, hn, rfl⟩
    · rw [nameForPath_invalid hb t hr] at h; cases h
  · rintro ⟨n, hn, rfl⟩
    exact nameForPath_ok hb t hn (nodeAt_ok ha hn)

theorem keys_iff {only : Bool} {st : Artifacts} (ha : Analyzed t b (rootWork s) only st) (x : Name) :
    (st.graph.lookup x).isSome = true ↔ ∃ p n, NodeAt b s p n ∧ nodeName t n = x := by
  rw [ha.keys]
  constructor
  · rintro ⟨w, hw, rfl⟩
    obtain ⟨p, hp⟩ := work_place hw
    exact ⟨p, _, hp, rfl⟩
  · rintro ⟨p, n, hn, rfl⟩
    obtain ⟨w, hw, rfl⟩ := place_work hn
    exact ⟨w, hw, rfl⟩

theorem edges_iff (hb : AttrsOnce b) {only : Bool} {st : Artifacts}
    (ha : Analyzed t b (rootWork s) only st) (x y : Name) :
    GEdge st x y ↔ ∃ p a m n, NodeAt b s p m ∧ NodeAt b s (p ++ [a]) n ∧ nodeName t m = x ∧
      nodeName t n = y := by
  rw [ha.edges]
  constructor
  · rintro ⟨w, id, a, hw, rfl, rfl⟩
    obtain ⟨p, hp⟩ := hw.reach
    refine ⟨p, a, .struct id, placeOf w, .struct hp, edge_place hw hp, ?_, rfl⟩
    simp only [pn, hw.parent, nodeName]
  · rintro ⟨p, a, m, n, hm, hn, rfl, rfl⟩
    obtain ⟨j, h1, h2⟩ := hn.reaches.snoc_inv
    obtain ⟨id, rfl⟩ := h2.isStruct
    have he := step_edge h1 h2
    refine ⟨_, id, a, he, ?_, ?_⟩
    · rw [hm.functional hb (.struct h1)]; rfl
    · exact congrArg (nodeName t) ((edge_place he h1).functional hb hn)

theorem plus_iff (ht : TextLaws t) (hb : AttrsOnce b) {only : Bool} {st : Artifacts}
    (ha : Analyzed t b (rootWork s) only st) (x y : Name) :
    Plus (GEdge st) x y ↔ ∃ p r m n, r ≠ [] ∧ NodeAt b s p m ∧ NodeAt b s (p ++ r) n ∧
      nodeName t m = x ∧ nodeName t n = y := by
  constructor
  · intro h
    induction h with
    | one h =>
      obtain ⟨p, a, m, n, h1, h2, h3, h4⟩ := (edges_iff hb ha _ _).1 h
      exact ⟨p, [a], m, n, by simp, h1, h2, h3, h4⟩
    | more _ h ih =>
      obtain ⟨p, r, m, n, h0, h1, h2, h3, h4⟩ := ih
      obtain ⟨p', a, m', n', g1, g2, g3, g4⟩ := (edges_iff hb ha _ _).1 h
      have : m' = n := nodeName_inj ht (by rw [g3, h4])
      subst this
      refine ⟨p, r ++ [a], m, n', by simp, h1, ?_, h3, g4⟩
      rw [← List.append_assoc]
      exact h2.glue hb g1 g2
  · rintro ⟨p, r, m, n, h0, h1, h2, rfl, rfl⟩
    induction r generalizing p m with
    | nil => exact absurd rfl h0
    | cons a r ih =>
      rw [show p ++ a :: r = (p ++ [a]) ++ r by simp] at h2
      obtain ⟨j, g1, g2⟩ := h2.reaches.split
      obtain ⟨k, g3, _⟩ := g1.nodeAt
      have he := (edges_iff hb ha (nodeName t m) (nodeName t k)).2 ⟨p, a, m, k, h1, g3, rfl, rfl⟩
      by_cases hr : r = []
      · subst hr
        rw [List.append_nil] at h2
        rw [h2.functional hb g3]
        exact .one he
      · exact .head he (ih (p ++ [a]) k hr g3 h2)

end

end Verif.SchemaHelper
