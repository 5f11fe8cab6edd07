import Verif.SliceOps.Unique

/-! Lemmas on the choice of children. -/

namespace Verif.SliceOps

variable {α : Type}

theorem parts_get (e : List Nat) (l : List α) (g : Nat) (hg : g < e.length) :
    (parts e l)[g]? = some ((l.drop (e.take g).sum).take (e.getD g 0)) := by
  induction e generalizing l g with
  | nil => simp at hg
  | cons n ns ih =>
    cases g with
    | zero => simp [parts]
    | succ g =>
      have := ih (l.drop n) g (by simpa using hg)
      simp only [parts, List.getElem?_cons_succ, this, List.drop_drop, List.take_succ_cons,
        List.sum_cons, List.getD_cons_succ]

theorem take_sum_le (e : List Nat) (g : Nat) (hg : g < e.length) :
    (e.take g).sum + e.getD g 0 ≤ e.sum := by
  induction e generalizing g with
  | nil => simp at hg
  | cons n ns ih =>
    cases g with
    | zero => simp
    | succ g =>
      have := ih g (by simpa using hg)
      simp only [List.take_succ_cons, List.sum_cons, List.getD_cons_succ]
      omega

/-- The children of a position. -/
theorem node_children (e : Edge) (N : List (Tree α)) (hN : N.length = e.sum) (p : Int) (hp : 0 ≤ p)
    (hp2 : p.toNat < e.length) :
    ∃ ch, ((parts e N).map Tree.node)[p.toNat]? = some (.node ch) ∧ ch.length = e.getD p.toNat 0 ∧
      (splitPoints 0 e).getD p.toNat 0 + ch.length ≤ N.length ∧
      ∀ j, j < ch.length → ch[j]? = N[(splitPoints 0 e).getD p.toNat 0 + j]? := by
  have hle := take_sum_le e p.toNat hp2
  have hs : (splitPoints 0 e).getD p.toNat 0 = (e.take p.toNat).sum := by
    rw [splitPoints_getD 0 e _ (by omega), Nat.zero_add]
  have hlen : ((N.drop (e.take p.toNat).sum).take (e.getD p.toNat 0)).length = e.getD p.toNat 0 := by
    simp only [List.length_take, List.length_drop]; omega
  refine ⟨(N.drop (e.take p.toNat).sum).take (e.getD p.toNat 0), ?_, hlen, ?_, ?_⟩
  · rw [List.getElem?_map, parts_get e N p.toNat hp2]
    rfl
  · rw [hs, hlen]; omega
  · intro j hj
    rw [hlen] at hj
    rw [hs, List.getElem?_take_of_lt hj, List.getElem?_drop]

theorem childIndex_spec (e : Edge) (N : List (Tree α)) (hN : N.length = e.sum) (p c : Int) (hp : 0 ≤ p)
    (hp2 : p.toNat < e.length) :
    (childIndex e (splitPoints 0 e) p c).bind (fun i => N[i.toNat]?) =
        (((parts e N).map Tree.node)[p.toNat]?).bind (fun t => child t c) ∧
      ∀ i, childIndex e (splitPoints 0 e) p c = some i → 0 ≤ i ∧ i.toNat < N.length := by
  obtain ⟨ch, h1, h2, h3, h4⟩ := node_children e N hN p hp hp2
  rw [h1]
  simp only [Option.bind_some]
  have hc : (child (.node ch) c) = (if 0 ≤ c then ch[c.toNat]?
    else if -(ch.length : Int) ≤ c then ch[(ch.length + c).toNat]? else none) := rfl
  rw [hc]
  unfold childIndex
  rw [← h2]
  generalize (splitPoints 0 e).getD p.toNat 0 = off at *
  by_cases hc0 : c < 0
  · simp only [if_pos hc0]
    rw [if_neg (show ¬ (0 ≤ c) from by omega)]
    by_cases hb : c + (ch.length : Int) < 0 ∨ c + (ch.length : Int) ≥ ch.length
    · rw [if_pos hb, if_neg (by omega)]
      exact ⟨rfl, by simp⟩
    · rw [if_neg hb, if_pos (by omega)]
      refine ⟨?_, ?_⟩
      · rw [h4 _ (by omega)]
        simp only [Option.bind_some]
        congr 1
        omega
      · intro i hi
        simp only [Option.some.injEq] at hi
        omega
  · simp only [if_neg hc0]
    rw [if_pos (show 0 ≤ c from by omega)]
    by_cases hb : c < 0 ∨ c ≥ (ch.length : Int)
    · rw [if_pos hb]
      refine ⟨?_, by simp⟩
      rw [List.getElem?_eq_none (by omega)]
      rfl
    · rw [if_neg hb]
      refine ⟨?_, ?_⟩
      · rw [h4 _ (by omega)]
        simp only [Option.bind_some]
        congr 1
        omega
      · intro i hi
        simp only [Option.some.injEq] at hi
        omega

theorem clampPos_bound (n : Nat) (i : Int) : clampPos n i = (bound n i : Nat) := by
  unfold clampPos bound
  by_cases h : i < 0
  · simp only [if_pos h]
    rw [if_neg (show ¬ (0 ≤ i) from by omega)]
    by_cases h2 : i + (n : Int) < 0
    · rw [if_pos h2]; omega
    · rw [if_neg h2, if_neg (by omega)]; omega
  · simp only [if_neg h]
    rw [if_pos (show 0 ≤ i from by omega)]
    by_cases h2 : i > (n : Int)
    · rw [if_pos h2]; omega
    · rw [if_neg h2]; omega

theorem bound_le (n : Nat) (i : Int) : bound n i ≤ n := by
  unfold bound
  by_cases h : 0 ≤ i
  · rw [if_pos h]; omega
  · rw [if_neg h]; omega

theorem range_part (N ch : List (Tree α)) (off lo hi : Nat) (hhi : hi ≤ ch.length)
    (h3 : off + ch.length ≤ N.length) (h4 : ∀ j, j < ch.length → ch[j]? = N[off + j]?) :
    ((List.range (hi - lo)).map fun (i : Nat) => N[off + (lo + i)]?) =
      ((ch.take hi).drop lo).map some := by
  apply List.ext_getElem?
  intro j
  rw [List.getElem?_map, List.getElem?_map, List.getElem?_drop]
  by_cases hj : j < hi - lo
  · rw [List.getElem?_range hj, List.getElem?_take_of_lt (by omega), h4 _ (by omega)]
    simp only [Option.map_some]
    rw [List.getElem?_eq_getElem (show off + (lo + j) < N.length from by omega)]
    rfl
  · rw [List.getElem?_eq_none (by simp; omega), List.getElem?_eq_none (by simp; omega)]
    rfl

/-- A range of a position, both bounds given. -/
theorem childRange_spec (e : Edge) (N : List (Tree α)) (hN : N.length = e.sum) (p : Int) (hp : 0 ≤ p)
    (hp2 : p.toNat < e.length) (a b : Int) (start stop : Option (Option Int))
    (hstart : start = some (some a) ∨ (start = none ∧ a = 0))
    (hstop : stop = some (some b) ∨ (stop = none ∧ b = (e.getD p.toNat 0 : Nat))) :
    ∃ t, ((parts e N).map Tree.node)[p.toNat]? = some t ∧ t.children.length = e.getD p.toNat 0 ∧
    (childRange e (splitPoints 0 e) (some p) start stop).map (fun i => N[i.toNat]?) =
        (slicePart t.children a b).map some ∧
      ∀ i ∈ childRange e (splitPoints 0 e) (some p) start stop, 0 ≤ i ∧ i.toNat < N.length := by
  obtain ⟨ch, h1, h2, h3, h4⟩ := node_children e N hN p hp hp2
  refine ⟨.node ch, h1, h2, ?_⟩
  have hcr : childRange e (splitPoints 0 e) (some p) start stop =
      (List.range ((clampPos ch.length b) - (clampPos ch.length a)).toNat).map fun (i : Nat) =>
        (((splitPoints 0 e).getD p.toNat 0 : Nat) : Int) + (clampPos ch.length a + i) := by
    rw [h2]
    rcases hstart with rfl | ⟨rfl, rfl⟩ <;> rcases hstop with rfl | ⟨rfl, rfl⟩ <;> rfl
  rw [hcr]
  simp only [clampPos_bound]
  have hb := bound_le ch.length b
  have ha := bound_le ch.length a
  generalize (splitPoints 0 e).getD p.toNat 0 = off at *
  have hsub : ((bound ch.length b : Int) - (bound ch.length a : Int)).toNat =
      bound ch.length b - bound ch.length a := by omega
  rw [hsub]
  constructor
  · rw [List.map_map]
    have := range_part N ch off (bound ch.length a) (bound ch.length b) hb h3 h4
    unfold slicePart
    simp only [Tree.children]
    rw [← this]
    apply List.map_congr_left
    intro i _
    simp only [Function.comp]
    congr 1
  · intro i hi
    obtain ⟨j, hj, rfl⟩ := List.mem_map.mp hi
    have := List.mem_range.mp hj
    omega

theorem slicePart_all {β : Type} (l : List β) : slicePart l 0 l.length = l := by
  simp [slicePart, bound]

end Verif.SliceOps
