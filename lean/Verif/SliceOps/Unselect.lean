import Verif.SliceOps.Broadcast

/-! Lemmas on `inverse_select`. -/

namespace Verif.SliceOps

variable {α β γ : Type}

theorem fill_length (m : List Bool) (l : List (Option α)) : (fill m l).length = m.length := by
  induction m generalizing l with
  | nil => rfl
  | cons b m ih => cases b <;> cases l <;> simp [fill, ih]

theorem fill_append (m m' : List Bool) (l l' : List (Option α)) (h : l.length = m.count true) :
    fill (m ++ m') (l ++ l') = fill m l ++ fill m' l' := by
  induction m generalizing l with
  | nil =>
    cases l with
    | nil => simp [fill]
    | cons x l => simp at h
  | cons b m ih =>
    cases b with
    | false => simpa [fill] using ih l (by simpa using h)
    | true =>
      cases l with
      | nil => simp at h
      | cons x l => simpa [fill] using ih l (by simpa using h)

theorem parts_fill (e : List Nat) (m : List Bool) (l : List (Option α)) (hm : m.length = e.sum)
    (hl : l.length = m.count true) :
    parts e (fill m l) =
      List.zipWith fill (parts e m) (parts ((parts e m).map (·.count true)) l) := by
  induction e generalizing m l with
  | nil => rfl
  | cons n ns ih =>
    simp at hm
    let c := (m.take n).count true
    have hc : c + (m.drop n).count true = l.length := by
      rw [hl]
      conv => rhs; rw [← List.take_append_drop n m, List.count_append]
    have h1 : fill m l = fill (m.take n) (l.take c) ++ fill (m.drop n) (l.drop c) := by
      rw [← fill_append _ _ _ _ (by simp; omega), List.take_append_drop, List.take_append_drop]
    have h2 : (fill (m.take n) (l.take c)).length = n := by rw [fill_length]; simp; omega
    rw [h1]
    simp only [parts, List.map_cons, List.zipWith_cons_cons]
    rw [List.take_left' h2, List.drop_left' h2, ih _ _ (by simp; omega) (by simp; omega)]

theorem unselect_fill (l : List (Option α)) (f : List (Option β)) :
    unselect (l.map .leaf) (f.map .leaf) = (fill (f.map Option.isSome) l).map .leaf := by
  induction f generalizing l with
  | nil => simp [unselect, fill]
  | cons x f ih =>
    cases x with
    | none => cases l <;> simp [unselect, fill, ← ih]
    | some x => cases l <;> simp [unselect, fill, ← ih]

theorem keep_fill (m : List Bool) (l : List (Option α)) (h : l.length = m.count true) :
    keep m (fill m l) = l := by
  induction m generalizing l with
  | nil => simp at h; simp [keep, h]
  | cons b m ih =>
    cases b with
    | false => simpa [fill, keep] using ih l (by simpa using h)
    | true =>
      cases l with
      | nil => simp at h
      | cons x l => simpa [fill, keep] using ih l (by simpa using h)

theorem fill_keep (m : List Bool) (l : List (Option α)) (h : m.length = l.length) :
    fill m (keep m l) = List.zipWith (fun b x => if b = true then x else none) m l := by
  induction m generalizing l with
  | nil => simp [fill]
  | cons b m ih =>
    cases l with
    | nil => simp at h
    | cons x l =>
      have := ih l (by simpa using h)
      cases b <;> simp [fill, keep, this]

theorem counts_eq (e : Edge) (l : List (Option β)) :
    countPresent e (l.map Option.isSome) = (parts e l).map (·.countP Option.isSome) := by
  unfold countPresent
  rw [chop_eq, parts_map, List.map_map]
  apply List.map_congr_left
  intro r _
  simp only [Function.comp, List.count, List.countP_map]
  congr 1
  funext x
  cases x <;> rfl

theorem count_some (l : List (Option β)) : (l.map Option.isSome).count true = l.countP Option.isSome := by
  simp only [List.count, List.countP_map]
  congr 1
  funext x
  cases x <;> rfl

theorem counts_sum (e : Edge) (l : List (Option β)) (h : l.length = e.sum) :
    ((parts e l).map (·.countP Option.isSome)).sum = l.countP Option.isSome := by
  conv => rhs; rw [← parts_flatten e l h, List.countP_flatten]

theorem inverseSelect_spec {ds : Slice α} {f : Slice Uuid.Item} {schema : Uuid.Item} {U : List Edge}
    {e : Edge} (hd : Wf ds) (hf : Wf f) (hs : schema = .dtype 11 ∨ schema = .dtype 5)
    (hUe : f.edges = U ++ [e])
    (hde : ds.edges = U ++ [(parts e f.items).map (·.countP Option.isSome)]) (hm : AllMask f.items) :
    ∃ s, inverseSelect ds f schema = .ok s ∧ Wf s ∧ s.edges = f.edges ∧
      s.items = fill (f.items.map Option.isSome) ds.items ∧
      ds.items.length = (f.items.map Option.isSome).count true ∧
      view s = zipAt (f.rank - 1) unselectNode (view ds) (view f) := by
  have hf' : Fits 1 (U ++ [e]) f.items.length := by rw [← hUe]; exact hf
  obtain ⟨k, hU, hk, hfe⟩ := Fits.append.mp hf'
  have hfe : e.sum = f.items.length := hfe
  have hd' : Fits 1 (U ++ [(parts e f.items).map (·.countP Option.isSome)]) ds.items.length := by rw [← hde]; exact hd
  obtain ⟨k', hU', -, hde'⟩ := Fits.append.mp hd'
  have hde' : ((parts e f.items).map (·.countP Option.isSome)).sum = ds.items.length := hde'
  rw [counts_sum _ _ hfe.symm, ← count_some] at hde'
  let mask := f.items.map Option.isSome
  have hml : mask.length = e.sum := by simp [mask, hfe]
  refine ⟨⟨f.edges, fill mask ds.items⟩, ?_, ?_, rfl, rfl, hde'.symm, ?_⟩
  · unfold inverseSelect
    rw [if_neg (by simp [Slice.rank, hde]), if_neg (by rcases hs with rfl | rfl <;> simp),
      if_neg (by simp [Slice.rank, hde, hUe]), maskOf_ok.1 hm]
    have : replaceLast f.edges (countPresent (f.edges.getLast?.getD []) (f.items.map Option.isSome)) =
        ds.edges := by
      rw [counts_eq, hUe, hde]
      simp [replaceLast]
    simp only [this]
    rw [if_neg (by rw [shapeOk_of hd]; simp), if_neg (by simp)]
  · show Fits 1 f.edges _
    rw [fill_length]
    simpa [mask, Wf] using hf
  · apply view_of
    have hz := nest_zip U unselectNode
      (nest [(parts e f.items).map (·.countP Option.isSome)] (ds.items.map Tree.leaf))
      (nest [e] (f.items.map Tree.leaf))
    rw [← nest_append, ← nest_append, ← hde, ← hUe, nest_view hd, nest_view hf] at hz
    have hr' : f.rank - 1 = U.length := by simp [Slice.rank, hUe]
    rw [hr']
    refine Eq.trans ?_ hz.symm
    show nest f.edges _ = _
    rw [hUe, nest_append]
    congr 1
    simp only [nest]
    have hC : (parts e mask).map (·.count true) = (parts e f.items).map (·.countP Option.isSome) := by
      rw [← counts_eq, countPresent, chop_eq]
    have hM : parts e mask = (parts e f.items).map (List.map Option.isSome) := parts_map _ _ _
    rw [parts_map Tree.leaf e (fill mask ds.items), parts_fill e mask _ hml hde'.symm, hC, hM,
      parts_map Tree.leaf _ ds.items, parts_map Tree.leaf e f.items, List.map_map, List.map_map,
      List.map_map, List.zipWith_map, List.map_zipWith, List.zipWith_map_left, List.zipWith_comm]
    congr 1
    funext a b
    simp [unselectNode, unselect_fill]

end Verif.SliceOps
