import Verif.SliceOps.Nest

/-! Lemmas on `select` and `inverse_select`. -/

namespace Verif.SliceOps

variable {α β γ : Type}

theorem keep_map (f : α → β) (m : List Bool) (l : List α) : keep m (l.map f) = (keep m l).map f := by
  induction m generalizing l with
  | nil => simp [keep]
  | cons b m ih =>
    cases l with
    | nil => cases b <;> simp [keep]
    | cons x l => cases b <;> simp [keep, ih]

theorem keep_length (m : List Bool) (l : List α) (h : m.length = l.length) :
    (keep m l).length = m.count true := by
  induction m generalizing l with
  | nil => simp [keep]
  | cons b m ih =>
    cases l with
    | nil => simp at h
    | cons x l =>
      have := ih l (by simpa using h)
      cases b <;> simp [keep, this]

theorem keep_append (m m' : List Bool) (l l' : List α) (h : m.length = l.length) :
    keep (m ++ m') (l ++ l') = keep m l ++ keep m' l' := by
  induction m generalizing l with
  | nil => cases l with
    | nil => simp [keep]
    | cons x l => simp at h
  | cons b m ih =>
    cases l with
    | nil => simp at h
    | cons x l =>
      have := ih l (by simpa using h)
      cases b <;> simp [keep, this]

theorem keep_true (n : Nat) (l : List α) (h : l.length = n) : keep (List.replicate n true) l = l := by
  subst h
  induction l with
  | nil => simp [keep]
  | cons x l ih => simp [keep, List.replicate_succ, ih]

theorem keep_false (n : Nat) (l : List α) : keep (List.replicate n false) l = [] := by
  induction l generalizing n with
  | nil => cases n <;> simp [keep, List.replicate_succ]
  | cons x l ih => cases n <;> simp [keep, List.replicate_succ, ih]

theorem filter_zip (l : List α) (m : List β) (f : β → Bool) :
    ((l.zip m).filter (fun p => f p.2)).map (·.1) = keep (m.map f) l := by
  induction l generalizing m with
  | nil =>
    cases m with
    | nil => simp [keep]
    | cons y m => cases h : f y <;> simp [keep, h]
  | cons x l ih =>
    cases m with
    | nil => simp [keep]
    | cons y m => cases h : f y <;> simp [keep, h, ih]

theorem parts_keep (e : List Nat) (m : List Bool) (l : List α) (hm : m.length = e.sum)
    (hl : l.length = e.sum) :
    parts ((parts e m).map (·.count true)) (keep m l) = List.zipWith keep (parts e m) (parts e l) := by
  induction e generalizing m l with
  | nil => rfl
  | cons n ns ih =>
    simp at hm hl
    have h1 : keep m l = keep (m.take n) (l.take n) ++ keep (m.drop n) (l.drop n) := by
      rw [← keep_append _ _ _ _ (by simp; omega), List.take_append_drop, List.take_append_drop]
    have h2 : (keep (m.take n) (l.take n)).length = (m.take n).count true :=
      keep_length _ _ (by simp; omega)
    simp only [parts, List.map_cons, List.zipWith_cons_cons]
    rw [h1, ← h2, List.take_left', List.drop_left', ih _ _ (by simp; omega) (by simp; omega)]
    · rfl
    · rfl

theorem expand_length (e : Edge) (m : List α) (h : m.length = e.length) :
    (expand e m).length = e.sum := by
  induction e generalizing m with
  | nil => simp [expand]
  | cons n ns ih =>
    cases m with
    | nil => simp at h
    | cons x m => simp [expand, ih m (by simpa using h)]

theorem parts_keep_expand (e : Edge) (m : List Bool) (l : List α) (hm : m.length = e.length)
    (hl : l.length = e.sum) :
    parts (keep m e) (keep (expand e m) l) = keep m (parts e l) := by
  induction e generalizing m l with
  | nil =>
    cases m with
    | nil => rfl
    | cons b m => simp at hm
  | cons n ns ih =>
    cases m with
    | nil => simp at hm
    | cons b m =>
      simp at hm hl
      have h1 : keep (expand (n :: ns) (b :: m)) l =
          keep (List.replicate n b) (l.take n) ++ keep (expand ns m) (l.drop n) := by
        rw [← keep_append _ _ _ _ (by simp; omega), List.take_append_drop]
        rfl
      have h3 : (l.take n).length = n := by simp; omega
      rw [h1]
      cases b with
      | false =>
        rw [keep_false]
        simpa [keep, parts] using ih m (l.drop n) hm (by simp; omega)
      | true =>
        rw [keep_true n _ h3]
        simp only [keep, parts]
        rw [List.take_left' h3, List.drop_left' h3, ih m (l.drop n) hm (by simp; omega)]

theorem keep_sum_fits (e : Edge) (m : List Bool) (hm : m.length = e.length) :
    (keep m e).sum = (expand e m).count true := by
  induction e generalizing m with
  | nil =>
    cases m with
    | nil => rfl
    | cons b m => simp at hm
  | cons n ns ih =>
    cases m with
    | nil => simp at hm
    | cons b m =>
      have := ih m (by simpa using hm)
      cases b <;> simp [keep, expand, this, List.count_append, List.count_replicate]

theorem selectEdges_spec (es : List Edge) (mask : List Bool) (Y : List (Tree α))
    (h : Fits mask.length es Y.length) :
    nest (selectEdges es mask).1 (keep (selectEdges es mask).2 Y) = keep mask (nest es Y) ∧
      Fits (mask.count true) (selectEdges es mask).1 (keep (selectEdges es mask).2 Y).length ∧
      (selectEdges es mask).2.length = Y.length ∧ (selectEdges es mask).1.length = es.length := by
  induction es generalizing mask with
  | nil =>
    have h : mask.length = Y.length := h
    exact ⟨rfl, (keep_length _ _ h).symm, h, rfl⟩
  | cons e es ih =>
    obtain ⟨h1, h2⟩ := h
    have hx : (expand e mask).length = e.sum := expand_length _ _ h1.symm
    obtain ⟨i1, i2, i3, i4⟩ := ih (expand e mask) (by rw [hx]; exact h2)
    refine ⟨?_, ⟨?_, ?_⟩, i3, ?_⟩
    · simp only [selectEdges, nest, i1]
      rw [parts_keep_expand _ _ _ h1.symm (nest_length h2), keep_map]
    · exact keep_length _ _ h1.symm
    · rw [keep_sum_fits _ _ h1.symm]; exact i2
    · simp [selectEdges, i4]

/-! ### masks -/

theorem maskOf_ok {l : List (Option Uuid.Item)} : 
    (AllMask l → maskOf l = .ok (l.map Option.isSome)) ∧ (¬ AllMask l → maskOf l = .error .notMask) := by
  unfold maskOf
  by_cases h : l.all (·.isNone) = true
  · rw [if_pos h]
    have h' := List.all_eq_true.mp h
    refine ⟨fun _ => ?_, fun hn => absurd ?_ hn⟩
    · congr 1
      apply List.map_congr_left
      intro x hx
      have := h' x hx
      cases x <;> simp_all
    · intro x hx
      have := h' _ hx
      simp at this
  · rw [if_neg h]
    by_cases h2 : l.all (fun x => x.isNone || x == some .unit) = true
    · rw [if_pos h2]
      refine ⟨fun _ => rfl, fun hn => absurd ?_ hn⟩
      intro x hx
      have := List.all_eq_true.mp h2 _ hx
      simpa using this
    · rw [if_neg h2]
      refine ⟨fun hm => absurd ?_ h2, fun _ => rfl⟩
      rw [List.all_eq_true]
      intro x hx
      cases x with
      | none => simp
      | some x => simp [hm x hx]

theorem present_leaf (l : List (Option β)) :
    (l.map Tree.leaf).map Tree.present = l.map Option.isSome := by
  rw [List.map_map]
  apply List.map_congr_left
  intro x _
  cases x <;> rfl

/-! ### prefixes of shapes -/

theorem isBroadcastable_iff (es fs : List Edge) : isBroadcastable es fs = true ↔ es <+: fs := by
  unfold isBroadcastable
  exact List.isPrefixOf_iff_prefix

theorem selectOp_spec {ds : Slice α} {f : Slice Uuid.Item} (hd : Wf ds) (hf : Wf f)
    (h1 : 1 ≤ f.rank) (hp : f.edges <+: ds.edges) (hm : AllMask f.items) :
    ∃ s, selectOp ds f = .ok s ∧ Wf s ∧ s.rank = ds.rank ∧
      view s = zipAt (f.rank - 1) selectNode (view ds) (view f) := by
  obtain ⟨rest, hrest⟩ := hp
  have hne : f.edges ≠ [] := by intro h; simp [Slice.rank, h] at h1
  obtain ⟨U, e, hUe⟩ : ∃ U e, f.edges = U ++ [e] :=
    ⟨f.edges.dropLast, f.edges.getLast hne, (List.dropLast_concat_getLast hne).symm⟩
  have hr : f.rank = U.length + 1 := by simp [Slice.rank, hUe]
  have hde : ds.edges = U ++ e :: rest := by rw [← hrest, hUe]; simp
  have hf' : Fits 1 (U ++ [e]) f.items.length := by rw [← hUe]; exact hf
  obtain ⟨k, hU, hk, hfe⟩ := Fits.append.mp hf'
  have hfe : e.sum = f.items.length := hfe
  have hd' : Fits 1 (U ++ e :: rest) ds.items.length := by rw [← hde]; exact hd
  obtain ⟨k', hU', -, hdrest⟩ := Fits.append.mp hd'
  let mask := f.items.map Option.isSome
  have hmask : maskOf f.items = .ok mask := maskOf_ok.1 hm
  have hml : mask.length = e.sum := by simp [mask, hfe]
  obtain ⟨s1, s2, s3, s4⟩ := selectEdges_spec rest mask (ds.items.map Tree.leaf)
    (by rw [hml]; simpa using hdrest)
  rw [keep_map, List.length_map] at s2
  rw [keep_map] at s1
  have hnl : (nest rest (ds.items.map Tree.leaf)).length = e.sum := nest_length (by simpa using hdrest)
  have hce : (countPresent e mask).sum = mask.count true := by
    unfold countPresent
    rw [chop_eq]
    have := parts_flatten e mask hml
    conv => rhs; rw [← this, List.count_flatten]
  have hfits : Fits 1 (U ++ countPresent e mask :: (selectEdges rest mask).1)
      (keep (selectEdges rest mask).2 ds.items).length := by
    refine Fits.append.mpr ⟨k, hU, ?_, ?_⟩
    · simp [countPresent, chop_eq, parts_length, hk]
    · rw [hce]; exact s2
  refine ⟨⟨U ++ countPresent e mask :: (selectEdges rest mask).1,
    keep (selectEdges rest mask).2 ds.items⟩, ?_, hfits, ?_, ?_⟩
  · unfold selectOp
    rw [if_neg (by omega), if_neg, if_neg, hmask]
    · have : f.rank - 1 = U.length := by omega
      simp only [this, hde, List.drop_left, List.take_left]
      rw [if_neg]
      rw [shapeOk_of hfits]; simp
    · rw [(isBroadcastable_iff _ _).mpr ⟨rest, hrest⟩]; simp
    · have : ds.rank = U.length + (rest.length + 1) := by simp [Slice.rank, hde]
      omega
  · simp [Slice.rank, hde, s4]
  · apply view_of
    have hvd := nest_view hd
    have hvf := nest_view hf
    have hz := nest_zip U selectNode (nest (e :: rest) (ds.items.map Tree.leaf))
      (nest [e] (f.items.map Tree.leaf))
    rw [← nest_append, ← nest_append, ← hde, ← hUe, hvd, hvf] at hz
    have hr' : f.rank - 1 = U.length := by omega
    rw [hr']
    refine Eq.trans ?_ hz.symm
    simp only [nest_append]
    congr 1
    simp only [nest]
    rw [s1, List.zipWith_map]
    unfold countPresent
    rw [chop_eq, parts_keep e mask _ hml hnl, List.map_zipWith]
    rw [show mask = (f.items.map Tree.leaf).map Tree.present from (present_leaf _).symm, parts_map,
      List.zipWith_map_left, List.zipWith_comm]
    congr 1
    funext ts fs
    simp only [selectNode, filter_zip]

end Verif.SliceOps
