import Verif.SliceOps.Select

/-! Lemmas on broadcasting and aligning. -/

namespace Verif.SliceOps

variable {α β γ : Type}

theorem fillTrees_eq (x : Option β) (ts : List (Tree α)) : fillTrees x ts = ts.map (fillTree x) := by
  induction ts with
  | nil => simp [fillTrees]
  | cons t ts ih => simp [fillTrees, ih]

theorem expandAll_length {n m : Nat} {es : List Edge} (h : Fits n es m) (l : List α)
    (hl : l.length = n) : (expandAll es l).length = m := by
  induction es generalizing n l with
  | nil => exact hl.trans h
  | cons e es ih => exact ih h.2 _ (expand_length _ _ (hl.trans h.1.symm))

theorem expand_map (f : α → β) (e : Edge) (l : List α) : expand e (l.map f) = (expand e l).map f := by
  induction e generalizing l with
  | nil => simp [expand]
  | cons n ns ih => cases l <;> simp [expand, ih]

theorem expandAll_map (f : α → β) (es : List Edge) (l : List α) :
    expandAll es (l.map f) = (expandAll es l).map f := by
  induction es generalizing l with
  | nil => rfl
  | cons e es ih => simp [expandAll, expand_map, ih]

theorem parts_zip_expand (f : α → β → γ) (e : Edge) (l : List α) (k : List β) (hl : l.length = e.length)
    (hk : k.length = e.sum) :
    parts e (List.zipWith f (expand e l) k) = List.zipWith (fun x row => row.map (f x)) l (parts e k) := by
  induction e generalizing l k with
  | nil => cases l <;> simp_all [parts]
  | cons n ns ih =>
    cases l with
    | nil => simp at hl
    | cons x l =>
      simp at hl hk
      have h3 : (k.take n).length = n := by simp; omega
      have h1 : List.zipWith f (expand (n :: ns) (x :: l)) k =
          (k.take n).map (f x) ++ List.zipWith f (expand ns l) (k.drop n) := by
        conv => lhs; rw [← List.take_append_drop n k]
        rw [expand, List.zipWith_append (by simp; omega)]
        congr 1
        have : ∀ r : List β, List.zipWith f (List.replicate r.length x) r = r.map (f x) := by
          intro r
          induction r with
          | nil => rfl
          | cons y r ih => simp [List.replicate_succ, ih]
        rw [← this (k.take n), h3]
      rw [h1]
      simp only [parts, List.zipWith_cons_cons]
      rw [List.take_left' (by simp; omega), List.drop_left' (by simp; omega),
        ih l (k.drop n) hl (by simp; omega)]

theorem nest_spread (es : List Edge) (Z : List (Option β)) (Y : List (Option α))
    (h : Fits Z.length es Y.length) :
    nest es ((expandAll es Z).map .leaf) =
      List.zipWith spread (Z.map .leaf) (nest es (Y.map .leaf)) := by
  induction es generalizing Z with
  | nil =>
    have h : Z.length = Y.length := h
    simp only [expandAll, nest]
    rw [List.zipWith_map]
    simp only [spread, fillTree]
    induction Z generalizing Y with
    | nil => simp
    | cons z Z ih =>
      cases Y with
      | nil => simp at h
      | cons y Y =>
        have hzy : Z.length = Y.length := by simpa using h
        simpa using ih Y hzy hzy
  | cons e es ih =>
    have hx := expand_length e Z h.1.symm
    simp only [expandAll, nest]
    rw [ih (expand e Z) (by rw [hx]; exact h.2)]
    rw [← expand_map, parts_zip_expand _ _ _ _ (by simpa using h.1.symm)
      (nest_length (by simpa using h.2)), List.map_zipWith, List.zipWith_map_left,
      List.zipWith_map_left, List.zipWith_map_right]
    congr 1
    funext z row
    simp [spread, fillTree, fillTrees_eq]

theorem broadcastTo_ok {s : Slice β} {x : Slice α} (hs : Wf s) (hx : Wf x)
    (h : s.edges <+: x.edges) :
    broadcastTo s x.edges = .ok ⟨x.edges, expandAll (x.edges.drop s.rank) s.items⟩ := by
  unfold broadcastTo
  rw [(isBroadcastable_iff _ _).mpr h]
  simp only [Bool.not_true, Bool.false_eq_true, if_false]
  by_cases hr : s.rank = x.edges.length
  · rw [if_pos hr]
    have := h.eq_of_length hr
    congr 1
    rw [hr, List.drop_length]
    show s = ⟨x.edges, s.items⟩
    rw [← this]
  · rw [if_neg hr]

theorem broadcastTo_spec {s : Slice β} {x : Slice α} (hs : Wf s) (hx : Wf x)
    (h : s.edges <+: x.edges) :
    ∃ t, broadcastTo s x.edges = .ok t ∧ t.edges = x.edges ∧ Wf t ∧
      view t = zipAt s.rank spread (view s) (view x) := by
  obtain ⟨W, hW⟩ := id h
  have hd : x.edges.drop s.rank = W := by rw [← hW]; simp [Slice.rank]
  have hx' : Fits 1 (s.edges ++ W) x.items.length := by rw [hW]; exact hx
  obtain ⟨k, hk1, hk2⟩ := Fits.append.mp hx'
  have hk : k = s.items.length := hk1.unique hs
  subst hk
  refine ⟨_, broadcastTo_ok hs hx h, rfl, ?_, ?_⟩
  · show Fits 1 x.edges _
    rw [hd, expandAll_length hk2 _ rfl]
    exact hx
  · apply view_of
    show nest x.edges _ = _
    rw [hd, ← hW, nest_append, nest_spread W s.items x.items hk2, ← nest_zip, ← nest_append, hW,
      nest_view hs, nest_view hx]
    rfl

theorem broadcastTo_error {s : Slice β} {es : List Edge} (h : ¬ s.edges <+: es) :
    broadcastTo s es = .error .broadcast := by
  unfold broadcastTo
  have : isBroadcastable s.edges es = false := by
    cases hb : isBroadcastable s.edges es
    · rfl
    · exact absurd ((isBroadcastable_iff _ _).mp hb) h
  simp [this]

theorem broadcastTo_self (s : Slice β) : broadcastTo s s.edges = .ok s := by
  unfold broadcastTo
  rw [(isBroadcastable_iff _ _).mpr (List.prefix_refl _)]
  simp [Slice.rank]

/-! ### align -/

theorem alignWith_left (f : Option α → Option β → Tree γ) (W : List Edge) (A : List (Option α))
    (B : List (Option β)) (h : Fits A.length W B.length) :
    List.zipWith (alignWith f 0 W.length) (A.map .leaf) (nest W (B.map .leaf)) =
      nest W (List.zipWith f (expandAll W A) B) := by
  induction W generalizing A with
  | nil =>
    simp only [nest, expandAll, List.zipWith_map, List.length_nil]
    congr 1
    funext a b
    simp [alignWith]
  | cons w W ih =>
    have hx := expand_length w A h.1.symm
    simp only [nest, expandAll]
    rw [← ih (expand w A) (by rw [hx]; exact h.2), ← expand_map,
      parts_zip_expand _ _ _ _ (by simpa using h.1.symm) (nest_length (by simpa using h.2)),
      List.map_zipWith, List.zipWith_map_right, List.zipWith_map_left, List.zipWith_map_left]
    congr 1
    funext a row
    simp [alignWith]

theorem parts_zip_expand' (f : β → α → γ) (e : Edge) (l : List α) (k : List β) (hl : l.length = e.length)
    (hk : k.length = e.sum) :
    parts e (List.zipWith f k (expand e l)) = List.zipWith (fun row x => row.map (f · x)) (parts e k) l := by
  rw [List.zipWith_comm, parts_zip_expand _ _ _ _ hl hk, List.zipWith_comm]

theorem alignWith_right (f : Option α → Option β → Tree γ) (W : List Edge) (A : List (Option α))
    (B : List (Option β)) (h : Fits B.length W A.length) :
    List.zipWith (alignWith f W.length 0) (nest W (A.map .leaf)) (B.map .leaf) =
      nest W (List.zipWith f A (expandAll W B)) := by
  induction W generalizing B with
  | nil =>
    simp only [nest, expandAll, List.zipWith_map, List.length_nil]
    congr 1
    funext a b
    simp [alignWith]
  | cons w W ih =>
    have hx := expand_length w B h.1.symm
    simp only [nest, expandAll]
    rw [← ih (expand w B) (by rw [hx]; exact h.2), ← expand_map,
      parts_zip_expand' _ _ _ _ (by simpa using h.1.symm) (nest_length (by simpa using h.2)),
      List.map_zipWith, List.zipWith_map_left, List.zipWith_map_right, List.zipWith_map_right]
    congr 1
    funext row b
    simp [alignWith]

theorem alignWith_deep (f : Option α → Option β → Tree γ) (c d : Nat) (U : List Edge)
    (A : List (Tree α)) (B : List (Tree β)) :
    List.zipWith (alignWith f (U.length + c) (U.length + d)) (nest U A) (nest U B) =
      nest U (List.zipWith (alignWith f c d) A B) := by
  induction U with
  | nil => simp [nest]
  | cons e U ih =>
    simp only [nest]
    rw [← ih, parts_zipWith, List.zipWith_map, List.map_zipWith]
    congr 1
    funext ts us
    rw [show (e :: U).length + c = (U.length + c) + 1 from by simp; omega,
      show (e :: U).length + d = (U.length + d) + 1 from by simp; omega]
    simp only [alignWith]

/-- What `align2` returns. -/
theorem align2_spec {x : Slice α} {y : Slice β} (hx : Wf x) (hy : Wf y)
    (h : Compatible x.edges y.edges) :
    ∃ x' y', align2 x y = .ok (x', y') ∧ x'.edges = y'.edges ∧
      x'.rank = max x.rank y.rank ∧ Wf x' ∧ Wf y' ∧ (x'.edges = x.edges ∨ x'.edges = y.edges) ∧
      x.edges <+: x'.edges ∧ y.edges <+: x'.edges ∧
      ∀ {γ : Type} (f : Option α → Option β → Tree γ), nest x'.edges (List.zipWith f x'.items y'.items) =
        [alignWith f x.rank y.rank (view x) (view y)] := by
  unfold align2 largest
  by_cases hlt : x.edges.length < y.edges.length
  · rw [if_pos hlt]
    have hp : x.edges <+: y.edges := by
      rcases h with h | h
      · exact h
      · have := h.length_le; omega
    obtain ⟨t, ht, hte, htw, -⟩ := broadcastTo_spec hx hy hp
    obtain ⟨W, hW⟩ := id hp
    have hy' : Fits 1 (x.edges ++ W) y.items.length := by rw [hW]; exact hy
    obtain ⟨k, hk1, hk2⟩ := Fits.append.mp hy'
    have hk : k = x.items.length := hk1.unique hx
    subst hk
    have ht' := broadcastTo_ok hx hy hp
    rw [ht] at ht'
    cases ht'
    have hd : y.edges.drop x.rank = W := by rw [← hW]; simp [Slice.rank]
    refine ⟨_, y, by simp [largest, ht, broadcastTo_self], hte, ?_, htw, hy, .inr hte, hp,
      List.prefix_refl _, ?_⟩
    · simp [Slice.rank]; omega
    · intro γ f
      show nest y.edges (List.zipWith f (expandAll (y.edges.drop x.rank) x.items) y.items) = _
      rw [hd, ← hW, nest_append, ← alignWith_left f W x.items y.items hk2]
      have := alignWith_deep f 0 W.length x.edges (x.items.map .leaf) (nest W (y.items.map .leaf))
      rw [← this, ← nest_append, hW, nest_view hx, nest_view hy]
      have hr : y.rank = x.edges.length + W.length := by simp [Slice.rank, ← hW]
      rw [hr]
      rfl
  · rw [if_neg hlt]
    have hp : y.edges <+: x.edges := by
      rcases h with h | h
      · have := h.eq_of_length (by have := h.length_le; omega)
        rw [this]
        exact List.prefix_refl _
      · exact h
    obtain ⟨t, ht, hte, htw, -⟩ := broadcastTo_spec hy hx hp
    obtain ⟨W, hW⟩ := id hp
    have hx' : Fits 1 (y.edges ++ W) x.items.length := by rw [hW]; exact hx
    obtain ⟨k, hk1, hk2⟩ := Fits.append.mp hx'
    have hk : k = y.items.length := hk1.unique hy
    subst hk
    have ht' := broadcastTo_ok hy hx hp
    rw [ht] at ht'
    cases ht'
    have hd : x.edges.drop y.rank = W := by rw [← hW]; simp [Slice.rank]
    refine ⟨x, _, by simp [largest, ht, broadcastTo_self], rfl, ?_, hx, htw, .inl rfl,
      List.prefix_refl _, hp, ?_⟩
    · simp [Slice.rank]; omega
    · intro γ f
      show nest x.edges (List.zipWith f x.items (expandAll (x.edges.drop y.rank) y.items)) = _
      rw [hd, ← hW, nest_append, ← alignWith_right f W x.items y.items hk2]
      have := alignWith_deep f W.length 0 y.edges (nest W (x.items.map .leaf)) (y.items.map .leaf)
      rw [← this, ← nest_append, hW, nest_view hx, nest_view hy]
      have hr : x.rank = y.edges.length + W.length := by simp [Slice.rank, ← hW]
      rw [hr]
      rfl

theorem align2_error {x : Slice α} {y : Slice β} (h : ¬ Compatible x.edges y.edges) :
    align2 x y = .error .broadcast := by
  have h1 : ¬ x.edges <+: y.edges := fun h' => h (.inl h')
  have h2 : ¬ y.edges <+: x.edges := fun h' => h (.inr h')
  unfold align2 largest
  by_cases hlt : x.edges.length < y.edges.length
  · rw [if_pos hlt]
    simp [largest, broadcastTo_error h1]
  · rw [if_neg hlt]
    simp only [largest, broadcastTo_error h2, broadcastTo_self]

theorem largest_spec (b : List Edge) (l : List (List Edge)) :
    (largest b l = b ∨ largest b l ∈ l) ∧ b.length ≤ (largest b l).length ∧
      ∀ es ∈ l, es.length ≤ (largest b l).length := by
  induction l generalizing b with
  | nil => simp [largest]
  | cons es l ih =>
    unfold largest
    by_cases h : b.length < es.length
    · rw [if_pos h]
      obtain ⟨h1, h2, h3⟩ := ih es
      refine ⟨?_, by omega, ?_⟩
      · rcases h1 with h1 | h1
        · rw [h1]; simp
        · exact .inr (List.mem_cons_of_mem _ h1)
      · intro fs hfs
        rcases List.mem_cons.mp hfs with rfl | hfs
        · exact h2
        · exact h3 _ hfs
    · rw [if_neg h]
      obtain ⟨h1, h2, h3⟩ := ih b
      refine ⟨?_, h2, ?_⟩
      · rcases h1 with h1 | h1
        · exact .inl h1
        · exact .inr (List.mem_cons_of_mem _ h1)
      · intro fs hfs
        rcases List.mem_cons.mp hfs with rfl | hfs
        · omega
        · exact h3 _ hfs

theorem broadcastAll_spec {x : Slice α} (hx : Wf x) (l : List (Slice α)) (hl : ∀ s ∈ l, Wf s)
    (hp : ∀ s ∈ l, s.edges <+: x.edges) :
    ∃ ts, broadcastAll x.edges l = .ok ts ∧ ts.length = l.length ∧ (∀ t ∈ ts, t.edges = x.edges ∧ Wf t) ∧
      ts.map view = l.map (fun s => zipAt s.rank spread (view s) (view x)) := by
  induction l with
  | nil => exact ⟨[], rfl, rfl, by simp, rfl⟩
  | cons s l ih =>
    obtain ⟨t, ht, h1, h2, h3⟩ := broadcastTo_spec (hl s (by simp)) hx (hp s (by simp))
    obtain ⟨ts, hts, h4, h5, h6⟩ := ih (fun s hs => hl s (by simp [hs])) (fun s hs => hp s (by simp [hs]))
    refine ⟨t :: ts, by simp [broadcastAll, ht, hts], by simp [h4], ?_, by simp [h3, h6]⟩
    intro u hu
    rcases List.mem_cons.mp hu with rfl | hu
    · exact ⟨h1, h2⟩
    · exact h5 u hu

theorem broadcastAll_error {es : List Edge} (l : List (Slice α))
    (hp : ∃ s ∈ l, ¬ s.edges <+: es) : broadcastAll es l = .error .broadcast := by
  induction l with
  | nil => simp at hp
  | cons s l ih =>
    unfold broadcastAll
    by_cases h : s.edges <+: es
    · have hl := ih (by
        obtain ⟨u, hu, hn⟩ := hp
        rcases List.mem_cons.mp hu with rfl | hu
        · exact absurd h hn
        · exact ⟨u, hu, hn⟩)
      have : ∃ t, broadcastTo s es = .ok t := by
        unfold broadcastTo
        rw [(isBroadcastable_iff _ _).mpr h]
        by_cases hr : s.rank = es.length
        · exact ⟨_, by rw [if_neg (by simp), if_pos hr]⟩
        · exact ⟨_, by rw [if_neg (by simp), if_neg hr]⟩
      obtain ⟨t, ht⟩ := this
      simp [ht, hl]
    · simp [broadcastTo_error h]

end Verif.SliceOps
