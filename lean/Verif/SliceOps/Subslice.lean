import Verif.SliceOps.Child

/-! Lemmas on `subslice`. -/

namespace Verif.SliceOps

variable {α β γ : Type}

/-! ### broadcasting and functions of items -/

/-- A function of the items. -/
def mapItems (g : Option α → Option β) (s : Slice α) : Slice β := ⟨s.edges, s.items.map g⟩

theorem broadcastTo_map (g : Option α → Option β) (s : Slice α) (es : List Edge) :
    broadcastTo (mapItems g s) es = (broadcastTo s es).map (mapItems g) := by
  unfold broadcastTo
  show (if !isBroadcastable s.edges es then _ else if s.rank = es.length then _ else _) = _
  by_cases h1 : (!isBroadcastable s.edges es) = true
  · rw [if_pos h1, if_pos h1]; rfl
  · rw [if_neg h1, if_neg h1]
    by_cases h2 : s.rank = es.length
    · rw [if_pos h2, if_pos h2]; rfl
    · rw [if_neg h2, if_neg h2]
      simp only [Except.map, mapItems, expandAll_map]
      rfl

theorem align2_map (g : Option α → Option β) (x : Slice α) (y : Slice γ) :
    align2 (mapItems g x) y = (align2 x y).map fun p => (mapItems g p.1, p.2) := by
  have hm : (mapItems g x).edges = x.edges := rfl
  unfold align2
  simp only [hm, broadcastTo_map]
  cases h1 : broadcastTo x (largest x.edges [y.edges]) with
  | error e => rfl
  | ok x' =>
    cases h2 : broadcastTo y (largest x.edges [y.edges]) with
    | error e => rfl
    | ok y' => rfl

theorem wf_map (g : Option α → Option β) {s : Slice α} (h : Wf s) : Wf (mapItems g s) := by
  simpa [Wf, mapItems] using h

/-- The parts that indices stand for. -/
def lift (N : List (Tree α)) (i : Option Int) : Option (Tree α) := i.bind fun i => N[i.toNat]?

/-- The indices are in range. -/
def Valid (N : List (Tree α)) (c : Slice Int) : Prop :=
  ∀ i, some i ∈ c.items → 0 ≤ i ∧ i.toNat < N.length

/-- The chosen parts. -/
def stateOf (N : List (Tree α)) (c : Slice Int) : State α := (c.rank, view (mapItems (lift N) c))

theorem treeEdges_nest {n : Nat} (es : List Edge) (Y : List (Tree α)) (h : Fits n es Y.length) :
    treeEdges es.length (nest es Y) = es := by
  induction es generalizing n with
  | nil => rfl
  | cons e es ih =>
    simp only [List.length_cons, treeEdges, nest]
    have hl := nest_length h.2
    congr 1
    · rw [List.map_map]
      exact parts_lengths e _ hl
    · have : ((parts e (nest es Y)).map Tree.node).flatMap Tree.children = nest es Y := by
        rw [List.flatMap_map]
        show (parts e (nest es Y)).flatMap id = _
        rw [List.flatMap_id, parts_flatten e _ hl]
      rw [this]
      exact ih h.2

theorem stateOf_edges (N : List (Tree α)) {c : Slice Int} (h : Wf c) :
    treeEdges (stateOf N c).1 [(stateOf N c).2] = c.edges := by
  have h' := wf_map (lift N) h
  have := nest_view h'
  show treeEdges c.edges.length [view (mapItems (lift N) c)] = c.edges
  rw [← this]
  exact treeEdges_nest (n := 1) c.edges _ (by simpa [Wf, mapItems] using h')

theorem leavesAt_nest (E : List Edge) (F : Option α → Tree β) (Y : List (Tree α)) :
    (nest E Y).map (leavesAt E.length F) = nest E (Y.map fun t => F t.item) := by
  unfold leavesAt
  exact nest_map E _ Y

theorem expand_mem (e : Edge) (l : List α) : ∀ x ∈ expand e l, x ∈ l := by
  induction e generalizing l with
  | nil => intro x hx; simp [expand] at hx
  | cons n ns ih =>
    cases l with
    | nil => intro x hx; simp [expand] at hx
    | cons y l =>
      intro x hx
      simp only [expand, List.mem_append] at hx
      rcases hx with hx | hx
      · rw [List.eq_of_mem_replicate hx]; simp
      · exact List.mem_cons_of_mem _ (ih l x hx)

theorem expandAll_mem (es : List Edge) (l : List α) : ∀ x ∈ expandAll es l, x ∈ l := by
  induction es generalizing l with
  | nil => intro x hx; exact hx
  | cons e es ih =>
    intro x hx
    exact expand_mem e l x (ih (expand e l) x hx)

theorem broadcastTo_mem {s t : Slice α} {es : List Edge} (h : broadcastTo s es = .ok t) :
    ∀ x ∈ t.items, x ∈ s.items := by
  unfold broadcastTo at h
  by_cases h1 : (!isBroadcastable s.edges es) = true
  · rw [if_pos h1] at h; simp at h
  · rw [if_neg h1] at h
    by_cases h2 : s.rank = es.length
    · rw [if_pos h2] at h
      cases h
      intro x hx; exact hx
    · rw [if_neg h2] at h
      cases h
      exact expandAll_mem _ _

theorem align2_mem {x x' : Slice α} {y y' : Slice β} (h : align2 x y = .ok (x', y')) :
    ∀ a ∈ x'.items, a ∈ x.items := by
  unfold align2 at h
  cases h1 : broadcastTo x (largest x.edges [y.edges]) with
  | error e => simp [h1] at h
  | ok u =>
    cases h2 : broadcastTo y (largest x.edges [y.edges]) with
    | error e => simp [h1, h2] at h
    | ok v =>
      simp [h1, h2] at h
      obtain ⟨rfl, rfl⟩ := h
      exact broadcastTo_mem h1

/-- What aligning chosen parts with indices gives. -/
theorem align_state (N : List (Tree α)) {c : Slice Int} {i : Slice β} (hc : Wf c) (hi : Wf i)
    (hv : Valid N c) (h : Compatible c.edges i.edges) :
    ∃ p q, align2 c i = .ok (p, q) ∧ p.edges = q.edges ∧ p.rank = max c.rank i.rank ∧ Wf p ∧ Wf q ∧
      Valid N p ∧ ∀ {γ : Type} (f : Option (Tree α) → Option β → Tree γ),
        nest p.edges (List.zipWith f (p.items.map (lift N)) q.items) =
          [alignWith f (stateOf N c).1 i.rank (stateOf N c).2 (view i)] := by
  obtain ⟨x', y', h1, h2, h3, h4, h5, -, -, -, h6⟩ := align2_spec (wf_map (lift N) hc) hi h
  rw [align2_map] at h1
  cases ha : align2 c i with
  | error e => rw [ha] at h1; simp [Except.map] at h1
  | ok pq =>
    obtain ⟨p, q⟩ := pq
    rw [ha] at h1
    simp only [Except.map, Except.ok.injEq, Prod.mk.injEq] at h1
    obtain ⟨rfl, rfl⟩ := h1
    refine ⟨p, q, rfl, h2, h3, ?_, h5, ?_, fun f => h6 f⟩
    · simpa [Wf, mapItems] using h4
    · intro j hj
      exact hv j (align2_mem ha _ hj)

theorem wf_items_eq {x : Slice α} {y : Slice β} (hx : Wf x) (hy : Wf y) (h : x.edges = y.edges) :
    x.items.length = y.items.length := by
  unfold Wf at hx hy
  rw [h] at hx
  exact hx.unique hy

theorem zipWith_mem_congr {δ : Type} (f g : α → β → δ) (l : List α) (k : List β)
    (h : ∀ a ∈ l, ∀ b ∈ k, f a b = g a b) : List.zipWith f l k = List.zipWith g l k := by
  induction l generalizing k with
  | nil => simp
  | cons a l ih =>
    cases k with
    | nil => simp
    | cons b k =>
      simp only [List.zipWith_cons_cons]
      rw [h a (by simp) b (by simp), ih k (fun x hx y hy => h x (by simp [hx]) y (by simp [hy]))]

/-- Indices. -/
theorem forSingle_spec (e : Edge) (N : List (Tree α)) (hN : N.length = e.sum) {c i : Slice Int}
    (hc : Wf c) (hi : Wf i) (hv : Valid ((parts e N).map Tree.node) c) :
    (Suits (stateOf ((parts e N).map Tree.node) c) (.single i) →
      ∃ d, forSingle c i e = .ok d ∧ Wf d ∧ Valid N d ∧
        stateOf N d = choose (stateOf ((parts e N).map Tree.node) c) (.single i)) ∧
    (¬ Suits (stateOf ((parts e N).map Tree.node) c) (.single i) →
      forSingle c i e = .error .broadcast) := by
  have hse := stateOf_edges ((parts e N).map Tree.node) hc
  constructor
  · intro hs
    have hs : Compatible (treeEdges (stateOf ((parts e N).map Tree.node) c).1
      [(stateOf ((parts e N).map Tree.node) c).2]) i.edges := hs
    rw [hse] at hs
    obtain ⟨p, q, h1, h2, h3, h4, h5, h6, h7⟩ := align_state _ hc hi hv hs
    have hpq := wf_items_eq h4 h5 h2
    let g := childOf e (splitPoints 0 e)
    have hg : ∀ a ∈ p.items, ∀ b : Option Int, lift N (g a b) =
        ((pairUp (lift ((parts e N).map Tree.node) a) b).item).bind (fun p => child p.1 p.2) := by
      intro a ha b
      cases a with
      | none => rfl
      | some a =>
        have := h6 a ha
        rw [List.length_map, parts_length] at this
        cases b with
        | none =>
          obtain ⟨ch, hch, -⟩ := node_children e N hN a this.1 this.2
          simp only [lift, Option.bind_some, hch]
          rfl
        | some b =>
          have hci := (childIndex_spec e N hN a b this.1 this.2).1
          obtain ⟨ch, hch, -⟩ := node_children e N hN a this.1 this.2
          simp only [lift, g, childOf, Option.bind_some]
          rw [hci, hch]
          rfl
    refine ⟨⟨p.edges, List.zipWith g p.items q.items⟩, ?_, ?_, ?_, ?_⟩
    · unfold forSingle
      rw [h1]
    · show Fits 1 p.edges _
      rw [List.length_zipWith, ← hpq, Nat.min_self]
      exact h4
    · intro j hj
      simp only [List.mem_iff_getElem?, List.getElem?_zipWith] at hj
      obtain ⟨n, hn⟩ := hj
      cases ha : p.items[n]? with
      | none => simp [ha] at hn
      | some a =>
        cases hb : q.items[n]? with
        | none => simp [ha, hb] at hn
        | some b =>
          simp only [ha, hb, Option.some.injEq] at hn
          cases a with
          | none => simp [g, childOf] at hn
          | some a =>
            cases b with
            | none => simp [g, childOf] at hn
            | some b =>
              have := h6 a (List.mem_of_getElem? ha)
              rw [List.length_map, parts_length] at this
              exact (childIndex_spec e N hN a b this.1 this.2).2 j hn
    · refine Prod.ext h3 ?_
      apply view_of
      show nest p.edges _ = _
      have h8 := congrArg (List.map (leavesAt p.edges.length
        (fun x => Tree.leaf (x.bind fun x => child x.1 x.2)))) (h7 pairUp)
      rw [leavesAt_nest] at h8
      have h3' : p.edges.length = max (stateOf ((parts e N).map Tree.node) c).1 i.rank := h3
      simp only [List.map_cons, List.map_nil] at h8
      rw [h3'] at h8
      refine Eq.trans ?_ h8
      congr 1
      rw [List.map_zipWith, List.zipWith_map_left]
      show List.map Tree.leaf (List.map (lift N) _) = _
      rw [List.map_zipWith, List.map_zipWith]
      apply zipWith_mem_congr
      intro a ha b _
      rw [hg a ha b]
  · intro hs
    have hs : ¬ Compatible (treeEdges (stateOf ((parts e N).map Tree.node) c).1
      [(stateOf ((parts e N).map Tree.node) c).2]) i.edges := hs
    rw [hse] at hs
    unfold forSingle
    rw [align2_error hs]

/-! ### ranges -/

theorem addRange_spec (N : List (Tree α)) {p : Slice Int} (hp : Wf p) (ranges : List (List Int))
    (hl : ranges.length = p.items.length) (hv : ∀ r ∈ ranges, ∀ i ∈ r, 0 ≤ i ∧ i.toNat < N.length)
    (T : Tree (Tree α))
    (hT : nest p.edges (ranges.map fun r => .node (r.map fun i => .leaf (N[i.toNat]?))) = [T]) :
    Wf (addRange p ranges) ∧ Valid N (addRange p ranges) ∧
      stateOf N (addRange p ranges) = (p.rank + 1, T) := by
  refine ⟨?_, ?_, ?_⟩
  · show Fits 1 (p.edges ++ [ranges.map List.length]) (ranges.flatten.map some).length
    refine Fits.append.mpr ⟨p.items.length, hp, by simpa using hl, ?_⟩
    show _ = _
    rw [List.length_map, List.length_flatten]
  · intro i hi
    simp only [addRange, List.mem_map, List.mem_flatten, Option.some.injEq] at hi
    obtain ⟨j, ⟨r, hr, hj⟩, rfl⟩ := hi
    exact hv r hr j hj
  · refine Prod.ext (by simp [stateOf, Slice.rank, addRange]) ?_
    apply view_of
    show nest (p.edges ++ [ranges.map List.length]) _ = [T]
    rw [nest_append, ← hT]
    congr 1
    simp only [nest]
    show List.map Tree.node (parts _ (List.map Tree.leaf (List.map (lift N) (List.map some ranges.flatten)))) = _
    rw [parts_map, parts_map, parts_map, parts_of_flatten]
    simp only [List.map_map]
    apply List.map_congr_left
    intro r _
    simp only [Function.comp, List.map_map]
    rfl

/-- What a range of a chosen part is. -/
theorem range_elem (e : Edge) (N : List (Tree α)) (hN : N.length = e.sum) (p : Option Int)
    (hp : ∀ i, p = some i → 0 ≤ i ∧ i.toNat < ((parts e N).map Tree.node).length)
    (start stop : Option (Option Int)) :
    (∀ i ∈ childRange e (splitPoints 0 e) p start stop, 0 ≤ i ∧ i.toNat < N.length) ∧
    (childRange e (splitPoints 0 e) p start stop).map (fun i => N[i.toNat]?) =
      (match lift ((parts e N).map Tree.node) p, start, stop with
        | none, _, _ => []
        | some _, some none, _ => []
        | some _, _, some none => []
        | some t, none, none => t.children
        | some t, some (some a), none => slicePart t.children a t.children.length
        | some t, none, some (some b) => slicePart t.children 0 b
        | some t, some (some a), some (some b) => slicePart t.children a b).map some := by
  cases p with
  | none => exact ⟨by simp [childRange], rfl⟩
  | some p =>
    have hp' := hp p rfl
    rw [List.length_map, parts_length] at hp'
    have key := fun a b st sp h1 h2 =>
      childRange_spec e N hN p hp'.1 hp'.2 a b st sp h1 h2
    obtain ⟨ch, hch, hlen, -⟩ := node_children e N hN p hp'.1 hp'.2
    have hlift : lift ((parts e N).map Tree.node) (some p) = some (.node ch) := hch
    rw [hlift]
    have hc : (Tree.node ch).children = ch := rfl
    match start, stop with
    | some none, _ => exact ⟨by simp [childRange], rfl⟩
    | none, some none => exact ⟨by simp [childRange], rfl⟩
    | some (some a), some none => exact ⟨by simp [childRange], rfl⟩
    | none, none =>
      obtain ⟨t, h1, h2, h3, h4⟩ := key 0 (e.getD p.toNat 0 : Nat) none none (.inr ⟨rfl, rfl⟩)
        (.inr ⟨rfl, rfl⟩)
      rw [hch] at h1
      cases h1
      refine ⟨h4, ?_⟩
      rw [h3, hc, ← hlen, slicePart_all]
      rfl
    | some (some a), none =>
      obtain ⟨t, h1, h2, h3, h4⟩ := key a (e.getD p.toNat 0 : Nat) (some (some a)) none (.inl rfl)
        (.inr ⟨rfl, rfl⟩)
      rw [hch] at h1
      cases h1
      refine ⟨h4, ?_⟩
      rw [h3, hc, ← hlen]
      rfl
    | none, some (some b) =>
      obtain ⟨t, h1, h2, h3, h4⟩ := key 0 b none (some (some b)) (.inr ⟨rfl, rfl⟩) (.inl rfl)
      rw [hch] at h1
      cases h1
      exact ⟨h4, h3⟩
    | some (some a), some (some b) =>
      obtain ⟨t, h1, h2, h3, h4⟩ := key a b (some (some a)) (some (some b)) (.inl rfl) (.inl rfl)
      rw [hch] at h1
      cases h1
      exact ⟨h4, h3⟩

theorem leafs (N l : List (Tree α)) (r : List Int) (h : r.map (fun i => N[i.toNat]?) = l.map some) :
    r.map (fun i => Tree.leaf (N[i.toNat]?)) = l.map (fun t => Tree.leaf (some t)) := by
  have := congrArg (List.map Tree.leaf) h
  simpa [List.map_map, Function.comp_def] using this

theorem forRange_none (e : Edge) (N : List (Tree α)) (hN : N.length = e.sum) {c : Slice Int}
    (hc : Wf c) (hv : Valid ((parts e N).map Tree.node) c) :
    ∃ d, forRange c none none e = .ok d ∧ Wf d ∧ Valid N d ∧
      stateOf N d = choose (stateOf ((parts e N).map Tree.node) c) (.range none none) := by
  refine ⟨_, rfl, ?_⟩
  have hel := fun p (hp : p ∈ c.items) => range_elem e N hN p (fun i hi => hv i (hi ▸ hp)) none none
  have hcv := nest_view (wf_map (lift ((parts e N).map Tree.node)) hc)
  have := addRange_spec N hc (c.items.map fun p => childRange e (splitPoints 0 e) p none none)
    (by simp) (by
      intro r hr i hi
      obtain ⟨p, hp, rfl⟩ := List.mem_map.mp hr
      exact (hel p hp).1 i hi)
    (choose (stateOf ((parts e N).map Tree.node) c) (.range none none)).2 (by
      have h8 := congrArg (List.map (leavesAt c.edges.length
        (fun p => Tree.node (((p.map Tree.children).getD []).map (fun t => Tree.leaf (some t)))))) hcv
      rw [show (mapItems (lift ((parts e N).map Tree.node)) c).edges = c.edges from rfl,
        leavesAt_nest] at h8
      refine Eq.trans ?_ h8
      congr 1
      simp only [List.map_map, mapItems]
      apply List.map_congr_left
      intro p hp
      simp only [Function.comp, Tree.item]
      congr 1
      have h9 := (hel p hp).2
      cases hl : lift ((parts e N).map Tree.node) p with
      | none => rw [hl] at h9; simpa using leafs N [] _ h9
      | some t => rw [hl] at h9; exact leafs N t.children _ h9)
  exact ⟨this.1, this.2.1, this.2.2⟩

theorem forRange_start (e : Edge) (N : List (Tree α)) (hN : N.length = e.sum) {c a : Slice Int}
    (hc : Wf c) (ha : Wf a) (hv : Valid ((parts e N).map Tree.node) c)
    (hs : Compatible c.edges a.edges) :
    ∃ d, forRange c (some a) none e = .ok d ∧ Wf d ∧ Valid N d ∧
      stateOf N d = choose (stateOf ((parts e N).map Tree.node) c) (.range (some a) none) := by
  obtain ⟨p, q, h1, h2, h3, h4, h5, h6, h7⟩ := align_state _ hc ha hv hs
  have hpq := wf_items_eq h4 h5 h2
  refine ⟨_, by simp only [forRange, h1]; rfl, ?_⟩
  have hel := fun x (hx : x ∈ p.items) (y : Option Int) =>
    range_elem e N hN x (fun i hi => h6 i (hi ▸ hx)) (some y) none
  have h8 := congrArg (List.map (leavesAt p.edges.length
    (fun p => Tree.node (((p.map fun p => slicePart p.1.children p.2 p.1.children.length).getD []).map
        (fun t => Tree.leaf (some t)))))) (h7 pairUp)
  rw [leavesAt_nest] at h8
  have := addRange_spec N h4 (List.zipWith
      (fun x a => childRange e (splitPoints 0 e) x (some a) none) p.items q.items)
    (by simp [hpq]) (by
      intro r hr i hi
      rw [← List.map_uncurry_zip_eq_zipWith] at hr
      obtain ⟨⟨x, y⟩, hx, rfl⟩ := List.mem_map.mp hr
      exact (hel x (List.of_mem_zip hx).1 y).1 i hi)
    (choose (stateOf ((parts e N).map Tree.node) c) (.range (some a) none)).2 (by
      have h3' : p.edges.length = max (stateOf ((parts e N).map Tree.node) c).1 a.rank := h3
      simp only [List.map_cons, List.map_nil] at h8
      rw [h3'] at h8
      refine Eq.trans ?_ h8
      congr 1
      rw [List.map_zipWith, List.zipWith_map_left, List.map_zipWith]
      apply zipWith_mem_congr
      intro x hx y _
      congr 1
      have h9 := (hel x hx y).2
      cases hl : lift ((parts e N).map Tree.node) x with
      | none => rw [hl] at h9; exact leafs N [] _ h9
      | some t =>
        rw [hl] at h9
        cases y with
        | none => exact leafs N [] _ h9
        | some y => exact leafs N _ _ h9)
  refine ⟨this.1, this.2.1, ?_⟩
  rw [this.2.2]
  refine Prod.ext ?_ rfl
  show p.rank + 1 = max c.rank a.rank + 1
  rw [h3]

theorem forRange_stop (e : Edge) (N : List (Tree α)) (hN : N.length = e.sum) {c a : Slice Int}
    (hc : Wf c) (ha : Wf a) (hv : Valid ((parts e N).map Tree.node) c)
    (hs : Compatible c.edges a.edges) :
    ∃ d, forRange c none (some a) e = .ok d ∧ Wf d ∧ Valid N d ∧
      stateOf N d = choose (stateOf ((parts e N).map Tree.node) c) (.range none (some a)) := by
  obtain ⟨p, q, h1, h2, h3, h4, h5, h6, h7⟩ := align_state _ hc ha hv hs
  have hpq := wf_items_eq h4 h5 h2
  refine ⟨_, by simp only [forRange, h1]; rfl, ?_⟩
  have hel := fun x (hx : x ∈ p.items) (y : Option Int) =>
    range_elem e N hN x (fun i hi => h6 i (hi ▸ hx)) none (some y)
  have h8 := congrArg (List.map (leavesAt p.edges.length
    (fun p => Tree.node (((p.map fun p => slicePart p.1.children 0 p.2).getD []).map
        (fun t => Tree.leaf (some t)))))) (h7 pairUp)
  rw [leavesAt_nest] at h8
  have := addRange_spec N h4 (List.zipWith
      (fun x a => childRange e (splitPoints 0 e) x none (some a)) p.items q.items)
    (by simp [hpq]) (by
      intro r hr i hi
      rw [← List.map_uncurry_zip_eq_zipWith] at hr
      obtain ⟨⟨x, y⟩, hx, rfl⟩ := List.mem_map.mp hr
      exact (hel x (List.of_mem_zip hx).1 y).1 i hi)
    (choose (stateOf ((parts e N).map Tree.node) c) (.range none (some a))).2 (by
      have h3' : p.edges.length = max (stateOf ((parts e N).map Tree.node) c).1 a.rank := h3
      simp only [List.map_cons, List.map_nil] at h8
      rw [h3'] at h8
      refine Eq.trans ?_ h8
      congr 1
      rw [List.map_zipWith, List.zipWith_map_left, List.map_zipWith]
      apply zipWith_mem_congr
      intro x hx y _
      congr 1
      have h9 := (hel x hx y).2
      cases hl : lift ((parts e N).map Tree.node) x with
      | none => rw [hl] at h9; exact leafs N [] _ h9
      | some t =>
        rw [hl] at h9
        cases y with
        | none => exact leafs N [] _ h9
        | some y => exact leafs N _ _ h9)
  refine ⟨this.1, this.2.1, ?_⟩
  rw [this.2.2]
  refine Prod.ext ?_ rfl
  show p.rank + 1 = max c.rank a.rank + 1
  rw [h3]

theorem broadcastTo_prefix {s : Slice α} {es : List Edge} (h : s.edges <+: es) :
    broadcastTo s es = .ok ⟨es, expandAll (es.drop s.rank) s.items⟩ := by
  unfold broadcastTo
  rw [(isBroadcastable_iff _ _).mpr h]
  simp only [Bool.not_true, Bool.false_eq_true, if_false]
  by_cases hr : s.rank = es.length
  · rw [if_pos hr]
    obtain ⟨W, rfl⟩ := h
    have : W = [] := by simpa [Slice.rank] using hr
    subst this
    simp [Slice.rank, expandAll]
  · rw [if_neg hr]

theorem expandAll_append (U W : List Edge) (l : List α) :
    expandAll (U ++ W) l = expandAll W (expandAll U l) := by
  induction U generalizing l with
  | nil => rfl
  | cons e U ih => exact ih _

theorem expand_zipWith (f : α → β → γ) (e : Edge) (l : List α) (k : List β) (h : l.length = k.length) :
    expand e (List.zipWith f l k) = List.zipWith f (expand e l) (expand e k) := by
  induction e generalizing l k with
  | nil => simp [expand]
  | cons n ns ih =>
    cases l with
    | nil => simp [expand]
    | cons x l =>
      cases k with
      | nil => simp at h
      | cons y k =>
        simp only [List.zipWith_cons_cons, expand]
        rw [List.zipWith_append (by simp), ih l k (by simpa using h)]
        simp

theorem expand_len (e : Edge) (l : List α) (k : List β) (h : l.length = k.length) :
    (expand e l).length = (expand e k).length := by
  induction e generalizing l k with
  | nil => simp [expand]
  | cons n ns ih =>
    cases l with
    | nil => cases k with
      | nil => simp [expand]
      | cons y k => simp at h
    | cons x l =>
      cases k with
      | nil => simp at h
      | cons y k => simp [expand, ih l k (by simpa using h)]

theorem expandAll_zipWith (f : α → β → γ) (es : List Edge) (l : List α) (k : List β)
    (h : l.length = k.length) :
    expandAll es (List.zipWith f l k) = List.zipWith f (expandAll es l) (expandAll es k) := by
  induction es generalizing l k with
  | nil => rfl
  | cons e es ih =>
    simp only [expandAll]
    rw [expand_zipWith f e l k h, ih _ _ (expand_len e l k h)]

theorem drop_prefix {U V W : List Edge} (h1 : U <+: V) (h2 : V <+: W) :
    W.drop U.length = V.drop U.length ++ W.drop V.length := by
  obtain ⟨A, rfl⟩ := h1
  obtain ⟨B, rfl⟩ := h2
  simp

theorem Compatible.trans_prefix {es fs : List Edge} (h : Compatible es fs) :
    es <+: largest es [fs] ∧ fs <+: largest es [fs] := by
  unfold largest largest
  by_cases hlt : es.length < fs.length
  · rw [if_pos hlt]
    refine ⟨?_, List.prefix_refl _⟩
    rcases h with h | h
    · exact h
    · have := h.length_le; omega
  · rw [if_neg hlt]
    refine ⟨List.prefix_refl _, ?_⟩
    rcases h with h | h
    · have := h.length_le
      rw [h.eq_of_length (by omega)]
      exact List.prefix_refl _
    · exact h

/-- Aligning three slices is aligning two of them, and then both with the third. -/
theorem align3_eq {x : Slice α} {y : Slice β} {z : Slice γ} (hx : Wf x) (hy : Wf y)
    (f : Option α → Option β → Option δ) (hxy : Compatible x.edges y.edges)
    (hxz : Compatible x.edges z.edges) (hyz : Compatible y.edges z.edges) {x1 : Slice α} {y1 : Slice β}
    (h1 : align2 x y = .ok (x1, y1)) :
    Compatible x1.edges z.edges ∧
    ∃ x' y' z', align3 x y z = .ok (x', y', z') ∧ y'.edges = x'.edges ∧ z'.edges = x'.edges ∧
      x'.items.length = y'.items.length ∧
      align2 ⟨x1.edges, List.zipWith f x1.items y1.items⟩ z =
        .ok (⟨x'.edges, List.zipWith f x'.items y'.items⟩, z') := by
  have hL : largest x.edges [y.edges, z.edges] = largest (largest x.edges [y.edges]) [z.edges] := by
    simp only [largest]
    by_cases h : x.edges.length < y.edges.length <;> simp [h]
  obtain ⟨p1, p2⟩ := hxy.trans_prefix
  have hc : Compatible (largest x.edges [y.edges]) z.edges := by
    simp only [largest]
    by_cases h : x.edges.length < y.edges.length
    · rw [if_pos h]; exact hyz
    · rw [if_neg h]; exact hxz
  obtain ⟨q1, q2⟩ := hc.trans_prefix
  obtain ⟨x0, y0, h0, he, -, hw1, hw2, -⟩ := align2_spec hx hy hxy
  rw [h1] at h0
  cases h0
  unfold align2 at h1
  simp only at h1
  rw [broadcastTo_prefix p1, broadcastTo_prefix p2] at h1
  simp only [Except.ok.injEq, Prod.mk.injEq] at h1
  obtain ⟨rfl, rfl⟩ := h1
  have hlen := wf_items_eq hw1 hw2 he
  refine ⟨hc, ?_⟩
  have hx3 := drop_prefix p1 q1
  have hy3 := drop_prefix p2 q1
  refine ⟨_, _, _, by
    unfold align3
    simp only [hL]
    rw [broadcastTo_prefix (p1.trans q1), broadcastTo_prefix (p2.trans q1), broadcastTo_prefix q2],
    rfl, rfl, ?_, ?_⟩
  · simp only [Slice.rank] at hlen ⊢
    rw [hx3, hy3, expandAll_append, expandAll_append]
    generalize expandAll _ x.items = A at hlen ⊢
    generalize expandAll _ y.items = B at hlen ⊢
    generalize List.drop (largest x.edges [y.edges]).length _ = E
    induction E generalizing A B with
    | nil => exact hlen
    | cons e E ih => exact ih _ _ (expand_len e A B hlen)
  · unfold align2
    simp only
    rw [broadcastTo_prefix (s := ⟨largest x.edges [y.edges], _⟩) q1, broadcastTo_prefix q2]
    simp only [Slice.rank] at hlen ⊢
    rw [expandAll_zipWith _ _ _ _ hlen, ← expandAll_append, ← expandAll_append, ← hx3, ← hy3]

theorem align3_error {x : Slice α} {y : Slice β} {z : Slice γ}
    (h : ¬ (Compatible x.edges y.edges ∧ Compatible x.edges z.edges ∧ Compatible y.edges z.edges)) :
    align3 x y z = .error .broadcast := by
  have hcp : ∀ {a b c : List Edge}, a <+: c → b <+: c → Compatible a b := fun {a b c} h1 h2 => by
    rcases Nat.le_total a.length b.length with hl | hl
    · exact .inl (List.prefix_of_prefix_length_le h1 h2 hl)
    · exact .inr (List.prefix_of_prefix_length_le h2 h1 hl)
  unfold align3
  generalize largest x.edges [y.edges, z.edges] = L
  simp only
  by_cases hx : x.edges <+: L
  · rw [broadcastTo_prefix hx]
    by_cases hy : y.edges <+: L
    · rw [broadcastTo_prefix hy]
      by_cases hz : z.edges <+: L
      · exact absurd ⟨hcp hx hy, hcp hx hz, hcp hy hz⟩ h
      · rw [broadcastTo_error hz]
    · rw [broadcastTo_error hy]
  · rw [broadcastTo_error hx]

theorem align3_mem {x x' : Slice α} {y y' : Slice β} {z z' : Slice γ}
    (h : align3 x y z = .ok (x', y', z')) : ∀ a ∈ x'.items, a ∈ x.items := by
  unfold align3 at h
  cases h1 : broadcastTo x (largest x.edges [y.edges, z.edges]) with
  | error e => simp [h1] at h
  | ok u =>
    cases h2 : broadcastTo y (largest x.edges [y.edges, z.edges]) with
    | error e => simp [h1, h2] at h
    | ok v =>
      cases h3 : broadcastTo z (largest x.edges [y.edges, z.edges]) with
      | error e => simp [h1, h2, h3] at h
      | ok w =>
        simp [h1, h2, h3] at h
        obtain ⟨rfl, rfl, rfl⟩ := h
        exact broadcastTo_mem h1

theorem zip3 {ε ζ : Type} (G : α → β × γ → δ) (F : δ → ε) (K : α → β → ζ) (H : ζ → γ → ε) (l : List α) (k : List β)
    (m : List γ) (h : ∀ x ∈ l, ∀ y z, F (G x (y, z)) = H (K x y) z) :
    (List.zipWith G l (k.zip m)).map F = List.zipWith H (List.zipWith K l k) m := by
  induction l generalizing k m with
  | nil => simp
  | cons x l ih =>
    cases k with
    | nil => simp
    | cons y k =>
      cases m with
      | nil => simp
      | cons z m =>
        simp only [List.zip_cons_cons, List.zipWith_cons_cons, List.map_cons]
        rw [h x (by simp) y z, ih k m fun x hx => h x (List.mem_cons_of_mem _ hx)]

/-- Two items as a pair. -/
def pairItem (N : List (Tree α)) (o : Option Int) (b : Option Int) : Option (Tree α × Int) :=
  (pairUp (lift N o) b).item

theorem pairUp_leaf (a : Option α) (b : Option β) : pairUp a b = .leaf (pairUp a b).item := by
  cases a <;> cases b <;> rfl

theorem forRange_both (e : Edge) (N : List (Tree α)) (hN : N.length = e.sum) {c a b : Slice Int}
    (hc : Wf c) (ha : Wf a) (hb : Wf b) (hv : Valid ((parts e N).map Tree.node) c)
    (hca : Compatible c.edges a.edges) (hcb : Compatible c.edges b.edges)
    (hab : Compatible a.edges b.edges) :
    ∃ d, forRange c (some a) (some b) e = .ok d ∧ Wf d ∧ Valid N d ∧
      stateOf N d = choose (stateOf ((parts e N).map Tree.node) c) (.range (some a) (some b)) := by
  obtain ⟨p1, q1, h1, h2, h3, h4, h5, h6, h7⟩ := align_state _ hc ha hv hca
  obtain ⟨hcc, p, q, r, g1, g2, g3, g4, g5⟩ :=
    align3_eq (z := b) hc ha (pairItem ((parts e N).map Tree.node)) hca hcb hab h1
  have hw : Wf (⟨p1.edges, List.zipWith (pairItem ((parts e N).map Tree.node)) p1.items q1.items⟩ :
      Slice (Tree α × Int)) := by
    have := wf_items_eq h4 h5 h2
    unfold Wf at h4 ⊢
    simpa [← this] using h4
  have hview := h7 pairUp
  obtain ⟨w', b', k1, k2, k3, k4, k5, -, -, -, k6⟩ := align2_spec hw hb hcc
  rw [g5] at k1
  simp only [Except.ok.injEq, Prod.mk.injEq] at k1
  obtain ⟨rfl, rfl⟩ := k1
  have hr := wf_items_eq k4 k5 k2
  have hp : Wf p := by
    unfold Wf at k4 ⊢
    simpa [← g4] using k4
  have hvw : view (⟨p1.edges, List.zipWith (pairItem ((parts e N).map Tree.node)) p1.items q1.items⟩ :
      Slice (Tree α × Int)) = alignWith pairUp (stateOf ((parts e N).map Tree.node) c).1 a.rank
        (stateOf ((parts e N).map Tree.node) c).2 (view a) := by
    apply view_of
    rw [← hview]
    simp only
    congr 1
    rw [List.map_zipWith, List.zipWith_map_left]
    apply zipWith_mem_congr
    intro x _ y _
    exact (pairUp_leaf _ _).symm
  refine ⟨_, by simp only [forRange, g1]; rfl, ?_⟩
  have hel := fun x (hx : x ∈ p.items) (y z : Option Int) =>
    range_elem e N hN x (fun i hi => hv i (hi ▸ align3_mem g1 _ hx)) (some y) (some z)
  have h8 := congrArg (List.map (leavesAt p.edges.length
    (fun p => Tree.node (((p.map fun p => slicePart p.1.1.children p.1.2 p.2).getD []).map
        (fun t => Tree.leaf (some t)))))) (k6 pairUp)
  rw [leavesAt_nest, hvw] at h8
  have h3' : p.edges.length = max (max (stateOf ((parts e N).map Tree.node) c).1 a.rank) b.rank := by
    have : p.edges.length = max p1.edges.length b.rank := k3
    rw [this]
    congr 1
  have hrank : (⟨p1.edges, List.zipWith (pairItem ((parts e N).map Tree.node)) p1.items q1.items⟩ :
      Slice (Tree α × Int)).rank = max (stateOf ((parts e N).map Tree.node) c).1 a.rank := h3
  have := addRange_spec N hp (List.zipWith
      (fun x ab => childRange e (splitPoints 0 e) x (some ab.1) (some ab.2)) p.items
        (q.items.zip r.items))
    (by simp at hr; simp; omega) (by
      intro s hs i hi
      rw [← List.map_uncurry_zip_eq_zipWith] at hs
      obtain ⟨⟨x, y⟩, hx, rfl⟩ := List.mem_map.mp hs
      exact (hel x (List.of_mem_zip hx).1 y.1 y.2).1 i hi)
    (choose (stateOf ((parts e N).map Tree.node) c) (.range (some a) (some b))).2 (by
      simp only [List.map_cons, List.map_nil] at h8
      rw [h3', hrank] at h8
      refine Eq.trans ?_ h8
      congr 1
      refine Eq.trans ?_ List.map_zipWith.symm
      apply zip3
      intro x hx y z
      have h9 := (hel x hx y z).2
      simp only [pairItem]
      congr 1
      cases hl : lift ((parts e N).map Tree.node) x with
      | none => rw [hl] at h9; exact leafs N [] _ h9
      | some t =>
        rw [hl] at h9
        cases y with
        | none => exact leafs N [] _ h9
        | some y =>
          cases z with
          | none => exact leafs N [] _ h9
          | some z => exact leafs N _ _ h9)
  refine ⟨this.1, this.2.1, ?_⟩
  rw [this.2.2]
  refine Prod.ext ?_ rfl
  show p.edges.length + 1 = _
  rw [h3']
  rfl

end Verif.SliceOps
