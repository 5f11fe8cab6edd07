import Verif.SliceOps.Subslice

/-!
All the arguments of `subslice`.
-/

namespace Verif.SliceOps

variable {α β γ δ : Type}

/-- One argument. -/
def stepArg (e : Edge) (c : Slice Int) : Arg → Except Err (Slice Int)
  | .single i => forSingle c i e
  | .range a b => forRange c a b e

theorem stepArg_spec (e : Edge) (N : List (Tree α)) (hN : N.length = e.sum) {c : Slice Int}
    (hc : Wf c) (hv : Valid ((parts e N).map Tree.node) c) (arg : Arg) (ha : ArgWf arg) :
    (Suits (stateOf ((parts e N).map Tree.node) c) arg →
      ∃ d, stepArg e c arg = .ok d ∧ Wf d ∧ Valid N d ∧
        stateOf N d = choose (stateOf ((parts e N).map Tree.node) c) arg) ∧
    (¬ Suits (stateOf ((parts e N).map Tree.node) c) arg → stepArg e c arg = .error .broadcast) := by
  have hse := stateOf_edges ((parts e N).map Tree.node) hc
  match arg with
  | .single i => exact forSingle_spec e N hN hc ha hv
  | .range none none =>
    exact ⟨fun _ => forRange_none e N hN hc hv, fun h => absurd trivial h⟩
  | .range (some a) none =>
    unfold Suits
    rw [hse]
    refine ⟨fun h => forRange_start e N hN hc (ha.1 a rfl) hv h, fun h => ?_⟩
    simp only [stepArg, forRange, align2_error h]
  | .range none (some b) =>
    unfold Suits
    rw [hse]
    refine ⟨fun h => forRange_stop e N hN hc (ha.2 b rfl) hv h, fun h => ?_⟩
    simp only [stepArg, forRange, align2_error h]
  | .range (some a) (some b) =>
    unfold Suits
    rw [hse]
    refine ⟨fun h => forRange_both e N hN hc (ha.1 a rfl) (ha.2 b rfl) hv h.1 h.2.1 h.2.2, fun h => ?_⟩
    simp only [stepArg, forRange, align3_error h]

theorem chooseAll_cons (e : Edge) (es : List Edge) (a : Arg) (args : List Arg) (c : Slice Int) :
    chooseAll (e :: es) (a :: args) c = match stepArg e c a with
      | .error err => .error err
      | .ok d => chooseAll es args d := by
  cases a with
  | single i => simp only [chooseAll, stepArg] <;> (cases forSingle c i e <;> rfl)
  | range a b => simp only [chooseAll, stepArg] <;> (cases forRange c a b e <;> rfl)

theorem chooseAll_spec (es : List Edge) (Y : List (Tree α)) (args : List Arg)
    (hl : es.length = args.length) {n : Nat} (hf : Fits n es Y.length) {c : Slice Int} (hc : Wf c)
    (hv : Valid (nest es Y) c) (ha : ∀ a ∈ args, ArgWf a) :
    (SuitsAll (stateOf (nest es Y) c) args →
      ∃ d, chooseAll es args c = .ok d ∧ Wf d ∧ Valid Y d ∧
        stateOf Y d = chooseMany (stateOf (nest es Y) c) args) ∧
    (¬ SuitsAll (stateOf (nest es Y) c) args → chooseAll es args c = .error .broadcast) := by
  induction args generalizing es n c with
  | nil =>
    cases es with
    | nil => exact ⟨fun _ => ⟨c, by simp [chooseAll], hc, hv, rfl⟩, fun h => absurd trivial h⟩
    | cons e es => simp at hl
  | cons a args ih =>
    cases es with
    | nil => simp at hl
    | cons e es =>
      have hN : (nest es Y).length = e.sum := nest_length hf.2
      have hv' : Valid ((parts e (nest es Y)).map Tree.node) c := hv
      obtain ⟨h1, h2⟩ := stepArg_spec e (nest es Y) hN hc hv' a (ha a (by simp))
      have hst : stateOf (nest (e :: es) Y) c = stateOf ((parts e (nest es Y)).map Tree.node) c := rfl
      rw [hst, chooseAll_cons]
      by_cases hs : Suits (stateOf ((parts e (nest es Y)).map Tree.node) c) a
      · obtain ⟨d, hd, hwd, hvd, hsd⟩ := h1 hs
        have := ih es (by simpa using hl) hf.2 hwd hvd fun a h => ha a (List.mem_cons_of_mem _ h)
        rw [hd]
        simp only [SuitsAll, chooseMany, List.foldl_cons]
        rw [← hsd]
        exact ⟨fun h => this.1 h.2, fun h => this.2 fun h' => h ⟨hs, h'⟩⟩
      · rw [h2 hs]
        exact ⟨fun h => absurd h.1 hs, fun _ => rfl⟩

theorem leavesAt_cut (es : List Edge) (Y : List (Tree α)) :
    (nest es Y).map (fun t => leavesAt es.length uncut (cut es.length t)) = nest es Y := by
  rw [show (nest es Y).map (fun t => leavesAt es.length uncut (cut es.length t)) =
    ((nest es Y).map (cut es.length)).map (leavesAt es.length uncut) by rw [List.map_map]; rfl]
  unfold cut
  rw [nest_map, leavesAt_nest, List.map_map]
  congr 1
  exact List.map_id' _

/-- The chosen items. -/
theorem atImpl_spec (items : List (Option α)) {d : Slice Int} (hd : Wf d)
    (hv : Valid (items.map Tree.leaf) d) :
    Wf (atImpl items d) ∧ (atImpl items d).rank = d.rank ∧
      view (atImpl items d) = leavesAt d.rank uncut (stateOf (items.map Tree.leaf) d).2 := by
  refine ⟨by simpa [Wf, atImpl] using hd, rfl, ?_⟩
  apply view_of
  have h := nest_view (wf_map (lift (items.map Tree.leaf)) hd)
  have h8 := congrArg (List.map (leavesAt d.edges.length uncut)) h
  rw [show (mapItems (lift (items.map Tree.leaf)) d).edges = d.edges from rfl, leavesAt_nest] at h8
  refine Eq.trans ?_ h8
  simp only [atImpl, mapItems]
  congr 1
  simp only [List.map_map]
  apply List.map_congr_left
  intro i hi
  cases i with
  | none => rfl
  | some i =>
    obtain ⟨h0, h1⟩ := hv i hi
    simp only [Function.comp, lift, Option.bind_some, Tree.item]
    rw [List.length_map] at h1
    rw [List.getElem?_map, List.getElem?_eq_getElem h1]
    simp only [Option.map_some, uncut, atIndex]
    rw [if_neg (by omega), if_neg (by omega), List.getD_eq_getElem?_getD, List.getElem?_eq_getElem h1]
    rfl

/-- What is chosen before the first argument. -/
theorem start_spec {x : Slice α} (hx : Wf x) (k : Nat) (hk : k < x.rank) :
    let c : Slice Int := ⟨x.edges.take k, (List.range (x.edges.getD k []).length).map
      fun (i : Nat) => some (i : Int)⟩
    Fits (x.edges.getD k []).length (x.edges.drop k) (x.items.map Tree.leaf).length ∧ Wf c ∧
      Valid (nest (x.edges.drop k) (x.items.map Tree.leaf)) c ∧
      stateOf (nest (x.edges.drop k) (x.items.map Tree.leaf)) c = (k, cut k (view x)) := by
  intro c
  have hk' : k < x.edges.length := hk
  have hx' : Fits 1 (x.edges.take k ++ x.edges.drop k) x.items.length := by
    rw [List.take_append_drop]; exact hx
  obtain ⟨m, hm1, hm2⟩ := Fits.append.mp hx'
  have hm : m = (x.edges.getD k []).length := by
    rw [List.drop_eq_getElem_cons hk'] at hm2
    rw [List.getD_eq_getElem?_getD, List.getElem?_eq_getElem hk']
    exact hm2.1.symm
  subst hm
  have hlen : (nest (x.edges.drop k) (x.items.map Tree.leaf)).length = (x.edges.getD k []).length :=
    nest_length (by simpa using hm2)
  have hw : Wf c := by
    show Fits 1 (x.edges.take k) ((List.range (x.edges.getD k []).length).map
      fun (i : Nat) => some (i : Int)).length
    simpa using hm1
  refine ⟨by simpa using hm2, hw, ?_, ?_⟩
  · intro i hi
    obtain ⟨j, hj, hji⟩ := List.mem_map.mp hi
    cases hji
    rw [hlen]
    exact ⟨by omega, by simpa using List.mem_range.mp hj⟩
  · have hr : c.rank = k := by simp [c, Slice.rank]; omega
    refine Prod.ext hr ?_
    apply view_of
    have hv := nest_view hx
    have hv2 : nest (x.edges.take k) (nest (x.edges.drop k) (x.items.map Tree.leaf)) = [view x] := by
      rw [← nest_append, List.take_append_drop]; exact hv
    have h8 := congrArg (List.map (cut (x.edges.take k).length)) hv2
    unfold cut at h8
    rw [nest_map] at h8
    have hlk : (x.edges.take k).length = k := hr
    rw [hlk] at h8
    refine Eq.trans ?_ h8
    show nest (x.edges.take k) _ = _
    congr 1
    simp only [mapItems, c, List.map_map]
    apply List.ext_getElem?
    intro i
    simp only [List.getElem?_map]
    by_cases hi : i < (x.edges.getD k []).length
    · rw [List.getElem?_range hi, List.getElem?_eq_getElem (by omega)]
      simp [lift, List.getElem?_eq_getElem (show i < (nest (x.edges.drop k) (x.items.map Tree.leaf)).length by omega)]
    · rw [List.getElem?_eq_none (by simpa using hi), List.getElem?_eq_none (by omega)]
      rfl

/-- The faster way for a single argument and one dimension. -/
theorem fast_path {x : Slice α} (hx : Wf x) (hr : x.rank = 1) {i : Slice Int} (hi : Wf i) :
    ∃ d, chooseAll (x.edges.drop 0) [.single i] ⟨x.edges.take 0,
        (List.range (x.edges.getD 0 []).length).map fun (i : Nat) => some (i : Int)⟩ = .ok d ∧
      atImpl x.items d = atImpl x.items i := by
  obtain ⟨edges, items⟩ := x
  obtain ⟨e, rfl⟩ : ∃ e, edges = [e] := by
    match edges, hr with
    | [e], _ => exact ⟨e, rfl⟩
  have hf : e.length = 1 ∧ e.sum = items.length := hx
  obtain ⟨n, rfl⟩ : ∃ n, e = [n] := by
    match e, hf.1 with
    | [n], _ => exact ⟨n, rfl⟩
  have hn : n = items.length := by simpa using hf.2
  have hpre : ([] : List Edge) <+: i.edges := List.nil_prefix
  have hL : largest [] [i.edges] = i.edges := by
    simp only [largest]
    by_cases h : ([] : List Edge).length < i.edges.length
    · rw [if_pos h]
    · rw [if_neg h]
      have : i.edges = [] := by
        cases hh : i.edges with
        | nil => rfl
        | cons a l => rw [hh] at h; simp at h
      exact this.symm
  have hal : align2 (⟨[], [some 0]⟩ : Slice Int) i = .ok (⟨i.edges, expandAll i.edges [some 0]⟩, i) := by
    unfold align2
    simp only [hL]
    rw [broadcastTo_prefix hpre, broadcastTo_self]
    rfl
  have hfs : forSingle (⟨[], [some 0]⟩ : Slice Int) i [n] = .ok ⟨i.edges,
      List.zipWith (childOf [n] (splitPoints 0 [n])) (expandAll i.edges [some 0]) i.items⟩ := by
    unfold forSingle
    rw [hal]
  refine ⟨⟨i.edges, List.zipWith (childOf [n] (splitPoints 0 [n])) (expandAll i.edges [some 0]) i.items⟩, by
    rw [show List.drop 0 (Slice.mk [[n]] items).edges = [[n]] from rfl, chooseAll_cons]
    rw [show stepArg [n] ⟨List.take 0 (Slice.mk [[n]] items).edges, List.map (fun (i : Nat) => some (i : Int))
        (List.range (List.length ((Slice.mk [[n]] items).edges.getD 0 [])))⟩ (.single i) =
      forSingle (⟨[], [some 0]⟩ : Slice Int) i [n] from rfl, hfs]
    simp only [chooseAll], ?_⟩
  have hlen : (expandAll i.edges [some (0 : Int)]).length = i.items.length :=
    expandAll_length (n := 1) hi _ rfl
  have hrep : expandAll i.edges [some (0 : Int)] = List.replicate i.items.length (some 0) := by
    rw [List.eq_replicate_iff]
    exact ⟨hlen, fun b hb => by simpa using expandAll_mem _ _ b hb⟩
  unfold atImpl
  simp only [Slice.mk.injEq, true_and]
  rw [hrep]
  have hz : ∀ (l : List (Option Int)), List.zipWith (childOf [n] (splitPoints 0 [n]))
      (List.replicate l.length (some 0)) l = l.map (childOf [n] (splitPoints 0 [n]) (some 0)) := by
    intro l
    induction l with
    | nil => rfl
    | cons a l ih => simp only [List.length_cons, List.replicate_succ, List.zipWith_cons_cons, List.map_cons, ih]
  rw [hz, List.map_map]
  apply List.map_congr_left
  intro j _
  cases j with
  | none => rfl
  | some j =>
    simp only [Function.comp, childOf, childIndex, Option.bind_some]
    have h1 : (List.getD [n] (0 : Int).toNat 0) = n := rfl
    have h2 : (splitPoints 0 [n]).getD (0 : Int).toNat 0 = 0 := rfl
    rw [h1, h2]
    unfold atIndex
    simp only
    rw [hn]
    by_cases hj : j < 0
    · simp only [if_pos hj]
      by_cases hb : j + (items.length : Int) < 0 ∨ j + (items.length : Int) ≥ items.length
      · rw [if_pos hb, if_pos hb]; rfl
      · rw [if_neg hb, if_neg hb]
        simp only [Option.bind_some]
        rw [if_neg (show ¬ ((0 : Nat) : Int) + (j + (items.length : Int)) < 0 by omega)]
        rw [if_neg (by omega)]
        congr 2
        omega
    · simp only [if_neg hj]
      by_cases hb : j < 0 ∨ j ≥ items.length
      · rw [if_pos hb, if_pos hb]; rfl
      · rw [if_neg hb, if_neg hb]
        simp only [Option.bind_some]
        rw [if_neg (show ¬ ((0 : Nat) : Int) + j < 0 by omega)]
        rw [if_neg (by omega)]
        congr 2
        omega

/-- `subslice` in terms of nested lists. -/
theorem subslice_spec {x : Slice α} (hx : Wf x) (args : List Arg) (ha : ∀ a ∈ args, ArgWf a) :
    (args.length ≤ x.rank →
      SuitsAll (x.rank - args.length, cut (x.rank - args.length) (view x)) args →
      ∃ t, subslice x args = .ok t ∧ Wf t ∧
        t.rank = (chooseMany (x.rank - args.length, cut (x.rank - args.length) (view x)) args).1 ∧
        view t = leavesAt t.rank uncut
          (chooseMany (x.rank - args.length, cut (x.rank - args.length) (view x)) args).2) ∧
    (args.length ≤ x.rank →
      ¬ SuitsAll (x.rank - args.length, cut (x.rank - args.length) (view x)) args →
      subslice x args = .error .broadcast) ∧
    (x.rank < args.length → subslice x args = .error .rank) := by
  cases args with
  | nil =>
    refine ⟨fun _ _ => ⟨x, rfl, hx, rfl, ?_⟩, fun _ h => absurd trivial h, fun h => by simp at h⟩
    have h := leavesAt_cut x.edges (x.items.map Tree.leaf)
    rw [nest_view hx] at h
    simp only [List.map_cons, List.map_nil, List.cons.injEq, and_true] at h
    exact h.symm
  | cons a args =>
    refine ⟨?_, ?_, ?_⟩
    · intro hle hs
      obtain ⟨s1, s2, s3, s4⟩ := start_spec hx (x.rank - (a :: args).length)
        (by simp at hle ⊢; omega)
      have hl : (x.edges.drop (x.rank - (a :: args).length)).length = (a :: args).length := by
        simp [Slice.rank] at hle ⊢; omega
      have hch := chooseAll_spec _ _ (a :: args) hl s1 s2 s3 ha
      rw [s4] at hch
      obtain ⟨d, hd, hwd, hvd, hsd⟩ := hch.1 hs
      obtain ⟨t1, t2, t3⟩ := atImpl_spec x.items hwd hvd
      have hgoal : subslice x (a :: args) = .ok (atImpl x.items d) := by
        unfold subslice
        simp only
        rw [if_neg (by omega)]
        by_cases hfast : ∃ i, a = .single i ∧ args = [] ∧ x.rank = 1
        · obtain ⟨i, rfl, rfl, hr⟩ := hfast
          simp only [fastArg, hr, if_true]
          have hr0 : x.rank - [Arg.single i].length = 0 := by simp [hr]
          obtain ⟨d', hd', heq⟩ := fast_path hx hr (ha (.single i) (by simp))
          rw [hr0] at hd
          rw [hd] at hd'
          cases hd'
          rw [heq]
        · have : fastArg x.rank (a :: args) = none := by
            match a, args with
            | .single i, [] =>
              simp only [fastArg]
              rw [if_neg]
              intro hr
              exact hfast ⟨i, rfl, rfl, hr⟩
            | .range _ _, [] => rfl
            | .single _, _ :: _ => rfl
            | .range _ _, _ :: _ => rfl
          rw [this]
          simp only [hd]
      refine ⟨_, hgoal, t1, ?_, ?_⟩
      · rw [t2, ← hsd]; rfl
      · rw [t3, hsd, t2]
    · intro hle hs
      obtain ⟨s1, s2, s3, s4⟩ := start_spec hx (x.rank - (a :: args).length)
        (by simp at hle ⊢; omega)
      have hl : (x.edges.drop (x.rank - (a :: args).length)).length = (a :: args).length := by
        simp [Slice.rank] at hle ⊢; omega
      have hch := chooseAll_spec _ _ (a :: args) hl s1 s2 s3 ha
      rw [s4] at hch
      have hd := hch.2 hs
      unfold subslice
      simp only
      rw [if_neg (by omega)]
      have : fastArg x.rank (a :: args) = none := by
        match a, args with
        | .single i, [] =>
          simp only [fastArg]
          rw [if_neg]
          intro hr
          obtain ⟨d', hd', heq⟩ := fast_path hx hr (ha (.single i) (by simp))
          have hr0 : x.rank - [Arg.single i].length = 0 := by simp [hr]
          rw [hr0, hd'] at hd
          cases hd
        | .range _ _, [] => rfl
        | .single _, _ :: _ => rfl
        | .range _ _, _ :: _ => rfl
      rw [this]
      simp only [hd]
    · intro hlt
      unfold subslice
      simp only
      rw [if_pos hlt]

/-! ### the ellipsis -/

theorem cut_full {x : Slice α} (hx : Wf x) (k : Nat) (hk : k < x.rank) :
    choose (k, cut k (view x)) (.range none none) = (k + 1, cut (k + 1) (view x)) := by
  refine Prod.ext rfl ?_
  show leavesAt k (fun p => Tree.node (((p.map Tree.children).getD []).map (fun t => Tree.leaf (some t))))
    (cut k (view x)) = cut (k + 1) (view x)
  have hk' : k < x.edges.length := hk
  have h1 : nest (x.edges.take (k + 1)) (nest (x.edges.drop (k + 1)) (x.items.map Tree.leaf)) = [view x] := by
    rw [← nest_append, List.take_append_drop]; exact nest_view hx
  have h2 : nest (x.edges.take k) ((parts x.edges[k] (nest (x.edges.drop (k + 1)) (x.items.map Tree.leaf))).map
      Tree.node) = [view x] := by
    rw [← h1, ← List.take_append_getElem hk', nest_append]
    rfl
  have l1 : (x.edges.take (k + 1)).length = k + 1 := by simp; omega
  have l2 : (x.edges.take k).length = k := by simp; omega
  have h3 := congrArg (List.map (cut (x.edges.take (k + 1)).length)) h1
  have h4 := congrArg (List.map (leavesAt (x.edges.take k).length (fun p => Tree.node (((p.map Tree.children).getD []).map
      (fun t => Tree.leaf (some t)))))) (congrArg (List.map (cut (x.edges.take k).length)) h2)
  unfold cut at h3 h4
  rw [nest_map] at h3 h4
  rw [leavesAt_nest] at h4
  rw [← List.take_append_getElem hk', nest_append] at h3
  rw [List.take_append_getElem hk', l1] at h3
  rw [l2] at h4
  have h5 := h4.symm.trans (Eq.trans (congrArg _ ?_) h3)
  · simpa [cut] using h5
  · simp only [nest, List.map_map]
    rw [parts_map, List.map_map]
    apply List.map_congr_left
    intro r _
    rfl

theorem chooseMany_full {x : Slice α} (hx : Wf x) (k : Nat) (hk : k ≤ x.rank) (args : List Arg) :
    chooseMany (0, cut 0 (view x)) (List.replicate k (.range none none) ++ args) =
        chooseMany (k, cut k (view x)) args ∧
      (SuitsAll (0, cut 0 (view x)) (List.replicate k (.range none none) ++ args) ↔
        SuitsAll (k, cut k (view x)) args) := by
  induction k generalizing args with
  | zero => simp
  | succ k ih =>
    obtain ⟨h1, h2⟩ := ih (by omega) (.range none none :: args)
    rw [List.replicate_succ', List.append_assoc]
    refine ⟨h1.trans ?_, h2.trans ?_⟩
    · simp only [chooseMany, List.foldl_cons]
      rw [cut_full hx k (by omega)]
    · simp only [SuitsAll]
      rw [cut_full hx k (by omega)]
      exact ⟨fun h => h.2, fun h => ⟨trivial, h⟩⟩

/-- `subslice` with full ranges in front. -/
theorem subslice_full {x : Slice α} (hx : Wf x) (args : List Arg) (ha : ∀ a ∈ args, ArgWf a)
    (k : Nat) (hk : k + args.length = x.rank) :
    (SuitsAll (0, cut 0 (view x)) (List.replicate k (.range none none) ++ args) →
      ∃ t, subslice x args = .ok t ∧ Wf t ∧
        (t.rank, view t) = ((chooseMany (0, cut 0 (view x)) (List.replicate k (.range none none) ++ args)).1,
          leavesAt t.rank uncut
            (chooseMany (0, cut 0 (view x)) (List.replicate k (.range none none) ++ args)).2)) ∧
    (¬ SuitsAll (0, cut 0 (view x)) (List.replicate k (.range none none) ++ args) →
      subslice x args = .error .broadcast) := by
  obtain ⟨h1, h2⟩ := chooseMany_full hx k (by omega) args
  obtain ⟨s1, s2, -⟩ := subslice_spec hx args ha
  have hk' : x.rank - args.length = k := by omega
  rw [hk'] at s1 s2
  rw [h1, h2]
  refine ⟨fun h => ?_, fun h => s2 (by omega) h⟩
  obtain ⟨t, t1, t2, t3, t4⟩ := s1 (by omega) h
  exact ⟨t, t1, t2, by rw [← t3, ← t4]⟩

theorem splitEllipsis_args (n : Nat) (l : List Arg) : splitEllipsis n (l.map .arg) = (l, none) := by
  induction l generalizing n with
  | nil => rfl
  | cons a l ih => simp [splitEllipsis, ih]

theorem splitEllipsis_one (n : Nat) (pre post : List Arg) :
    splitEllipsis n (pre.map .arg ++ .ellipsis :: post.map .arg) = (pre ++ post, some (n + pre.length)) := by
  induction pre generalizing n with
  | nil => simp [splitEllipsis, splitEllipsis_args]
  | cons a l ih =>
    simp only [List.map_cons, List.cons_append, splitEllipsis, ih]
    simp only [List.length_cons, Prod.mk.injEq, Option.some.injEq, true_and]
    omega

/-- Whether an argument is an ellipsis. -/
theorem count_args (l : List Arg) :
    (l.map SlicingArg.arg).countP isEllipsis = 0 := by
  rw [List.countP_eq_zero]
  intro a h
  obtain ⟨b, -, rfl⟩ := List.mem_map.mp h
  simp [isEllipsis]

theorem ellipsis_eq {x : Slice α} (pre post : List Arg) (h : pre.length + post.length ≤ x.rank) :
    subsliceOp x (pre.map .arg ++ .ellipsis :: post.map .arg) =
      subslice x (if pre.length ≠ 0 then
        pre ++ List.replicate (x.rank - (pre.length + post.length)) (.range none none) ++ post else post) := by
  unfold subsliceOp slicingArgs
  rw [List.countP_append, List.countP_cons, count_args, count_args, splitEllipsis_one]
  simp only [isEllipsis, if_true]
  rw [if_neg (by simp), if_neg (by simp; omega)]
  by_cases hp : pre.length ≠ 0
  · rw [if_pos (by omega), if_pos hp]
    simp
  · rw [if_neg (by omega), if_neg hp]
    have : pre = [] := List.eq_nil_of_length_eq_zero (by omega)
    subst this
    rfl

end Verif.SliceOps
