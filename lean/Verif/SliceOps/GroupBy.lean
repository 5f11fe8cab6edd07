import Verif.SliceOps.Keys
import Verif.SliceOps.Child

/-!
`group_by_indices` on nested lists.
-/

namespace Verif.SliceOps

variable {α β : Type} {eq lt : α → α → Bool} {isNan : α → Bool}

/-- What is known of the rows between two keys. -/
def BetweenRows (eq lt : α → α → Bool) (sort : Bool) (n : Nat) :
    List (List (Option (List α))) → List (List (Option Nat)) → Prop
  | [], [] => True
  | K :: Ks, c :: cs => Between eq lt sort n K c ∧ BetweenRows eq lt sort n Ks cs
  | _, _ => False

/-- What is known of the rows after a key. -/
def AfterRows (eq lt : α → α → Bool) (sort : Bool) (n : Nat) :
    Nat → List (List (Option (List α))) → List (List (Option Nat)) → List Nat → Prop
  | _, [], [], [] => True
  | s, K :: Ks, c :: cs, m :: ms => After eq lt sort n K c s m ∧ AfterRows eq lt sort n (s + m) Ks cs ms
  | _, _, _, _ => False

theorem AfterRows.between {sort : Bool} {n s : Nat} {Ks : List (List (Option (List α)))}
    {cs : List (List (Option Nat))} {ms : List Nat} (h : AfterRows eq lt sort n s Ks cs ms) :
    BetweenRows eq lt sort n Ks cs := by
  induction Ks generalizing s cs ms with
  | nil => cases cs <;> cases ms <;> first | exact h.elim | trivial
  | cons K Ks ih =>
    cases cs with
    | nil => cases ms <;> exact h.elim
    | cons c cs => cases ms with
      | nil => exact h.elim
      | cons m ms => exact ⟨h.1.between, ih h.2⟩

theorem AfterRows.dense {sort : Bool} {n s : Nat} {Ks : List (List (Option (List α)))}
    {cs : List (List (Option Nat))} {ms : List Nat} (h : AfterRows eq lt sort n s Ks cs ms) :
    DenseRows s cs ms := by
  induction Ks generalizing s cs ms with
  | nil => cases cs <;> cases ms <;> first | exact h.elim | trivial
  | cons K Ks ih =>
    cases cs with
    | nil => cases ms <;> exact h.elim
    | cons c cs => cases ms with
      | nil => exact h.elim
      | cons m ms => exact ⟨h.1.numbers.dense, ih h.2⟩

theorem AfterRows.lengths {sort : Bool} {n s : Nat} {Ks : List (List (Option (List α)))}
    {cs : List (List (Option Nat))} {ms : List Nat} (h : AfterRows eq lt sort n s Ks cs ms) :
    cs.map List.length = Ks.map List.length := by
  induction Ks generalizing s cs ms with
  | nil => cases cs <;> cases ms <;> first | exact h.elim | rfl
  | cons K Ks ih =>
    cases cs with
    | nil => cases ms <;> exact h.elim
    | cons c cs => cases ms with
      | nil => exact h.elim
      | cons m ms =>
        simp only [List.map_cons]
        rw [h.1.numbers.len, ih h.2]

theorem AfterRows.groups {sort : Bool} {n s : Nat} {Ks : List (List (Option (List α)))}
    {cs : List (List (Option Nat))} {ms : List Nat} (h : AfterRows eq lt sort n s Ks cs ms) :
    (rowGroups s cs ms).length = Ks.length ∧ (rowGroups s cs ms).map List.length = ms ∧
    ∀ (r : Nat) K gs, Ks[r]? = some K → (rowGroups s cs ms)[r]? = some gs →
      ∃ c s' m, gs = groupsOf c s' m ∧ After eq lt sort n K c s' m := by
  induction Ks generalizing s cs ms with
  | nil => cases cs <;> cases ms <;> first | exact h.elim | simp [rowGroups]
  | cons K Ks ih =>
    cases cs with
    | nil => cases ms <;> exact h.elim
    | cons c cs => cases ms with
      | nil => exact h.elim
      | cons m ms =>
        obtain ⟨h1, h2, h3⟩ := ih h.2
        refine ⟨by simp [rowGroups, h1], by simp [rowGroups, h2, groupsOf], ?_⟩
        intro r K' gs hK hg
        cases r with
        | zero =>
          simp [rowGroups] at hK hg
          subst hK hg
          exact ⟨c, s, m, rfl, h.1⟩
        | succ r =>
          simp [rowGroups] at hK hg
          exact h3 r K' gs hK hg

theorem processChunks_spec (he : Equality eq isNan) (sort : Bool) (ho : sort = true → Ordering eq isNan lt)
    {n : Nat} (Ks : List (List (Option (List α)))) (cs : List (List (Option Nat)))
    (hb : BetweenRows eq lt sort n Ks cs) (vs : List (List (Option α)))
    (hl : vs.map List.length = Ks.map List.length)
    (hv : sort = true → ∀ v ∈ vs, ∀ x, some x ∈ v → isNan x = false) (s : Nat) :
    ∃ ms, AfterRows eq lt sort (n + 1) s (List.zipWith (List.zipWith snocKey) Ks vs)
      (processChunks eq lt sort s cs vs) ms := by
  induction Ks generalizing cs vs s with
  | nil =>
    cases vs with
    | nil => cases cs with
      | nil => exact ⟨[], by simp [processChunks, AfterRows]⟩
      | cons c cs => exact hb.elim
    | cons v vs => simp at hl
  | cons K Ks ih =>
    cases vs with
    | nil => simp at hl
    | cons v vs => cases cs with
      | nil => exact hb.elim
      | cons c cs =>
        simp only [List.map_cons, List.cons.injEq] at hl
        obtain ⟨m, h1, h2⟩ := chunk_spec he sort ho hb.1 v hl.1 (fun h => hv h v (by simp)) s
        obtain ⟨ms, h3⟩ := ih cs hb.2 vs hl.2 (fun h w hw => hv h w (List.mem_cons_of_mem _ hw)) (s + m)
        refine ⟨m :: ms, ?_⟩
        unfold processChunks
        simp only [h1]
        exact ⟨h2, h3⟩

theorem mem_parts (e : List Nat) (l : List β) (p : List β) (hp : p ∈ parts e l) (x : β) (hx : x ∈ p) :
    x ∈ l := by
  induction e generalizing l with
  | nil => simp [parts] at hp
  | cons n ns ih =>
    rcases List.mem_cons.mp hp with rfl | hp
    · exact List.mem_of_mem_take hx
    · exact List.mem_of_mem_drop (ih (l.drop n) hp)

theorem processKey_spec (he : Equality eq isNan) (sort : Bool) (ho : sort = true → Ordering eq isNan lt)
    {n : Nat} {e : Edge} {K : List (Option (List α))} {ids : List (Option Nat)}
    (hb : BetweenRows eq lt sort n (parts e K) (parts e ids)) (hK : K.length = e.sum) (vals : List (Option α))
    (hl : vals.length = e.sum) (hv : sort = true → ∀ x, some x ∈ vals → isNan x = false) :
    (processKey eq lt sort e ids vals).length = e.sum ∧
    ∃ ms, AfterRows eq lt sort (n + 1) 0 (parts e (List.zipWith snocKey K vals))
      (parts e (processKey eq lt sort e ids vals)) ms := by
  obtain ⟨ms, h⟩ := processChunks_spec he sort ho (parts e K) (parts e ids) hb (parts e vals)
    (by rw [parts_lengths e _ hl, parts_lengths e _ hK])
    (fun hs v hv' x hx => hv hs x (mem_parts e vals v hv' _ hx)) 0
  have hlen := h.lengths
  rw [← parts_zipWith, parts_lengths e _ (by rw [List.length_zipWith, hK, hl, Nat.min_self])] at hlen
  unfold processKey
  rw [chop_eq, chop_eq]
  refine ⟨by rw [List.length_flatten, hlen], ms, ?_⟩
  rw [parts_zipWith]
  generalize processChunks eq lt sort 0 (parts e ids) (parts e vals) = cs at *
  have : parts e cs.flatten = cs := by rw [← hlen, parts_of_flatten]
  rw [this]
  exact h

theorem processKeys_spec (he : Equality eq isNan) (sort : Bool) (ho : sort = true → Ordering eq isNan lt)
    {e : Edge} (rest : List (List (Option α))) {n : Nat} {K : List (Option (List α))} {ids : List (Option Nat)}
    {ms : List Nat}
    (hb : AfterRows eq lt sort n 0 (parts e K) (parts e ids) ms) (hK : K.length = e.sum)
    (hi : ids.length = e.sum)
    (hr : ∀ vals ∈ rest, vals.length = e.sum ∧ (sort = true → ∀ x, some x ∈ vals → isNan x = false)) :
    (processKeys eq lt sort e ids rest).length = e.sum ∧
    ∃ ms, AfterRows eq lt sort (n + rest.length) 0 (parts e (rest.foldl (List.zipWith snocKey) K))
      (parts e (processKeys eq lt sort e ids rest)) ms := by
  induction rest generalizing n K ids ms with
  | nil => exact ⟨hi, ms, hb⟩
  | cons vals rest ih =>
    have hv := hr vals (by simp)
    obtain ⟨h1, ms', h2⟩ := processKey_spec he sort ho hb.between hK vals hv.1 hv.2
    have := ih h2 (by rw [List.length_zipWith, hK, hv.1, Nat.min_self]) h1
      (fun w hw => hr w (List.mem_cons_of_mem _ hw))
    simp only [List.length_cons, List.foldl_cons, processKeys]
    rw [show n + (rest.length + 1) = n + 1 + rest.length by omega]
    exact this

theorem start_between (sort : Bool) (e : List Nat) (l : List (Option α)) (h : l.length = e.sum) :
    BetweenRows eq lt sort 0 (parts e (l.map fun _ => some [])) (parts e (l.map fun _ => some 0)) := by
  induction e generalizing l with
  | nil => trivial
  | cons n ns ih =>
    simp only [parts]
    refine ⟨?_, ?_⟩
    · rw [← List.map_take, ← List.map_take]
      have h0 : ∀ (i v : Nat), ((l.take n).map fun _ => some 0)[i]? = some (some v) → v = 0 := by
        intro i v hv
        rw [List.getElem?_map] at hv
        cases hx : (l.take n)[i]? with
        | none => rw [hx] at hv; simp at hv
        | some o => rw [hx] at hv; simpa using hv.symm
      have hnil : ∀ (i : Nat) (k : List α), ((l.take n).map fun _ => some [])[i]? = some (some k) → k = [] := by
        intro i k hv
        rw [List.getElem?_map] at hv
        cases hx : (l.take n)[i]? with
        | none => rw [hx] at hv; simp at hv
        | some o => rw [hx] at hv; simpa using hv.symm
      refine ⟨?_, ⟨by simp, ?_, ?_⟩, ?_⟩
      · intro k hk
        obtain ⟨i, hi⟩ := List.mem_iff_getElem?.mp hk
        rw [hnil i k hi]; rfl
      · intro i
        rw [List.getElem?_map, List.getElem?_map]
        cases (l.take n)[i]? <;> simp
      · intro i j z w v u _ hz hw hv hu
        rw [hnil i z hz, hnil j w hw, h0 i v hv, h0 j u hu]
        simp [sameKey]
      · intro _
        constructor
        · intro k hk
          obtain ⟨i, hi⟩ := List.mem_iff_getElem?.mp hk
          rw [hnil i k hi]; rfl
        · intro i j z w v u hz hw hv hu
          rw [hnil i z hz, hnil j w hw, h0 i v hv, h0 j u hu]
          simp [keyLess]
    · rw [← List.map_drop, ← List.map_drop]
      exact ih (l.drop n) (by simp at h; simp; omega)

/-- The keys of some items. -/
def keysAt (N : Nat) (rows : List (List (Option α))) : List (Option (List α)) :=
  (List.range N).map fun i => rows.mapM fun v => (v[i]?).join

theorem keysAt_snoc (N : Nat) (rows : List (List (Option α))) (vals : List (Option α)) (h : vals.length = N) :
    List.zipWith snocKey (keysAt N rows) vals = keysAt N (rows ++ [vals]) := by
  apply List.ext_getElem?
  intro i
  unfold keysAt
  rw [List.getElem?_zipWith, List.getElem?_map, List.getElem?_map]
  rcases Nat.lt_or_ge i N with hi | hi
  · rw [List.getElem?_range hi]
    have hv : vals[i]? = some vals[i] := List.getElem?_eq_getElem (by omega)
    rw [hv]
    simp only [Option.map_some, List.mapM_append, List.mapM_cons, List.mapM_nil, hv, Option.join_some]
    cases (rows.mapM fun v => (v[i]?).join) <;> cases vals[i] <;> rfl
  · rw [List.getElem?_eq_none (by simpa using hi)]
    simp

theorem keysAt_fold (N : Nat) (rest rows : List (List (Option α))) (h : ∀ v ∈ rest, v.length = N) :
    rest.foldl (List.zipWith snocKey) (keysAt N rows) = keysAt N (rows ++ rest) := by
  induction rest generalizing rows with
  | nil => simp
  | cons v rest ih =>
    rw [List.foldl_cons, keysAt_snoc N rows v (h v (by simp)), ih _ (fun w hw => h w (List.mem_cons_of_mem _ hw))]
    simp

theorem processKeys_all (he : Equality eq isNan) (sort : Bool) (ho : sort = true → Ordering eq isNan lt)
    {e : Edge} (vals : List (Option α)) (rest : List (List (Option α)))
    (hr : ∀ v ∈ vals :: rest, v.length = e.sum ∧ (sort = true → ∀ x, some x ∈ v → isNan x = false)) :
    (processKeys eq lt sort e (vals.map fun _ => some 0) (vals :: rest)).length = e.sum ∧
    ∃ n ms, AfterRows eq lt sort n 0 (parts e (keysAt e.sum (vals :: rest)))
      (parts e (processKeys eq lt sort e (vals.map fun _ => some 0) (vals :: rest))) ms := by
  have hv := hr vals (by simp)
  have h0 : (vals.map fun _ => some []) = keysAt e.sum ([] : List (List (Option α))) := by
    unfold keysAt
    rw [← hv.1]
    apply List.ext_getElem?
    intro i
    rw [List.getElem?_map, List.getElem?_map]
    rcases Nat.lt_or_ge i vals.length with hi | hi
    · rw [List.getElem?_range hi, List.getElem?_eq_getElem hi]
      rfl
    · rw [List.getElem?_eq_none hi, List.getElem?_eq_none (by simpa using hi)]
      rfl
  obtain ⟨h1, ms, h2⟩ := processKey_spec he sort ho (start_between sort e vals hv.1) (by simp [hv.1]) vals hv.1 hv.2
  rw [h0, keysAt_snoc _ _ _ hv.1] at h2
  obtain ⟨h3, ms', h4⟩ := processKeys_spec he sort ho rest h2 (by simp [keysAt]) h1
    (fun w hw => hr w (List.mem_cons_of_mem _ hw))
  rw [keysAt_fold _ _ _ (fun w hw => (hr w (List.mem_cons_of_mem _ hw)).1)] at h4
  exact ⟨h3, _, ms', h4⟩

/-! ### nested lists -/

theorem nest_rel {n : Nat} (R : Tree α → Tree β → Prop) (U : List Edge) (Y : List (Tree α)) (Z : List (Tree β))
    (h : Fits n U Y.length) (hl : Y.length = Z.length)
    (hR : ∀ (i : Nat) a b, Y[i]? = some a → Z[i]? = some b → R a b) :
    ∀ (i : Nat) a b, (nest U Y)[i]? = some a → (nest U Z)[i]? = some b → RelAt U.length R a b := by
  induction U generalizing n with
  | nil =>
    intro i a b ha hb
    simp only [List.length_nil, RelAt]
    exact hR i a b ha hb
  | cons e U ih =>
    intro i a b ha hb
    simp only [nest, List.getElem?_map] at ha hb
    have hi : i < e.length := by
      rcases Nat.lt_or_ge i e.length with hi | hi
      · exact hi
      · rw [List.getElem?_eq_none (by rw [parts_length]; exact hi)] at ha
        simp at ha
    rw [parts_get e _ i hi] at ha hb
    simp only [Option.map_some, Option.some.injEq] at ha hb
    subst ha hb
    have h1 : (nest U Y).length = e.sum := nest_length h.2
    have h2 : (nest U Z).length = e.sum := nest_length (by rw [← hl]; exact h.2)
    simp only [List.length_cons, RelAt]
    refine ⟨by simp [h1, h2], ?_⟩
    intro j a b ha hb
    rw [List.getElem?_take, List.getElem?_drop] at ha hb
    by_cases hj : j < e.getD i 0
    · rw [if_pos hj] at ha hb
      exact ih h.2 _ a b ha hb
    · rw [if_neg hj] at ha
      simp at ha

theorem checkKeys_none {sort : Bool} {sortable : Slice α → Bool} {edges : List Edge} {l : List (Slice α)}
    (h : ∀ s ∈ l, s.edges = edges ∧ (sort = true → sortable s = true)) :
    checkKeys sort sortable edges l = none := by
  induction l with
  | nil => rfl
  | cons s l ih =>
    have hs := h s (by simp)
    have : (sort && !sortable s) = false := by
      cases sort with
      | false => rfl
      | true => simp [hs.2 rfl]
    unfold checkKeys
    rw [if_neg (by simp [hs.1]), this, ih (fun t ht => h t (List.mem_cons_of_mem _ ht))]
    rfl

theorem groupByIndices_spec (he : Equality eq isNan) (sort : Bool) (ho : sort = true → Ordering eq isNan lt)
    (sortable : Slice α → Bool) {x : Slice α} (rest : List (Slice α)) (hr : 1 ≤ x.rank)
    (hs : ∀ s ∈ x :: rest, Wf s ∧ s.edges = x.edges ∧
      (sort = true → sortable s = true ∧ ∀ v, some v ∈ s.items → isNan v = false)) :
    ∃ t, groupByIndices eq lt sort sortable x rest = .ok t ∧ Wf t ∧ t.rank = x.rank + 1 ∧
      RelAt (x.rank - 1) (fun row groups => ∃ (K : List (Option (List α))) (gs : List (List Nat)),
        row = .node (K.map .leaf) ∧ groups = groupsNode gs ∧ GroupsBy (sameKey eq) K gs ∧
        (sort = false → ByAppearance gs) ∧ (sort = true → ByKey (keyLess eq lt) K gs))
        (view (keysOf x rest)) (view t) := by
  have hx := (hs x (by simp)).1
  cases hl : x.edges.getLast? with
  | none =>
    have he : x.edges = [] := List.getLast?_eq_none_iff.mp hl
    simp [Slice.rank, he] at hr
  | some e =>
    obtain ⟨U, hU⟩ := List.getLast?_eq_some_iff.mp hl
    have hfit : Fits 1 (U ++ [e]) x.items.length := by rw [← hU]; exact hx
    obtain ⟨k, hk, hk2, hse⟩ := Fits.append.mp hfit
    have hse : e.sum = x.items.length := hse
    have hlen : ∀ s ∈ x :: rest, s.items.length = e.sum := by
      intro s hs'
      have h1 := hs s hs'
      have : Fits 1 (U ++ [e]) s.items.length := by rw [← hU, ← h1.2.1]; exact h1.1
      obtain ⟨_, _, _, h4⟩ := Fits.append.mp this
      exact Eq.symm h4
    obtain ⟨hil, n, ms, ha⟩ := processKeys_all he sort ho x.items (rest.map (·.items)) (e := e)
      (by
        intro v hv
        rw [← List.map_cons (f := fun s : Slice α => s.items)] at hv
        obtain ⟨s, hs', rfl⟩ := List.mem_map.mp hv
        exact ⟨hlen s hs', fun h => ((hs s hs').2.2 h).2⟩)
    have hfin := createFinal_spec e _ hil ms ha.dense
    obtain ⟨g1, g2, g3⟩ := ha.groups
    have hc : checkKeys sort sortable x.edges (x :: rest) = none :=
      checkKeys_none fun s hs' => ⟨(hs s hs').2.1, fun h => ((hs s hs').2.2 h).1⟩
    unfold groupByIndices
    rw [hl]
    simp only [hc, List.map_cons, hfin]
    generalize rowGroups 0 (parts e (processKeys eq lt sort e (List.map (fun _ => some 0) x.items)
      (x.items :: rest.map fun s => s.items))) ms = G at *
    have hd : x.edges.dropLast = U := by rw [hU, List.dropLast_concat]
    rw [hd]
    have hGl : G.length = k := by rw [g1, parts_length, hk2]
    have hfits : Fits 1 (U ++ [ms, G.flatten.map List.length]) G.flatten.flatten.length := by
      refine Fits.append.mpr ⟨k, hk, ?_, ?_, ?_⟩
      · rw [← g2, List.length_map, hGl]
      · rw [List.length_map, List.length_flatten, g2]
      · show _ = _
        rw [List.length_flatten]
    rw [shapeOk_of hfits]
    simp only [Bool.not_true, Bool.false_eq_true, if_false]
    refine ⟨_, rfl, ?_, ?_, ?_⟩
    · show Fits 1 _ (List.length _)
      rw [List.length_map, List.length_map]
      exact hfits
    · simp [Slice.rank, hU]
    · have hkw : Wf (keysOf x rest) := by
        show Fits 1 x.edges (keysOf x rest).items.length
        have : (keysOf x rest).items.length = x.items.length := by simp [keysOf]
        rw [this]
        exact hx
      have hkey : (keysOf x rest).items = keysAt e.sum (x.items :: rest.map fun s => s.items) := by
        unfold keysOf keysAt
        simp only [hse]
        apply List.map_congr_left
        intro i _
        rw [← List.map_cons (f := fun s : Slice α => s.items), List.mapM_map]
        rfl
      have hrank : x.rank - 1 = U.length := by simp [Slice.rank, hU]
      rw [hrank]
      have hv1 := nest_view hkw
      have hnk : nest (keysOf x rest).edges ((keysOf x rest).items.map Tree.leaf) =
          nest U ((parts e (keysAt e.sum (x.items :: rest.map fun s => s.items))).map
            fun K => Tree.node (K.map Tree.leaf)) := by
        show nest x.edges _ = _
        rw [hU, nest_append, hkey]
        congr 1
        simp only [nest]
        rw [parts_map, List.map_map]
        rfl
      have hwt : Wf (⟨U ++ [ms, G.flatten.map List.length],
          List.map (fun i => Option.map (fun i : Nat => (i : Int)) i) (List.map some G.flatten.flatten)⟩ : Slice Int) := by
        show Fits 1 _ (List.length _)
        rw [List.length_map, List.length_map]
        exact hfits
      have hv2 := nest_view hwt
      have hnt : nest (U ++ [ms, G.flatten.map List.length])
          ((List.map (fun i => Option.map (fun i : Nat => (i : Int)) i) (List.map some G.flatten.flatten)).map
            Tree.leaf) = nest U (G.map groupsNode) := by
        rw [nest_append]
        congr 1
        simp only [nest]
        rw [List.map_map, List.map_map, parts_map (β := Tree Int) _ (G.flatten.map List.length),
          parts_of_flatten, List.map_map, ← g2, parts_map, parts_of_flatten, List.map_map]
        apply List.map_congr_left
        intro gs _
        simp only [Function.comp, groupsNode]
        congr 1
      rw [hnk] at hv1
      rw [show ∀ (E : List Edge) (I : List (Option Int)), (⟨E, I⟩ : Slice Int).edges = E from fun _ _ => rfl] at hv2
      rw [hnt] at hv2
      refine nest_rel _ U ((parts e (keysAt e.sum (x.items :: rest.map fun s => s.items))).map
          fun K => Tree.node (K.map Tree.leaf)) (G.map groupsNode) (n := 1)
        (by rw [List.length_map, parts_length, hk2]; exact hk) (by rw [List.length_map, List.length_map, g1]) ?_ 0 _ _
        (by rw [hv1]; rfl) (by rw [hv2]; rfl)
      intro i a b ha' hb'
      rw [List.getElem?_map] at ha' hb'
      cases hKi : (parts e (keysAt e.sum (x.items :: rest.map fun s => s.items)))[i]? with
      | none => rw [hKi] at ha'; simp at ha'
      | some K =>
        cases hGi : G[i]? with
        | none => rw [hGi] at hb'; simp at hb'
        | some gs =>
          rw [hKi] at ha'
          rw [hGi] at hb'
          obtain ⟨c, s', m, rfl, haf⟩ := g3 i K gs hKi hGi
          refine ⟨K, groupsOf c s' m, by simpa using ha'.symm, by simpa using hb'.symm,
            groupsOf_groups (sameKey_symm he.symm) haf.numbers, fun h => groupsOf_appearance (haf.growing h),
            fun h => groupsOf_sorted haf.numbers (haf.sorted h).2⟩

end Verif.SliceOps
