import Verif.SliceOps.Nest

/-!
The counting sort of `group_by_indices`.
-/

namespace Verif.SliceOps

variable {α β : Type}

/-- The positions of a group, from `k` on. -/
def positions (v : Nat) : Nat → List (Option Nat) → List Nat
  | _, [] => []
  | k, o :: rest => if o = some v then k :: positions v (k + 1) rest else positions v (k + 1) rest

theorem positions_length (v k : Nat) (c : List (Option Nat)) :
    (positions v k c).length = c.count (some v) := by
  induction c generalizing k with
  | nil => rfl
  | cons o c ih =>
    unfold positions
    by_cases h : o = some v
    · rw [if_pos h, h]; simp [ih]
    · rw [if_neg h, ih, List.count_cons_of_ne (by simpa using h)]

theorem set_mid (X : List α) (y z : α) (Y : List α) : (X ++ y :: Y).set X.length z = X ++ z :: Y := by
  induction X with
  | nil => rfl
  | cons x X ih => simp [ih]

theorem getD_set_eq (C : List Nat) (i : Nat) (x : Nat) (h : i < C.length) : (C.set i x).getD i 0 = x := by
  simp [List.getD_eq_getElem?_getD, h]

theorem getD_set_ne (C : List Nat) (i j : Nat) (x : Nat) (h : i ≠ j) :
    (C.set i x).getD j 0 = C.getD j 0 := by
  simp [List.getD_eq_getElem?_getD, List.getElem?_set_ne h]

/-! ### counting -/

theorem countLoop_spec (c : List (Option Nat)) (C : List Nat) (n first last s t : Nat)
    (hb : ∀ g, some g ∈ c → s ≤ g ∧ g < t) (ht : t ≤ C.length) (hf : s ≤ first) (hl : last ≤ t)
    (vs : List Nat) (hn : vs.Nodup) (hvs : ∀ g, some g ∈ c → g ∈ vs) :
    ∃ C' first' last', countLoop c (C, n, first, last) =
        (C', n + vs.countP (fun v => decide (C.getD v 0 = 0) && decide (some v ∈ c)), first', last') ∧
      C'.length = C.length ∧ (∀ v, C'.getD v 0 = C.getD v 0 + c.count (some v)) ∧
      s ≤ first' ∧ first' ≤ first ∧ last ≤ last' ∧ last' ≤ t ∧ ∀ g, some g ∈ c → first' ≤ g ∧ g < last' := by
  induction c generalizing C n first last with
  | nil => exact ⟨C, first, last, by simp [countLoop], rfl, by simp, hf, Nat.le_refl _, Nat.le_refl _, hl, by simp⟩
  | cons o c ih =>
    cases o with
    | none =>
      obtain ⟨C', f', l', h1, h2, h3, h4, h5, h6, h7, h8⟩ := ih C n first last
        (fun g hg => hb g (List.mem_cons_of_mem _ hg)) ht hf hl (fun g hg => hvs g (List.mem_cons_of_mem _ hg))
      refine ⟨C', f', l', ?_, h2, ?_, h4, h5, h6, h7, ?_⟩
      · unfold countLoop
        rw [h1]
        simp
      · intro v
        rw [h3, List.count_cons_of_ne (by simp)]
      · intro g hg
        simp at hg
        exact h8 g hg
    | some g =>
      obtain ⟨hg1, hg2⟩ := hb g (by simp)
      have hgl : g < C.length := by omega
      obtain ⟨C', f', l', h1, h2, h3, h4, h5, h6, h7, h8⟩ := ih (C.set g (C.getD g 0 + 1))
        (n + (if C.getD g 0 = 0 then 1 else 0)) (min first g) (max last (g + 1))
        (fun g hg => hb g (List.mem_cons_of_mem _ hg)) (by simpa using ht) (by omega) (by omega)
        (fun g hg => hvs g (List.mem_cons_of_mem _ hg))
      refine ⟨C', f', l', ?_, by simpa using h2, ?_, h4, by omega, by omega, h7, ?_⟩
      · unfold countLoop
        simp only
        rw [h1, Nat.add_assoc]
        congr 2
        have hgv : g ∈ vs := hvs g (by simp)
        clear h1 h2 h3 h4 h5 h6 h7 h8 ih hvs
        induction vs with
        | nil => simp at hgv
        | cons v vs ihv =>
          have hn' := List.nodup_cons.mp hn
          rw [List.countP_cons, List.countP_cons]
          by_cases hv : v = g
          · subst hv
            have hrest : ∀ w ∈ vs, w ≠ v := fun w hw h => hn'.1 (h ▸ hw)
            have hc : vs.countP (fun w => decide ((C.set v (C.getD v 0 + 1)).getD w 0 = 0) && decide (some w ∈ c)) =
                vs.countP (fun w => decide (C.getD w 0 = 0) && decide (some w ∈ some v :: c)) := by
              apply List.countP_congr
              intro w hw
              rw [getD_set_ne _ _ _ _ (Ne.symm (hrest w hw))]
              simp [hrest w hw]
            rw [hc, getD_set_eq _ _ _ hgl]
            simp only [List.mem_cons, true_or, decide_true, Bool.and_true]
            simp
            omega
          · have ih' := ihv hn'.2 (by simpa [Ne.symm hv] using hgv)
            rw [getD_set_ne _ _ _ _ (Ne.symm hv)]
            have hm : (some v ∈ some g :: c) ↔ some v ∈ c := by simp [hv]
            simp only [hm]
            omega
      · intro v
        rw [h3]
        by_cases hv : g = v
        · subst hv
          rw [getD_set_eq _ _ _ hgl]
          simp
          omega
        · rw [getD_set_ne _ _ _ _ hv, List.count_cons_of_ne (by simpa using hv)]
      · intro h hh
        rcases List.mem_cons.mp hh with hh | hh
        · cases hh; omega
        · exact h8 h hh

/-- Sums from `s` on. -/
def scan : Nat → List Nat → List Nat
  | _, [] => []
  | s, x :: xs => (s + x) :: scan (s + x) xs

theorem sizesOf_scan (a : Nat) (l : List Nat) : sizesOf (a :: scan a l) = l := by
  induction l generalizing a with
  | nil => rfl
  | cons x l ih =>
    show (a + x - a) :: sizesOf ((a + x) :: scan (a + x) l) = x :: l
    rw [ih]
    congr 1
    omega

theorem scan_append (a : Nat) (l k : List Nat) : scan a (l ++ k) = scan a l ++ scan (a + l.sum) k := by
  induction l generalizing a with
  | nil => simp [scan]
  | cons x l ih => simp [scan, ih, Nat.add_assoc]

theorem prefixLoop_spec (occ : Nat → Nat) (a k : Nat) (C : List Nat) (sum : Nat) (splits : List Nat)
    (hC : ∀ v, a ≤ v → v < a + k → C.getD v 0 = occ v ∧ occ v ≠ 0) (hl : a + k ≤ C.length) :
    ∃ C', prefixLoop (List.range' a k) (C, sum, splits) =
        (C', sum + ((List.range' a k).map occ).sum, splits ++ scan sum ((List.range' a k).map occ)) ∧
      C'.length = C.length ∧ (∀ v, v < a ∨ a + k ≤ v → C'.getD v 0 = C.getD v 0) ∧
      ∀ A v B, List.range' a k = A ++ v :: B → C'.getD v 0 = sum + (A.map occ).sum := by
  induction k generalizing a C sum splits with
  | zero => exact ⟨C, by simp [prefixLoop, scan], rfl, by simp, by simp⟩
  | succ k ih =>
    obtain ⟨h0, h0'⟩ := hC a (Nat.le_refl _) (by omega)
    obtain ⟨C', h1, h2, h3, h4⟩ := ih (a + 1) (C.set a sum) (sum + occ a) (splits ++ [sum + occ a])
      (by
        intro v hv hv'
        rw [getD_set_ne _ _ _ _ (by omega)]
        exact hC v (by omega) (by omega)) (by simp; omega)
    refine ⟨C', ?_, by simpa using h2, ?_, ?_⟩
    · rw [List.range'_succ]
      unfold prefixLoop
      simp only [h0]
      rw [if_pos h0', Nat.add_sub_cancel, h1]
      simp [scan, Nat.add_assoc]
    · intro v hv
      rw [h3 v (by omega), getD_set_ne _ _ _ _ (by omega)]
    · intro A v B hA
      rw [List.range'_succ] at hA
      cases A with
      | nil =>
        simp only [List.nil_append, List.cons.injEq] at hA
        rw [← hA.1, h3 a (by omega), getD_set_eq _ _ _ (by omega)]
        simp
      | cons b A =>
        simp only [List.cons_append, List.cons.injEq] at hA
        rw [h4 A v B hA.2, ← hA.1]
        simp
        omega

/-! ### placing -/

/-- The positions of a group with one more. -/
def addAt (D : Nat → List Nat) (g pos : Nat) : Nat → List Nat := fun v => if v = g then D v ++ [pos] else D v

/-- The part of the result for a group. -/
def block (D : Nat → List Nat) (c : List (Option Nat)) (v : Nat) : List (Option Nat) :=
  (D v).map some ++ List.replicate (c.count (some v)) none

theorem block_length (D : Nat → List Nat) (c : List (Option Nat)) (v : Nat) :
    (block D c v).length = (D v).length + c.count (some v) := by simp [block]

theorem flatMap_blocks (D : Nat → List Nat) (c : List (Option Nat)) (A : List Nat) :
    (A.flatMap (block D c)).length = (A.map fun u => (D u).length + c.count (some u)).sum := by
  rw [List.length_flatMap]
  congr 1
  apply List.map_congr_left
  intro u _
  exact block_length D c u

theorem placeLoop_spec (vs : List Nat) (hn : vs.Nodup) (pre post : List (Option Nat))
    (c : List (Option Nat)) (hc : ∀ g, some g ∈ c → g ∈ vs) (D : Nat → List Nat) (k : Nat) (C : List Nat)
    (out : Nat) (hl : ∀ v ∈ vs, v < C.length)
    (hC : ∀ A v B, vs = A ++ v :: B → C.getD v 0 =
      pre.length + (A.map fun u => (D u).length + c.count (some u)).sum + (D v).length) :
    ∃ C', placeLoop k c (C, pre ++ vs.flatMap (block D c) ++ post, out) =
        (C', pre ++ (vs.flatMap fun v => (D v ++ positions v k c).map some) ++ post,
          out + c.countP Option.isSome) ∧
      C'.length = C.length ∧ ∀ v, v ∉ vs → C'.getD v 0 = C.getD v 0 := by
  induction c generalizing D k C out with
  | nil =>
    refine ⟨C, ?_, rfl, fun _ _ => rfl⟩
    unfold placeLoop
    have : block D [] = fun v => (D v ++ positions v k []).map some := by
      funext v
      simp [block, positions]
    rw [this]
    rfl
  | cons o c ih =>
    cases o with
    | none =>
      have hcnt : ∀ v, (none :: c).count (some v) = c.count (some v) := fun v =>
        List.count_cons_of_ne (by simp)
      have hblk : block D (none :: c) = block D c := by
        funext v; unfold block; rw [hcnt]
      obtain ⟨C', h1, h2, h3⟩ := ih (fun g hg => hc g (List.mem_cons_of_mem _ hg)) D (k + 1) C out hl
        (by intro A v B hA; rw [hC A v B hA]; simp only [hcnt])
      refine ⟨C', ?_, h2, h3⟩
      unfold placeLoop
      rw [hblk, h1]
      simp [positions]
    | some g =>
      have hgv : g ∈ vs := hc g (by simp)
      obtain ⟨A, B, hAB⟩ := List.append_of_mem hgv
      have hgA : g ∉ A := by
        rw [hAB] at hn
        intro h
        exact (List.nodup_append.mp hn).2.2 g h g (by simp) rfl
      have hgB : g ∉ B := by
        rw [hAB] at hn
        exact (List.nodup_cons.mp (List.nodup_append.mp hn).2.1).1
      have hgl := hl g hgv
      have hcnt : ∀ v, v ≠ g → (some g :: c).count (some v) = c.count (some v) := fun v hv =>
        List.count_cons_of_ne (by simpa using Ne.symm hv)
      have hcg : (some g :: c).count (some g) = c.count (some g) + 1 := by simp
      have hD : ∀ v, v ≠ g → addAt D g k v = D v := fun v hv => by simp [addAt, hv]
      have hDg : addAt D g k g = D g ++ [k] := by simp [addAt]
      have hlen : ∀ v, (addAt D g k v).length + c.count (some v) =
          (D v).length + (some g :: c).count (some v) := by
        intro v
        by_cases hv : v = g
        · subst hv; rw [hDg, hcg]; simp; omega
        · rw [hD v hv, hcnt v hv]
      have hk := hC A g B hAB
      have hset : (pre ++ vs.flatMap (block D (some g :: c)) ++ post).set (C.getD g 0) (some k) =
          pre ++ vs.flatMap (block (addAt D g k) c) ++ post := by
        have hA' : A.flatMap (block (addAt D g k) c) = A.flatMap (block D (some g :: c)) := by
          rw [List.flatMap_def, List.flatMap_def]
          congr 1
          apply List.map_congr_left
          intro v hv
          have hvg : v ≠ g := fun h => hgA (h ▸ hv)
          unfold block
          rw [hD v hvg, hcnt v hvg]
        have hB' : B.flatMap (block (addAt D g k) c) = B.flatMap (block D (some g :: c)) := by
          rw [List.flatMap_def, List.flatMap_def]
          congr 1
          apply List.map_congr_left
          intro v hv
          have hvg : v ≠ g := fun h => hgB (h ▸ hv)
          unfold block
          rw [hD v hvg, hcnt v hvg]
        rw [hAB, List.flatMap_append, List.flatMap_append, List.flatMap_cons, List.flatMap_cons, hA', hB']
        have hb1 : block D (some g :: c) g = (D g).map some ++ none :: List.replicate (c.count (some g)) none := by
          unfold block; rw [hcg, List.replicate_succ]
        have hb2 : block (addAt D g k) c g = (D g).map some ++ some k :: List.replicate (c.count (some g)) none := by
          unfold block; rw [hDg]; simp
        rw [hb1, hb2]
        have hpos : C.getD g 0 = (pre ++ A.flatMap (block D (some g :: c)) ++ (D g).map some).length := by
          rw [hk]
          simp only [List.length_append, List.length_map]
          rw [flatMap_blocks]
        rw [hpos]
        have := set_mid (pre ++ A.flatMap (block D (some g :: c)) ++ (D g).map some) none (some k)
          (List.replicate (c.count (some g)) none ++ B.flatMap (block D (some g :: c)) ++ post)
        simpa [List.append_assoc] using this
      obtain ⟨C', h1, h2, h3⟩ := ih (fun g hg => hc g (List.mem_cons_of_mem _ hg)) (addAt D g k) (k + 1)
        (C.set g (C.getD g 0 + 1)) (out + 1) (by simpa using hl) (by
          intro A' v B' hA'
          have hsum : (A'.map fun u => (addAt D g k u).length + c.count (some u)) =
              A'.map fun u => (D u).length + (some g :: c).count (some u) := by
            apply List.map_congr_left
            intro u _
            exact hlen u
          rw [hsum]
          by_cases hv : v = g
          · subst hv
            rw [getD_set_eq _ _ _ hgl, hC A' v B' hA', hDg]
            simp
            omega
          · rw [getD_set_ne _ _ _ _ (Ne.symm hv), hC A' v B' hA', hD v hv])
      refine ⟨C', ?_, by simpa using h2, ?_⟩
      · unfold placeLoop
        simp only
        rw [hset, h1]
        congr 2
        · congr 2
          rw [List.flatMap_def, List.flatMap_def]
          congr 1
          apply List.map_congr_left
          intro v _
          by_cases hv : v = g
          · subst hv
            rw [hDg]
            simp [positions]
          · rw [hD v hv]
            have : ¬ (some g = some v) := by simpa using Ne.symm hv
            simp [positions, this]
        · simp
          omega
      · intro v hv
        rw [h3 v hv, getD_set_ne _ _ _ _ (fun h : g = v => hv (h ▸ hgv))]

/-! ### a group of the last dimension -/

/-- The group ids of a row: all between two numbers, each of them used. -/
structure Dense (c : List (Option Nat)) (s m : Nat) : Prop where
  bound : ∀ g, some g ∈ c → s ≤ g ∧ g < s + m
  onto : ∀ g, s ≤ g → g < s + m → some g ∈ c

/-- The groups of a row. -/
def groupsOf (c : List (Option Nat)) (s m : Nat) : List (List Nat) :=
  (List.range' s m).map fun v => positions v 0 c

theorem count_sum (c : List (Option Nat)) (vs : List Nat) (hn : vs.Nodup) (h : ∀ g, some g ∈ c → g ∈ vs) :
    (vs.map fun v => c.count (some v)).sum = c.countP Option.isSome := by
  induction c with
  | nil =>
    clear hn h
    induction vs with
    | nil => rfl
    | cons v vs ih => simpa using ih
  | cons o c ih =>
    have ih' := ih fun g hg => h g (List.mem_cons_of_mem _ hg)
    cases o with
    | none =>
      rw [List.countP_cons_of_neg (by simp), ← ih']
      congr 1
    | some g =>
      rw [List.countP_cons_of_pos (by simp), ← ih']
      have hg : g ∈ vs := h g (by simp)
      clear ih ih' h
      induction vs with
      | nil => simp at hg
      | cons v vs ihv =>
        have hn' := List.nodup_cons.mp hn
        simp only [List.map_cons, List.sum_cons]
        by_cases hv : v = g
        · subst hv
          have : (vs.map fun u => (some v :: c).count (some u)) = vs.map fun u => c.count (some u) := by
            apply List.map_congr_left
            intro u hu
            exact List.count_cons_of_ne (by
              intro h
              cases h
              exact hn'.1 hu)
          rw [this]
          simp
          omega
        · rw [ihv hn'.2 (by simpa [Ne.symm hv] using hg)]
          rw [List.count_cons_of_ne (by simpa using Ne.symm hv)]
          omega

theorem Dense.mem {c : List (Option Nat)} {s m : Nat} (h : Dense c s m) (g : Nat) (hg : some g ∈ c) :
    g ∈ List.range' s m := by
  have := h.bound g hg
  simp [List.mem_range'_1]
  omega

theorem Dense.le {c : List (Option Nat)} {s m : Nat} (h : Dense c s m) :
    m ≤ c.countP Option.isSome := by
  rw [← count_sum c (List.range' s m) List.nodup_range' h.mem]
  have : ∀ (vs : List Nat), (∀ v ∈ vs, some v ∈ c) → vs.length ≤ (vs.map fun v => c.count (some v)).sum := by
    intro vs hv
    induction vs with
    | nil => simp
    | cons v vs ih =>
      have h1 := List.count_pos_iff.mpr (hv v (by simp))
      have h2 := ih fun w hw => hv w (List.mem_cons_of_mem _ hw)
      simp only [List.length_cons, List.map_cons, List.sum_cons]
      omega
  have h2 := this (List.range' s m) (by
    intro v hv
    simp [List.mem_range'_1] at hv
    exact h.onto v hv.1 hv.2)
  simpa using h2

theorem finalStep_spec (size : Nat) (c : List (Option Nat)) (s m : Nat) (hd : Dense c s m) (C : List Nat)
    (hCl : C.length = size) (hs : s + m ≤ size) (hC : ∀ v, s ≤ v → C.getD v 0 = 0)
    (F : List (Option Nat)) (r : Nat) (gs is : List Nat) (sum : Nat) (hr : c.countP Option.isSome ≤ r) :
    ∃ C', finalStep size c ⟨C, F ++ List.replicate r none, F.length, gs, is, sum⟩ =
        ⟨C', F ++ ((groupsOf c s m).flatten.map some) ++ List.replicate (r - c.countP Option.isSome) none,
          F.length + c.countP Option.isSome, gs ++ [sum + m],
          is ++ scan F.length ((groupsOf c s m).map List.length), sum + m⟩ ∧
      C'.length = size ∧ ∀ v, s + m ≤ v → C'.getD v 0 = 0 := by
  have hsum := count_sum c (List.range' s m) List.nodup_range' hd.mem
  obtain ⟨C1, f, l, h1, h2, h3, h4, h5, h6, h7, h8⟩ :=
    countLoop_spec c C 0 (size + 1) 0 s (s + m) hd.bound (by omega) (by omega) (by omega)
      (List.range' s m) List.nodup_range' hd.mem
  have hn : (List.range' s m).countP (fun v => decide (C.getD v 0 = 0) && decide (some v ∈ c)) = m := by
    have : (List.range' s m).countP (fun v => decide (C.getD v 0 = 0) && decide (some v ∈ c)) =
        (List.range' s m).length := by
      rw [List.countP_eq_length]
      intro v hv
      simp [List.mem_range'_1] at hv
      have h0 := hC v hv.1
      have h1 := hd.onto v hv.1 hv.2
      simp only [h0, h1, decide_true, Bool.and_self]
    simpa using this
  rw [hn, Nat.zero_add] at h1
  have hocc : ((List.range' s m).map fun v => c.count (some v)) = (groupsOf c s m).map List.length := by
    unfold groupsOf
    rw [List.map_map]
    apply List.map_congr_left
    intro v _
    exact (positions_length v 0 c).symm
  unfold finalStep
  simp only [h1]
  by_cases hm : m = 0
  · subst hm
    have hcn : ∀ g, some g ∉ c := by
      intro g hg
      have := hd.bound g hg
      omega
    have hc0 : c.countP Option.isSome = 0 := by simpa using hsum.symm
    rw [if_pos rfl]
    refine ⟨C1, ?_, by omega, ?_⟩
    · simp [groupsOf, hc0, scan]
    · intro v hv
      rw [h3 v, hC v (by omega), List.count_eq_zero.mpr (hcn v)]
  · rw [if_neg hm]
    have hf : f = s := by
      have := h8 s (hd.onto s (by omega) (by omega))
      omega
    have hl : l = s + m := by
      have := h8 (s + m - 1) (hd.onto (s + m - 1) (by omega) (by omega))
      omega
    subst hf
    have hlf : l - f = m := by omega
    obtain ⟨C2, p1, p2, p3, p4⟩ := prefixLoop_spec (fun v => c.count (some v)) f m C1 F.length is
      (by
        intro v hv hv'
        refine ⟨?_, ?_⟩
        · rw [h3 v, hC v hv]; omega
        · have := List.count_pos_iff.mpr (hd.onto v hv hv')
          omega) (by omega)
    rw [hlf, p1]
    simp only
    have hblocks : F ++ List.replicate r none = F ++ (List.range' f m).flatMap (block (fun _ => []) c) ++
        List.replicate (r - c.countP Option.isSome) none := by
      have : (List.range' f m).flatMap (block (fun _ => []) c) =
          List.replicate (c.countP Option.isSome) none := by
        rw [List.eq_replicate_iff]
        constructor
        · rw [flatMap_blocks, ← hsum]
          simp
        · intro b hb
          obtain ⟨v, -, hv⟩ := List.mem_flatMap.mp hb
          simp only [block, List.map_nil, List.nil_append] at hv
          exact List.eq_of_mem_replicate hv
      rw [this, List.append_assoc, List.replicate_append_replicate]
      congr 2
      omega
    obtain ⟨C3, q1, q2, q3⟩ := placeLoop_spec (List.range' f m) List.nodup_range' F
      (List.replicate (r - c.countP Option.isSome) none) c hd.mem (fun _ => []) 0 C2 F.length
      (by
        intro v hv
        simp [List.mem_range'_1] at hv
        omega)
      (by
        intro A v B hA
        rw [p4 A v B hA]
        simp)
    rw [hblocks, q1]
    refine ⟨C3, ?_, by omega, ?_⟩
    · rw [hocc]
      simp only [List.nil_append]
      congr 2
      congr 1
      unfold groupsOf
      rw [List.map_flatten, List.map_map]
      rfl
    · intro v hv
      rw [q3 v (by simp [List.mem_range'_1]; omega), p3 v (.inr hv), h3 v, hC v (by omega)]
      have : some v ∉ c := fun h => by
        have := (hd.bound v h).2
        omega
      rw [List.count_eq_zero.mpr this]

/-- The rows have dense group ids, one after the other. -/
def DenseRows : Nat → List (List (Option Nat)) → List Nat → Prop
  | _, [], [] => True
  | s, c :: cs, m :: ms => Dense c s m ∧ DenseRows (s + m) cs ms
  | _, _, _ => False

/-- The groups of the rows. -/
def rowGroups : Nat → List (List (Option Nat)) → List Nat → List (List (List Nat))
  | s, c :: cs, m :: ms => groupsOf c s m :: rowGroups (s + m) cs ms
  | _, _, _ => []

theorem rowGroups_length (s : Nat) (cs : List (List (Option Nat))) (ms : List Nat) (h : DenseRows s cs ms) :
    (rowGroups s cs ms).length = cs.length ∧ cs.length = ms.length := by
  induction cs generalizing s ms with
  | nil => cases ms with
    | nil => simp [rowGroups]
    | cons m ms => exact h.elim
  | cons c cs ih => cases ms with
    | nil => exact h.elim
    | cons m ms =>
      have := ih _ _ h.2
      simp [rowGroups, this]

theorem finalLoop_spec (size : Nat) (cs : List (List (Option Nat))) (ms : List Nat) (s : Nat)
    (hd : DenseRows s cs ms) (hs : s + ms.sum ≤ size) (C : List Nat) (hCl : C.length = size)
    (hC : ∀ v, s ≤ v → C.getD v 0 = 0) (F : List (Option Nat)) (r : Nat) (gs is : List Nat) (sum : Nat)
    (hr : r = (cs.map (·.countP Option.isSome)).sum) :
    let st := finalLoop size cs ⟨C, F ++ List.replicate r none, F.length, gs, is, sum⟩
    st.idx = F ++ ((rowGroups s cs ms).flatten.flatten.map some) ∧ st.groupSplits = gs ++ scan sum ms ∧
      st.itemSplits = is ++ scan F.length ((rowGroups s cs ms).flatten.map List.length) := by
  induction cs generalizing s ms C F r gs is sum with
  | nil =>
    cases ms with
    | nil => simp at hr; subst hr; simp [finalLoop, rowGroups, scan]
    | cons m ms => exact hd.elim
  | cons c cs ih =>
    cases ms with
    | nil => exact hd.elim
    | cons m ms =>
      simp only [List.sum_cons] at hs
      simp only [List.map_cons, List.sum_cons] at hr
      obtain ⟨C', h1, h2, h3⟩ := finalStep_spec size c s m hd.1 C hCl (by omega) hC F r gs is sum (by omega)
      have hgl : (groupsOf c s m).flatten.length = c.countP Option.isSome := by
        rw [← count_sum c (List.range' s m) List.nodup_range' hd.1.mem, List.length_flatten]
        unfold groupsOf
        rw [List.map_map]
        congr 1
        apply List.map_congr_left
        intro v _
        exact positions_length v 0 c
      have := ih ms (s + m) hd.2 (by omega) C' h2 h3 (F ++ (groupsOf c s m).flatten.map some)
        (r - c.countP Option.isSome) (gs ++ [sum + m]) (is ++ scan F.length ((groupsOf c s m).map List.length))
        (sum + m) (by omega)
      simp only [List.length_append, List.length_map, hgl] at this
      unfold finalLoop
      simp only [h1]
      obtain ⟨t1, t2, t3⟩ := this
      refine ⟨?_, ?_, ?_⟩
      · rw [t1]; simp [rowGroups]
      · rw [t2]; simp [scan]
      · rw [t3]
        simp only [rowGroups, List.flatten_cons, List.map_append]
        rw [scan_append, List.append_assoc]
        congr 3
        rw [← hgl, List.length_flatten]

/-- What `CreateFinalDataSlice` makes of dense group ids. -/
theorem createFinal_spec (e : Edge) (ids : List (Option Nat)) (he : ids.length = e.sum) (ms : List Nat)
    (hd : DenseRows 0 (parts e ids) ms) :
    createFinal e ids = ((rowGroups 0 (parts e ids) ms).flatten.flatten.map some, ms,
      (rowGroups 0 (parts e ids) ms).flatten.map List.length) := by
  have hfl : (parts e ids).flatten = ids := parts_flatten e ids he
  have hsum : ms.sum ≤ ids.length := by
    have : ∀ s cs ms, DenseRows s cs ms → ms.sum ≤ (cs.flatten : List (Option Nat)).length := by
      intro s cs
      induction cs generalizing s with
      | nil => intro ms h; cases ms with
        | nil => simp
        | cons m ms => exact h.elim
      | cons c cs ih => intro ms h; cases ms with
        | nil => exact h.elim
        | cons m ms =>
          have h1 := h.1.le
          have h2 := ih _ _ h.2
          have h3 : c.countP Option.isSome ≤ c.length := List.countP_le_length
          simp only [List.sum_cons, List.flatten_cons, List.length_append]
          omega
    have := this 0 _ ms hd
    rwa [hfl] at this
  have hr : ids.length - ids.count none = ((parts e ids).map (·.countP Option.isSome)).sum := by
    have h1 : ids.length = ids.countP Option.isSome + ids.count none := by
      rw [List.length_eq_countP_add_countP Option.isSome]
      congr 1
      unfold List.count
      congr 1
      funext x
      cases x <;> rfl
    have h2 : ids.countP Option.isSome = ((parts e ids).map (·.countP Option.isSome)).sum := by
      conv => lhs; rw [← hfl]
      rw [List.countP_flatten]
    omega
  have := finalLoop_spec ids.length (parts e ids) ms 0 hd (by omega) (List.replicate ids.length 0) (by simp)
    (by
      intro v _
      rw [List.getD_eq_getElem?_getD]
      by_cases hv : v < ids.length
      · simp [hv]
      · simp [hv]) [] (ids.length - ids.count none) [0] [0] 0 hr
  unfold createFinal
  rw [chop_eq]
  simp only [List.nil_append, List.length_nil] at this
  obtain ⟨t1, t2, t3⟩ := this
  simp only [t1, t2, t3]
  rw [show [0] ++ scan 0 ms = 0 :: scan 0 ms from rfl, sizesOf_scan]
  rw [show [0] ++ scan 0 ((rowGroups 0 (parts e ids) ms).flatten.map List.length) = 0 :: scan 0 _ from rfl,
    sizesOf_scan]

end Verif.SliceOps
