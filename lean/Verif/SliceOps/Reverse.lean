import Verif.SliceOps.Unselect

/-! Lemmas on `reverse`. -/

namespace Verif.SliceOps

variable {α : Type}

theorem splitPoints_getD (k : Nat) (e : Edge) (i : Nat) (h : i ≤ e.length) :
    (splitPoints k e).getD i 0 = k + (e.take i).sum := by
  induction e generalizing k i with
  | nil =>
    have : i = 0 := by simpa using h
    subst this
    simp [splitPoints]
  | cons n ns ih =>
    cases i with
    | zero => simp [splitPoints]
    | succ i =>
      have := ih (k + n) i (by simpa using h)
      simp only [splitPoints, List.getD_cons_succ, this, List.take_succ_cons, List.sum_cons]
      omega

theorem splitPoints_length (k : Nat) (e : Edge) : (splitPoints k e).length = e.length + 1 := by
  induction e generalizing k with
  | nil => rfl
  | cons n ns ih => simp [splitPoints, ih]

theorem advance_to (splits : List Nat) (offset g : Nat) (fuel id : Nat) (hid : id ≤ g)
    (hle : ∀ j, j ≤ g → splits.getD j 0 ≤ offset) (hgt : offset < splits.getD (g + 1) 0)
    (hf : g - id < fuel) : advance splits offset fuel id = g := by
  induction fuel generalizing id with
  | zero => omega
  | succ fuel ih =>
    unfold advance
    by_cases h : splits.getD (id + 1) 0 ≤ offset
    · rw [if_pos h]
      have : id ≠ g := by rintro rfl; omega
      exact ih (id + 1) (by omega) (by omega)
    · rw [if_neg h]
      rcases Nat.lt_or_ge id g with hlt | hge
      · exact absurd (hle (id + 1) (by omega)) h
      · omega

/-- The loop in a group. -/
theorem reverse_row (e1 e2 : Edge) (n : Nat) (row rest done : List (Option α)) (i id : Nat)
    (out tail : List (Option α)) (hid : id ≤ e1.length) (hdone : done.length = e1.sum)
    (hi : i + row.length = n) :
    ∃ id', id' ≤ e1.length ∧
      reverseLoop (splitPoints 0 (e1 ++ n :: e2)) (e1.sum + i) id (row ++ rest)
          (done ++ List.replicate row.length none ++ out ++ tail) =
        reverseLoop (splitPoints 0 (e1 ++ n :: e2)) (e1.sum + n) id' rest
          (done ++ row.reverse ++ out ++ tail) := by
  induction row generalizing i id out with
  | nil =>
    have : i = n := by simpa using hi
    subst this
    exact ⟨id, hid, by simp⟩
  | cons x row ih =>
    simp at hi
    cases x with
    | none =>
      obtain ⟨id', h1, h2⟩ := ih (i + 1) id (none :: out) hid (by omega)
      refine ⟨id', h1, ?_⟩
      rw [List.cons_append, reverseLoop, show e1.sum + i + 1 = e1.sum + (i + 1) from by omega]
      have : done ++ List.replicate (none :: row).length none ++ out ++ tail =
          done ++ List.replicate row.length none ++ (none :: out) ++ tail := by
        rw [List.length_cons, List.replicate_succ']
        simp
      rw [this, h2]
      simp
    | some v =>
      have hs : ∀ j, j ≤ e1.length + 1 →
          (splitPoints 0 (e1 ++ n :: e2)).getD j 0 = ((e1 ++ n :: e2).take j).sum := by
        intro j hj
        rw [splitPoints_getD 0 _ j (by simp; omega), Nat.zero_add]
      have hsg : (splitPoints 0 (e1 ++ n :: e2)).getD e1.length 0 = e1.sum := by
        rw [hs _ (by omega)]; simp
      have hsg1 : (splitPoints 0 (e1 ++ n :: e2)).getD (e1.length + 1) 0 = e1.sum + n := by
        rw [hs _ (by omega)]
        rw [List.take_append]
        simp [List.take_of_length_le]
      have hadv : advance (splitPoints 0 (e1 ++ n :: e2)) (e1.sum + i)
          (splitPoints 0 (e1 ++ n :: e2)).length id = e1.length := by
        apply advance_to _ _ _ _ _ hid
        · intro j hj
          rw [hs j (by omega), List.take_append_of_le_length hj]
          have : e1.sum = (e1.take j).sum + (e1.drop j).sum := by
            conv => lhs; rw [← List.take_append_drop j e1, List.sum_append]
          omega
        · rw [hsg1]; omega
        · rw [splitPoints_length]; simp; omega
      obtain ⟨id', h1, h2⟩ := ih (i + 1) e1.length (some v :: out) (Nat.le_refl _) (by omega)
      refine ⟨id', h1, ?_⟩
      rw [List.cons_append, reverseLoop]
      simp only [hadv, hsg, hsg1]
      rw [show e1.sum + i + 1 = e1.sum + (i + 1) from by omega]
      have : (done ++ List.replicate (some v :: row).length none ++ out ++ tail).set
          (e1.sum + (e1.sum + n - (e1.sum + i) - 1)) (some v) =
          done ++ List.replicate row.length none ++ (some v :: out) ++ tail := by
        rw [List.length_cons, List.replicate_succ']
        rw [show e1.sum + (e1.sum + n - (e1.sum + i) - 1) =
          (done ++ List.replicate row.length (none : Option α)).length from by simp; omega]
        have : done ++ (List.replicate row.length (none : Option α) ++ [none]) ++ out ++ tail =
            (done ++ List.replicate row.length none) ++ none :: (out ++ tail) := by simp
        rw [this, List.set_append_right _ _ (Nat.le_refl _)]
        simp
      rw [this, h2]
      simp

theorem reverse_rows (e1 e2 : Edge) (items done : List (Option α)) (id : Nat)
    (hid : id ≤ e1.length) (hdone : done.length = e1.sum) (hi : items.length = e2.sum) :
    reverseLoop (splitPoints 0 (e1 ++ e2)) e1.sum id items
        (done ++ List.replicate items.length none) =
      done ++ ((parts e2 items).map List.reverse).flatten := by
  induction e2 generalizing e1 items done id with
  | nil =>
    have : items = [] := by simpa using hi
    subst this
    simp [reverseLoop, parts]
  | cons n ns ih =>
    simp at hi
    have h3 : (items.take n).length = n := by simp; omega
    obtain ⟨id', h1, h2⟩ := reverse_row e1 ns n (items.take n) (items.drop n) done 0 id []
      (List.replicate (items.drop n).length none) hid hdone (by omega)
    have h4 := ih (e1 ++ [n]) (items.drop n) (done ++ (items.take n).reverse) id' (by simp; omega)
      (by simp; omega) (by simp; omega)
    rw [List.take_append_drop, h3, Nat.add_zero] at h2
    have : done ++ List.replicate items.length (none : Option α) =
        done ++ List.replicate n none ++ [] ++ List.replicate (items.drop n).length none := by
      rw [List.append_nil, List.append_assoc, List.replicate_append_replicate]
      congr 2
      simp; omega
    rw [this, h2]
    rw [show e1 ++ n :: ns = e1 ++ [n] ++ ns from by simp,
      show e1.sum + n = (e1 ++ [n]).sum from by simp, List.append_nil, h4]
    simp [parts]

theorem reverse_spec {s : Slice α} (hs : Wf s) :
    Wf (reverse s) ∧ (reverse s).edges = s.edges ∧
      view (reverse s) = mapAt (s.rank - 1) reverseNode (view s) := by
  unfold reverse
  cases hl : s.edges.getLast? with
  | none =>
    have he : s.edges = [] := List.getLast?_eq_none_iff.mp hl
    refine ⟨hs, rfl, ?_⟩
    have hv := nest_view hs
    rw [he] at hv
    have h1 : s.items.map Tree.leaf = [view s] := hv
    match hi : s.items, h1 with
    | [x], h1 =>
      have : view s = .leaf x := by simpa using h1.symm
      simp [this, Slice.rank, he, mapAt, reverseNode]
    | [], h1 => simp at h1
    | _ :: _ :: _, h1 => simp at h1
  | some e =>
    obtain ⟨U, hU⟩ := List.getLast?_eq_some_iff.mp hl
    have hs' : Fits 1 (U ++ [e]) s.items.length := by rw [← hU]; exact hs
    obtain ⟨k, hk, hk2, he⟩ := Fits.append.mp hs'
    have he : e.sum = s.items.length := he
    have hr := reverse_rows [] e s.items [] 0 (by simp) (by simp) he.symm
    simp only [List.nil_append, List.sum_nil] at hr
    have hm : s.items.map (fun _ => (none : Option α)) = List.replicate s.items.length none :=
      List.map_const'
    simp only [hm, hr]
    have hlen : (((parts e s.items).map List.reverse).flatten).length = s.items.length := by
      rw [List.length_flatten, List.map_map]
      have : (List.length ∘ List.reverse : List (Option α) → Nat) = List.length := by
        funext l; simp
      rw [this, parts_lengths _ _ he.symm, he]
    refine ⟨?_, True.intro, ?_⟩
    · show Fits 1 s.edges _
      rw [hlen]
      exact hs
    · apply view_of
      have hz := nest_map U reverseNode (nest [e] (s.items.map Tree.leaf))
      rw [← nest_append, ← hU, nest_view hs] at hz
      have hr' : s.rank - 1 = U.length := by simp [Slice.rank, hU]
      rw [hr']
      refine Eq.trans ?_ hz.symm
      show nest s.edges _ = _
      rw [hU, nest_append]
      congr 1
      simp only [nest]
      have hp : parts e ((parts e s.items).map List.reverse).flatten =
          (parts e s.items).map List.reverse := by
        have := parts_of_flatten ((parts e s.items).map List.reverse)
        rw [List.map_map] at this
        have h' : (List.length ∘ List.reverse : List (Option α) → Nat) = List.length := by
          funext l; simp
        rw [h', parts_lengths _ _ he.symm] at this
        exact this
      rw [parts_map, hp, parts_map]
      simp only [List.map_map]
      apply List.map_congr_left
      intro r _
      simp [reverseNode]

end Verif.SliceOps
