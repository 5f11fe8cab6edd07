import Verif.ObjectId.SetLemmas

/-! Representation invariant of `AllocationIdSet`. -/

namespace Verif.ObjectId

/-- What holds of every set that the public interface can build. -/
structure WF (s : AllocationIdSet) : Prop where
  nodup : s.ids.Nodup
  big : ∀ a ∈ s.ids, a.isSmall = false
  sorted : SSorted (s.ids.take kMaxSortedSize)
  none_of_le : s.ids.length ≤ kMaxSortedSize → s.unsorted = none
  some_of_lt : kMaxSortedSize < s.ids.length → ∃ u, s.unsorted = some u ∧
    (∀ x ∈ u, x ∈ s.ids) ∧ ∀ x ∈ s.ids.drop kMaxSortedSize, x ∈ u

theorem WF.sorted_all {s : AllocationIdSet} (h : WF s) (hle : s.ids.length ≤ kMaxSortedSize) :
    SSorted s.ids := by
  have := h.sorted
  rwa [List.take_of_length_le hle] at this

theorem wf_of_ssorted {c : Bool} {l : List AllocationId} {u : Option (List AllocationId)}
    (hs : SSorted l) (hb : ∀ a ∈ l, a.isSmall = false)
    (h0 : l.length ≤ kMaxSortedSize → u = none)
    (h1 : kMaxSortedSize < l.length → ∃ v, u = some v ∧ (∀ x ∈ v, x ∈ l) ∧
      ∀ x ∈ l.drop kMaxSortedSize, x ∈ v) :
    WF ⟨c, l, u⟩ :=
  ⟨hs.nodup, hb, List.Pairwise.sublist (List.take_sublist _ _) hs, h0, h1⟩

theorem wf_ofBool (b : Bool) : WF (.ofBool b) :=
  wf_of_ssorted List.Pairwise.nil (by simp) (fun _ => rfl) (by simp)

theorem wf_ofId (id : AllocationId) : WF (.ofId id) := by
  unfold AllocationIdSet.ofId
  refine wf_of_ssorted ?_ ?_ (fun _ => rfl) ?_
  · split <;> simp [SSorted]
  · intro a ha
    split at ha
    · simp at ha
    · next h =>
      rw [List.mem_singleton] at ha
      subst ha
      simpa using h
  · intro h
    split at h <;> simp [kMaxSortedSize] at h

theorem wf_ofSpan (ids : List AllocationId) : WF (.ofSpan ids) := by
  unfold AllocationIdSet.ofSpan
  simp only
  split
  · refine wf_of_ssorted (ssorted_uniqueIds _ (sorted_sortIds _)) ?_ ?_ ?_
    · intro a ha
      rw [mem_uniqueIds, mem_sortIds, List.mem_filter] at ha
      simpa using ha.2
    · intro h
      rw [if_neg (by omega)]
    · intro h
      rw [if_pos h]
      exact ⟨_, rfl, fun x hx => List.mem_of_mem_drop hx, fun x hx => hx⟩
  · next h =>
    refine wf_of_ssorted ?_ ?_ (fun _ => rfl) ?_
    · generalize ids.filter (fun id => !id.isSmall) = big at h
      match big with
      | [] => exact List.Pairwise.nil
      | [x] => simp [SSorted]
      | x :: y :: l => simp at h
    · intro a ha
      rw [List.mem_filter] at ha
      simpa using ha.2
    · intro h'
      simp only [kMaxSortedSize] at h'
      omega

theorem take_30_of_lt (l : List AllocationId) (h : ¬ l.length > kMaxSortedSize) :
    l.take l.length = l.take kMaxSortedSize := by
  rw [List.take_of_length_le (Nat.le_refl _), List.take_of_length_le (by omega)]

theorem getElem?_lowerBound {s : AllocationIdSet} (n : Nat) (hn : n ≤ s.ids.length)
    (hs : SSorted (s.ids.take n)) (id : AllocationId) :
    (lowerBound (s.ids.take n) id ≠ n ∧ s.ids[lowerBound (s.ids.take n) id]? = some id) ↔
      id ∈ s.ids.take n := by
  obtain ⟨h1, h2, h3⟩ := lowerBound_spec _ id hs
  rw [List.length_take, Nat.min_eq_left hn] at h1
  constructor
  · rintro ⟨hne, hget⟩
    rw [List.mem_take_iff_getElem]
    obtain ⟨hlt, e⟩ := List.getElem?_eq_some_iff.1 hget
    exact ⟨_, by omega, e⟩
  · intro hm
    rw [← List.take_append_drop (lowerBound (s.ids.take n) id) (s.ids.take n)] at hm
    rcases List.mem_append.1 hm with hm | hm
    · have := h2 id hm
      omega
    · -- the first element of the rest is `id`
      have hne : lowerBound (s.ids.take n) id ≠ n := by
        intro e
        rw [e, List.drop_of_length_le (by rw [List.length_take]; omega)] at hm
        simp at hm
      refine ⟨hne, ?_⟩
      have hlt : lowerBound (s.ids.take n) id < (s.ids.take n).length := by
        rw [List.length_take]; omega
      have hd := List.drop_eq_getElem_cons hlt
      have hsd : SSorted ((s.ids.take n).drop (lowerBound (s.ids.take n) id)) :=
        List.Pairwise.sublist (List.drop_sublist _ _) hs
      rw [hd] at hm hsd h3
      have hge := h3 _ (List.mem_cons_self ..)
      have heq : (s.ids.take n)[lowerBound (s.ids.take n) id]'hlt = id := by
        rcases List.mem_cons.1 hm with e | hm
        · exact e.symm
        · have := (List.pairwise_cons.1 hsd).1 id hm
          omega
      rw [List.getElem_take] at heq
      rw [List.getElem?_eq_getElem (by omega), heq]

/-- What inserting a big id does. -/
theorem insertBigSlow_spec (s : AllocationIdSet) (h : WF s) (id : AllocationId)
    (hb : id.isSmall = false) :
    ∃ s' b, s.insertBigSlow id = some (s', b) ∧ WF s' ∧ (b = true ↔ id ∉ s.ids) ∧
      s'.containsSmall = s.containsSmall ∧ (∀ x, x ∈ s'.ids ↔ x ∈ s.ids ∨ x = id) := by
  have hn : (if s.ids.length > kMaxSortedSize then kMaxSortedSize else s.ids.length) ≤
      s.ids.length := by split <;> omega
  have htake : s.ids.take
      (if s.ids.length > kMaxSortedSize then kMaxSortedSize else s.ids.length) =
      s.ids.take kMaxSortedSize := by
    split
    · rfl
    · next hc => exact take_30_of_lt _ hc
  have hsort : SSorted (s.ids.take
      (if s.ids.length > kMaxSortedSize then kMaxSortedSize else s.ids.length)) := by
    rw [htake]; exact h.sorted
  have hfind := getElem?_lowerBound _ hn hsort id
  unfold AllocationIdSet.insertBigSlow
  simp only
  by_cases hm : id ∈ s.ids.take
      (if s.ids.length > kMaxSortedSize then kMaxSortedSize else s.ids.length)
  · rw [if_pos (hfind.2 hm)]
    have hm' : id ∈ s.ids := List.mem_of_mem_take hm
    refine ⟨s, false, rfl, h, by simp [hm'], rfl, fun x => ⟨Or.inl, ?_⟩⟩
    rintro (hx | rfl)
    · exact hx
    · exact hm'
  · rw [if_neg (fun hc => hm (hfind.1 hc))]
    by_cases hle : s.ids.length ≤ kMaxSortedSize
    · rw [if_pos hle]
      have e : (if s.ids.length > kMaxSortedSize then kMaxSortedSize else s.ids.length) =
        s.ids.length := if_neg (by omega)
      rw [e, List.take_of_length_le (Nat.le_refl _)] at hm ⊢
      have hs := h.sorted_all hle
      obtain ⟨h1, h2, h3⟩ := lowerBound_spec _ id hs
      generalize lowerBound s.ids id = p at h1 h2 h3
      have hmem : ∀ x, x ∈ s.ids.take p ++ id :: s.ids.drop p ↔ x ∈ s.ids ∨ x = id := by
        intro x
        have := (List.take_append_drop p s.ids) ▸ (List.mem_append (a := x)
          (s := s.ids.take p) (t := s.ids.drop p))
        rw [List.mem_append, List.mem_cons, this]
        constructor
        · rintro (h | h | h) <;> simp [h]
        · rintro ((h | h) | h) <;> simp [h]
      have hss : SSorted (s.ids.take p ++ id :: s.ids.drop p) := by
        refine List.pairwise_append.2 ⟨List.Pairwise.sublist (List.take_sublist _ _) hs,
          List.pairwise_cons.2 ⟨?_, List.Pairwise.sublist (List.drop_sublist _ _) hs⟩, ?_⟩
        · intro x hx
          have hge := h3 x hx
          have hne : id.key ≠ x.key := fun e =>
            hm (by rw [key_inj e]; exact List.mem_of_mem_drop hx)
          omega
        · intro x hx y hy
          have hxl := h2 x hx
          rcases List.mem_cons.1 hy with rfl | hy
          · exact hxl
          · have := h3 y hy
            omega
      have hlen : (s.ids.take p ++ id :: s.ids.drop p).length = s.ids.length + 1 := by
        rw [List.length_append, List.length_cons, List.length_take, List.length_drop]
        omega
      refine ⟨_, true, rfl, ?_, by simp [hm], rfl, hmem⟩
      generalize s.ids.take p ++ id :: s.ids.drop p = l at hmem hss hlen
      refine wf_of_ssorted hss ?_ ?_ ?_
      · intro a ha
        rcases (hmem a).1 ha with ha | rfl
        · exact h.big a ha
        · exact hb
      · intro hl
        rw [if_neg (by omega)]
        exact h.none_of_le hle
      · intro hl
        rw [if_pos hl]
        refine ⟨_, rfl, ?_, ?_⟩
        · intro x hx
          cases hg : l.getLast? with
          | none => rw [hg] at hx; simp at hx
          | some y =>
            rw [hg] at hx
            simp at hx
            rw [hx]
            exact List.mem_of_getLast? hg
        · intro x hx
          have hlk : l.length = kMaxSortedSize + 1 := by omega
          have h0 : kMaxSortedSize < l.length := by omega
          rw [List.drop_eq_getElem_cons h0, List.drop_of_length_le (by omega)] at hx
          rw [List.mem_singleton] at hx
          rw [List.getLast?_eq_getElem?, hlk]
          simp only [Nat.add_sub_cancel]
          rw [List.getElem?_eq_getElem h0]
          simp [hx]
    · rw [if_neg hle]
      obtain ⟨u, hu, hsub, hdrop⟩ := h.some_of_lt (by omega)
      rw [htake] at hm
      have hmu : id ∈ u ↔ id ∈ s.ids := by
        constructor
        · exact hsub id
        · intro hi
          rw [← List.take_append_drop kMaxSortedSize s.ids] at hi
          rcases List.mem_append.1 hi with hi | hi
          · exact absurd hi hm
          · exact hdrop id hi
      rw [hu]
      simp only
      by_cases hc : u.contains id = true
      · rw [if_pos hc]
        have hi := hmu.1 (List.contains_iff_mem.1 hc)
        refine ⟨s, false, rfl, h, by simp [hi], rfl, fun x => ⟨Or.inl, ?_⟩⟩
        rintro (hx | rfl)
        · exact hx
        · exact hi
      · rw [if_neg hc]
        have hi : id ∉ s.ids := fun hi => hc (List.contains_iff_mem.2 (hmu.2 hi))
        refine ⟨_, true, rfl, ⟨?_, ?_, ?_, ?_, ?_⟩, by simp [hi], rfl, by simp⟩
        · rw [List.nodup_append]
          refine ⟨h.nodup, by simp, ?_⟩
          intro a ha b hb' e
          rw [List.mem_singleton] at hb'
          subst hb' e
          exact hi ha
        · intro a ha
          rcases List.mem_append.1 ha with ha | ha
          · exact h.big a ha
          · rw [List.mem_singleton] at ha
            rw [ha]; exact hb
        · simp only
          rw [List.take_append_of_le_length (by omega)]
          exact h.sorted
        · simp only [List.length_append, List.length_singleton]
          omega
        · intro _
          refine ⟨_, rfl, ?_, ?_⟩
          · intro x hx
            rcases List.mem_cons.1 hx with rfl | hx
            · simp
            · exact List.mem_append_left _ (hsub x hx)
          · intro x hx
            simp only at hx
            rw [List.drop_append_of_le_length (by omega)] at hx
            rcases List.mem_append.1 hx with hx | hx
            · exact List.mem_cons_of_mem _ (hdrop x hx)
            · rw [List.mem_singleton] at hx
              simp [hx]

theorem insert_spec (s : AllocationIdSet) (h : WF s) (id : AllocationId) :
    ∃ s' b, s.insert id = some (s', b) ∧ WF s' ∧
      (b = true ↔ if id.isSmall then s.containsSmall = false else id ∉ s.ids) ∧
      (s'.containsSmall = true ↔ s.containsSmall = true ∨ id.isSmall = true) ∧
      (∀ x, x ∈ s'.ids ↔ x ∈ s.ids ∨ (x = id ∧ id.isSmall = false)) := by
  unfold AllocationIdSet.insert
  by_cases hb : id.isSmall = true
  · rw [if_pos hb]
    refine ⟨_, _, rfl, ⟨h.nodup, h.big, h.sorted, h.none_of_le, h.some_of_lt⟩, ?_, ?_, ?_⟩
    · simp [hb]
    · simp [hb]
    · simp [hb]
  · rw [if_neg hb]
    have hb' : id.isSmall = false := by simpa using hb
    cases hi : s.ids with
    | nil =>
      refine ⟨_, _, rfl, ?_, ?_, ?_, ?_⟩
      · refine wf_of_ssorted (by simp [SSorted]) (by simpa using hb') (fun _ => ?_) ?_
        · exact h.none_of_le (by rw [hi]; simp)
        · simp [kMaxSortedSize]
      · simp [hb']
      · simp [hb']
      · simp [hb']
    | cons x l =>
      simp only
      by_cases hx : x = id
      · rw [if_pos hx]
        refine ⟨s, false, rfl, h, ?_, ?_, ?_⟩
        · simp [hb', hx]
        · simp [hb']
        · intro y
          rw [hi, hx]
          constructor
          · exact Or.inl
          · rintro (h | ⟨rfl, _⟩)
            · exact h
            · exact List.mem_cons_self ..
      · rw [if_neg hx]
        obtain ⟨s', b, e, hw, h1, h2, h3⟩ := insertBigSlow_spec s h id hb'
        refine ⟨s', b, e, hw, ?_, ?_, ?_⟩
        · rw [h1, hi]
          simp [hb']
        · simp [h2, hb']
        · intro y
          rw [h3, hi]
          simp [hb']

theorem insertSet_spec (s n : AllocationIdSet) (h : WF s) (hn : WF n) :
    WF (s.insertSet n) ∧
      ((s.insertSet n).containsSmall = true ↔ s.containsSmall = true ∨ n.containsSmall = true) ∧
      (∀ x, x ∈ (s.insertSet n).ids ↔ x ∈ s.ids ∨ x ∈ n.ids) := by
  unfold AllocationIdSet.insertSet
  simp only
  by_cases he : s.ids.isEmpty = true
  · rw [if_pos he]
    have he' : s.ids = [] := List.isEmpty_iff.1 he
    exact ⟨⟨hn.nodup, hn.big, hn.sorted, hn.none_of_le, hn.some_of_lt⟩, by simp, by simp [he']⟩
  · rw [if_neg he]
    obtain ⟨p1, p2, p3⟩ := commonPrefix_spec s.ids n.ids
    generalize AllocationIdSet.commonPrefix s.ids n.ids = p at p1 p2 p3
    have hnsplit : ∀ x, x ∈ n.ids ↔ x ∈ s.ids.take p ∨ x ∈ n.ids.drop p := by
      intro x
      rw [p3, ← List.mem_append, List.take_append_drop]
    have hssplit : ∀ x, x ∈ s.ids ↔ x ∈ s.ids.take p ∨ x ∈ s.ids.drop p := by
      intro x
      rw [← List.mem_append, List.take_append_drop]
    by_cases hp : p = n.ids.length
    · rw [if_pos hp]
      refine ⟨⟨h.nodup, h.big, h.sorted, h.none_of_le, h.some_of_lt⟩, by simp, ?_⟩
      intro x
      constructor
      · exact Or.inl
      · rintro (hx | hx)
        · exact hx
        · rcases (hnsplit x).1 hx with hx | hx
          · exact List.mem_of_mem_take hx
          · rw [hp] at hx
            simp at hx
    · rw [if_neg hp]
      -- the new vector is strictly sorted and has the members of both
      have key : ∃ ids : List AllocationId, (if (s.ids ++ n.ids.drop p).length ≤ kMaxSortedSize
          then s.ids.take p ++ uniqueIds (mergeIds (s.ids.drop p) (n.ids.drop p))
          else uniqueIds (sortIds (s.ids ++ n.ids.drop p))) = ids ∧ SSorted ids ∧
          ∀ x, x ∈ ids ↔ x ∈ s.ids ∨ x ∈ n.ids := by
        refine ⟨_, rfl, ?_⟩
        split
        · next hle =>
          rw [List.length_append, List.length_drop] at hle
          have hs := h.sorted_all (by omega)
          have hs' := hn.sorted_all (by omega)
          have hmem : ∀ x, x ∈ s.ids.take p ++
              uniqueIds (mergeIds (s.ids.drop p) (n.ids.drop p)) ↔ x ∈ s.ids ∨ x ∈ n.ids := by
            intro x
            rw [List.mem_append, mem_uniqueIds, mem_mergeIds, hssplit x, hnsplit x]
            constructor
            · rintro (h | h | h) <;> simp [h]
            · rintro ((h | h) | h | h) <;> simp [h]
          refine ⟨List.pairwise_append.2 ⟨List.Pairwise.sublist (List.take_sublist _ _) hs,
            ssorted_uniqueIds _ (sorted_mergeIds _ _
              (SSorted.sorted (List.Pairwise.sublist (List.drop_sublist _ _) hs))
              (SSorted.sorted (List.Pairwise.sublist (List.drop_sublist _ _) hs'))), ?_⟩, hmem⟩
          intro x hx y hy
          rw [mem_uniqueIds, mem_mergeIds] at hy
          rcases hy with hy | hy
          · rw [← List.take_append_drop p s.ids] at hs
            exact (List.pairwise_append.1 hs).2.2 x hx y hy
          · rw [← List.take_append_drop p n.ids] at hs'
            exact (List.pairwise_append.1 hs').2.2 x (p3 ▸ hx) y hy
        · refine ⟨ssorted_uniqueIds _ (sorted_sortIds _), ?_⟩
          intro x
          rw [mem_uniqueIds, mem_sortIds, List.mem_append, hnsplit x]
          constructor
          · rintro (h | h) <;> simp [h]
          · rintro (h | h | h)
            · exact Or.inl h
            · exact Or.inl (List.mem_of_mem_take h)
            · exact Or.inr h
      obtain ⟨ids, hids, hss, hmem⟩ := key
      rw [hids]
      have hlen : s.ids.length ≤ ids.length :=
        h.nodup.length_le_of_subset (fun x hx => (hmem x).2 (Or.inl hx))
      refine ⟨wf_of_ssorted hss ?_ ?_ ?_, by simp, hmem⟩
      · intro a ha
        rcases (hmem a).1 ha with ha | ha
        · exact h.big a ha
        · exact hn.big a ha
      · intro hl
        rw [if_neg (by omega)]
        exact h.none_of_le (by omega)
      · intro hl
        rw [if_pos hl]
        refine ⟨_, rfl, ?_, fun x hx => List.mem_append_left _ hx⟩
        intro x hx
        rcases List.mem_append.1 hx with hx | hx
        · exact List.mem_of_mem_drop hx
        · by_cases hl' : s.ids.length ≤ kMaxSortedSize
          · rw [h.none_of_le hl'] at hx
            simp at hx
          · obtain ⟨u, hu, hsub, _⟩ := h.some_of_lt (by omega)
            rw [hu] at hx
            exact (hmem x).2 (Or.inl (hsub x (by simpa using hx)))

/-- `operator==` compares members. -/
theorem eq_spec (s n : AllocationIdSet) (h : WF s) (hn : WF n) :
    ∃ b, s.eq n = some b ∧ (b = true ↔ s.containsSmall = n.containsSmall ∧
      ∀ x, x ∈ s.ids ↔ x ∈ n.ids) := by
  have hlen : (∀ x, x ∈ s.ids ↔ x ∈ n.ids) → s.ids.length = n.ids.length := by
    intro hx
    exact Nat.le_antisymm (h.nodup.length_le_of_subset (fun x hm => (hx x).1 hm))
      (hn.nodup.length_le_of_subset (fun x hm => (hx x).2 hm))
  unfold AllocationIdSet.eq
  by_cases hf : s.containsSmall = n.containsSmall ∧ s.ids.length = n.ids.length
  · rw [if_neg (show ¬ ¬ _ from fun hc => hc hf)]
    by_cases hl : s.ids.length > kMaxSortedSize
    · rw [if_pos hl]
      obtain ⟨u, hu, hsub, hdrop⟩ := h.some_of_lt hl
      rw [hu]
      simp only
      refine ⟨_, rfl, ?_⟩
      have hset : ∀ x, x ∈ s.ids.take kMaxSortedSize ++ u ↔ x ∈ s.ids := by
        intro x
        rw [List.mem_append]
        constructor
        · rintro (hx | hx)
          · exact List.mem_of_mem_take hx
          · exact hsub x hx
        · intro hx
          rw [← List.take_append_drop kMaxSortedSize s.ids] at hx
          rcases List.mem_append.1 hx with hx | hx
          · exact Or.inl hx
          · exact Or.inr (hdrop x hx)
      rw [List.all_eq_true]
      constructor
      · intro ha
        have hns : ∀ x ∈ n.ids, x ∈ s.ids := fun x hx =>
          (hset x).1 (List.contains_iff_mem.1 (ha x hx))
        exact ⟨hf.1, fun x => ⟨subset_of_length hn.nodup hns (by omega) x, hns x⟩⟩
      · rintro ⟨_, hx⟩ x hxn
        exact List.contains_iff_mem.2 ((hset x).2 ((hx x).2 hxn))
    · rw [if_neg hl]
      refine ⟨_, rfl, ?_⟩
      rw [beq_iff_eq]
      constructor
      · intro e
        exact ⟨hf.1, fun x => by rw [e]⟩
      · rintro ⟨_, hx⟩
        exact ssorted_ext (h.sorted_all (by omega)) (hn.sorted_all (by omega)) hx
  · rw [if_pos hf]
    refine ⟨false, rfl, ?_⟩
    constructor
    · intro hc
      cases hc
    · rintro ⟨h1, h2⟩
      exact absurd ⟨h1, hlen h2⟩ hf

end Verif.ObjectId
