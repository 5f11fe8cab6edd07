import Verif.SliceOps.Number
import Verif.SliceOps.Count

/-!
The groups of a row by all the keys.
-/

namespace Verif.SliceOps

variable {α β : Type}

/-! ### keys of several items -/

/-- A key with one more item. -/
def snocKey : Option (List α) → Option α → Option (List α)
  | some k, some x => some (k ++ [x])
  | _, _ => none

theorem snocKey_some (o : Option (List α)) (v : Option α) (q : List α) :
    snocKey o v = some q ↔ ∃ k x, o = some k ∧ v = some x ∧ q = k ++ [x] := by
  cases o <;> cases v <;> simp [snocKey, eq_comm]

theorem stepKey_some (o : Option Nat) (v : Option α) (q : Nat × α) :
    stepKey o v = some q ↔ o = some q.1 ∧ v = some q.2 := by
  obtain ⟨g, x⟩ := q
  cases o <;> cases v <;> simp [stepKey]

theorem sameKey_snoc (eq : α → α → Bool) (k l : List α) (x y : α) (h : k.length = l.length) :
    sameKey eq (k ++ [x]) (l ++ [y]) = (sameKey eq k l && eq x y) := by
  induction k generalizing l with
  | nil => cases l with
    | nil => simp [sameKey]
    | cons b l => simp at h
  | cons a k ih => cases l with
    | nil => simp at h
    | cons b l =>
      simp only [List.cons_append, sameKey]
      rw [ih l (by simpa using h), Bool.and_assoc]

theorem keyLess_snoc (eq lt : α → α → Bool) (k l : List α) (x y : α) (h : k.length = l.length) :
    keyLess eq lt (k ++ [x]) (l ++ [y]) = (keyLess eq lt k l || (sameKey eq k l && lt x y)) := by
  induction k generalizing l with
  | nil => cases l with
    | nil => simp [sameKey, keyLess]
    | cons b l => simp at h
  | cons a k ih => cases l with
    | nil => simp at h
    | cons b l =>
      simp only [List.cons_append, sameKey, keyLess]
      rw [ih l (by simpa using h), Bool.or_assoc, Bool.and_or_distrib_left, Bool.and_assoc]

theorem sameKey_symm {eq : α → α → Bool} (symm : ∀ x y, eq x y = true → eq y x = true) (k l : List α)
    (h : sameKey eq k l = true) : sameKey eq l k = true := by
  induction k generalizing l with
  | nil => cases l <;> simp_all [sameKey]
  | cons a k ih => cases l with
    | nil => simp [sameKey] at h
    | cons b l =>
      simp only [sameKey, Bool.and_eq_true] at h ⊢
      exact ⟨symm _ _ h.1, ih l h.2⟩

/-! ### one step -/

/-- The numbers of the positions are the same for the same keys. -/
structure Sames (e : β → β → Bool) (K : List (Option β)) (ids : List (Option Nat)) : Prop where
  len : ids.length = K.length
  miss : ∀ i : Nat, K[i]? = some none ↔ ids[i]? = some none
  same : ∀ (i j : Nat) z w v u, i < j → K[i]? = some (some z) → K[j]? = some (some w) →
    ids[i]? = some (some v) → ids[j]? = some (some u) → (v = u ↔ e z w = true)

theorem Numbers.sames {e : β → β → Bool} {K : List (Option β)} {ids : List (Option Nat)} {s m : Nat}
    (h : Numbers e K ids s m) : Sames e K ids := ⟨h.len, h.miss, h.same⟩

theorem Sames.num {e : β → β → Bool} {K : List (Option β)} {ids : List (Option Nat)} (h : Sames e K ids)
    {i : Nat} {k : β} (hk : K[i]? = some (some k)) : ∃ v, ids[i]? = some (some v) := by
  have hi : i < ids.length := by rw [h.len]; exact (List.getElem?_eq_some_iff.mp hk).1
  cases hv : ids[i]? with
  | none => rw [List.getElem?_eq_none_iff] at hv; omega
  | some o => cases o with
    | none => rw [(h.miss i).mpr hv] at hk; simp at hk
    | some v => exact ⟨v, rfl⟩

theorem Sames.key {e : β → β → Bool} {K : List (Option β)} {ids : List (Option Nat)} (h : Sames e K ids)
    {i : Nat} {v : Nat} (hv : ids[i]? = some (some v)) : ∃ k, K[i]? = some (some k) := by
  have hi : i < K.length := by rw [← h.len]; exact (List.getElem?_eq_some_iff.mp hv).1
  cases hk : K[i]? with
  | none => rw [List.getElem?_eq_none_iff] at hk; omega
  | some o => cases o with
    | none => rw [(h.miss i).mp hk] at hv; simp at hv
    | some k => exact ⟨k, rfl⟩

/-- All the keys have the same number of items. -/
def Uniform (n : Nat) (K : List (Option (List α))) : Prop := ∀ k, some k ∈ K → k.length = n

theorem extend_get (K : List (Option (List α))) (vals : List (Option α)) (i : Nat) (q : List α) :
    (List.zipWith snocKey K vals)[i]? = some (some q) ↔
      ∃ k x, K[i]? = some (some k) ∧ vals[i]? = some (some x) ∧ q = k ++ [x] := by
  rw [List.getElem?_zipWith]
  cases K[i]? with
  | none => simp
  | some o => cases vals[i]? with
    | none => simp
    | some v => simp [snocKey_some]

theorem step_get (ids : List (Option Nat)) (vals : List (Option α)) (i : Nat) (g : Nat) (x : α) :
    (List.zipWith stepKey ids vals)[i]? = some (some (g, x)) ↔
      ids[i]? = some (some g) ∧ vals[i]? = some (some x) := by
  rw [List.getElem?_zipWith]
  cases ids[i]? with
  | none => simp
  | some o => cases vals[i]? with
    | none => simp
    | some v => simp [stepKey_some]

theorem Uniform.extend {n : Nat} {K : List (Option (List α))} (h : Uniform n K) (vals : List (Option α)) :
    Uniform (n + 1) (List.zipWith snocKey K vals) := by
  intro q hq
  obtain ⟨i, hi⟩ := List.mem_iff_getElem?.mp hq
  obtain ⟨k, x, hk, -, rfl⟩ := (extend_get K vals i q).mp hi
  simp [h k (List.mem_of_getElem? hk)]

theorem step_same {eq : α → α → Bool} {n : Nat} {K : List (Option (List α))} {ids ids' : List (Option Nat)}
    {vals : List (Option α)} {s m : Nat} (hu : Uniform n K) (h : Sames (sameKey eq) K ids)
    (hl : vals.length = K.length) (hn : Numbers (keyEq eq) (List.zipWith stepKey ids vals) ids' s m) :
    Numbers (sameKey eq) (List.zipWith snocKey K vals) ids' s m where
  len := by rw [hn.len, List.length_zipWith, List.length_zipWith, h.len]
  miss := by
    intro i
    rw [← hn.miss, List.getElem?_zipWith, List.getElem?_zipWith]
    rcases Nat.lt_or_ge i K.length with hi | hi
    · have h1 : i < ids.length := by rw [h.len]; exact hi
      have h2 : i < vals.length := by omega
      have hm := h.miss i
      rw [List.getElem?_eq_getElem hi, List.getElem?_eq_getElem h1] at hm
      rw [List.getElem?_eq_getElem hi, List.getElem?_eq_getElem h1, List.getElem?_eq_getElem h2]
      generalize K[i] = a at *
      generalize ids[i] = b at *
      generalize vals[i] = c at *
      cases a <;> cases b <;> cases c <;> simp_all [snocKey, stepKey]
    · have h1 : ids[i]? = none := List.getElem?_eq_none (by rw [h.len]; exact hi)
      rw [List.getElem?_eq_none hi, h1]
      simp
  bound := hn.bound
  onto := hn.onto
  same := by
    intro i j z w v u hij hz hw hv hu'
    obtain ⟨k, x, hk, hx, rfl⟩ := (extend_get K vals i z).mp hz
    obtain ⟨l, y, hl', hy, rfl⟩ := (extend_get K vals j w).mp hw
    obtain ⟨g, hg⟩ := h.num hk
    obtain ⟨g', hg'⟩ := h.num hl'
    rw [hn.same i j (g, x) (g', y) v u hij ((step_get _ _ _ _ _).mpr ⟨hg, hx⟩)
      ((step_get _ _ _ _ _).mpr ⟨hg', hy⟩) hv hu',
      sameKey_snoc _ _ _ _ _ (by rw [hu k (List.mem_of_getElem? hk), hu l (List.mem_of_getElem? hl')])]
    simp only [keyEq, Bool.and_eq_true, decide_eq_true_eq]
    rw [h.same i j k l g g' hij hk hl' hg hg']

/-- Keys that are the same as themselves. -/
def Reflexive (e : β → β → Bool) (K : List (Option β)) : Prop := ∀ k, some k ∈ K → e k k = true

theorem Sames.iff {eq : α → α → Bool} (symm : ∀ x y, eq x y = true → eq y x = true)
    {K : List (Option (List α))} {ids : List (Option Nat)} (h : Sames (sameKey eq) K ids)
    (hr : Reflexive (sameKey eq) K) {i j : Nat} {k l : List α} {v u : Nat} (hk : K[i]? = some (some k))
    (hl : K[j]? = some (some l)) (hv : ids[i]? = some (some v)) (hu : ids[j]? = some (some u)) :
    v = u ↔ sameKey eq k l = true := by
  rcases Nat.lt_trichotomy i j with hij | hij | hij
  · exact h.same i j k l v u hij hk hl hv hu
  · subst hij
    rw [hk] at hl
    rw [hv] at hu
    cases hl
    cases hu
    simp [hr k (List.mem_of_getElem? hk)]
  · have := h.same j i l k u v hij hl hk hu hv
    constructor
    · intro e
      exact sameKey_symm symm _ _ (this.mp e.symm)
    · intro e
      exact (this.mpr (sameKey_symm symm _ _ e)).symm

theorem step_increasing {eq lt : α → α → Bool} (symm : ∀ x y, eq x y = true → eq y x = true) {n : Nat}
    {K : List (Option (List α))} {ids ids' : List (Option Nat)}
    {vals : List (Option α)} (hu : Uniform n K) (h : Sames (sameKey eq) K ids)
    (hr : Reflexive (sameKey eq) K) (hi : Increasing (keyLess eq lt) K ids)
    (hn : Increasing (stepLt lt) (List.zipWith stepKey ids vals) ids') :
    Increasing (keyLess eq lt) (List.zipWith snocKey K vals) ids' := by
  intro i j z w v u hz hw hv hu'
  obtain ⟨k, x, hk, hx, rfl⟩ := (extend_get K vals i z).mp hz
  obtain ⟨l, y, hl', hy, rfl⟩ := (extend_get K vals j w).mp hw
  obtain ⟨g, hg⟩ := h.num hk
  obtain ⟨g', hg'⟩ := h.num hl'
  rw [hn i j (g, x) (g', y) v u ((step_get _ _ _ _ _).mpr ⟨hg, hx⟩)
    ((step_get _ _ _ _ _).mpr ⟨hg', hy⟩) hv hu',
    keyLess_snoc _ _ _ _ _ _ (by rw [hu k (List.mem_of_getElem? hk), hu l (List.mem_of_getElem? hl')])]
  simp only [stepLt, Bool.or_eq_true, Bool.and_eq_true, decide_eq_true_eq]
  rw [hi i j k l g g' hk hl' hg hg', h.iff symm hr hk hl' hg hg']

theorem step_reflexive {eq : α → α → Bool} {n : Nat} {K : List (Option (List α))} {vals : List (Option α)}
    (hu : Uniform n K) (hr : Reflexive (sameKey eq) K) (hv : ∀ x, some x ∈ vals → eq x x = true) :
    Reflexive (sameKey eq) (List.zipWith snocKey K vals) := by
  intro q hq
  obtain ⟨i, hi⟩ := List.mem_iff_getElem?.mp hq
  obtain ⟨k, x, hk, hx, rfl⟩ := (extend_get K vals i q).mp hi
  rw [sameKey_snoc _ _ _ _ _ rfl]
  simp [hr k (List.mem_of_getElem? hk), hv x (List.mem_of_getElem? hx)]

/-! ### rows -/

/-- What is known of a row between two keys. -/
structure Between (eq lt : α → α → Bool) (sort : Bool) (n : Nat) (K : List (Option (List α)))
    (ids : List (Option Nat)) : Prop where
  uniform : Uniform n K
  sames : Sames (sameKey eq) K ids
  sorted : sort = true → Reflexive (sameKey eq) K ∧ Increasing (keyLess eq lt) K ids

/-- What is known of a row after a key. -/
structure After (eq lt : α → α → Bool) (sort : Bool) (n : Nat) (K : List (Option (List α)))
    (ids : List (Option Nat)) (s m : Nat) : Prop where
  uniform : Uniform n K
  numbers : Numbers (sameKey eq) K ids s m
  sorted : sort = true → Reflexive (sameKey eq) K ∧ Increasing (keyLess eq lt) K ids
  growing : sort = false → Growing ids s

theorem After.between {eq lt : α → α → Bool} {sort : Bool} {n : Nat} {K : List (Option (List α))}
    {ids : List (Option Nat)} {s m : Nat} (h : After eq lt sort n K ids s m) :
    Between eq lt sort n K ids := ⟨h.uniform, h.numbers.sames, h.sorted⟩

variable {eq lt : α → α → Bool} {isNan : α → Bool}

theorem keyEq_symm (he : Equality eq isNan) (z w : Nat × α) (h : keyEq eq z w = true) :
    keyEq eq w z = true := by
  simp only [keyEq, Bool.and_eq_true, decide_eq_true_eq] at h ⊢
  exact ⟨h.1.symm, he.symm _ _ h.2⟩

theorem keyEq_trans (he : Equality eq isNan) (z w u : Nat × α) (h : keyEq eq z w = true)
    (h' : keyEq eq w u = true) : keyEq eq z u = true := by
  simp only [keyEq, Bool.and_eq_true, decide_eq_true_eq] at h h' ⊢
  exact ⟨h.1.trans h'.1, he.trans _ _ _ h.2 h'.2⟩

theorem lt_cong (he : Equality eq isNan) (ho : Ordering eq isNan lt) (x x' y : α) (hx : isNan x = false)
    (hx' : isNan x' = false) (hy : isNan y = false) (h : eq x x' = true) :
    lt x y = lt x' y ∧ lt y x = lt y x' := by
  have key : ∀ a a' : α, isNan a = false → isNan a' = false → eq a a' = true →
      (lt a y = true → lt a' y = true) ∧ (lt y a = true → lt y a' = true) := by
    intro a a' ha ha' haa
    constructor
    · intro hl
      rcases ho.total a' y ha' hy with h1 | h1 | h1
      · exact h1
      · have := ho.trans _ _ _ hl h1
        rw [ho.equal _ _ haa] at this
        simp at this
      · have := ho.equal _ _ (he.trans _ _ _ haa h1)
        rw [hl] at this
        simp at this
    · intro hl
      rcases ho.total a' y ha' hy with h1 | h1 | h1
      · have := ho.trans _ _ _ h1 hl
        rw [ho.equal _ _ (he.symm _ _ haa)] at this
        simp at this
      · exact h1
      · have := ho.equal _ _ (he.symm _ _ (he.trans _ _ _ haa h1))
        rw [hl] at this
        simp at this
  have k1 := key x x' hx hx' h
  have k2 := key x' x hx' hx (he.symm _ _ h)
  exact ⟨Bool.eq_iff_iff.mpr ⟨k1.1, k2.1⟩, Bool.eq_iff_iff.mpr ⟨k1.2, k2.2⟩⟩

theorem chunk_spec (he : Equality eq isNan) (sort : Bool)
    (ho : sort = true → Ordering eq isNan lt) {n : Nat} {K : List (Option (List α))}
    {ids : List (Option Nat)} (hb : Between eq lt sort n K ids) (vals : List (Option α))
    (hl : vals.length = K.length) (hv : sort = true → ∀ x, some x ∈ vals → isNan x = false) (s : Nat) :
    ∃ m, (processChunk eq ids vals ⟨[], s, []⟩).2.next = s + m ∧
      After eq lt sort (n + 1) (List.zipWith snocKey K vals)
        (if sort then sortGroups lt s (processChunk eq ids vals ⟨[], s, []⟩).2.keys
          (processChunk eq ids vals ⟨[], s, []⟩).1 else (processChunk eq ids vals ⟨[], s, []⟩).1) s m := by
  obtain ⟨keys, h1, h2⟩ := processChunk_spec eq s ids vals (by rw [hb.sames.len, hl]) [] [] []
    (numInv_start _ s)
  simp only [List.zipIdx_nil, List.reverse_nil, List.length_nil, Nat.add_zero, List.nil_append] at h1 h2
  refine ⟨keys.length, by rw [h1], ?_⟩
  rw [h1]
  cases sort with
  | false =>
    simp only [Bool.false_eq_true, if_false]
    exact ⟨hb.uniform.extend vals,
      step_same hb.uniform hb.sames hl (h2.numbers (keyEq_symm he) (keyEq_trans he)), by simp,
      fun _ => h2.grow⟩
  | true =>
    simp only [if_true]
    have ho := ho rfl
    have hv := hv rfl
    have hZ : ∀ z, some z ∈ List.zipWith stepKey ids vals → isNan z.2 = false := by
      intro z hz
      obtain ⟨i, hi⟩ := List.mem_iff_getElem?.mp hz
      exact hv _ (List.mem_of_getElem? ((step_get ids vals i z.1 z.2).mp hi).2)
    obtain ⟨h3, h4⟩ := sortGroups_spec lt (keyEq_symm he) (keyEq_trans he) h2
      (by
        intro x y z hx hy
        simp only [stepLt, Bool.or_eq_true, Bool.and_eq_true, decide_eq_true_eq] at hx hy ⊢
        rcases hx with hx | ⟨hx, hx'⟩ <;> rcases hy with hy | ⟨hy, hy'⟩
        · exact .inl (by omega)
        · exact .inl (by omega)
        · exact .inl (by omega)
        · exact .inr ⟨by omega, ho.trans _ _ _ hx' hy'⟩)
      (by
        intro x y hx
        simp only [stepLt, Bool.or_eq_true, Bool.and_eq_true, decide_eq_true_eq] at hx
        simp only [stepLt, Bool.or_eq_false_iff, Bool.and_eq_false_iff, decide_eq_false_iff_not]
        rcases hx with hx | ⟨hx, hx'⟩
        · exact ⟨by omega, .inl (by omega)⟩
        · exact ⟨by omega, .inr (ho.asymm _ _ hx')⟩)
      (by
        intro x x' y hx hx' hy h
        simp only [keyEq, Bool.and_eq_true, decide_eq_true_eq] at h
        have := lt_cong he ho x.2 x'.2 y.2 (hZ _ hx) (hZ _ hx') (hZ _ hy) h.2
        simp only [stepLt, h.1, this.1, this.2, and_self])
      (by
        intro x y hx hy h
        simp only [keyEq, Bool.and_eq_false_iff, decide_eq_false_iff_not] at h
        simp only [stepLt, Bool.or_eq_true, Bool.and_eq_true, decide_eq_true_eq]
        rcases Nat.lt_trichotomy x.1 y.1 with h' | h' | h'
        · exact .inl (.inl h')
        · rcases ho.total x.2 y.2 (hZ _ hx) (hZ _ hy) with h2 | h2 | h2
          · exact .inl (.inr ⟨h', h2⟩)
          · exact .inr (.inr ⟨h'.symm, h2⟩)
          · rw [h2] at h
            rcases h with h | h
            · exact absurd h' h
            · simp at h
        · exact .inr (.inl h'))
    have hs := hb.sorted rfl
    exact ⟨hb.uniform.extend vals, step_same hb.uniform hb.sames hl h3,
      fun _ => ⟨step_reflexive hb.uniform hs.1 fun x hx => he.refl x (hv x hx),
        step_increasing he.symm hb.uniform hb.sames hs.1 hs.2 h4⟩, by simp⟩

/-! ### the groups of a row -/

theorem mem_positions (v k i : Nat) (c : List (Option Nat)) :
    i ∈ positions v k c ↔ ∃ j, i = k + j ∧ c[j]? = some (some v) := by
  induction c generalizing k with
  | nil => simp [positions]
  | cons o c ih =>
    have hstep : (∃ j, i = k + j ∧ (o :: c)[j]? = some (some v)) ↔
        (i = k ∧ o = some v) ∨ ∃ j, i = k + 1 + j ∧ c[j]? = some (some v) := by
      constructor
      · rintro ⟨j, hj, hc⟩
        cases j with
        | zero => exact .inl ⟨by omega, by simpa using hc⟩
        | succ j => exact .inr ⟨j, by omega, by simpa using hc⟩
      · rintro (⟨h1, h2⟩ | ⟨j, h1, h2⟩)
        · exact ⟨0, by omega, by simp [h2]⟩
        · exact ⟨j + 1, by omega, by simpa using h2⟩
    unfold positions
    by_cases ho : o = some v
    · rw [if_pos ho, List.mem_cons, ih, hstep]
      simp [ho]
    · rw [if_neg ho, ih, hstep]
      simp [ho]

theorem mem_positions' (v i : Nat) (c : List (Option Nat)) :
    i ∈ positions v 0 c ↔ c[i]? = some (some v) := by
  rw [mem_positions]
  constructor
  · rintro ⟨j, hj, hc⟩
    have : i = j := by omega
    rw [this]; exact hc
  · intro h
    exact ⟨i, by omega, h⟩

theorem positions_increasing (v k : Nat) (c : List (Option Nat)) : (positions v k c).Pairwise (· < ·) := by
  induction c generalizing k with
  | nil => simp [positions]
  | cons o c ih =>
    unfold positions
    by_cases ho : o = some v
    · rw [if_pos ho, List.pairwise_cons]
      refine ⟨?_, ih _⟩
      intro i hi
      obtain ⟨j, hj, -⟩ := (mem_positions v (k + 1) i c).mp hi
      omega
    · rw [if_neg ho]; exact ih _

theorem Numbers.dense {e : β → β → Bool} {K : List (Option β)} {ids : List (Option Nat)} {s m : Nat}
    (h : Numbers e K ids s m) : Dense ids s m where
  bound := by
    intro g hg
    obtain ⟨i, hi⟩ := List.mem_iff_getElem?.mp hg
    exact h.bound i g hi
  onto := by
    intro g h1 h2
    obtain ⟨i, hi⟩ := h.onto (g - s) (by omega)
    have : s + (g - s) = g := by omega
    rw [this] at hi
    exact List.mem_of_getElem? hi

theorem groupsOf_groups {e : β → β → Bool} (symm : ∀ x y, e x y = true → e y x = true)
    {K : List (Option β)} {ids : List (Option Nat)} {s m : Nat} (h : Numbers e K ids s m) :
    GroupsBy e K (groupsOf ids s m) where
  nonempty := by
    intro g hg
    obtain ⟨v, hv, rfl⟩ := List.mem_map.mp hg
    rw [List.mem_range'_1] at hv
    obtain ⟨i, hi⟩ := h.onto (v - s) (by omega)
    have : s + (v - s) = v := by omega
    rw [this] at hi
    exact List.ne_nil_of_mem ((mem_positions' v i ids).mpr hi)
  all := by
    intro i k hk
    obtain ⟨v, hv⟩ := h.sames.num hk
    refine ⟨positions v 0 ids, ?_, (mem_positions' v i ids).mpr hv⟩
    refine List.mem_map.mpr ⟨v, ?_, rfl⟩
    rw [List.mem_range'_1]
    exact h.bound i v hv
  one := by
    unfold groupsOf
    unfold List.Nodup
    rw [List.pairwise_flatten]
    constructor
    · intro g hg
      obtain ⟨v, -, rfl⟩ := List.mem_map.mp hg
      exact (positions_increasing v 0 ids).imp (fun h => Nat.ne_of_lt h)
    · rw [List.pairwise_map]
      refine List.Pairwise.imp ?_ (List.pairwise_lt_range' (s := s) (n := m))
      intro v u hvu i hi j hj hij
      subst hij
      rw [mem_positions'] at hi hj
      rw [hi] at hj
      simp at hj
      omega
  increasing := by
    intro g hg
    obtain ⟨v, -, rfl⟩ := List.mem_map.mp hg
    exact positions_increasing v 0 ids
  same := by
    intro g hg i hi j
    obtain ⟨v, -, rfl⟩ := List.mem_map.mp hg
    rw [mem_positions'] at hi ⊢
    obtain ⟨k, hk⟩ := h.sames.key hi
    constructor
    · intro hj
      obtain ⟨l, hl⟩ := h.sames.key hj
      refine ⟨k, l, hk, hl, ?_⟩
      rcases Nat.lt_trichotomy i j with hij | hij | hij
      · exact .inr ((h.same i j k l v v hij hk hl hi hj).mp rfl)
      · exact .inl hij
      · exact .inr (symm _ _ ((h.same j i l k v v hij hl hk hj hi).mp rfl))
    · rintro ⟨k', l, hk', hl, hs⟩
      rw [hk] at hk'
      cases hk'
      obtain ⟨u, hu⟩ := h.sames.num hl
      rw [hu]
      rcases Nat.lt_trichotomy i j with hij | hij | hij
      · rcases hs with hs | hs
        · omega
        · rw [(h.same i j k l v u hij hk hl hi hu).mpr hs]
      · subst hij
        rw [hi] at hu
        exact hu.symm
      · rcases hs with hs | hs
        · omega
        · rw [(h.same j i l k u v hij hl hk hu hi).mpr (symm _ _ hs)]

theorem groupsOf_appearance {ids : List (Option Nat)} {s m : Nat} (h : Growing ids s) :
    ByAppearance (groupsOf ids s m) := by
  unfold ByAppearance groupsOf
  rw [List.pairwise_map]
  refine List.Pairwise.imp_of_mem ?_ (List.pairwise_lt_range' (s := s) (n := m))
  intro v u hv hu hvu i j hi hj
  rw [List.mem_range'_1] at hv hu
  have hj' := (mem_positions' u j ids).mp (List.mem_of_head? hj)
  have e1 : s + (u - s) = u := by omega
  have e2 : s + (v - s) = v := by omega
  obtain ⟨j', hlt, hj''⟩ := h j (u - s) (by rw [e1]; exact hj') (v - s) (by omega)
  rw [e2] at hj''
  have hmem := (mem_positions' v j' ids).mpr hj''
  have hinc := positions_increasing v 0 ids
  cases hp : positions v 0 ids with
  | nil => rw [hp] at hmem; simp at hmem
  | cons a rest =>
    rw [hp] at hi hmem hinc
    cases hi
    rcases List.mem_cons.mp hmem with h' | h'
    · omega
    · have := (List.pairwise_cons.mp hinc).1 j' h'
      omega

theorem groupsOf_sorted {e less : β → β → Bool} {K : List (Option β)} {ids : List (Option Nat)} {s m : Nat}
    (h : Numbers e K ids s m) (hi : Increasing less K ids) : ByKey less K (groupsOf ids s m) := by
  unfold ByKey groupsOf
  rw [List.pairwise_map]
  refine List.Pairwise.imp ?_ (List.pairwise_lt_range' (s := s) (n := m))
  intro v u hvu i hi' j hj'
  rw [mem_positions'] at hi' hj'
  obtain ⟨k, hk⟩ := h.sames.key hi'
  obtain ⟨l, hl⟩ := h.sames.key hj'
  exact ⟨k, l, hk, hl, (hi i j k l v u hk hl hi' hj').mp hvu⟩

end Verif.SliceOps
