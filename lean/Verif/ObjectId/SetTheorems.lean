import Verif.ObjectId.SetInv

/-! C33: allocation id sets behave as sets. -/

namespace Verif.ObjectId

/-! ### Specification -/

/-- The ids that were ever put into a set. -/
def SetExpr.inserted : SetExpr → List AllocationId
  | .ofBool _ => []
  | .ofId id => [id]
  | .ofSpan ids => ids
  | .insert e id => e.inserted ++ [id]
  | .insertSet e other => e.inserted ++ other.inserted
  | .insertSmall e => e.inserted

/-- The small-allocation flag was set directly. -/
def SetExpr.flagged : SetExpr → Bool
  | .ofBool b => b
  | .ofId _ => false
  | .ofSpan _ => false
  | .insert e _ => e.flagged
  | .insertSet e other => e.flagged || other.flagged
  | .insertSmall _ => true

/-- A small allocation has room for at most two objects. -/
def Small (a : AllocationId) : Prop := a.capacity.toNat ≤ 2

/-- A small allocation belongs to the set. -/
def SetExpr.HasSmall (e : SetExpr) : Prop :=
  e.flagged = true ∨ ∃ a ∈ e.inserted, Small a

/-- A big allocation belongs to the set. -/
def SetExpr.HasBig (e : SetExpr) (a : AllocationId) : Prop :=
  a ∈ e.inserted ∧ ¬ Small a

theorem small_iff (a : AllocationId) : a.isSmall = true ↔ Small a := by
  have hcap := capacity_toNat a
  unfold Small AllocationId.isSmall ObjectId.isSmallAlloc kSmallAllocMaxBits
  rw [decide_eq_true_eq, hcap]
  constructor
  · intro h
    exact Nat.pow_le_pow_right (n := 2) (by omega) h
  · intro h
    apply Classical.byContradiction
    intro hn
    have : 2 ^ 2 ≤ 2 ^ a.raw.offsetBits.toNat := Nat.pow_le_pow_right (by omega) (by omega)
    omega

theorem big_iff (a : AllocationId) : a.isSmall = false ↔ ¬ Small a := by
  rw [← small_iff, Bool.not_eq_true]

theorem eval_spec (e : SetExpr) : ∃ s, e.eval = some s ∧ WF s ∧
    (s.containsSmall = true ↔ e.HasSmall) ∧ (∀ a, a ∈ s.ids ↔ e.HasBig a) := by
  unfold SetExpr.HasSmall SetExpr.HasBig
  induction e with
  | ofBool b =>
    exact ⟨_, rfl, wf_ofBool b, by simp [AllocationIdSet.ofBool, SetExpr.flagged, SetExpr.inserted],
      by simp [AllocationIdSet.ofBool, SetExpr.inserted]⟩
  | ofId id =>
    refine ⟨_, rfl, wf_ofId id, ?_, ?_⟩
    · simp [AllocationIdSet.ofId, SetExpr.flagged, SetExpr.inserted, small_iff]
    · intro a
      simp only [AllocationIdSet.ofId, SetExpr.inserted, List.mem_singleton]
      by_cases hs : id.isSmall = true
      · rw [if_pos hs]
        simp only [List.not_mem_nil, false_iff]
        rintro ⟨rfl, hn⟩
        exact hn ((small_iff a).1 hs)
      · rw [if_neg hs, List.mem_singleton]
        constructor
        · rintro rfl
          exact ⟨rfl, fun h => hs ((small_iff a).2 h)⟩
        · exact And.left
  | ofSpan ids =>
    refine ⟨_, rfl, wf_ofSpan ids, ?_, ?_⟩
    · have : (AllocationIdSet.ofSpan ids).containsSmall =
          ((ids.filter (fun id => !id.isSmall)).length != ids.length) := by
        unfold AllocationIdSet.ofSpan
        simp only
        split <;> rfl
      rw [this]
      simp only [SetExpr.flagged, SetExpr.inserted, bne_iff_ne, ne_eq,
        List.length_filter_eq_length_iff]
      constructor
      · intro h
        rw [Classical.not_forall] at h
        obtain ⟨a, ha⟩ := h
        rw [Classical.not_imp] at ha
        exact Or.inr ⟨a, ha.1, (small_iff a).1 (by simpa using ha.2)⟩
      · rintro (h | ⟨a, ha, hs⟩) hall
        · cases h
        · have := hall a ha
          rw [(small_iff a).2 hs] at this
          cases this
    · intro a
      have : a ∈ (AllocationIdSet.ofSpan ids).ids ↔ a ∈ ids.filter (fun id => !id.isSmall) := by
        unfold AllocationIdSet.ofSpan
        simp only
        split
        · simp only [mem_uniqueIds, mem_sortIds]
        · exact Iff.rfl
      rw [this, List.mem_filter, ← big_iff]
      simp [SetExpr.inserted]
  | insert e id ih =>
    obtain ⟨s, he, hw, h1, h2⟩ := ih
    obtain ⟨s', b, hi, hw', _, h3, h4⟩ := insert_spec s hw id
    refine ⟨s', by simp [SetExpr.eval, he, hi], hw', ?_, ?_⟩
    · rw [h3, h1, small_iff]
      simp only [SetExpr.flagged, SetExpr.inserted]
      constructor
      · rintro ((h | ⟨a, ha, hs⟩) | h)
        · exact Or.inl h
        · exact Or.inr ⟨a, List.mem_append_left _ ha, hs⟩
        · exact Or.inr ⟨id, by simp, h⟩
      · rintro (h | ⟨a, ha, hs⟩)
        · exact Or.inl (Or.inl h)
        · rcases List.mem_append.1 ha with ha | ha
          · exact Or.inl (Or.inr ⟨a, ha, hs⟩)
          · rw [List.mem_singleton] at ha
            exact Or.inr (ha ▸ hs)
    · intro a
      rw [h4, h2, big_iff]
      simp only [SetExpr.inserted, List.mem_append, List.mem_singleton]
      constructor
      · rintro (⟨h, hs⟩ | ⟨rfl, hs⟩)
        · exact ⟨Or.inl h, hs⟩
        · exact ⟨Or.inr rfl, hs⟩
      · rintro ⟨h | rfl, hs⟩
        · exact Or.inl ⟨h, hs⟩
        · exact Or.inr ⟨rfl, hs⟩
  | insertSet e o ihe iho =>
    obtain ⟨s, he, hw, h1, h2⟩ := ihe
    obtain ⟨n, ho, hwn, h3, h4⟩ := iho
    obtain ⟨hw', h5, h6⟩ := insertSet_spec s n hw hwn
    refine ⟨_, by simp [SetExpr.eval, he, ho], hw', ?_, ?_⟩
    · rw [h5, h1, h3]
      simp only [SetExpr.flagged, SetExpr.inserted, Bool.or_eq_true, List.mem_append]
      constructor
      · rintro ((h | ⟨a, ha, hs⟩) | (h | ⟨a, ha, hs⟩))
        · exact Or.inl (Or.inl h)
        · exact Or.inr ⟨a, Or.inl ha, hs⟩
        · exact Or.inl (Or.inr h)
        · exact Or.inr ⟨a, Or.inr ha, hs⟩
      · rintro ((h | h) | ⟨a, ha | ha, hs⟩)
        · exact Or.inl (Or.inl h)
        · exact Or.inr (Or.inl h)
        · exact Or.inl (Or.inr ⟨a, ha, hs⟩)
        · exact Or.inr (Or.inr ⟨a, ha, hs⟩)
    · intro a
      rw [h6, h2, h4]
      simp only [SetExpr.inserted, List.mem_append]
      constructor
      · rintro (⟨h, hs⟩ | ⟨h, hs⟩)
        · exact ⟨Or.inl h, hs⟩
        · exact ⟨Or.inr h, hs⟩
      · rintro ⟨h | h, hs⟩
        · exact Or.inl ⟨h, hs⟩
        · exact Or.inr ⟨h, hs⟩
  | insertSmall e ih =>
    obtain ⟨s, he, hw, h1, h2⟩ := ih
    refine ⟨s.insertSmall, by simp [SetExpr.eval, he],
      ⟨hw.nodup, hw.big, hw.sorted, hw.none_of_le, hw.some_of_lt⟩, ?_, h2⟩
    simp [AllocationIdSet.insertSmall, SetExpr.flagged]

/-! ### Theorems -/

/-- However a set is built, no call runs into undefined behaviour, and it has exactly
the big allocations that were put in, each once, and the small-allocation flag iff a
small one was put in. -/
theorem C33_members (e : SetExpr) :
    ∃ s, e.eval = some s ∧ s.ids.Nodup ∧ (∀ a, a ∈ s.ids ↔ e.HasBig a) ∧
      (s.containsSmall = true ↔ e.HasSmall) := by
  obtain ⟨s, he, hw, h1, h2⟩ := eval_spec e
  exact ⟨s, he, hw.nodup, h2, h1⟩

/-- `Insert(id)` succeeds and reports whether `id` is new. -/
theorem C33_insert_reports_new (e : SetExpr) (s : AllocationIdSet) (he : e.eval = some s)
    (id : AllocationId) :
    ∃ s' b, s.insert id = some (s', b) ∧
      (b = true ↔ (Small id ∧ ¬ e.HasSmall) ∨ (¬ Small id ∧ id ∉ e.inserted)) := by
  obtain ⟨s0, he', hw, h1, h2⟩ := eval_spec e
  rw [he] at he'
  cases he'
  obtain ⟨s', b, hi, _, hb, _, _⟩ := insert_spec s hw id
  refine ⟨s', b, hi, ?_⟩
  rw [hb]
  by_cases hs : id.isSmall = true
  · rw [if_pos hs]
    have hsm := (small_iff id).1 hs
    constructor
    · intro h
      refine Or.inl ⟨hsm, fun hh => ?_⟩
      rw [h1.2 hh] at h
      cases h
    · rintro (⟨_, h⟩ | ⟨h, _⟩)
      · cases hc : s.containsSmall with
        | true => exact absurd (h1.1 hc) h
        | false => rfl
      · exact absurd hsm h
  · rw [if_neg hs]
    have hsm : ¬ Small id := fun h => hs ((small_iff id).2 h)
    constructor
    · intro h
      exact Or.inr ⟨hsm, fun hh => h ((h2 id).2 ⟨hh, hsm⟩)⟩
    · rintro (⟨h, _⟩ | ⟨_, h⟩)
      · exact absurd h hsm
      · intro hh
        exact h ((h2 id).1 hh).1

/-- Two sets, however they were built, compare equal iff they have the same members. -/
theorem C33_equal_iff_same_members (e₁ e₂ : SetExpr) (s₁ s₂ : AllocationIdSet)
    (h₁ : e₁.eval = some s₁) (h₂ : e₂.eval = some s₂) :
    ∃ b, s₁.eq s₂ = some b ∧
      (b = true ↔ (e₁.HasSmall ↔ e₂.HasSmall) ∧ ∀ a, e₁.HasBig a ↔ e₂.HasBig a) := by
  obtain ⟨t₁, ht₁, hw₁, hs₁, hb₁⟩ := eval_spec e₁
  obtain ⟨t₂, ht₂, hw₂, hs₂, hb₂⟩ := eval_spec e₂
  rw [h₁] at ht₁
  rw [h₂] at ht₂
  cases ht₁
  cases ht₂
  obtain ⟨b, hb, hiff⟩ := eq_spec s₁ s₂ hw₁ hw₂
  refine ⟨b, hb, ?_⟩
  rw [hiff, ← hs₁, ← hs₂]
  constructor
  · rintro ⟨h, hx⟩
    exact ⟨by rw [h], fun a => by rw [← hb₁, ← hb₂]; exact hx a⟩
  · rintro ⟨h, hx⟩
    exact ⟨Bool.eq_iff_iff.2 h, fun a => by rw [hb₁, hb₂]; exact hx a⟩

/-! ### Example: forty big allocations inserted in the two orders give sets in the
large mode that hold the vector in different orders and are equal. -/

/-- A big allocation with the given number. -/
def exampleAlloc (n : Nat) : AllocationId := ⟨⟨BitVec.ofNat 52 n, 4, 0, 0⟩⟩

example :
    let up := (List.range 40).foldl (fun e n => SetExpr.insert e (exampleAlloc n)) (.ofBool false)
    let down := (List.range 40).reverse.foldl
      (fun e n => SetExpr.insert e (exampleAlloc n)) (.ofBool false)
    (up.eval.map (fun s => s.ids.length) = some 40) ∧
      (up.eval.map (·.ids) ≠ down.eval.map (·.ids)) ∧
      (up.eval.bind fun s => down.eval.bind fun t => s.eq t) = some true := by
  decide +kernel

end Verif.ObjectId
