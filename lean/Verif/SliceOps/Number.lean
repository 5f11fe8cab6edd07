import Verif.SliceOps.Unique

/-!
The numbering of groups in `group_by_indices`.
-/

namespace Verif.SliceOps

variable {α β : Type}

/-- The keys of one step: the old group and the value. -/
def stepKey : Option Nat → Option α → Option (Nat × α)
  | some g, some x => some (g, x)
  | _, _ => none

/-- The equality of these keys. -/
def keyEq (eq : α → α → Bool) (z w : Nat × α) : Bool := decide (z.1 = w.1) && eq z.2 w.2

/-- The state of the numbering after some positions. -/
structure NumInv (e : β → β → Bool) (Z : List (Option β)) (ids : List (Option Nat)) (s : Nat)
    (keys : List β) : Prop where
  len : ids.length = Z.length
  miss : ∀ i : Nat, Z[i]? = some none ↔ ids[i]? = some none
  num : ∀ (i : Nat) z, Z[i]? = some (some z) → ∃ (k : Nat) (z' : β), ids[i]? = some (some (s + k)) ∧ keys[k]? = some z' ∧
    ((z' = z ∧ ∀ j : Nat, j < i → ids[j]? ≠ some (some (s + k))) ∨ e z' z = true)
  grow : ∀ (i : Nat) k, ids[i]? = some (some (s + k)) → ∀ k', k' < k → ∃ j : Nat, j < i ∧ ids[j]? = some (some (s + k'))
  onto : ∀ (k : Nat) z, keys[k]? = some z → ∃ i : Nat, Z[i]? = some (some z) ∧ ids[i]? = some (some (s + k))
  distinct : keys.Pairwise (fun z w => e z w = false)

theorem getElem?_snoc (l : List α) (x : α) (i : Nat) (y : α) :
    (l ++ [x])[i]? = some y ↔ l[i]? = some y ∨ (i = l.length ∧ y = x) := by
  rcases Nat.lt_trichotomy i l.length with h | h | h
  · rw [List.getElem?_append_left h]
    constructor
    · exact .inl
    · rintro (h' | ⟨h', -⟩)
      · exact h'
      · omega
  · subst h
    simp [eq_comm]
  · rw [List.getElem?_eq_none (by simp; omega), List.getElem?_eq_none (by omega)]
    simp
    omega

theorem NumInv.skip {e : β → β → Bool} {Z : List (Option β)} {ids : List (Option Nat)} {s : Nat}
    {keys : List β} (h : NumInv e Z ids s keys) : NumInv e (Z ++ [none]) (ids ++ [none]) s keys where
  len := by simp [h.len]
  miss := by
    intro i
    rw [getElem?_snoc, getElem?_snoc, h.miss, h.len]
    simp
  num := by
    intro i z hz
    rw [getElem?_snoc] at hz
    rcases hz with hz | ⟨-, hz⟩
    · obtain ⟨k, z', h1, h2, h3⟩ := h.num i z hz
      refine ⟨k, z', (getElem?_snoc _ _ _ _).mpr (.inl h1), h2, ?_⟩
      rcases h3 with ⟨h3, h4⟩ | h3
      · refine .inl ⟨h3, fun j hj hc => ?_⟩
        rw [getElem?_snoc] at hc
        rcases hc with hc | ⟨-, hc⟩
        · exact h4 j hj hc
        · simp at hc
      · exact .inr h3
    · simp at hz
  grow := by
    intro i k hi k' hk
    rw [getElem?_snoc] at hi
    rcases hi with hi | ⟨-, hi⟩
    · obtain ⟨j, hj, hj'⟩ := h.grow i k hi k' hk
      exact ⟨j, hj, (getElem?_snoc _ _ _ _).mpr (.inl hj')⟩
    · simp at hi
  onto := by
    intro k z hk
    obtain ⟨i, h1, h2⟩ := h.onto k z hk
    exact ⟨i, (getElem?_snoc _ _ _ _).mpr (.inl h1), (getElem?_snoc _ _ _ _).mpr (.inl h2)⟩
  distinct := h.distinct

theorem NumInv.found {e : β → β → Bool} {Z : List (Option β)} {ids : List (Option Nat)} {s : Nat}
    {keys : List β} (h : NumInv e Z ids s keys) (z : β) (k : Nat) (z' : β) (hk : keys[k]? = some z')
    (he : e z' z = true) : NumInv e (Z ++ [some z]) (ids ++ [some (s + k)]) s keys where
  len := by simp [h.len]
  miss := by
    intro i
    rw [getElem?_snoc, getElem?_snoc, h.miss, h.len]
    simp
  num := by
    intro i w hw
    rw [getElem?_snoc] at hw
    rcases hw with hw | ⟨hi, hw⟩
    · obtain ⟨k1, z1, h1, h2, h3⟩ := h.num i w hw
      have hil : i < Z.length := by
        rcases Nat.lt_or_ge i Z.length with hl | hl
        · exact hl
        · rw [List.getElem?_eq_none hl] at hw; simp at hw
      refine ⟨k1, z1, (getElem?_snoc _ _ _ _).mpr (.inl h1), h2, ?_⟩
      rcases h3 with ⟨h3, h4⟩ | h3
      · refine .inl ⟨h3, fun j hj hc => ?_⟩
        rw [getElem?_snoc] at hc
        rcases hc with hc | ⟨hc, -⟩
        · exact h4 j hj hc
        · rw [h.len] at hc; omega
      · exact .inr h3
    · cases hw
      exact ⟨k, z', (getElem?_snoc _ _ _ _).mpr (.inr ⟨by rw [hi, h.len], rfl⟩), hk, .inr he⟩
  grow := by
    intro i k1 hi k' hk'
    rw [getElem?_snoc] at hi
    rcases hi with hi | ⟨hi, hk1⟩
    · obtain ⟨j, hj, hj'⟩ := h.grow i k1 hi k' hk'
      exact ⟨j, hj, (getElem?_snoc _ _ _ _).mpr (.inl hj')⟩
    · have hkk : k1 = k := by simpa using hk1
      subst hkk
      obtain ⟨i0, -, hi0⟩ := h.onto k1 z' hk
      obtain ⟨j, hj, hj'⟩ := h.grow i0 k1 hi0 k' hk'
      have : i0 < ids.length := by
        rcases Nat.lt_or_ge i0 ids.length with hl | hl
        · exact hl
        · rw [List.getElem?_eq_none hl] at hi0; simp at hi0
      exact ⟨j, by omega, (getElem?_snoc _ _ _ _).mpr (.inl hj')⟩
  onto := by
    intro k z hk
    obtain ⟨i, h1, h2⟩ := h.onto k z hk
    exact ⟨i, (getElem?_snoc _ _ _ _).mpr (.inl h1), (getElem?_snoc _ _ _ _).mpr (.inl h2)⟩
  distinct := h.distinct

theorem NumInv.bound {e : β → β → Bool} {Z : List (Option β)} {ids : List (Option Nat)} {s : Nat}
    {keys : List β} (h : NumInv e Z ids s keys) (i v : Nat) (hv : ids[i]? = some (some v)) :
    ∃ (k : Nat) (z z' : β), v = s + k ∧ Z[i]? = some (some z) ∧ keys[k]? = some z' ∧
      ((z' = z ∧ ∀ j : Nat, j < i → ids[j]? ≠ some (some (s + k))) ∨ e z' z = true) := by
  have hil : i < Z.length := by
    rw [← h.len]
    rcases Nat.lt_or_ge i ids.length with hl | hl
    · exact hl
    · rw [List.getElem?_eq_none hl] at hv; simp at hv
  cases hz : Z[i]? with
  | none => rw [List.getElem?_eq_none_iff] at hz; omega
  | some o =>
    cases o with
    | none => rw [(h.miss i).mp hz] at hv; simp at hv
    | some z =>
      obtain ⟨k, z', h1, h2, h3⟩ := h.num i z hz
      rw [hv] at h1
      exact ⟨k, z, z', by simpa using h1, rfl, h2, h3⟩

theorem NumInv.fresh {e : β → β → Bool} {Z : List (Option β)} {ids : List (Option Nat)} {s : Nat}
    {keys : List β} (h : NumInv e Z ids s keys) (z : β) (hn : ∀ z' ∈ keys, e z' z = false) :
    NumInv e (Z ++ [some z]) (ids ++ [some (s + keys.length)]) s (keys ++ [z]) where
  len := by simp [h.len]
  miss := by
    intro i
    rw [getElem?_snoc, getElem?_snoc, h.miss, h.len]
    simp
  num := by
    intro i w hw
    rw [getElem?_snoc] at hw
    rcases hw with hw | ⟨hi, hw⟩
    · obtain ⟨k1, z1, h1, h2, h3⟩ := h.num i w hw
      have hil : i < Z.length := by
        rcases Nat.lt_or_ge i Z.length with hl | hl
        · exact hl
        · rw [List.getElem?_eq_none hl] at hw; simp at hw
      refine ⟨k1, z1, (getElem?_snoc _ _ _ _).mpr (.inl h1), (getElem?_snoc _ _ _ _).mpr (.inl h2), ?_⟩
      rcases h3 with ⟨h3, h4⟩ | h3
      · refine .inl ⟨h3, fun j hj hc => ?_⟩
        rw [getElem?_snoc] at hc
        rcases hc with hc | ⟨hc, -⟩
        · exact h4 j hj hc
        · rw [h.len] at hc; omega
      · exact .inr h3
    · cases hw
      refine ⟨keys.length, z, (getElem?_snoc _ _ _ _).mpr (.inr ⟨by rw [hi, h.len], rfl⟩),
        (getElem?_snoc _ _ _ _).mpr (.inr ⟨rfl, rfl⟩), .inl ⟨rfl, fun j hj hc => ?_⟩⟩
      rw [getElem?_snoc] at hc
      rcases hc with hc | ⟨hc, -⟩
      · obtain ⟨k, -, z', hk, -, hk', -⟩ := h.bound j _ hc
        have : k < keys.length := by
          rcases Nat.lt_or_ge k keys.length with hl | hl
          · exact hl
          · rw [List.getElem?_eq_none hl] at hk'; simp at hk'
        omega
      · rw [h.len] at hc; omega
  grow := by
    intro i k1 hi k' hk'
    rw [getElem?_snoc] at hi
    rcases hi with hi | ⟨hi, hk1⟩
    · obtain ⟨j, hj, hj'⟩ := h.grow i k1 hi k' hk'
      exact ⟨j, hj, (getElem?_snoc _ _ _ _).mpr (.inl hj')⟩
    · have hkk : k1 = keys.length := by simpa using hk1
      subst hkk
      obtain ⟨i0, -, hi0⟩ := h.onto k' _ (List.getElem?_eq_getElem hk')
      have : i0 < ids.length := by
        rcases Nat.lt_or_ge i0 ids.length with hl | hl
        · exact hl
        · rw [List.getElem?_eq_none hl] at hi0; simp at hi0
      exact ⟨i0, by omega, (getElem?_snoc _ _ _ _).mpr (.inl hi0)⟩
  onto := by
    intro k w hk
    rw [getElem?_snoc] at hk
    rcases hk with hk | ⟨hk, hw⟩
    · obtain ⟨i, h1, h2⟩ := h.onto k w hk
      exact ⟨i, (getElem?_snoc _ _ _ _).mpr (.inl h1), (getElem?_snoc _ _ _ _).mpr (.inl h2)⟩
    · subst hk hw
      exact ⟨Z.length, (getElem?_snoc _ _ _ _).mpr (.inr ⟨rfl, rfl⟩),
        (getElem?_snoc _ _ _ _).mpr (.inr ⟨h.len.symm, rfl⟩)⟩
  distinct := by
    rw [List.pairwise_append]
    refine ⟨h.distinct, by simp, ?_⟩
    intro a ha b hb
    simp at hb
    subst hb
    exact hn a ha

theorem lookup_some (eq : α → α → Bool) (g : Nat) (x : α) (m : List ((Nat × α) × Nat)) (id : Nat)
    (h : lookup eq g x m = some id) : ∃ z, (z, id) ∈ m ∧ keyEq eq z (g, x) = true := by
  induction m with
  | nil => simp [lookup] at h
  | cons p m ih =>
    obtain ⟨⟨g', y⟩, id'⟩ := p
    unfold lookup at h
    by_cases hc : g' = g ∧ eq y x = true
    · rw [if_pos hc] at h
      cases h
      exact ⟨(g', y), by simp, by simp [keyEq, hc]⟩
    · rw [if_neg hc] at h
      obtain ⟨z, hz, he⟩ := ih h
      exact ⟨z, List.mem_cons_of_mem _ hz, he⟩

theorem lookup_none (eq : α → α → Bool) (g : Nat) (x : α) (m : List ((Nat × α) × Nat))
    (h : lookup eq g x m = none) : ∀ z id, (z, id) ∈ m → keyEq eq z (g, x) = false := by
  induction m with
  | nil => simp
  | cons p m ih =>
    obtain ⟨⟨g', y⟩, id'⟩ := p
    unfold lookup at h
    by_cases hc : g' = g ∧ eq y x = true
    · rw [if_pos hc] at h; simp at h
    · rw [if_neg hc] at h
      intro z id hz
      rcases List.mem_cons.mp hz with hz | hz
      · cases hz
        cases hk : keyEq eq (g', y) (g, x)
        · rfl
        · simp [keyEq] at hk; exact absurd hk hc
      · exact ih h z id hz

theorem processChunk_spec (eq : α → α → Bool) (s : Nat) (ids : List (Option Nat)) (vals : List (Option α))
    (hl : ids.length = vals.length) (Zp : List (Option (Nat × α))) (idsp : List (Option Nat))
    (keys : List (Nat × α)) (hI : NumInv (keyEq eq) Zp idsp s keys) :
    ∃ keys', (processChunk eq ids vals ⟨(keys.zipIdx s).reverse, s + keys.length, keys⟩).2 =
        ⟨(keys'.zipIdx s).reverse, s + keys'.length, keys'⟩ ∧
      NumInv (keyEq eq) (Zp ++ List.zipWith stepKey ids vals)
        (idsp ++ (processChunk eq ids vals ⟨(keys.zipIdx s).reverse, s + keys.length, keys⟩).1) s keys' := by
  induction ids generalizing vals Zp idsp keys with
  | nil =>
    cases vals with
    | nil => exact ⟨keys, by simp [processChunk], by simpa [processChunk] using hI⟩
    | cons v vals => simp at hl
  | cons o ids ih =>
    cases vals with
    | nil => simp at hl
    | cons v vals =>
      have hl' : ids.length = vals.length := by simpa using hl
      have skip : stepKey o v = none →
          processChunk eq (o :: ids) (v :: vals) ⟨(keys.zipIdx s).reverse, s + keys.length, keys⟩ =
            (none :: (processChunk eq ids vals ⟨(keys.zipIdx s).reverse, s + keys.length, keys⟩).1,
              (processChunk eq ids vals ⟨(keys.zipIdx s).reverse, s + keys.length, keys⟩).2) := by
        intro h
        cases o <;> cases v <;> simp_all [stepKey, processChunk]
      cases hk : stepKey o v with
      | none =>
        obtain ⟨keys', h1, h2⟩ := ih vals hl' (Zp ++ [none]) (idsp ++ [none]) keys hI.skip
        refine ⟨keys', ?_, ?_⟩
        · rw [skip hk]; exact h1
        · rw [skip hk]
          simpa [hk] using h2
      | some z =>
        obtain ⟨g, x, rfl, rfl⟩ : ∃ g x, o = some g ∧ v = some x := by
          cases o <;> cases v <;> simp_all [stepKey]
        have hz : z = (g, x) := by simpa [stepKey] using hk.symm
        subst hz
        cases hlk : lookup eq g x (keys.zipIdx s).reverse with
        | some id =>
          obtain ⟨z', hz', he⟩ := lookup_some eq g x _ id hlk
          rw [List.mem_reverse, List.mem_zipIdx_iff_le_and_getElem?_sub] at hz'
          obtain ⟨hle, hget⟩ := hz'
          obtain ⟨k, rfl⟩ : ∃ k, id = s + k := ⟨id - s, by simp at hle; omega⟩
          have hget : keys[k]? = some z' := by simpa using hget
          obtain ⟨keys', h1, h2⟩ := ih vals hl' _ _ keys (hI.found (g, x) k z' hget he)
          refine ⟨keys', ?_, ?_⟩
          · unfold processChunk
            simp only [hlk]
            exact h1
          · unfold processChunk
            simp only [hlk]
            simpa [stepKey] using h2
        | none =>
          have hfresh := lookup_none eq g x _ hlk
          have hn : ∀ z' ∈ keys, keyEq eq z' (g, x) = false := by
            intro z' hz'
            obtain ⟨k, hk, rfl⟩ := List.getElem_of_mem hz'
            apply hfresh keys[k] (s + k)
            rw [List.mem_reverse, List.mem_zipIdx_iff_le_and_getElem?_sub]
            simp [hk]
          obtain ⟨keys', h1, h2⟩ := ih vals hl' _ _ _ (hI.fresh (g, x) hn)
          have hst : (⟨((g, x), s + keys.length) :: (keys.zipIdx s).reverse, s + keys.length + 1,
              keys ++ [(g, x)]⟩ : Groups α) =
              ⟨((keys ++ [(g, x)]).zipIdx s).reverse, s + (keys ++ [(g, x)]).length, keys ++ [(g, x)]⟩ := by
            simp [List.zipIdx_append, Nat.add_assoc]
          refine ⟨keys', ?_, ?_⟩
          · unfold processChunk
            simp only [hlk]
            rw [hst]
            exact h1
          · unfold processChunk
            simp only [hlk]
            rw [hst]
            simpa [stepKey] using h2

/-- What the numbering of a row says. -/
structure Numbers (e : β → β → Bool) (Z : List (Option β)) (ids : List (Option Nat)) (s m : Nat) : Prop where
  len : ids.length = Z.length
  miss : ∀ i : Nat, Z[i]? = some none ↔ ids[i]? = some none
  bound : ∀ (i : Nat) v, ids[i]? = some (some v) → s ≤ v ∧ v < s + m
  onto : ∀ k, k < m → ∃ i : Nat, ids[i]? = some (some (s + k))
  same : ∀ (i j : Nat) z w v u, i < j → Z[i]? = some (some z) → Z[j]? = some (some w) →
    ids[i]? = some (some v) → ids[j]? = some (some u) → (v = u ↔ e z w = true)

/-- A new number is larger than all the numbers before. -/
def Growing (ids : List (Option Nat)) (s : Nat) : Prop :=
  ∀ (i : Nat) k, ids[i]? = some (some (s + k)) → ∀ k', k' < k → ∃ j : Nat, j < i ∧ ids[j]? = some (some (s + k'))

/-- The numbers are in the order of the keys. -/
def Increasing (lt : β → β → Bool) (Z : List (Option β)) (ids : List (Option Nat)) : Prop :=
  ∀ (i j : Nat) z w v u, Z[i]? = some (some z) → Z[j]? = some (some w) →
    ids[i]? = some (some v) → ids[j]? = some (some u) → (v < u ↔ lt z w = true)

theorem pairwise_getElem? {R : β → β → Prop} {l : List β} (h : l.Pairwise R) {i j : Nat} (hij : i < j)
    {x y : β} (hx : l[i]? = some x) (hy : l[j]? = some y) : R x y := by
  obtain ⟨hi, rfl⟩ := List.getElem?_eq_some_iff.mp hx
  obtain ⟨hj, rfl⟩ := List.getElem?_eq_some_iff.mp hy
  exact List.pairwise_iff_getElem.mp h i j hi hj hij

theorem NumInv.numbers {e : β → β → Bool} (symm : ∀ x y, e x y = true → e y x = true)
    (trans : ∀ x y z, e x y = true → e y z = true → e x z = true) {Z : List (Option β)}
    {ids : List (Option Nat)} {s : Nat} {keys : List β} (h : NumInv e Z ids s keys) :
    Numbers e Z ids s keys.length where
  len := h.len
  miss := h.miss
  bound := by
    intro i v hv
    obtain ⟨k, -, z', rfl, -, hk, -⟩ := h.bound i v hv
    have : k < keys.length := (List.getElem?_eq_some_iff.mp hk).1
    omega
  onto := by
    intro k hk
    obtain ⟨i, -, hi⟩ := h.onto k _ (List.getElem?_eq_getElem hk)
    exact ⟨i, hi⟩
  same := by
    intro i j z w v u hij hz hw hv hu
    obtain ⟨k, z0, z', rfl, hz0, hk, hkz⟩ := h.bound i v hv
    obtain ⟨l, w0, w', rfl, hw0, hl, hlw⟩ := h.bound j u hu
    rw [hz] at hz0
    rw [hw] at hw0
    cases hz0
    cases hw0
    constructor
    · intro heq
      have : k = l := by omega
      subst this
      rw [hk] at hl
      cases hl
      have hw' : e z' w = true := by
        rcases hlw with ⟨-, h'⟩ | h'
        · exact absurd hv (h' i hij)
        · exact h'
      rcases hkz with ⟨rfl, -⟩ | h'
      · exact hw'
      · exact trans _ _ _ (symm _ _ h') hw'
    · intro he
      rcases Nat.lt_trichotomy k l with hkl | hkl | hkl
      · exfalso
        have hd := pairwise_getElem? h.distinct hkl hk hl
        have h1 : e z' w = true := by
          rcases hkz with ⟨rfl, -⟩ | h'
          · exact he
          · exact trans _ _ _ h' he
        have h2 : e z' w' = true := by
          rcases hlw with ⟨rfl, -⟩ | h'
          · exact h1
          · exact trans _ _ _ h1 (symm _ _ h')
        rw [h2] at hd
        simp at hd
      · subst hkl; rfl
      · exfalso
        have hd := pairwise_getElem? h.distinct hkl hl hk
        have h1 : e w' z = true := by
          rcases hlw with ⟨rfl, -⟩ | h'
          · exact symm _ _ he
          · exact trans _ _ _ h' (symm _ _ he)
        have h2 : e w' z' = true := by
          rcases hkz with ⟨rfl, -⟩ | h'
          · exact h1
          · exact trans _ _ _ h1 (symm _ _ h')
        rw [h2] at hd
        simp at hd

theorem numInv_start (e : β → β → Bool) (s : Nat) : NumInv e [] [] s [] where
  len := rfl
  miss := by simp
  num := by simp
  grow := by simp
  onto := by simp
  distinct := by simp

/-! ### sorting -/

/-- The order of the keys of one step. -/
def stepLt (lt : α → α → Bool) (z w : Nat × α) : Bool :=
  decide (z.1 < w.1) || (decide (z.1 = w.1) && lt z.2 w.2)

theorem sortGroups_spec {e : (Nat × α) → (Nat × α) → Bool} (lt : α → α → Bool)
    (symm : ∀ x y, e x y = true → e y x = true)
    (trans : ∀ x y z, e x y = true → e y z = true → e x z = true)
    {Z : List (Option (Nat × α))} {ids : List (Option Nat)} {s : Nat} {keys : List (Nat × α)}
    (h : NumInv e Z ids s keys)
    (ltrans : ∀ x y z, stepLt lt x y = true → stepLt lt y z = true → stepLt lt x z = true)
    (lasymm : ∀ x y, stepLt lt x y = true → stepLt lt y x = false)
    (lcong : ∀ x x' y, some x ∈ Z → some x' ∈ Z → some y ∈ Z → e x x' = true →
      stepLt lt x y = stepLt lt x' y ∧ stepLt lt y x = stepLt lt y x')
    (ltotal : ∀ x y, some x ∈ Z → some y ∈ Z → e x y = false → stepLt lt x y = true ∨ stepLt lt y x = true) :
    Numbers e Z (sortGroups lt s keys ids) s keys.length ∧ Increasing (stepLt lt) Z (sortGroups lt s keys ids) := by
  have hN := h.numbers symm trans
  have hmemZ : ∀ z ∈ keys, some z ∈ Z := by
    intro z hz
    obtain ⟨k, hk, rfl⟩ := List.getElem_of_mem hz
    obtain ⟨i, hi, -⟩ := h.onto k _ (List.getElem?_eq_getElem hk)
    exact List.mem_of_getElem? hi
  have hkl : ∀ a b z w, keys[a]? = some z → keys[b]? = some w → keyLt lt keys a b = stepLt lt z w := by
    intro a b z w ha hb
    unfold keyLt
    rw [ha, hb]
    rfl
  have hperm := sortValues_perm (lt := keyLt lt keys) (List.range keys.length)
  have hsorted : (sortValues (keyLt lt keys) (List.range keys.length)).Pairwise
      (fun a b => keyLt lt keys a b = true) := by
    apply sortValues_sorted
    · intro a b c h1 h2
      cases ha : keys[a]? with
      | none => simp [keyLt, ha] at h1
      | some x =>
        cases hb : keys[b]? with
        | none => simp [keyLt, ha, hb] at h1
        | some y =>
          cases hc : keys[c]? with
          | none => simp [keyLt, hb, hc] at h2
          | some z =>
            rw [hkl a b x y ha hb] at h1
            rw [hkl b c y z hb hc] at h2
            rw [hkl a c x z ha hc]
            exact ltrans x y z h1 h2
    · refine List.Pairwise.imp_of_mem ?_ (List.pairwise_lt_range (n := keys.length))
      intro a b ha hb hab
      rw [List.mem_range] at ha hb
      have h1 := List.getElem?_eq_getElem ha
      have h2 := List.getElem?_eq_getElem hb
      rw [hkl a b _ _ h1 h2, hkl b a _ _ h2 h1]
      exact ltotal _ _ (hmemZ _ (List.getElem_mem ha)) (hmemZ _ (List.getElem_mem hb))
        (pairwise_getElem? h.distinct hab h1 h2)
  generalize hidx : sortValues (keyLt lt keys) (List.range keys.length) = index at *
  have hmem : ∀ k, k < keys.length → k ∈ index := fun k hk =>
    hperm.mem_iff.mpr (List.mem_range.mpr hk)
  have hlen : index.length = keys.length := by rw [hperm.length_eq, List.length_range]
  have hlt : ∀ k, k < keys.length → index.idxOf k < keys.length := fun k hk => by
    rw [← hlen]; exact List.idxOf_lt_length_iff.mpr (hmem k hk)
  have hget : ∀ k, k < keys.length → index[index.idxOf k]? = some k := fun k hk => by
    have h' := List.idxOf_lt_length_iff.mpr (hmem k hk)
    rw [List.getElem?_eq_getElem h', List.getElem_idxOf]
  have hinj : ∀ k l, k < keys.length → l < keys.length → index.idxOf k = index.idxOf l → k = l := by
    intro k l hk hl heq
    have h1 := hget k hk
    have h2 := hget l hl
    rw [heq, h2] at h1
    simpa using h1.symm
  have hord : ∀ k l, k < keys.length → l < keys.length →
      (index.idxOf k < index.idxOf l ↔ keyLt lt keys k l = true) := by
    intro k l hk hl
    have one : ∀ k l, k < keys.length → l < keys.length → index.idxOf k < index.idxOf l →
        keyLt lt keys k l = true := fun k l hk hl hlt' =>
      pairwise_getElem? hsorted hlt' (hget k hk) (hget l hl)
    refine ⟨one k l hk hl, fun hkl' => ?_⟩
    rcases Nat.lt_trichotomy (index.idxOf k) (index.idxOf l) with h' | h' | h'
    · exact h'
    · have := hinj k l hk hl h'
      subst this
      rw [hkl k k _ _ (List.getElem?_eq_getElem hk) (List.getElem?_eq_getElem hk)] at hkl'
      have := lasymm _ _ hkl'
      rw [hkl'] at this
      simp at this
    · have h1 := one l k hl hk h'
      rw [hkl _ _ _ _ (List.getElem?_eq_getElem hl) (List.getElem?_eq_getElem hk)] at h1
      rw [hkl _ _ _ _ (List.getElem?_eq_getElem hk) (List.getElem?_eq_getElem hl)] at hkl'
      rw [lasymm _ _ h1] at hkl'
      simp at hkl'
  have hnew : ∀ i : Nat, (sortGroups lt s keys ids)[i]? =
      (ids[i]?).map fun o : Option Nat => o.map fun g => index.idxOf (g - s) + s := by
    intro i
    unfold sortGroups
    rw [hidx, List.getElem?_map]
  have hnews : ∀ (i v : Nat), (sortGroups lt s keys ids)[i]? = some (some v) →
      ∃ k, k < keys.length ∧ ids[i]? = some (some (s + k)) ∧ v = index.idxOf k + s := by
    intro i v hv
    rw [hnew] at hv
    cases hi : ids[i]? with
    | none => rw [hi] at hv; simp at hv
    | some o =>
      cases o with
      | none => rw [hi] at hv; simp at hv
      | some u =>
        rw [hi] at hv
        obtain ⟨h1, h2⟩ := hN.bound i u hi
        refine ⟨u - s, by omega, ?_, ?_⟩
        · congr 2; omega
        · simpa using hv.symm
  constructor
  · refine ⟨?_, ?_, ?_, ?_, ?_⟩
    · unfold sortGroups
      rw [List.length_map]
      exact h.len
    · intro i
      rw [h.miss, hnew]
      cases hi : ids[i]? with
      | none => simp
      | some o => cases o <;> simp
    · intro i v hv
      obtain ⟨k, hk, -, rfl⟩ := hnews i v hv
      have := hlt k hk
      omega
    · intro k hk
      have hkl' : k < index.length := by omega
      have hk2 : index[k] < keys.length := by
        have := hperm.mem_iff.mp (List.getElem_mem hkl')
        simpa using this
      obtain ⟨i, hi⟩ := hN.onto index[k] hk2
      refine ⟨i, ?_⟩
      rw [hnew, hi]
      have hnd : index.Nodup := hperm.nodup_iff.mpr List.nodup_range
      have : index.idxOf index[k] = k := List.Nodup.idxOf_getElem hnd k hkl'
      simp [this]
      omega
    · intro i j z w v u hij hz hw hv hu
      obtain ⟨k, hk, hi, rfl⟩ := hnews i v hv
      obtain ⟨l, hl, hj, rfl⟩ := hnews j u hu
      rw [← hN.same i j z w _ _ hij hz hw hi hj]
      constructor
      · intro heq
        have := hinj k l hk hl (by omega)
        omega
      · intro heq
        have : k = l := by omega
        rw [this]
  · intro i j z w v u hz hw hv hu
    obtain ⟨k, hk, hi, rfl⟩ := hnews i v hv
    obtain ⟨l, hl, hj, rfl⟩ := hnews j u hu
    obtain ⟨k0, z0, z', e1, hz0, hk', hkz⟩ := h.bound i _ hi
    obtain ⟨l0, w0, w', e2, hw0, hl', hlw⟩ := h.bound j _ hj
    have : k0 = k := by omega
    subst this
    have : l0 = l := by omega
    subst this
    rw [hz] at hz0
    rw [hw] at hw0
    cases hz0
    cases hw0
    have hzZ := List.mem_of_getElem? hz
    have hwZ := List.mem_of_getElem? hw
    have hzZ' := hmemZ z' (List.mem_of_getElem? hk')
    have hwZ' := hmemZ w' (List.mem_of_getElem? hl')
    rw [Nat.add_lt_add_iff_right, hord _ _ hk hl, hkl _ _ _ _ hk' hl']
    have h1 : stepLt lt z' w' = stepLt lt z w' := by
      rcases hkz with ⟨rfl, -⟩ | h'
      · rfl
      · exact (lcong z' z w' hzZ' hzZ hwZ' h').1
    have h2 : stepLt lt z w' = stepLt lt z w := by
      rcases hlw with ⟨rfl, -⟩ | h'
      · rfl
      · exact (lcong w' w z hwZ' hwZ hzZ h').2
    rw [h1, h2]

end Verif.SliceOps
