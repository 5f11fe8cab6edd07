import Verif.Compare.Loop

/-! The two comparators follow their rules. -/

namespace Verif.Compare

open Verif.ObjectId
open Verif.Uuid
open Verif.Traverse (Bag Name Pair Transitions getTransitions AboutSchema AttrKind holdsId kObject kSchema
  kItemId)

theorem bits_eq {n k m : Nat} {b : BitVec n} (c : BitVec m) :
    b.extractLsb' k m = c ↔ b.toNat / 2 ^ k % 2 ^ m = c.toNat := by
  rw [← BitVec.toNat_inj, BitVec.extractLsb'_toNat, Nat.shiftRight_eq_div_pow]

theorem bits_toNat {n k m : Nat} {b : BitVec n} :
    (b.extractLsb' k m).toNat = b.toNat / 2 ^ k % 2 ^ m := by
  rw [BitVec.extractLsb'_toNat, Nat.shiftRight_eq_div_pow]

theorem c255 : (255 : BitVec 8).toNat = 255 := rfl
theorem c2047 : (2047 : BitVec 11).toNat = 2047 := rfl
theorem c0 : (0 : BitVec 23).toNat = 0 := rfl
theorem c0' : (0 : BitVec 52).toNat = 0 := rfl
theorem c08 : (0 : BitVec 8).toNat = 0 := rfl
theorem c011 : (0 : BitVec 11).toNat = 0 := rfl

theorem msb32 (b : BitVec 32) : b.msb = decide (b.toNat ≥ 2 ^ 31) := by
  rw [BitVec.msb_eq_decide]

theorem msb64 (b : BitVec 64) : b.msb = decide (b.toNat ≥ 2 ^ 63) := by
  rw [BitVec.msb_eq_decide]

/-- The value of a floating point number. -/
def realOf : Item → Option Real
  | .float32 b => some (real32 b)
  | .float64 b => some (real64 b)
  | _ => none

theorem isNan_real (x : Item) : IsNan x ↔ realOf x = some .nan := by
  unfold IsNan
  cases x with
  | float32 b =>
    simp only [Item.float32.injEq, reduceCtorEq, false_and, exists_false, or_false, realOf, Option.some.injEq,
      exists_eq_left', bits_eq, ne_eq, c255, c0, Nat.pow_zero, Nat.div_one, real32]
    split
    · split <;> simp_all
    · split <;> simp_all
  | float64 b =>
    simp only [Item.float64.injEq, reduceCtorEq, false_and, exists_false, false_or, realOf, Option.some.injEq,
      exists_eq_left', bits_eq, ne_eq, c2047, c0', Nat.pow_zero, Nat.div_one, real64]
    split
    · split <;> simp_all
    · split <;> simp_all
  | _ => simp [realOf]

theorem isInf_real (x : Item) (s : Bool) : IsInf x s ↔ realOf x = some (.inf s) := by
  unfold IsInf
  cases x with
  | float32 b =>
    simp only [Item.float32.injEq, reduceCtorEq, false_and, exists_false, or_false, realOf, Option.some.injEq,
      exists_eq_left', bits_eq, ne_eq, c255, c0, Nat.pow_zero, Nat.div_one, real32, msb32]
    split
    · split <;> simp_all
    · split <;> simp_all
  | float64 b =>
    simp only [Item.float64.injEq, reduceCtorEq, false_and, exists_false, false_or, realOf, Option.some.injEq,
      exists_eq_left', bits_eq, ne_eq, c2047, c0', Nat.pow_zero, Nat.div_one, real64, msb64]
    split
    · split <;> simp_all
    · split <;> simp_all
  | _ => simp [realOf]

theorem isFloat_real (x : Item) (s : Bool) (n : Nat) : IsFloat x s n ↔ realOf x = some (.num s n) := by
  unfold IsFloat
  cases x with
  | float32 b =>
    simp only [Item.float32.injEq, reduceCtorEq, false_and, exists_false, or_false, realOf, Option.some.injEq,
      exists_eq_left', bits_eq, bits_toNat, ne_eq, c255, c08, Nat.pow_zero, Nat.div_one, real32, msb32]
    generalize b.toNat / 2 ^ 23 % 2 ^ 8 = e
    generalize b.toNat % 2 ^ 23 = m
    generalize decide (b.toNat ≥ 2 ^ 31) = neg
    by_cases he : e = 255
    · rw [if_pos he]
      subst he
      split <;> simp
    · rw [if_neg he]
      by_cases h0 : e = 0
      · rw [if_pos h0]
        simp only [h0, true_and, not_true, false_and, or_false, Real.num.injEq]
        exact ⟨fun h => ⟨h.1, h.2.symm⟩, fun h => ⟨h.1, h.2.symm⟩⟩
      · rw [if_neg h0]
        simp only [h0, he, false_and, false_or, not_false_iff, true_and, Real.num.injEq]
        exact ⟨fun h => ⟨h.1, h.2.symm⟩, fun h => ⟨h.1, h.2.symm⟩⟩
  | float64 b =>
    simp only [Item.float64.injEq, reduceCtorEq, false_and, exists_false, false_or, realOf, Option.some.injEq,
      exists_eq_left', bits_eq, bits_toNat, ne_eq, c2047, c011, Nat.pow_zero, Nat.div_one, real64, msb64]
    generalize b.toNat / 2 ^ 52 % 2 ^ 11 = e
    generalize b.toNat % 2 ^ 52 = m
    generalize decide (b.toNat ≥ 2 ^ 63) = neg
    by_cases he : e = 2047
    · rw [if_pos he]
      subst he
      split <;> simp
    · rw [if_neg he]
      by_cases h0 : e = 0
      · rw [if_pos h0]
        simp only [h0, true_and, not_true, false_and, or_false, Real.num.injEq]
        exact ⟨fun h => ⟨h.1, h.2.symm⟩, fun h => ⟨h.1, h.2.symm⟩⟩
      · rw [if_neg h0]
        simp only [h0, he, false_and, false_or, not_false_iff, true_and, Real.num.injEq]
        exact ⟨fun h => ⟨h.1, h.2.symm⟩, fun h => ⟨h.1, h.2.symm⟩⟩
  | _ => simp [realOf]

/-- An item up to what `SameValue` does not tell apart. -/
inductive Norm where
  | nan
  | inf (neg : Bool)
  | num (neg : Bool) (n : Nat)
  | int (i : Int)
  | other (x : Item)

def normReal : Real → Norm
  | .nan => .nan
  | .inf s => .inf s
  | .num s n => .num (if n = 0 then false else s) n

def norm : Item → Norm
  | .float32 b => normReal (real32 b)
  | .float64 b => normReal (real64 b)
  | .int32 v => .int v.toInt
  | .int64 v => .int v.toInt
  | x => .other x

theorem realOf_norm {x : Item} {r : Real} (h : realOf x = some r) : norm x = normReal r := by
  cases x <;> simp [realOf] at h <;> subst h <;> rfl

theorem isInt_norm {x : Item} {i : Int} : IsInt x i ↔ norm x = .int i := by
  have key : ∀ r, normReal r ≠ .int i := by intro r; cases r <;> simp [normReal]
  unfold IsInt
  cases x <;> simp [norm, key]

theorem norm_nan {x : Item} : norm x = .nan ↔ realOf x = some .nan := by
  have key : ∀ r, normReal r = .nan ↔ r = .nan := by intro r; cases r <;> simp [normReal]
  cases x <;> simp [norm, realOf, key]

theorem norm_inf {x : Item} {s : Bool} : norm x = .inf s ↔ realOf x = some (.inf s) := by
  have key : ∀ r, normReal r = .inf s ↔ r = .inf s := by intro r; cases r <;> simp [normReal]
  cases x <;> simp [norm, realOf, key]

theorem norm_num {x : Item} {s : Bool} {n : Nat} (h : norm x = .num s n) :
    ∃ t, realOf x = some (.num t n) ∧ (t = s ∨ n = 0) := by
  have key : ∀ r, normReal r = .num s n → ∃ t, r = .num t n ∧ (t = s ∨ n = 0) := by
    intro r h
    cases r with
    | num t m =>
      simp only [normReal, Norm.num.injEq] at h
      obtain ⟨h1, rfl⟩ := h
      refine ⟨t, rfl, ?_⟩
      by_cases h0 : m = 0
      · exact .inr h0
      · rw [if_neg h0] at h1; exact .inl h1
    | _ => cases h
  cases x <;> simp only [norm, reduceCtorEq] at h <;>
    (obtain ⟨t, h1, h2⟩ := key _ h; exact ⟨t, congrArg some h1, h2⟩)

theorem norm_other {x y : Item} (h : norm x = .other y) : x = y := by
  cases x <;> simp only [norm, reduceCtorEq, Norm.other.injEq] at h <;> try exact h
  · rename_i b; generalize real32 b = r at h; cases r <;> cases h
  · rename_i b; generalize real64 b = r at h; cases r <;> cases h

theorem sameValue_norm (x y : Item) : SameValue x y ↔ norm x = norm y := by
  unfold SameValue
  constructor
  · rintro (rfl | ⟨i, h1, h2⟩ | ⟨s, t, n, h1, h2, h3⟩ | ⟨s, h1, h2⟩ | ⟨h1, h2⟩)
    · rfl
    · rw [isInt_norm.mp h1, isInt_norm.mp h2]
    · rw [isFloat_real] at h1 h2
      rw [realOf_norm h1, realOf_norm h2]
      rcases h3 with rfl | rfl <;> rfl
    · rw [isInf_real] at h1 h2
      rw [realOf_norm h1, realOf_norm h2]
    · rw [isNan_real] at h1 h2
      rw [realOf_norm h1, realOf_norm h2]
  · intro h
    cases hy : norm y with
    | nan =>
      rw [hy] at h
      exact .inr (.inr (.inr (.inr ⟨(isNan_real _).mpr (norm_nan.mp h), (isNan_real _).mpr (norm_nan.mp hy)⟩)))
    | inf s =>
      rw [hy] at h
      exact .inr (.inr (.inr (.inl ⟨s, (isInf_real _ _).mpr (norm_inf.mp h), (isInf_real _ _).mpr (norm_inf.mp hy)⟩)))
    | num s n =>
      rw [hy] at h
      obtain ⟨t, h1, h2⟩ := norm_num h
      obtain ⟨t', h3, h4⟩ := norm_num hy
      refine .inr (.inr (.inl ⟨t, t', n, (isFloat_real _ _ _).mpr h1, (isFloat_real _ _ _).mpr h3, ?_⟩))
      rcases h2 with rfl | h2
      · rcases h4 with rfl | h4
        · exact .inl rfl
        · exact .inr h4
      · exact .inr h2
    | int i =>
      rw [hy] at h
      exact .inr (.inl ⟨i, isInt_norm.mpr h, isInt_norm.mpr hy⟩)
    | other z =>
      rw [hy] at h
      exact .inl ((norm_other h).trans (norm_other hy).symm)

theorem realEq_iff (r t : Real) : (decide (r = .nan) && decide (t = .nan) || realEq r t) = true ↔
    normReal r = normReal t := by
  cases r <;> cases t <;> simp [realEq, normReal]
  rename_i s m t n
  constructor
  · rintro ⟨rfl, rfl | rfl⟩ <;> simp
  · rintro ⟨h, rfl⟩
    refine ⟨rfl, ?_⟩
    by_cases h0 : m = 0
    · exact .inr h0
    · simp [h0] at h; exact .inl h

theorem sameValue_iff (x y : Item) :
    (if isNan x && isNan y then true else itemEq x y) = true ↔ SameValue x y := by
  rw [sameValue_norm]
  have hif : ∀ a b : Bool, (if a then true else b) = (a || b) := by decide
  have hno : ∀ r z, normReal r ≠ .other z := by intro r z; cases r <;> simp [normReal]
  have hni : ∀ r z, normReal r ≠ .int z := by intro r z; cases r <;> simp [normReal]
  have hon : ∀ r z, .other z ≠ normReal r := by intro r z; cases r <;> simp [normReal]
  have hin : ∀ r z, .int z ≠ normReal r := by intro r z; cases r <;> simp [normReal]
  rw [hif]
  cases x <;> cases y <;>
    first
      | exact realEq_iff _ _
      | simp [isNan, itemEq, norm, hno, hni, hon, hin, BitVec.toInt_inj]

theorem equalItems_iff (P : Params) (l r : Pair) : equalItems P l r = true ↔ Alike P l r := by
  obtain ⟨x, s⟩ := l
  obtain ⟨y, t⟩ := r
  unfold equalItems Alike
  by_cases hs : schemaMismatch P (x, s) (y, t) = true
  · rw [if_pos hs]
    simp only [schemaMismatch, Bool.and_eq_true, decide_eq_true_eq] at hs
    simp only [Bool.false_eq_true, false_iff]
    exact fun h => hs.2 (h.1 hs.1)
  rw [if_neg hs]
  have hs' : P.schemas = true → s = t := by
    intro h
    simpa [schemaMismatch, h] using hs
  simp only
  have key : ((!holdsId x || !holdsId y || P.ids) = true) ↔
      ((∀ o, x ≠ .object o) ∨ (∀ o, y ≠ .object o) ∨ P.ids = true) := by
    cases x <;> cases y <;> simp [holdsId]
  by_cases hk : (!holdsId x || !holdsId y || P.ids) = true
  · rw [if_pos hk, sameValue_iff]
    have hk' := key.mp hk
    constructor
    · exact fun h => ⟨hs', .inr ⟨hk', h⟩⟩
    · rintro ⟨_, ⟨o, o', rfl, rfl, h, _⟩ | ⟨_, h⟩⟩
      · simp [holdsId, h] at hk
      · exact h
  · rw [if_neg hk]
    obtain ⟨⟨o, rfl⟩, ⟨o', rfl⟩, hid⟩ : (∃ o, x = .object o) ∧ (∃ o, y = .object o) ∧ P.ids = false := by
      cases x <;> cases y <;> simp [holdsId] at hk ⊢ <;> exact hk
    constructor
    · intro h
      refine ⟨hs', .inl ⟨o, o', rfl, rfl, hid, ?_⟩⟩
      by_cases h1 : itemIsList (.object o) ≠ itemIsList (.object o')
      · rw [if_pos h1] at h; cases h
      rw [if_neg h1] at h
      by_cases h2 : itemIsDict (.object o) ≠ itemIsDict (.object o')
      · rw [if_pos h2] at h; cases h
      rw [if_neg h2] at h
      by_cases h3 : itemIsSchema (.object o) ≠ itemIsSchema (.object o')
      · rw [if_pos h3] at h; cases h
      rw [if_neg h3] at h
      refine ⟨⟨by simpa [itemIsList] using h1, by simpa [itemIsDict] using h2,
        by simpa [itemIsSchema] using h3⟩, ?_⟩
      rintro rfl
      rw [if_pos (by rfl)] at h
      simp [itemEq] at h
      exact h
    · rintro ⟨_, ⟨a, b, h1, h2, _, ⟨h4, h5, h6⟩, h3⟩ | ⟨h, _⟩⟩
      · cases h1; cases h2
        rw [if_neg (by simpa [itemIsList] using h4), if_neg (by simpa [itemIsDict] using h5),
          if_neg (by simpa [itemIsSchema] using h6)]
        by_cases hi : s = kItemId
        · rw [if_pos hi]
          obtain ⟨h7, rfl⟩ := h3 hi
          rw [hi, h7]
          simp [itemEq, kItemId]
        · rw [if_neg hi]
      · rcases h with h | h | h
        · exact absurd rfl (h o)
        · exact absurd rfl (h o')
        · rw [hid] at h; cases h

theorem isElement_iff (k : TKey) : isElement k = true ↔ IsElement (labelOf k) := by
  obtain ⟨t, i, v⟩ := k
  cases t <;> simp [isElement, labelOf, IsElement]

theorem sameValue_missing {x : Item} (h : SameValue .missing x) : x = .missing := by
  rw [sameValue_norm] at h
  exact norm_other h.symm

theorem equivalent_follows (lt : Item → Item → Bool) (P : Params) :
    Follows (equivalent lt P) (equivalence P) where
  equal := equalItems_iff P
  deep _ _ := by simp [equivalent, equivalence]
  left k p := by
    have := isElement_iff k
    simp only [equivalent, equivalence]
    cases hp : P.partly <;> cases hs : P.schemas <;> cases he : isElement k <;>
      simp_all
  right k q := by
    simp only [equivalent, equivalence]
    cases hs : P.schemas <;> simp
  both k p q := by
    have := isElement_iff k
    simp only [equivalent, equivalence]
    cases hp : P.partly <;> cases he : isElement k <;> simp_all
  missing l r h hm := by
    rcases h.2 with ⟨o, o', h1, _⟩ | ⟨_, h1⟩
    · rw [h1] at hm; cases hm
    · rw [hm] at h1; exact sameValue_missing h1

theorem keysIn_all (b : Bag) (p : Pair) : KeysIn KeyOk b p := fun _ t _ _ _ h => keyOk_of_mem t h

/-! ### Schemas -/

theorem itemIsSchema_iff (x : Item) : itemIsSchema x = true ↔ IsSchema x := by
  unfold IsSchema
  cases x <;> simp [itemIsSchema]

theorem schemaCompatible_follows (lt : Item → Item → Bool) (P : SchemaParams)
    (castable : Item → Item → Bool) :
    Follows (schemaCompatible lt P castable) (compatibility P castable) where
  equal l r := by
    simp only [schemaCompatible, compatibility, ← itemIsSchema_iff]
    cases h1 : itemIsSchema l.1 <;> cases h2 : itemIsSchema r.1 <;> simp
  deep l r := by
    show (decide (l.1 ≠ kObject) && decide (r.1 ≠ kObject)) = true ↔ _
    rw [Bool.and_eq_true, decide_eq_true_iff, decide_eq_true_iff]
    exact Iff.rfl
  left k p := by
    simp only [schemaCompatible, compatibility, ← itemIsSchema_iff]
    cases P.allowRemoving <;> cases itemIsSchema p.1 <;> simp
  right k q := by
    simp only [schemaCompatible, compatibility, ← itemIsSchema_iff]
    cases P.allowNew <;> cases itemIsSchema q.1 <;> simp
  both k p q := by
    simp only [schemaCompatible, compatibility, ← itemIsSchema_iff]
    cases P.allowRemoving <;> cases P.allowNew <;> cases itemIsSchema p.1 <;> cases itemIsSchema q.1 <;>
      by_cases hp : p.1 = .missing <;> by_cases hq : q.1 = .missing <;> simp [hp, hq]
  missing l r h hm := by
    obtain ⟨⟨o, h1, _⟩ | ⟨n, h1⟩, _⟩ := h <;> rw [hm] at h1 <;> cases h1

section
variable {P : SchemaParams} {castable : Item → Item → Bool} {bl br : Bag}

theorem together_schema (hl : NamesOk bl) (hr : NamesOk br) {x y : Item} {l r : Pair}
    (h : Together (compatibility P castable) bl br (Start [x] (.dtype 12) [y] (.dtype 12)) l r) :
    l.2 = .dtype 12 ∧ r.2 = .dtype 12 ∧ IsSchema l.1 ∧ IsSchema r.1 := by
  have hpart : ∀ {b : Bag}, NamesOk b → ∀ {p q : Pair} {n : Label}, p.2 = .dtype 12 → Has b p n q →
      IsSchema q.1 → q.2 = .dtype 12 := by
    rintro b hb ⟨z, s⟩ q n rfl ⟨e, h1, h2⟩ h3
    have he : e = .dtype 12 := by
      cases h1 with
      | object h =>
        cases h with
        | other _ => rfl
      | other _ => rfl
    subst he
    cases h2 with
    | schemaAttr h4 h5 h6 h7 =>
      cases h7 with
      | name => exact absurd h3 (hb _ _ _ h6 (.inl rfl))
      | metadata => exact absurd h3 (hb _ _ _ h6 (.inr rfl))
      | schema _ => rfl
  induction h with
  | start h1 h2 =>
    rcases h1 with ⟨a, b, _, _, rfl, rfl⟩ | ⟨h, _⟩
    · exact ⟨rfl, rfl, h2.1, h2.2.1⟩
    · cases h
  | part _ _ h2 h3 h4 ih =>
    exact ⟨hpart hl ih.1 h2 h4.1, hpart hr ih.2.1 h3 h4.2.1, h4.1, h4.2.1⟩

theorem keysIn_schema {b : Bag} {p : Pair} (h : p.2 = .dtype 12) : KeysIn NameKey b p := by
  obtain ⟨x, s⟩ := p
  simp only at h
  subst h
  intro e t h1 h2 k hk
  have he : e = .dtype 12 := by
    cases h1 with
    | object h =>
      cases h with
      | other _ => rfl
    | other _ => rfl
  subst he
  rcases getTransitions_cases h2 with ⟨S, h, _⟩ | ⟨S, rfl, _, h⟩ | ⟨rfl, _, _⟩
  · cases h
  · rcases Traverse.schemaTransitions_ok h with ⟨_, rfl⟩ | ⟨_, _, ⟨_, rfl⟩ | rfl⟩
    · simp [transitionKeys] at hk
    · simp [transitionKeys] at hk
    · simp only [transitionKeys, List.mem_map] at hk
      obtain ⟨n, _, rfl⟩ := hk
      exact ⟨rfl, n, rfl⟩
  · simp [transitionKeys] at hk

theorem canRead_schema {b : Bag} {p : Pair} (h : p.2 = .dtype 12) (hs : IsSchema p.1) : CanRead b p := by
  obtain ⟨x, s⟩ := p
  simp only at h hs
  subst h
  refine ⟨.dtype 12, ?_, ?_⟩
  · by_cases hx : ∃ o, x = .object o
    · obtain ⟨o, rfl⟩ := hx
      exact .object (.other (by simp))
    · exact .other (fun o ho => hx ⟨o, ho⟩)
  · rcases hs with ⟨o, h1, h2⟩ | ⟨n, h1⟩
    · exact .schema h1 h2
    · exact .noId (fun o ho => by rw [h1] at ho; cases ho)

end

theorem isProbablyCastable_iff (x y : Item) (hx : IsSchema x) (hy : IsSchema y) :
    isProbablyCastable x y = true ↔ MayCast x y := by
  have key : ∀ n m : Fin 14, decide (n ∈ allowedFrom m) = true ↔
      (m = 13 ∨ (n = 11 ∧ m ≠ 11 ∧ m ≠ 9) ∨ (n = 13 ∧ m ≠ 11 ∧ m ≠ 9) ∨ (n = m ∧ m ≠ 11 ∧ m ≠ 9) ∨
        ((IsNumber n ∨ n = 4 ∨ n = 6 ∨ n = 7) ∧ IsNumber m) ∨ (IsNumber n ∧ m = 4) ∨ (n = 4 ∧ m = 5) ∨
        ((IsNumber n ∨ n = 4 ∨ n = 5 ∨ n = 6) ∧ m = 7) ∨ (n = 12 ∧ m = 10)) := by
    unfold IsNumber
    decide +kernel
  rcases hy with ⟨o, rfl, _⟩ | ⟨m, rfl⟩
  · rcases hx with ⟨o', rfl, _⟩ | ⟨n, rfl⟩
    · simp [isProbablyCastable, holdsId]; exact .entity
    · simp only [isProbablyCastable, holdsId, Bool.false_or, Bool.or_eq_true, decide_eq_true_eq, kObject,
        Item.dtype.injEq]
      constructor
      · rintro (rfl | rfl)
        · exact .ofObject
        · exact .ofNone
      · intro h; cases h <;> simp
  · rcases hx with ⟨o', rfl, _⟩ | ⟨n, rfl⟩
    · simp only [isProbablyCastable, Bool.or_eq_true, decide_eq_true_eq]
      constructor
      · rintro (rfl | rfl)
        · exact .itemId
        · exact .entityNone
      · intro h; cases h <;> simp
    · simp only [isProbablyCastable]
      rw [key]
      constructor
      · rintro (rfl | ⟨rfl, h, h'⟩ | ⟨rfl, h, h'⟩ | ⟨rfl, h, h'⟩ | ⟨h, h'⟩ | ⟨h, rfl⟩ | ⟨rfl, rfl⟩ | ⟨h, rfl⟩ |
          ⟨rfl, rfl⟩)
        · exact .toNone
        · exact .objectTo h h'
        · exact .noneTo h h'
        · exact .self h h'
        · exact .number h h'
        · exact .bool h
        · exact .mask
        · exact .text h
        · exact .schemaId
      · intro h
        cases h <;> simp_all

end Verif.Compare
