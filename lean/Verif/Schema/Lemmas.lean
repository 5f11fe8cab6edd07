import Verif.Schema.Spec
import Verif.Uuid.Lemmas

/-! Lemmas for C28, C29. -/

namespace Verif.Schema

open Verif.ObjectId Verif.Uuid

deriving instance DecidableEq for Except

/-! ### The order -/

def allNames : List Name :=
  [.int64, .int32, .float32, .float64, .bool, .mask, .bytes, .string, .expr,
    .itemid, .object, .schema, .none]

theorem mem_allNames (n : Name) : n ∈ allNames := by cases n <;> decide

instance decidableForallName (p : Name → Prop) [DecidablePred p] : Decidable (∀ n, p n) :=
  decidable_of_iff (∀ n ∈ allNames, p n) ⟨fun h n => h n (mem_allNames n), fun h n _ => h n⟩

instance decidableExistsName (p : Name → Prop) [DecidablePred p] : Decidable (∃ n, p n) :=
  decidable_of_iff (∃ n ∈ allNames, p n)
    ⟨fun ⟨n, _, h⟩ => ⟨n, h⟩, fun ⟨n, h⟩ => ⟨n, mem_allNames n, h⟩⟩

/-- Position in the chain of numbers. -/
def Name.rank : Name → Option Nat
  | .int32 => some 0
  | .int64 => some 1
  | .float32 => some 2
  | .float64 => some 3
  | _ => .none

/-- The order of the dtypes, computed. -/
def leN (a b : Name) : Bool :=
  a == b || a == .none || (b == .object && a != .itemid && a != .schema) ||
    (match a.rank, b.rank with
      | some i, some j => decide (i ≤ j)
      | _, _ => false)

/-- The order of schemas, computed. -/
def leS : Schema → Schema → Prop
  | .dtype a, .dtype b => leN a b = true
  | .dtype a, .struct _ _ => a = .none
  | .struct a _, .struct b _ => a = b
  | .struct _ _, .dtype _ => False

theorem leN_refl : ∀ a, leN a a = true := by decide
theorem leN_trans : ∀ a b c, leN a b = true → leN b c = true → leN a c = true := by decide
theorem leN_antisymm : ∀ a b, leN a b = true → leN b a = true → a = b := by decide
theorem leN_none : ∀ a, leN a .none = true → a = .none := by decide

theorem leS_refl (a : Schema) : leS a a := by
  cases a
  · exact leN_refl _
  · rfl

theorem leS_trans {a b c : Schema} (h1 : leS a b) (h2 : leS b c) : leS a c := by
  cases a <;> cases b <;> cases c <;> simp only [leS] at *
  · exact leN_trans _ _ _ h1 h2
  · subst h2
    exact leN_none _ h1
  · exact h1
  · rw [h1, h2]

theorem edge_leS {a b : Schema} (h : Edge a b) : leS a b := by
  cases h <;> simp only [leS] <;> decide

theorem leS_of_LE {a b : Schema} (h : LE a b) : leS a b := by
  induction h with
  | refl a => exact leS_refl a
  | step e _ ih => exact leS_trans (edge_leS e) ih

theorem LE.trans {a b c : Schema} (h1 : LE a b) (h2 : LE b c) : LE a c := by
  induction h1 with
  | refl a => exact h2
  | step e _ ih => exact .step e (ih h2)

theorem edge_LE {a b : Schema} (h : Edge a b) : LE a b := .step h (.refl b)

theorem num_object : ∀ a : Name, a.rank ≠ .none → LE (.dtype a) (.dtype .object) := by
  have h4 : LE (.dtype .float64) (.dtype .object) := edge_LE .float64_object
  have h3 := LE.step .float32_float64 h4
  have h2 := LE.step .int64_float32 h3
  have h1 := LE.step .int32_int64 h2
  intro a ha
  cases a <;> first | exact h1 | exact h2 | exact h3 | exact h4 | exact absurd rfl ha

theorem num_LE : ∀ a b : Name, ∀ i j, a.rank = some i → b.rank = some j → i ≤ j →
    LE (.dtype a) (.dtype b) := by
  have e1 := Edge.int32_int64
  have e2 := Edge.int64_float32
  have e3 := Edge.float32_float64
  intro a b i j ha hb hij
  cases a <;> simp only [Name.rank, reduceCtorEq, Option.some.injEq] at ha <;>
    cases b <;> simp only [Name.rank, reduceCtorEq, Option.some.injEq] at hb <;>
    subst ha <;> subst hb
  all_goals first
    | exact .refl _
    | exact .step e1 (.refl _)
    | exact .step e2 (.refl _)
    | exact .step e3 (.refl _)
    | exact .step e1 (.step e2 (.refl _))
    | exact .step e2 (.step e3 (.refl _))
    | exact .step e1 (.step e2 (.step e3 (.refl _)))
    | exact absurd hij (by decide)

theorem to_object : ∀ a : Name, a ≠ .itemid → a ≠ .schema → LE (.dtype a) (.dtype .object) := by
  intro a h1 h2
  cases a
  case itemid => exact absurd rfl h1
  case schema => exact absurd rfl h2
  case mask => exact edge_LE .mask_object
  case bool => exact edge_LE .bool_object
  case bytes => exact edge_LE .bytes_object
  case string => exact edge_LE .string_object
  case expr => exact edge_LE .expr_object
  case object => exact .refl _
  case none => exact .step .none_mask (edge_LE .mask_object)
  all_goals exact num_object _ (by decide)

theorem from_none : ∀ b : Name, LE (.dtype .none) (.dtype b) := by
  intro b
  have hnum : ∀ b : Name, b.rank ≠ .none → LE (.dtype .none) (.dtype b) := by
    intro b hb
    cases h : b.rank with
    | none => exact absurd h hb
    | some j => exact .step .none_int32 (num_LE .int32 b 0 j rfl h (Nat.zero_le _))
  cases b
  case itemid => exact edge_LE .none_itemid
  case schema => exact edge_LE .none_schema
  case mask => exact edge_LE .none_mask
  case bool => exact edge_LE .none_bool
  case bytes => exact edge_LE .none_bytes
  case string => exact edge_LE .none_string
  case expr => exact edge_LE .none_expr
  case object => exact to_object .none (by decide) (by decide)
  case none => exact .refl _
  all_goals exact hnum _ (by decide)

theorem LE_of_leS {a b : Schema} (h : leS a b) : LE a b := by
  cases a with
  | dtype a =>
    cases b with
    | dtype b =>
      simp only [leS, leN, Bool.or_eq_true, beq_iff_eq, Bool.and_eq_true, bne_iff_ne] at h
      rcases h with ((h | h) | h) | h
      · rw [h]; exact .refl _
      · rw [h]; exact from_none b
      · rw [h.1.1]; exact to_object a h.1.2 h.2
      · split at h
        · next i j hi hj => exact num_LE a b i j hi hj (by simpa using h)
        · cases h
    | struct o ho =>
      simp only [leS] at h
      rw [h]
      exact edge_LE (.none_struct o ho)
  | struct o ho =>
    cases b with
    | dtype b => cases h
    | struct p hp =>
      simp only [leS] at h
      subst h
      exact .refl _

theorem LE_iff (a b : Schema) : LE a b ↔ leS a b := ⟨leS_of_LE, LE_of_leS⟩

theorem LE_antisymm {a b : Schema} (h1 : LE a b) (h2 : LE b a) : a = b := by
  rw [LE_iff] at h1 h2
  cases a <;> cases b <;> simp only [leS] at h1 h2
  · rw [leN_antisymm _ _ h1 h2]
  · subst h1; rfl

theorem item_inj {a b : Schema} (h : a.item = b.item) : a = b := by
  have hn : ∀ m n : Name, m.id = n.id → m = n := by decide
  cases a <;> cases b <;> simp only [Schema.item, Item.dtype.injEq, Item.object.injEq,
    reduceCtorEq] at h
  · rw [hn _ _ h]
  · subst h; rfl

/-! ### The table -/

/-- The value of the table at `(a, b)`. -/
def joinN (a b : Name) : Option Name := allNames.find? (fun c => leN a c && leN b c &&
  allNames.all (fun u => !(leN a u && leN b u) || leN c u))

theorem matrix_eq : ∀ a b : Name, commonDType a.id.val b.id.val =
    some ((joinN a b).map (fun n => n.id.val)) := by decide +kernel

theorem joinN_some : ∀ a b c, joinN a b = some c → ∀ u, leN c u = (leN a u && leN b u) := by
  decide +kernel

theorem joinN_none : ∀ a b, joinN a b = .none → ∀ u, ¬ (leN a u = true ∧ leN b u = true) := by
  decide +kernel

theorem id_inj : ∀ a b : Name, a.id.val = b.id.val → a = b := by decide

/-! ### The bit mask -/

theorem countrZero_spec (m : Nat) (h : m ≠ 0) :
    ∃ q, m = 2 ^ countrZero m * (2 * q + 1) := by
  induction m using Nat.strongRecOn with
  | _ m ih =>
    unfold countrZero
    rw [dif_neg h]
    by_cases h2 : m % 2 = 1
    · rw [if_pos h2]
      exact ⟨m / 2, by simp; omega⟩
    · rw [if_neg h2]
      obtain ⟨q, hq⟩ := ih (m / 2) (by omega) (by omega)
      refine ⟨q, ?_⟩
      rw [Nat.pow_succ, Nat.mul_comm _ 2, Nat.mul_assoc, ← hq]
      omega

theorem testBit_odd (k q i : Nat) : (2 ^ k * (2 * q + 1)).testBit i =
    (if i < k then false else if i = k then true else q.testBit (i - k - 1)) := by
  have h := Nat.testBit_two_pow_mul_add (a := 2 * q + 1) (b := 0) (i := k) (Nat.two_pow_pos k) i
  rw [Nat.add_zero] at h
  rw [h]
  by_cases h1 : i < k
  · simp [h1]
  · rw [if_neg h1, if_neg h1]
    by_cases h2 : i = k
    · subst h2
      simp
    · rw [if_neg h2]
      obtain ⟨d, hd⟩ : ∃ d, i - k = d + 1 := ⟨i - k - 1, by omega⟩
      rw [hd, show d + 1 - 1 = d from rfl, Nat.testBit_succ]
      congr 1
      omega

theorem testBit_countrZero (m : Nat) (h : m ≠ 0) : m.testBit (countrZero m) = true := by
  obtain ⟨q, hq⟩ := countrZero_spec m h
  generalize countrZero m = k at hq
  rw [hq, testBit_odd]
  simp

/-- `m & (m - 1)` has all bits of `m` but the lowest. -/
theorem testBit_clear (m i : Nat) (h : m ≠ 0) :
    (m &&& (m - 1)).testBit i = true ↔ m.testBit i = true ∧ i ≠ countrZero m := by
  obtain ⟨q, hq⟩ := countrZero_spec m h
  generalize countrZero m = k at hq
  have hm : m - 1 = 2 ^ k * (2 * q) + (2 ^ k - 1) := by
    rw [hq, Nat.mul_add, Nat.mul_one]
    have := Nat.two_pow_pos k
    omega
  have h2 : (m - 1).testBit i = (if i < k then true else if i = k then false
      else q.testBit (i - k - 1)) := by
    rw [hm, Nat.testBit_two_pow_mul_add _ (by have := Nat.two_pow_pos k; omega)]
    by_cases h1 : i < k
    · rw [if_pos h1, if_pos h1, Nat.testBit_two_pow_sub_one]
      simpa using h1
    · rw [if_neg h1, if_neg h1]
      by_cases h2 : i = k
      · subst h2
        simp
      · rw [if_neg h2]
        obtain ⟨d, hd⟩ : ∃ d, i - k = d + 1 := ⟨i - k - 1, by omega⟩
        rw [hd, show d + 1 - 1 = d from rfl, Nat.testBit_succ]
        congr 1
        omega
  rw [Nat.testBit_and, h2]
  rw [hq, testBit_odd]
  by_cases h1 : i < k
  · simp [h1]
  · by_cases h2 : i = k
    · simp [h2]
    · simp [h1, h2]

/-- `r` is the supremum of the dtypes in `s`, in a convenient form. -/
def SupN (s : Name → Prop) (r : Name) : Prop := ∀ u, leN r u = true ↔ ∀ a, s a → leN a u = true

/-- The dtypes of a mask. -/
def Bits (m : Nat) (a : Name) : Prop := m.testBit a.id.val = true

/-- All bits stand for dtypes. -/
def Valid (m : Nat) : Prop := ∀ i, m.testBit i = true → ∃ a : Name, a.id.val = i

theorem ofNat_id : ∀ a : Name, Fin.ofNat 14 a.id.val = a.id := by decide

theorem aggregateMask_spec (m : Nat) (hv : Valid m) (hm : m ≠ 0) (s : Name → Prop) (r : Name)
    (hs : SupN s r) :
    (∃ n, aggregateMask r.id.val m = .ok n.id.val ∧
      SupN (fun a => s a ∨ Bits (m &&& (m - 1)) a) n) ∨
    (∃ c d t, aggregateMask r.id.val m = .error (.noCommonSchema (.dtype c.id) (.dtype d.id)) ∧
      (∀ a, t a → s a ∨ Bits (m &&& (m - 1)) a) ∧ (∀ a, s a → t a) ∧ SupN t c ∧
      Bits (m &&& (m - 1)) d ∧ ∀ u, ¬ (leN c u = true ∧ leN d u = true)) := by
  induction m using Nat.strongRecOn generalizing s r with
  | _ m ih =>
    unfold aggregateMask
    simp only
    by_cases h0 : m &&& (m - 1) = 0
    · rw [dif_pos h0]
      refine Or.inl ⟨r, rfl, ?_⟩
      intro u
      rw [hs u, h0]
      simp [Bits]
    · rw [dif_neg h0]
      have hv' : Valid (m &&& (m - 1)) := fun i hi => hv i ((testBit_clear m i hm).1 hi).1
      have hlt : m &&& (m - 1) < m := by
        have h1 : m &&& (m - 1) ≤ m - 1 := Nat.and_le_right
        omega
      generalize m &&& (m - 1) = m' at h0 hv' hlt
      obtain ⟨i, hi⟩ := hv' _ (testBit_countrZero m' h0)
      have hbi : Bits m' i := by
        unfold Bits
        rw [hi]
        exact testBit_countrZero m' h0
      rw [← hi, matrix_eq]
      cases hj : joinN r i with
      | none =>
        refine Or.inr ⟨r, i, s, ?_, fun a ha => Or.inl ha, fun a ha => ha, hs, hbi,
          joinN_none r i hj⟩
        simp only [Option.map_none]
        rw [ofNat_id, ofNat_id]
      | some c =>
        simp only [Option.map_some]
        have hsup : SupN (fun a => s a ∨ a = i) c := by
          intro u
          rw [joinN_some r i c hj u, Bool.and_eq_true, hs u]
          constructor
          · rintro ⟨h1, h2⟩ a (ha | rfl)
            · exact h1 a ha
            · exact h2
          · intro h
            exact ⟨fun a ha => h a (Or.inl ha), h i (Or.inr rfl)⟩
        have hbits : ∀ a, (a = i ∨ Bits (m' &&& (m' - 1)) a) ↔ Bits m' a := by
          intro a
          unfold Bits
          rw [testBit_clear m' _ h0]
          constructor
          · rintro (rfl | h)
            · exact hbi
            · exact h.1
          · intro h
            by_cases hai : a = i
            · exact Or.inl hai
            · exact Or.inr ⟨h, fun e => hai (id_inj _ _ (e.trans hi.symm))⟩
        rcases ih m' hlt hv' h0 _ c hsup with ⟨n, e, hn⟩ | ⟨c', d', t, e, h1, h2, h3, h4, h5⟩
        · refine Or.inl ⟨n, e, ?_⟩
          intro u
          rw [hn u]
          constructor
          · intro h a ha
            rcases ha with ha | ha
            · exact h a (Or.inl (Or.inl ha))
            · rcases (hbits a).2 ha with rfl | ha
              · exact h a (Or.inl (Or.inr rfl))
              · exact h a (Or.inr ha)
          · intro h a ha
            rcases ha with (ha | rfl) | ha
            · exact h a (Or.inl ha)
            · exact h a (Or.inr hbi)
            · exact h a (Or.inr ((hbits a).1 (Or.inr ha)))
        · refine Or.inr ⟨c', d', t, e, ?_, ?_, h3, (hbits d').1 (Or.inr h4), h5⟩
          · intro a ha
            rcases h1 a ha with (ha | rfl) | ha
            · exact Or.inl ha
            · exact Or.inr hbi
            · exact Or.inr ((hbits a).1 (Or.inr ha))
          · intro a ha
            exact h2 a (Or.inl ha)

/-- `CommonDTypeAggregator::Get`. -/
theorem getDType_spec (m : Nat) (hv : Valid m) :
    (m = 0 ∧ getDType m = .ok .none) ∨
    (m ≠ 0 ∧ ∃ n, getDType m = .ok (some n.id.val) ∧ SupN (Bits m) n) ∨
    (m ≠ 0 ∧ ∃ c d t, getDType m = .error (.noCommonSchema (.dtype c.id) (.dtype d.id)) ∧
      (∀ a, t a → Bits m a) ∧ (∃ a, t a) ∧ SupN t c ∧ Bits m d ∧
      ∀ u, ¬ (leN c u = true ∧ leN d u = true)) := by
  unfold getDType
  by_cases h0 : m = 0
  · exact Or.inl ⟨h0, by rw [if_pos h0]⟩
  · rw [if_neg h0]
    refine Or.inr ?_
    obtain ⟨i, hi⟩ := hv _ (testBit_countrZero m h0)
    rw [← hi]
    have hsup : SupN (fun a => a = i) i := by
      intro u
      constructor
      · rintro h a rfl
        exact h
      · intro h
        exact h i rfl
    have hbi : Bits m i := by
      unfold Bits
      rw [hi]
      exact testBit_countrZero m h0
    have hbits : ∀ a, (a = i ∨ Bits (m &&& (m - 1)) a) ↔ Bits m a := by
      intro a
      unfold Bits
      rw [testBit_clear m _ h0]
      constructor
      · rintro (rfl | h)
        · exact hbi
        · exact h.1
      · intro h
        by_cases hai : a = i
        · exact Or.inl hai
        · exact Or.inr ⟨h, fun e => hai (id_inj _ _ (e.trans hi.symm))⟩
    rcases aggregateMask_spec m hv h0 _ i hsup with ⟨n, e, hn⟩ | ⟨c, d, t, e, h1, h2, h3, h4, h5⟩
    · refine Or.inl ⟨h0, n, by rw [e], ?_⟩
      intro u
      rw [hn u]
      constructor
      · intro h a ha
        exact h a ((hbits a).2 ha)
      · intro h a ha
        exact h a ((hbits a).1 ha)
    · exact Or.inr ⟨h0, c, d, t, by rw [e], fun a ha => (hbits a).1 (h1 a ha), ⟨i, h2 i rfl⟩, h3,
        (hbits d).1 (Or.inr h4), h5⟩

/-! ### The aggregator -/

theorem eq_iff (a b : ObjectId) : a.eq b = true ↔ a = b := C32_eq_iff a b

/-- What the aggregator knows after the schemas `l`. -/
structure Knows (l : List Schema) (g : Aggregator) : Prop where
  valid : Valid g.seen
  bits : ∀ a, Bits g.seen a ↔ .dtype a ∈ l
  first : ∀ o, g.resObject = some o → ∃ h, .struct o h ∈ l
  none : g.resObject = .none → ∀ o h, .struct o h ∉ l
  same : g.status = .none → ∀ o h, .struct o h ∈ l → g.resObject = some o
  err : ∀ e, g.status = some e → ∃ a ha b hb, e = .noCommonSchema (.object a) (.object b) ∧
    .struct a ha ∈ l ∧ .struct b hb ∈ l ∧ a ≠ b

theorem testBit_or_shift (m d i : Nat) :
    (m ||| (1 <<< d)).testBit i = true ↔ m.testBit i = true ∨ i = d := by
  rw [Nat.testBit_or, Nat.shiftLeft_eq, Nat.one_mul, Nat.testBit_two_pow, Bool.or_eq_true,
    decide_eq_true_eq]
  constructor <;> rintro (h | h) <;> first | exact Or.inl h | exact Or.inr h.symm

theorem knows_add {l : List Schema} {g : Aggregator} (h : Knows l g) (x : Option Schema) :
    Knows (l ++ x.toList) (g.add (optItem x)) := by
  cases x with
  | none => simpa [optItem, Aggregator.add] using h
  | some s =>
    cases s with
    | dtype n =>
      show Knows (l ++ [.dtype n]) (g.addDType n.id)
      unfold Aggregator.addDType
      constructor
      · intro i hi
        rcases (testBit_or_shift _ _ _).1 hi with hi | rfl
        · exact h.valid i hi
        · exact ⟨n, rfl⟩
      · intro a
        unfold Bits
        rw [testBit_or_shift, List.mem_append, List.mem_singleton]
        show Bits g.seen a ∨ _ ↔ _
        rw [h.bits a]
        constructor
        · rintro (h | h)
          · exact Or.inl h
          · exact Or.inr (by rw [id_inj _ _ h])
        · rintro (h | h)
          · exact Or.inl h
          · cases h; exact Or.inr rfl
      · intro o ho
        obtain ⟨hs, hm⟩ := h.first o ho
        exact ⟨hs, List.mem_append_left _ hm⟩
      · intro hn o ho hm
        rcases List.mem_append.1 hm with hm | hm
        · exact h.none hn o ho hm
        · simp at hm
      · intro hst o ho hm
        rcases List.mem_append.1 hm with hm | hm
        · exact h.same hst o ho hm
        · simp at hm
      · intro e he
        obtain ⟨a, ha, b, hb, h1, h2, h3, h4⟩ := h.err e he
        exact ⟨a, ha, b, hb, h1, List.mem_append_left _ h2, List.mem_append_left _ h3, h4⟩
    | struct o ho =>
      show Knows (l ++ [.struct o ho]) (g.addObject o)
      have hb : ∀ a, Bits g.seen a ↔ .dtype a ∈ l ++ [.struct o ho] := by
        intro a
        rw [h.bits a]
        simp
      have herr : ∀ e, g.status = some e →
          ∃ a ha b hb, e = .noCommonSchema (.object a) (.object b) ∧
            .struct a ha ∈ l ++ [.struct o ho] ∧ .struct b hb ∈ l ++ [.struct o ho] ∧ a ≠ b := by
        intro e he
        obtain ⟨a, ha, b, hb, h1, h2, h3, h4⟩ := h.err e he
        exact ⟨a, ha, b, hb, h1, List.mem_append_left _ h2, List.mem_append_left _ h3, h4⟩
      unfold Aggregator.addObject
      rw [ho]
      simp only [Bool.not_true, Bool.false_eq_true, if_false]
      cases hr : g.resObject with
      | none =>
        constructor
        · exact h.valid
        · exact hb
        · intro p hp
          cases hp
          exact ⟨ho, by simp⟩
        · intro hn
          cases hn
        · intro hst p hp hm
          rcases List.mem_append.1 hm with hm | hm
          · exact absurd hm (h.none hr p hp)
          · simp at hm
            rw [hm]
        · exact herr
      | some r =>
        obtain ⟨hrs, hrm⟩ := h.first r hr
        by_cases hro : r.eq o = true
        · have hro' := (eq_iff r o).1 hro
          simp only [hro, Bool.not_true, Bool.false_eq_true, if_false]
          constructor
          · exact h.valid
          · exact hb
          · intro p hp
            obtain ⟨hs, hm⟩ := h.first p hp
            exact ⟨hs, List.mem_append_left _ hm⟩
          · intro hn
            rw [hr] at hn
            cases hn
          · intro hst p hp hm
            rcases List.mem_append.1 hm with hm | hm
            · exact h.same hst p hp hm
            · simp at hm
              rw [hm, hr, hro']
          · exact herr
        · have hne : r ≠ o := fun e => hro ((eq_iff r o).2 e)
          have hf : r.eq o = false := by simpa using hro
          simp only [hf, Bool.not_false, if_true]
          constructor
          · exact h.valid
          · exact hb
          · intro p hp
            obtain ⟨hs, hm⟩ := h.first p (by rw [hr]; exact hr ▸ hp)
            exact ⟨hs, List.mem_append_left _ hm⟩
          · intro hn
            simp only at hn
            cases hn
          · intro hst
            cases hst
          · intro e he
            cases he
            exact ⟨r, hrs, o, ho, rfl, List.mem_append_left _ hrm, by simp, hne⟩

theorem knows_foldl (l : List (Option Schema)) (l0 : List Schema) (g : Aggregator)
    (h : Knows l0 g) : Knows (l0 ++ l.filterMap id) ((l.map optItem).foldl Aggregator.add g) := by
  induction l generalizing l0 g with
  | nil => simpa using h
  | cons x l ih =>
    rw [List.map_cons, List.foldl_cons]
    have := ih _ _ (knows_add h x)
    cases x with
    | none => simpa using this
    | some s => simpa using this

theorem knows_init : Knows [] {} := by
  constructor
  · intro i hi
    simp at hi
  · intro a
    simp [Bits]
  · intro o ho
    cases ho
  · intro _ o h hm
    cases hm
  · intro _ o h hm
    cases hm
  · intro e he
    cases he

theorem knows_fold (l : List (Option Schema)) :
    Knows (l.filterMap id) ((l.map optItem).foldl Aggregator.add {}) := by
  simpa using knows_foldl l [] {} knows_init

end Verif.Schema
