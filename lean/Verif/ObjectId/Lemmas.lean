import Verif.ObjectId.Model

/-! Arithmetic readings of the bit operations of the id model. -/

namespace Verif.ObjectId

theorem toNat_one_shift (b : BitVec 6) : (1#64 <<< b.toNat).toNat = 2 ^ b.toNat := by
  have hb := b.isLt
  rw [BitVec.toNat_shiftLeft, Nat.shiftLeft_eq]
  have : (1#64).toNat = 1 := rfl
  rw [this, Nat.one_mul]
  exact Nat.mod_eq_of_lt (Nat.pow_lt_pow_right (by omega) (by omega))

theorem toNat_mask (b : BitVec 6) :
    ((1#64 <<< b.toNat) - 1#64).toNat = 2 ^ b.toNat - 1 := by
  have h := toNat_one_shift b
  have hp : 0 < 2 ^ b.toNat := Nat.two_pow_pos _
  have hb := b.isLt
  have hlt : 2 ^ b.toNat < 2 ^ 64 := Nat.pow_lt_pow_right (by omega) (by omega)
  rw [BitVec.toNat_sub, h]
  have : (1#64).toNat = 1 := rfl
  rw [this]
  omega

/-- `Offset()` is the remainder of the second word. -/
theorem offset_toNat (o : ObjectId) : o.offset.toNat = o.id.toNat % 2 ^ o.offsetBits.toNat := by
  unfold ObjectId.offset
  rw [BitVec.toNat_and, toNat_mask, Nat.and_two_pow_sub_one_eq_mod]

theorem clear_toNat (x : BitVec 64) (n : Nat) :
    ((x >>> n) <<< n).toNat = x.toNat / 2 ^ n * 2 ^ n := by
  rw [BitVec.toNat_shiftLeft, BitVec.toNat_ushiftRight, Nat.shiftLeft_eq, Nat.shiftRight_eq_div_pow]
  apply Nat.mod_eq_of_lt
  have := Nat.div_mul_le_self x.toNat (2 ^ n)
  have := x.isLt
  omega

theorem ofObject_id_toNat (o : ObjectId) :
    (AllocationId.ofObject o).raw.id.toNat =
      o.id.toNat / 2 ^ o.offsetBits.toNat * 2 ^ o.offsetBits.toNat :=
  clear_toNat _ _

theorem high64_inj {a b : ObjectId} :
    a.high64 = b.high64 ↔
      a.metadata = b.metadata ∧ a.offsetBits = b.offsetBits ∧ a.allocatorId = b.allocatorId := by
  constructor
  · intro h
    unfold ObjectId.high64 at h
    have h1 : ∀ i, i < 64 → ((a.metadata ++ a.offsetBits) ++ a.allocatorId).getLsbD i =
        ((b.metadata ++ b.offsetBits) ++ b.allocatorId).getLsbD i := by
      intro i _
      exact congrArg (fun x : BitVec 64 => x.getLsbD i) h
    refine ⟨?_, ?_, ?_⟩
    · apply BitVec.eq_of_getLsbD_eq
      intro i hi
      have := h1 (58 + i) (by omega)
      simp only [BitVec.getLsbD_append] at this
      have e1 : ¬ (58 + i < 52) := by omega
      have e2 : ¬ (58 + i - 52 < 6) := by omega
      have e3 : 58 + i - 52 - 6 = i := by omega
      simpa [e1, e2, e3] using this
    · apply BitVec.eq_of_getLsbD_eq
      intro i hi
      have := h1 (52 + i) (by omega)
      simp only [BitVec.getLsbD_append] at this
      have e1 : ¬ (52 + i < 52) := by omega
      have e2 : (52 + i - 52 < 6) := by omega
      have e3 : 52 + i - 52 = i := by omega
      simpa [e1, e2, e3, hi] using this
    · apply BitVec.eq_of_getLsbD_eq
      intro i hi
      have := h1 i (by omega)
      simp only [BitVec.getLsbD_append] at this
      simpa [hi] using this
  · rintro ⟨h1, h2, h3⟩
    unfold ObjectId.high64
    rw [h1, h2, h3]

theorem objectId_ext {a b : ObjectId} (h : a.high64 = b.high64) (hl : a.id = b.id) : a = b := by
  obtain ⟨h1, h2, h3⟩ := high64_inj.1 h
  cases a; cases b
  simp only at h1 h2 h3 hl
  subst h1 h2 h3 hl
  rfl

/-- Two numbers agree above bit `n` iff the shifted xor is zero. -/
theorem xor_shift_zero (x y : BitVec 64) (n : Nat) :
    (x ^^^ y) >>> n = 0 ↔ x.toNat / 2 ^ n = y.toNat / 2 ^ n := by
  rw [BitVec.ushiftRight_xor_distrib]
  have h0 : (0 : BitVec 64) = 0#64 := rfl
  rw [h0, BitVec.xor_eq_zero_iff, ← BitVec.toNat_inj,
    BitVec.toNat_ushiftRight, BitVec.toNat_ushiftRight,
    Nat.shiftRight_eq_div_pow, Nat.shiftRight_eq_div_pow]

theorem ofObject_high64 (o : ObjectId) : (AllocationId.ofObject o).raw.high64 = o.high64 := rfl

theorem ofObject_offsetBits (o : ObjectId) :
    (AllocationId.ofObject o).raw.offsetBits = o.offsetBits := rfl

theorem ofObject_div (o : ObjectId) :
    (AllocationId.ofObject o).raw.id.toNat / 2 ^ o.offsetBits.toNat =
      o.id.toNat / 2 ^ o.offsetBits.toNat := by
  rw [ofObject_id_toNat, Nat.mul_div_cancel _ (Nat.two_pow_pos _)]

theorem contains_iff (a : ObjectId) (x : ObjectId) :
    (AllocationId.ofObject a).contains x = true ↔
      a.high64 = x.high64 ∧
        x.id.toNat / 2 ^ a.offsetBits.toNat = a.id.toNat / 2 ^ a.offsetBits.toNat := by
  unfold AllocationId.contains
  rw [Bool.and_eq_true, beq_iff_eq, beq_iff_eq, xor_shift_zero, ofObject_high64]
  constructor
  · rintro ⟨h1, h2⟩
    exact ⟨h1, by rw [← ofObject_div a]; exact h2⟩
  · rintro ⟨h1, h2⟩
    exact ⟨h1, by rw [← ofObject_div a] at h2; exact h2⟩

theorem objectByOffset_id_toNat (a : ObjectId) (off : BitVec 64)
    (h : off.toNat < 2 ^ a.offsetBits.toNat) :
    ((AllocationId.ofObject a).objectByOffset off).id.toNat =
      a.id.toNat / 2 ^ a.offsetBits.toNat * 2 ^ a.offsetBits.toNat + off.toNat := by
  show ((AllocationId.ofObject a).raw.id ||| off).toNat = _
  rw [BitVec.toNat_or, ofObject_id_toNat, Nat.mul_comm, Nat.two_pow_add_eq_or_of_lt h]

theorem ofObject_eq_iff (a x : ObjectId) :
    AllocationId.ofObject x = AllocationId.ofObject a ↔
      a.high64 = x.high64 ∧
        x.id.toNat / 2 ^ a.offsetBits.toNat = a.id.toNat / 2 ^ a.offsetBits.toNat := by
  constructor
  · intro h
    have h1 : (AllocationId.ofObject x).raw.high64 = (AllocationId.ofObject a).raw.high64 := by
      rw [h]
    have h2 : (AllocationId.ofObject x).raw.id.toNat = (AllocationId.ofObject a).raw.id.toNat := by
      rw [h]
    have h3 : a.high64 = x.high64 := h1.symm
    have hb := (high64_inj.1 h3).2.1
    refine ⟨h3, ?_⟩
    have e : (AllocationId.ofObject x).raw.id.toNat / 2 ^ a.offsetBits.toNat =
        (AllocationId.ofObject a).raw.id.toNat / 2 ^ a.offsetBits.toNat := by rw [h2]
    rw [ofObject_div a] at e
    rw [hb, ofObject_div x, ← hb] at e
    exact e
  · rintro ⟨h1, h2⟩
    have hb := (high64_inj.1 h1).2.1
    have : (AllocationId.ofObject x).raw = (AllocationId.ofObject a).raw := by
      apply objectId_ext
      · exact h1.symm
      · apply BitVec.eq_of_toNat_eq
        rw [ofObject_id_toNat, ofObject_id_toNat, ← hb, h2]
    cases hx : AllocationId.ofObject x
    cases ha : AllocationId.ofObject a
    rw [hx, ha] at this
    simp only at this
    rw [this]

/-- `64 - countl_zero(n - 1)` is the exponent of the least power of two that is
at least `n`. -/
theorem offsetBits_spec (size : BitVec 64) (h1 : 1 ≤ size.toNat) (h2 : size.toNat ≤ 2 ^ 63) :
    size.toNat ≤ 2 ^ (offsetBitsFor size).toNat ∧
      ∀ k, size.toNat ≤ 2 ^ k → (offsetBitsFor size).toNat ≤ k := by
  have hlt := size.isLt
  have hs : (size - 1).toNat = size.toNat - 1 := by
    rw [BitVec.toNat_sub]
    have : (1 : BitVec 64).toNat = 1 := rfl
    rw [this]
    omega
  by_cases hz : size - 1 = 0
  · have h0 : size.toNat - 1 = 0 := by rw [← hs, hz]; rfl
    have hb : offsetBitsFor size = 0 := by
      unfold offsetBitsFor countlZero
      rw [if_pos hz]
      rfl
    rw [hb]
    refine ⟨?_, fun k _ => Nat.zero_le _⟩
    simp
    omega
  · have hpos : size.toNat - 1 ≠ 0 := by
      intro h
      apply hz
      apply BitVec.eq_of_toNat_eq
      rw [hs, h]
      rfl
    have hlog : Nat.log2 (size.toNat - 1) < 63 := by
      rw [Nat.log2_lt hpos]
      omega
    have hb : (offsetBitsFor size).toNat = Nat.log2 (size.toNat - 1) + 1 := by
      unfold offsetBitsFor countlZero
      rw [if_neg hz, hs, BitVec.toNat_ofNat]
      have : 64 - (63 - (size.toNat - 1).log2) = (size.toNat - 1).log2 + 1 := by omega
      rw [this]
      apply Nat.mod_eq_of_lt
      omega
    rw [hb]
    constructor
    · have := Nat.lt_log2_self (n := size.toNat - 1)
      omega
    · intro k hk
      have hk' : size.toNat - 1 < 2 ^ k := by omega
      exact (Nat.log2_lt hpos).2 hk'

theorem capacity_toNat (a : AllocationId) : a.capacity.toNat = 2 ^ a.raw.offsetBits.toNat :=
  toNat_one_shift _

theorem offset_lt (o : ObjectId) : o.offset.toNat < 2 ^ o.offsetBits.toNat := by
  rw [offset_toNat]
  exact Nat.mod_lt _ (Nat.two_pow_pos _)

end Verif.ObjectId
