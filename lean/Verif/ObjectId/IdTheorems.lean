import Verif.ObjectId.Lemmas

/-! C32: an id is determined by its allocation and its offset. -/

namespace Verif.ObjectId

/-- Every id is in its allocation, its offset is below the capacity, and indexing
the allocation by the offset gives the id back. -/
theorem C32_id_is_allocation_and_offset (o : ObjectId) :
    (AllocationId.ofObject o).contains o = true ∧
      o.offset.toNat < (AllocationId.ofObject o).capacity.toNat ∧
      (AllocationId.ofObject o).objectByOffset o.offset = o := by
  refine ⟨(contains_iff o o).2 ⟨rfl, rfl⟩, ?_, ?_⟩
  · rw [capacity_toNat]
    exact offset_lt o
  · apply objectId_ext
    · rfl
    · apply BitVec.eq_of_toNat_eq
      rw [objectByOffset_id_toNat o _ (offset_lt o), offset_toNat, Nat.mul_comm]
      exact Nat.div_add_mod _ _

/-- An allocation contains exactly the ids made of it with the offsets below its
capacity. -/
theorem C32_members (a x : ObjectId) :
    (AllocationId.ofObject a).contains x = true ↔
      ∃ off : BitVec 64, off.toNat < (AllocationId.ofObject a).capacity.toNat ∧
        x = (AllocationId.ofObject a).objectByOffset off := by
  constructor
  · intro h
    have h' := (contains_iff a x).1 h
    have e : AllocationId.ofObject x = AllocationId.ofObject a := (ofObject_eq_iff a x).2 h'
    have hx := C32_id_is_allocation_and_offset x
    rw [e] at hx
    exact ⟨x.offset, hx.2.1, hx.2.2.symm⟩
  · rintro ⟨off, hoff, rfl⟩
    rw [capacity_toNat, ofObject_offsetBits] at hoff
    rw [contains_iff]
    refine ⟨rfl, ?_⟩
    rw [objectByOffset_id_toNat a off hoff, Nat.mul_comm,
      Nat.mul_add_div (Nat.two_pow_pos _), Nat.div_eq_of_lt hoff]
    rfl

/-- Different offsets give different ids; offset and allocation of the id made
from them are the ones it was made of. -/
theorem C32_offset_of_member (a : ObjectId) (off : BitVec 64)
    (h : off.toNat < (AllocationId.ofObject a).capacity.toNat) :
    ((AllocationId.ofObject a).objectByOffset off).offset = off ∧
      AllocationId.ofObject ((AllocationId.ofObject a).objectByOffset off) =
        AllocationId.ofObject a := by
  rw [capacity_toNat, ofObject_offsetBits] at h
  constructor
  · apply BitVec.eq_of_toNat_eq
    rw [offset_toNat]
    show ((AllocationId.ofObject a).objectByOffset off).id.toNat % 2 ^ a.offsetBits.toNat = _
    rw [objectByOffset_id_toNat a off h, Nat.mul_comm, Nat.mul_add_mod, Nat.mod_eq_of_lt h]
  · rw [ofObject_eq_iff]
    refine ⟨rfl, ?_⟩
    rw [objectByOffset_id_toNat a off h, Nat.mul_comm,
      Nat.mul_add_div (Nat.two_pow_pos _), Nat.div_eq_of_lt h]
    rfl

/-- Membership is the same as having this allocation; so allocations are
disjoint or equal. -/
theorem C32_same_allocation (a x : ObjectId) :
    (AllocationId.ofObject a).contains x = true ↔
      AllocationId.ofObject x = AllocationId.ofObject a := by
  rw [contains_iff, ofObject_eq_iff]

/-- The allocation of an id has the id's type flags. -/
theorem C32_allocation_keeps_flags (o : ObjectId) :
    (AllocationId.ofObject o).raw.metadata = o.metadata ∧
      ∀ off, ((AllocationId.ofObject o).objectByOffset off).metadata = o.metadata :=
  ⟨rfl, fun _ => rfl⟩

/-- The two words of an id determine it: reading them and building an id from
them are inverse, and `==` is equality. -/
theorem C32_words_round_trip (o : ObjectId) (hi lo : BitVec 64) :
    ObjectId.ofHighLow o.high64 o.low64 = o ∧
      (ObjectId.ofHighLow hi lo).high64 = hi ∧ (ObjectId.ofHighLow hi lo).low64 = lo := by
  have key : ∀ hi lo : BitVec 64, (ObjectId.ofHighLow hi lo).high64 = hi := by
    intro hi lo
    unfold ObjectId.high64 ObjectId.ofHighLow
    apply BitVec.eq_of_getLsbD_eq
    intro i hlt
    simp only [BitVec.getLsbD_append, BitVec.getLsbD_extractLsb']
    by_cases h1 : i < 52
    · simp [h1]
    · by_cases h2 : i - 52 < 6
      · have e : 52 + (i - 52) = i := by omega
        simp [h1, h2, e]
      · have e : 58 + (i - 52 - 6) = i := by omega
        have e3 : i - 52 - 6 < 6 := by omega
        simp [h1, h2, e, e3]
  refine ⟨objectId_ext (key _ _) rfl, key hi lo, rfl⟩

/-- `==` decides equality of ids. -/
theorem C32_eq_iff (a b : ObjectId) : a.eq b = true ↔ a = b := by
  unfold ObjectId.eq
  rw [Bool.and_eq_true, beq_iff_eq, beq_iff_eq]
  constructor
  · rintro ⟨h1, h2⟩
    exact objectId_ext h1 h2
  · rintro rfl
    exact ⟨rfl, rfl⟩

theorem toRawInt128_toNat (o : ObjectId) :
    o.toRawInt128.toNat = o.high64.toNat * 2 ^ 64 + o.id.toNat := by
  unfold ObjectId.toRawInt128
  rw [BitVec.toNat_append, ← Nat.shiftLeft_add_eq_or_of_lt o.low64.isLt, Nat.shiftLeft_eq]
  rfl

/-- `<` on ids is the order of the 128 bit numbers, different ids have different
numbers; within one allocation it is the order of the offsets. -/
theorem C32_order (a b : ObjectId) :
    (a.lt b = true ↔ a.toRawInt128.toNat < b.toRawInt128.toNat) ∧
      (a.toRawInt128 = b.toRawInt128 ↔ a = b) ∧
      (AllocationId.ofObject a = AllocationId.ofObject b →
        (a.lt b = true ↔ a.offset.toNat < b.offset.toNat)) := by
  have ha := a.id.isLt
  have hb := b.id.isLt
  have hlt : a.lt b = true ↔ a.toRawInt128.toNat < b.toRawInt128.toNat := by
    rw [toRawInt128_toNat, toRawInt128_toNat]
    unfold ObjectId.lt ObjectId.low64
    rw [Bool.or_eq_true, Bool.and_eq_true, decide_eq_true_iff, decide_eq_true_iff, beq_iff_eq,
      ← BitVec.toNat_inj]
    omega
  refine ⟨hlt, ?_, ?_⟩
  · constructor
    · intro h
      have h' := congrArg BitVec.toNat h
      rw [toRawInt128_toNat, toRawInt128_toNat] at h'
      apply objectId_ext
      · apply BitVec.eq_of_toNat_eq
        omega
      · apply BitVec.eq_of_toNat_eq
        omega
    · rintro rfl
      rfl
  · intro h
    obtain ⟨h1, h2⟩ := (ofObject_eq_iff b a).1 h
    have hbits := (high64_inj.1 h1).2.1
    rw [hlt, toRawInt128_toNat, toRawInt128_toNat, h1, offset_toNat, offset_toNat, ← hbits]
    have e1 := Nat.div_add_mod a.id.toNat (2 ^ b.offsetBits.toNat)
    have e2 := Nat.div_add_mod b.id.toNat (2 ^ b.offsetBits.toNat)
    rw [h2] at e1
    omega

example : (⟨5, 3, kListFlag, 0b1011010⟩ : ObjectId).offset = 0b010 ∧
    (AllocationId.ofObject ⟨5, 3, kListFlag, 0b1011010⟩).raw.id = 0b1011000 ∧
    (AllocationId.ofObject ⟨5, 3, kListFlag, 0b1011010⟩).capacity = 8 := by decide

end Verif.ObjectId
