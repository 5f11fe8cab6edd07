import Verif.Uuid.Model
import Verif.ObjectId.SetTheorems
import Verif.ObjectId.KindTheorems

/-! Lemmas about sorting, the order of strings, little endian bytes and the ids made from
main objects. -/

namespace Verif.Uuid

open Verif.ObjectId

/-! ### Sorting -/

theorem insertBy_perm {α : Type} (lt : α → α → Bool) (x : α) (l : List α) :
    (insertBy lt x l).Perm (x :: l) := by
  induction l with
  | nil => exact List.Perm.refl _
  | cons y l ih =>
    unfold insertBy
    split
    · exact (List.Perm.cons y ih).trans (List.Perm.swap x y l)
    · exact List.Perm.refl _

theorem sortBy_perm {α : Type} (lt : α → α → Bool) (l : List α) : (sortBy lt l).Perm l := by
  induction l with
  | nil => exact List.Perm.refl _
  | cons x l ih => exact (insertBy_perm lt x _).trans (List.Perm.cons x ih)

/-- A strict weak order. -/
structure WeakOrder {α : Type} (lt : α → α → Bool) : Prop where
  asymm : ∀ a b, lt a b = true → lt b a = false
  negTrans : ∀ a b c, lt a b = false → lt b c = false → lt a c = false

theorem insertBy_sorted {α : Type} {lt : α → α → Bool} (w : WeakOrder lt) (x : α) (l : List α)
    (h : l.Pairwise (fun a b => lt b a = false)) :
    (insertBy lt x l).Pairwise (fun a b => lt b a = false) := by
  induction l with
  | nil => simp [insertBy]
  | cons y l ih =>
    have h' := List.pairwise_cons.1 h
    unfold insertBy
    split
    · next hlt =>
      refine List.pairwise_cons.2 ⟨?_, ih h'.2⟩
      intro z hz
      rcases List.mem_cons.1 ((insertBy_perm lt x l).mem_iff.1 hz) with rfl | hz
      · exact w.asymm _ _ hlt
      · exact h'.1 z hz
    · next hlt =>
      refine List.pairwise_cons.2 ⟨?_, h⟩
      intro z hz
      have hyx : lt y x = false := by simpa using hlt
      rcases List.mem_cons.1 hz with rfl | hz
      · exact hyx
      · exact w.negTrans _ _ _ (h'.1 z hz) hyx

theorem sortBy_sorted {α : Type} {lt : α → α → Bool} (w : WeakOrder lt) (l : List α) :
    (sortBy lt l).Pairwise (fun a b => lt b a = false) := by
  induction l with
  | nil => exact List.Pairwise.nil
  | cons x l ih => exact insertBy_sorted w x _ ih

/-- Sorting does not depend on the order of the input if no two elements compare equal. -/
theorem sortBy_eq_of_perm {α : Type} {lt : α → α → Bool} (w : WeakOrder lt) {l r : List α}
    (h : l.Perm r) (hd : ∀ a ∈ l, ∀ b ∈ l, lt a b = false → lt b a = false → a = b) :
    sortBy lt l = sortBy lt r := by
  apply List.Perm.eq_of_pairwise (le := fun a b => lt b a = false) _ (sortBy_sorted w l)
    (sortBy_sorted w r) ((sortBy_perm lt l).trans (h.trans (sortBy_perm lt r).symm))
  intro a b ha hb h1 h2
  exact hd a ((sortBy_perm lt l).mem_iff.1 ha) b
    (h.mem_iff.2 ((sortBy_perm lt r).mem_iff.1 hb)) h2 h1

/-- Sorting commutes with maps that keep the comparison. -/
theorem sortBy_map {α β : Type} (lt : α → α → Bool) (lt' : β → β → Bool) (f : α → β)
    (hf : ∀ a b, lt' (f a) (f b) = lt a b) (l : List α) :
    sortBy lt' (l.map f) = (sortBy lt l).map f := by
  have hins : ∀ (x : α) (l : List α), insertBy lt' (f x) (l.map f) = (insertBy lt x l).map f := by
    intro x l
    induction l with
    | nil => rfl
    | cons y l ih =>
      rw [List.map_cons]
      unfold insertBy
      rw [hf]
      split
      · rw [ih, List.map_cons]
      · rfl
  induction l with
  | nil => rfl
  | cons x l ih =>
    rw [List.map_cons]
    show insertBy lt' (f x) (sortBy lt' (l.map f)) = _
    rw [ih, hins]
    rfl

/-! ### Order of strings -/

theorem bytesLt_asymm (a b : Bytes) (h : bytesLt a b = true) : bytesLt b a = false := by
  induction a generalizing b with
  | nil => cases b <;> rfl
  | cons x a ih =>
    cases b with
    | nil => cases h
    | cons y b =>
      unfold bytesLt at h ⊢
      by_cases hxy : x < y
      · have hyx : ¬ y < x := by
          rw [UInt8.lt_iff_toNat_lt] at *
          omega
        rw [if_neg hyx, if_pos hxy]
      · rw [if_neg hxy] at h
        by_cases hyx : y < x
        · rw [if_pos hyx] at h
          cases h
        · rw [if_neg hyx] at h
          rw [if_neg hyx, if_neg hxy]
          exact ih b h

theorem bytesLt_cons_false {x y : UInt8} {a b : Bytes} :
    bytesLt (x :: a) (y :: b) = false ↔ y < x ∨ (x = y ∧ bytesLt a b = false) := by
  rw [bytesLt]
  by_cases hxy : x < y
  · rw [if_pos hxy]
    rw [UInt8.lt_iff_toNat_lt] at hxy
    constructor
    · intro h; cases h
    · rintro (h | ⟨rfl, _⟩)
      · rw [UInt8.lt_iff_toNat_lt] at h; omega
      · omega
  · rw [if_neg hxy]
    by_cases hyx : y < x
    · rw [if_pos hyx]
      simp [hyx]
    · rw [if_neg hyx]
      have : x = y := by
        apply UInt8.toNat_inj.1
        rw [UInt8.lt_iff_toNat_lt] at hxy hyx
        omega
      simp [this]

theorem bytesLt_negTrans (a b c : Bytes) (h1 : bytesLt a b = false) (h2 : bytesLt b c = false) :
    bytesLt a c = false := by
  induction a generalizing b c with
  | nil =>
    cases b with
    | nil => exact h2
    | cons y b => cases h1
  | cons x a ih =>
    cases c with
    | nil => rfl
    | cons z c =>
      cases b with
      | nil => cases h2
      | cons y b =>
        rw [bytesLt_cons_false] at *
        rcases h1 with h1 | ⟨rfl, h1⟩
        · rcases h2 with h2 | ⟨rfl, h2⟩
          · left
            rw [UInt8.lt_iff_toNat_lt] at *
            omega
          · exact Or.inl h1
        · rcases h2 with h2 | ⟨rfl, h2⟩
          · exact Or.inl h2
          · exact Or.inr ⟨rfl, ih b c h1 h2⟩

theorem bytesLt_antisymm (a b : Bytes) (h1 : bytesLt a b = false) (h2 : bytesLt b a = false) :
    a = b := by
  induction a generalizing b with
  | nil =>
    cases b with
    | nil => rfl
    | cons y b => cases h1
  | cons x a ih =>
    cases b with
    | nil => cases h2
    | cons y b =>
      rw [bytesLt_cons_false] at h1 h2
      rcases h1 with h1 | ⟨rfl, h1⟩
      · rcases h2 with h2 | ⟨rfl, h2⟩
        · rw [UInt8.lt_iff_toNat_lt] at *
          omega
        · rw [UInt8.lt_iff_toNat_lt] at *
          omega
      · rcases h2 with h2 | ⟨_, h2⟩
        · rw [UInt8.lt_iff_toNat_lt] at *
          omega
        · rw [ih b h1 h2]

theorem nameLt_weakOrder {α : Type} : WeakOrder (nameLt (α := α)) :=
  ⟨fun a b => bytesLt_asymm a.1 b.1, fun a b c => bytesLt_negTrans a.1 b.1 c.1⟩

theorem keyLt_weakOrder : WeakOrder keyLt := by
  constructor
  · intro a b h
    unfold keyLt at *
    simp only [decide_eq_true_eq, decide_eq_false_iff_not] at *
    omega
  · intro a b c h1 h2
    unfold keyLt at *
    simp only [decide_eq_false_iff_not] at *
    omega

/-- Elements of a list with distinct names that compare equal are equal. -/
theorem eq_of_name {α : Type} {l : List (Bytes × α)} (hd : (l.map (·.1)).Nodup)
    (a : Bytes × α) (ha : a ∈ l) (b : Bytes × α) (hb : b ∈ l) (h1 : nameLt a b = false)
    (h2 : nameLt b a = false) : a = b := by
  have hn := bytesLt_antisymm _ _ h1 h2
  induction l with
  | nil => cases ha
  | cons x l ih =>
    rw [List.map_cons, List.nodup_cons] at hd
    rcases List.mem_cons.1 ha with ha2 | ha2
    · rcases List.mem_cons.1 hb with hb2 | hb2
      · rw [ha2, hb2]
      · exact absurd (List.mem_map.2 ⟨b, hb2, by rw [← ha2]; exact hn.symm⟩) hd.1
    · rcases List.mem_cons.1 hb with hb2 | hb2
      · exact absurd (List.mem_map.2 ⟨a, ha2, by rw [← hb2]; exact hn⟩) hd.1
      · exact ih hd.2 ha2 hb2

/-! ### Bytes -/

theorem leBytes_length (n x : Nat) : (leBytes n x).length = n := by
  induction n generalizing x with
  | zero => rfl
  | succ n ih => simp [leBytes, ih]

theorem leBytes_inj {n x y : Nat} (hx : x < 256 ^ n) (hy : y < 256 ^ n)
    (h : leBytes n x = leBytes n y) : x = y := by
  induction n generalizing x y with
  | zero =>
    simp only [Nat.pow_zero] at hx hy
    omega
  | succ n ih =>
    unfold leBytes at h
    simp only [List.cons.injEq] at h
    have h1 : x % 256 = y % 256 := by
      have := congrArg UInt8.toNat h.1
      simpa using this
    rw [Nat.pow_succ] at hx hy
    have h2 := ih (x := x / 256) (y := y / 256) (by omega) (by omega) h.2
    omega

theorem fpBytes_inj {a b : BitVec 128} (h : leBytes 16 a.toNat = leBytes 16 b.toNat) : a = b :=
  BitVec.eq_of_toNat_eq (leBytes_inj a.isLt b.isLt h)

theorem idBytes_inj {a b : ObjectId} (h : idBytes a = idBytes b) : a = b := by
  unfold idBytes at h
  obtain ⟨h1, h2⟩ := List.append_inj h (by rw [leBytes_length, leBytes_length])
  have e1 : a.high64 = b.high64 := BitVec.eq_of_toNat_eq (leBytes_inj a.high64.isLt b.high64.isLt h1)
  have e2 : a.low64 = b.low64 := BitVec.eq_of_toNat_eq (leBytes_inj a.low64.isLt b.low64.isLt h2)
  exact objectId_ext e1 e2

/-! ### Ids from main objects -/

theorem mixed_toNat (x m : BitVec 64) (b : BitVec 6) :
    (x ^^^ ((m ^^^ x) &&& ((1#64 <<< b.toNat) - 1#64))).toNat =
      x.toNat / 2 ^ b.toNat * 2 ^ b.toNat + m.toNat % 2 ^ b.toNat := by
  apply Nat.eq_of_testBit_eq
  intro i
  rw [Nat.mul_comm, Nat.testBit_two_pow_mul_add _ (Nat.mod_lt _ (Nat.two_pow_pos _))]
  rw [BitVec.toNat_xor, BitVec.toNat_and, BitVec.toNat_xor, toNat_mask]
  rw [Nat.testBit_xor, Nat.testBit_and, Nat.testBit_xor, Nat.testBit_two_pow_sub_one]
  by_cases hi : i < b.toNat
  · rw [if_pos hi, Nat.testBit_mod_two_pow]
    simp only [hi, decide_true, Bool.and_true, Bool.true_and]
    cases x.toNat.testBit i <;> cases m.toNat.testBit i <;> rfl
  · rw [if_neg hi]
    rw [Nat.testBit_div_two_pow]
    simp [hi]
    congr 1
    omega

theorem mainId_toNat (flag : BitVec 6) (o : ObjectId) (fp : BitVec 128) :
    (createUuidWithMainObject flag o fp).id.toNat =
      (ObjectId.ofFingerprint fp).id.toNat / 2 ^ o.offsetBits.toNat * 2 ^ o.offsetBits.toNat +
        o.id.toNat % 2 ^ o.offsetBits.toNat :=
  mixed_toNat _ _ _

theorem main_offset (flag : BitVec 6) (o : ObjectId) (fp : BitVec 128) :
    (createUuidWithMainObject flag o fp).offset = o.offset := by
  apply BitVec.eq_of_toNat_eq
  rw [offset_toNat, offset_toNat, mainId_toNat]
  show _ % 2 ^ o.offsetBits.toNat = _
  rw [Nat.mul_comm, Nat.mul_add_mod, Nat.mod_mod]

/-- The allocation of the new id is that of the new id of the start of the allocation. -/
theorem main_alloc (flag : BitVec 6) (o p : ObjectId) (fp : BitVec 128)
    (h : AllocationId.ofObject o = AllocationId.ofObject p) :
    AllocationId.ofObject (createUuidWithMainObject flag o fp) =
      AllocationId.ofObject (createUuidWithMainObject flag p fp) := by
  have h1 := (ofObject_eq_iff p o).1 h
  have hb : o.offsetBits = p.offsetBits := ((high64_inj.1 h1.1).2.1).symm
  rw [ofObject_eq_iff]
  refine ⟨?_, ?_⟩
  · rw [high64_inj]
    exact ⟨rfl, hb.symm, rfl⟩
  · have e : (createUuidWithMainObject flag p fp).offsetBits = p.offsetBits := rfl
    rw [e, mainId_toNat, mainId_toNat, hb]
    have hp := Nat.two_pow_pos p.offsetBits.toNat
    rw [Nat.mul_comm _ (2 ^ p.offsetBits.toNat), Nat.mul_add_div hp, Nat.mul_add_div hp,
      Nat.div_eq_of_lt (Nat.mod_lt _ hp), Nat.div_eq_of_lt (Nat.mod_lt _ hp)]

theorem ofObject_raw (o : ObjectId) :
    AllocationId.ofObject (AllocationId.ofObject o).raw = AllocationId.ofObject o := by
  rw [ofObject_eq_iff]
  exact ⟨rfl, ofObject_div o⟩

theorem objectByOffset_zero (a : AllocationId) : a.objectByOffset 0 = a.raw := by
  unfold AllocationId.objectByOffset
  rw [show a.raw.id ||| 0 = a.raw.id from by simp]

theorem objectByOffset_offset (o : ObjectId) :
    (AllocationId.ofObject o).objectByOffset o.offset = o :=
  (C32_id_is_allocation_and_offset o).2.2

end Verif.Uuid
