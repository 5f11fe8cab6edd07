import Verif.TypesBuffer.Spec

/-!
C98: bitmaps and types of a buffer of types.
-/

namespace Verif.TypesBuffer

theorem bit_get (b : Bool) (i k : Nat) (hk : k < 32) :
    (bit b <<< i).getLsbD k = (decide (k = i) && b) := by
  rw [BitVec.getLsbD_shiftLeft]
  unfold bit
  cases b with
  | false => simp
  | true =>
    simp only [if_true, BitVec.getLsbD_one, Bool.and_true]
    rw [Bool.eq_iff_iff]
    simp
    omega

theorem fold_get (f : Nat → Bool) (n k : Nat) (hk : k < 32) :
    ((List.range n).foldl (fun mask i => mask ||| bit (f i) <<< i) 0#32).getLsbD k =
      (decide (k < n) && f k) := by
  induction n with
  | zero => simp
  | succ n ih =>
    rw [List.range_succ, List.foldl_append, List.foldl_cons, List.foldl_nil, BitVec.getLsbD_or, ih,
      bit_get _ _ _ hk]
    by_cases h1 : k = n
    · subst h1
      simp
    · have h2 : (k < n + 1) ↔ k < n := by omega
      simp [h1, h2]

theorem full_get (inv : Bool) (data : List Byte) (t : Byte) (k : Nat) (hk : k < 32) :
    (fullWord inv data t).getLsbD k = (decide (data[k]? = some t) != inv) := by
  have h : (eqMask16 data t ||| eqMask16 (data.drop 16) t <<< 16).getLsbD k = decide (data[k]? = some t) := by
    unfold eqMask16
    rw [BitVec.getLsbD_or, fold_get _ _ _ hk, BitVec.getLsbD_shiftLeft, fold_get _ _ _ (by omega),
      List.getElem?_drop]
    by_cases h1 : k < 16
    · simp [h1]
    · have h2 : 16 + (k - 16) = k := by omega
      have h3 : k - 16 < 16 := by omega
      simp [h1, h2, h3, hk]
  unfold fullWord
  cases inv with
  | false => simp [h]
  | true =>
    rw [if_pos rfl, BitVec.getLsbD_not, h]
    simp [hk]

theorem last_get (inv : Bool) (data : List Byte) (t : Byte) (k : Nat) (hk : k < 32) :
    (lastWord inv data t).getLsbD k =
      (decide (k < data.length) && (decide (data[k]? = some t) != inv)) := by
  unfold lastWord
  rw [fold_get (fun i => if inv then decide (data[i]? ≠ some t) else decide (data[i]? = some t)) _ _ hk]
  cases inv with
  | false => simp
  | true => simp

/-- What the first loop does. -/
theorem loop_spec (inv : Bool) (data : List Byte) (t : Byte) (n : Nat) : ∀ offset,
    offset ≤ data.length → data.length ≤ offset + 32 * n →
    (fullWords inv data t n offset).2 = offset + 32 * (fullWords inv data t n offset).1.length ∧
    (fullWords inv data t n offset).2 ≤ data.length ∧
    data.length ≤ (fullWords inv data t n offset).2 + 31 ∧
    ∀ w, w < (fullWords inv data t n offset).1.length →
      (fullWords inv data t n offset).1[w]? = some (fullWord inv (data.drop (offset + 32 * w)) t) := by
  induction n with
  | zero =>
    intro offset h1 h2
    rw [fullWords]
    exact ⟨rfl, h1, by simp only; omega, fun w hw => absurd hw (Nat.not_lt_zero w)⟩
  | succ n ih =>
    intro offset h1 h2
    rw [fullWords]
    by_cases h : offset + 31 < data.length
    · rw [if_pos h]
      obtain ⟨i1, i2, i3, i4⟩ := ih (offset + 32) (by omega) (by omega)
      refine ⟨?_, i2, i3, ?_⟩
      · simp only [List.length_cons]
        rw [i1]
        omega
      · intro w hw
        cases w with
        | zero => rfl
        | succ w =>
          simp only [List.length_cons, List.getElem?_cons_succ] at hw ⊢
          rw [i4 w (by omega)]
          congr 3
          omega
    · rw [if_neg h]
      exact ⟨rfl, h1, by simp only; omega, fun w hw => absurd hw (Nat.not_lt_zero w)⟩

/-- **C98**: the bitmap of a type, and the inverted one, have for each element whether it is of the type;
they have as many words as needed, and no bits after the last element. -/
theorem C98_bitmap (inv : Bool) (data : List Byte) (t : Byte) :
    (toBitmap inv data t).length = (data.length + 31) / 32 ∧
    (∀ i (h : i < data.length), getBit (toBitmap inv data t) i = (decide (data[i] = t) != inv)) ∧
    ∀ i, data.length ≤ i → ((toBitmap inv data t)[i / 32]?.getD 0#32).getLsbD (i % 32) = false := by
  obtain ⟨h1, h2, h3, h4⟩ := loop_spec inv data t data.length 0 (Nat.zero_le _) (by omega)
  unfold toBitmap
  generalize (fullWords inv data t data.length 0).1 = ws at *
  generalize (fullWords inv data t data.length 0).2 = o at *
  have hfull : ∀ i, i < o → ∀ l : List Word,
      ((ws ++ l)[i / 32]?.getD 0#32).getLsbD (i % 32) = (decide (data[i]? = some t) != inv) := by
    intro i hi l
    have hw : i / 32 < ws.length := by omega
    rw [List.getElem?_append_left hw, h4 _ hw, Option.getD_some, full_get _ _ _ _ (Nat.mod_lt _ (by omega)),
      List.getElem?_drop]
    have : 0 + 32 * (i / 32) + i % 32 = i := by omega
    rw [this]
  by_cases hc : 0 < data.length - o
  · rw [if_pos hc]
    have hlast : ∀ i, o ≤ i → i < o + 32 →
        ((ws ++ [lastWord inv (data.drop o) t])[i / 32]?.getD 0#32).getLsbD (i % 32) =
          (decide (i < data.length) && (decide (data[i]? = some t) != inv)) := by
      intro i hi hi'
      have hw : i / 32 = ws.length := by omega
      rw [hw, List.getElem?_append_right (Nat.le_refl _), Nat.sub_self, List.getElem?_cons_zero,
        Option.getD_some, last_get _ _ _ _ (Nat.mod_lt _ (by omega)), List.getElem?_drop, List.length_drop]
      have e1 : o + i % 32 = i := by omega
      have e2 : i % 32 < data.length - o ↔ i < data.length := by omega
      rw [e1]
      simp only [e2]
    refine ⟨?_, ?_, ?_⟩
    · rw [List.length_append, List.length_singleton]
      omega
    · intro i hi
      unfold getBit
      rw [show (ws ++ [lastWord inv (data.drop o) t]).isEmpty = false from by simp, Bool.false_or]
      by_cases ho : i < o
      · rw [hfull i ho, List.getElem?_eq_getElem hi]
        simp
      · rw [hlast i (by omega) (by omega), List.getElem?_eq_getElem hi]
        simp [hi]
    · intro i hi
      by_cases ho : i < o + 32
      · rw [hlast i (by omega) ho]
        simp [Nat.not_lt.2 hi]
      · rw [List.getElem?_eq_none (by rw [List.length_append, List.length_singleton]; omega)]
        simp
  · rw [if_neg hc]
    refine ⟨by omega, ?_, ?_⟩
    · intro i hi
      unfold getBit
      have hne : ws.isEmpty = false := by
        cases ws with
        | nil => simp only [List.length_nil] at h1; omega
        | cons _ _ => rfl
      have := hfull i (by omega) []
      rw [List.append_nil] at this
      rw [hne, Bool.false_or, this, List.getElem?_eq_getElem hi]
      simp
    · intro i hi
      rw [List.getElem?_eq_none (by omega)]
      simp

/-- **C98**, for elements that are not removed and elements that are set. -/
theorem C98_set (data : List Byte) (i : Nat) (h : i < data.length) :
    (getBit (notRemoved data) i = true ↔ data[i] ≠ 0xfe#8) ∧
    (getBit (setBits data) i = true ↔ data[i] ≠ 0xff#8) := by
  unfold notRemoved setBits
  rw [(C98_bitmap _ _ _).2.1 i h, (C98_bitmap _ _ _).2.1 i h]
  constructor
  · by_cases hd : data[i] = 0xfe#8 <;> simp [kRemoved, hd]
  · by_cases hd : data[i] = 0xff#8 <;> simp [kUnset, hd]

variable {T : Type} [DecidableEq T]

set_option linter.unusedSectionVars false

theorem present_iff (c : Byte) : isPresent c = decide (c.toNat < 128) := by
  revert c
  decide +kernel

theorem find_some {t : T} {l : List T} {n i : Nat} (h : findIdx t l n = some i) :
    n ≤ i ∧ l[i - n]? = some t := by
  induction l generalizing n with
  | nil => cases h
  | cons u l ih =>
    rw [findIdx] at h
    by_cases hu : u = t
    · rw [if_pos hu] at h
      cases h
      rw [Nat.sub_self, hu]
      exact ⟨Nat.le_refl _, rfl⟩
    · rw [if_neg hu] at h
      obtain ⟨h1, h2⟩ := ih h
      refine ⟨by omega, ?_⟩
      rw [show i - n = (i - (n + 1)) + 1 from by omega, List.getElem?_cons_succ]
      exact h2

theorem find_none {t : T} {l : List T} {n : Nat} (h : findIdx t l n = none) : t ∉ l := by
  induction l generalizing n with
  | nil => exact List.not_mem_nil
  | cons u l ih =>
    rw [findIdx] at h
    by_cases hu : u = t
    · rw [if_pos hu] at h
      cases h
    · rw [if_neg hu] at h
      intro hm
      rcases List.mem_cons.1 hm with he | hm
      · exact hu he.symm
      · exact ih h hm

/-- **C98**, indexes of types: a type that is there is not added again, types that are there keep their
indexes, and an element that gets the index is of the type, while all others stay as they were. (There are
11 types; the indexes would run out at 128.) -/
theorem C98_types (b : Buf T) (t : T) (hn : b.types.Nodup) (hl : b.types.length < 128)
    (hc : ∀ c ∈ b.codes, isPresent c = true → c.toNat < b.types.length) (j : Nat) (hj : j < b.codes.length) :
    (getOrAdd b t).1.types.Nodup ∧
    (getOrAdd b t).1.types = (if t ∈ b.types then b.types else b.types ++ [t]) ∧
    (∀ k, typeOf (setCode (getOrAdd b t).1 j (getOrAdd b t).2) k = if k = j then some t else typeOf b k) ∧
    (∀ c, c = kUnset ∨ c = kRemoved → ∀ k,
      typeOf (setCode b j c) k = if k = j then none else typeOf b k) := by
  have hset : ∀ (b' : Buf T) (c : Byte) (k : Nat), b'.codes = b.codes → b.types <+: b'.types →
      typeOf (setCode b' j c) k =
        if k = j then (if isPresent c then b'.types[c.toNat]? else none) else typeOf b k := by
    intro b' c k hb ht
    unfold typeOf setCode
    simp only [hb]
    by_cases hk : k = j
    · subst hk
      rw [if_pos rfl, List.getElem?_set_self hj]
    · rw [if_neg hk, List.getElem?_set_ne (fun he => hk he.symm)]
      cases hck : b.codes[k]? with
      | none => rfl
      | some c' =>
        simp only
        by_cases hp : isPresent c' = true
        · rw [if_pos hp, if_pos hp]
          obtain ⟨l, hl'⟩ := ht
          rw [← hl', List.getElem?_append_left (hc c' (List.mem_of_getElem? hck) hp)]
        · rw [if_neg hp, if_neg hp]
  have hidx : ∀ i, i < 128 → isPresent (BitVec.ofNat 8 i) = true ∧ (BitVec.ofNat 8 i).toNat = i := by
    intro i hi
    have : (BitVec.ofNat 8 i).toNat = i := by
      rw [BitVec.toNat_ofNat]
      omega
    rw [present_iff, this]
    exact ⟨decide_eq_true hi, rfl⟩
  have hlast : ∀ c, c = kUnset ∨ c = kRemoved → ∀ k,
      typeOf (setCode b j c) k = if k = j then none else typeOf b k := by
    intro c hc' k
    rw [hset b c k rfl (List.prefix_refl _)]
    rcases hc' with rfl | rfl <;> rfl
  unfold getOrAdd
  cases hf : findIdx t b.types 0 with
  | some i =>
    have hi := (find_some hf).2
    rw [Nat.sub_zero] at hi
    have hlt : i < b.types.length := (List.getElem?_eq_some_iff.1 hi).1
    refine ⟨hn, by rw [if_pos (List.mem_of_getElem? hi)], fun k => ?_, hlast⟩
    obtain ⟨p1, p2⟩ := hidx i (by omega)
    simp only
    rw [hset b _ k rfl (List.prefix_refl _), p1, p2, hi]
    rfl
  | none =>
    have hi := find_none hf
    refine ⟨?_, by rw [if_neg hi], fun k => ?_, hlast⟩
    · refine List.nodup_append.2 ⟨hn, by simp, ?_⟩
      intro x hx y hy hxy
      rw [List.mem_singleton] at hy
      exact hi (by rw [← hy, ← hxy]; exact hx)
    · obtain ⟨p1, p2⟩ := hidx b.types.length hl
      simp only
      rw [hset { b with types := b.types ++ [t] } _ k rfl (List.prefix_append _ _), p1, p2]
      simp

/-- **C98**, a new buffer: no element is set and none has a type. -/
theorem C98_init (b : Buf T) (size j : Nat) :
    (initAllUnset b size).codes.length = size ∧ typeOf (initAllUnset b size) j = none ∧
    (j < size → getBit (setBits (initAllUnset b size).codes) j = false ∧
      getBit (notRemoved (initAllUnset b size).codes) j = true) := by
  refine ⟨by simp [initAllUnset], ?_, ?_⟩
  · unfold typeOf initAllUnset
    simp only [List.getElem?_replicate]
    by_cases h : j < size
    · rw [if_pos h]; rfl
    · rw [if_neg h]
  · intro h
    have hl : j < (initAllUnset b size).codes.length := by simpa [initAllUnset] using h
    obtain ⟨h1, h2⟩ := C98_set (initAllUnset b size).codes j hl
    have hg : (initAllUnset b size).codes[j] = 0xff#8 := by simp [initAllUnset, kUnset]
    rw [hg] at h1 h2
    refine ⟨?_, h1.2 (by decide)⟩
    cases hb : getBit (setBits (initAllUnset b size).codes) j with
    | false => rfl
    | true => exact (h2.1 hb rfl).elim

/-! 34 elements are two words. -/

example : toBitmap false (List.replicate 33 0#8 ++ [1#8]) 1#8 = [0#32, 2#32] := by decide +kernel

example : toBitmap true (List.replicate 33 0#8 ++ [1#8]) 0#8 = [0#32, 2#32] := by decide +kernel

example : toBitmap true (List.replicate 32 0#8) 1#8 = [0xffffffff#32] := by decide +kernel

example : (getOrAdd ({ codes := [0#8, kUnset], types := ["INT32"] } : Buf String) "TEXT").2 = 1#8 ∧
    ("TEXT" ∉ ["INT32"] ∧ ["INT32"].Nodup) ∧
    ∀ c ∈ [0#8, kUnset], isPresent c = true → c.toNat < 1 := by decide +kernel

end Verif.TypesBuffer
