/-
The bytes of the input and of the output.
-/
import Verif.JsonSalvage.Run

namespace Verif.JsonSalvage

open Verif.JsonStream

variable {D : Defects} {raw : Prop} {o : Options}

/-! ### The buffer of bytes is left alone by the rules -/

section

variable (s : Salvage)

@[simp] theorem emit_utf8 (x : List Nat) : (s.emit x).utf8Buffer = s.utf8Buffer := rfl
@[simp] theorem set_utf8 (st : State) (b : List Nat) : (s.set st b).utf8Buffer = s.utf8Buffer := rfl
@[simp] theorem push_utf8 (c : Nat) : (s.push c).utf8Buffer = s.utf8Buffer := rfl
@[simp] theorem clear_utf8 : s.clear.utf8Buffer = s.utf8Buffer := rfl

@[simp] theorem pushIn_utf8 (c : Option Nat) : (s.pushIn c).utf8Buffer = s.utf8Buffer := by
  cases c <;> rfl

@[simp] theorem emitCodePoint_utf8 (c : Nat) : (s.emitCodePoint o c).utf8Buffer = s.utf8Buffer := by
  unfold Salvage.emitCodePoint Salvage.emitNext Salvage.emitReplacement
  repeat' split
  all_goals rfl

@[simp] theorem emitCodePoints_utf8 (cs : List Nat) : (s.emitCodePoints o cs).utf8Buffer = s.utf8Buffer := by
  induction cs generalizing s with
  | nil => rfl
  | cons c cs ih => rw [Salvage.emitCodePoints, ih, emitCodePoint_utf8]

@[simp] theorem startValue_utf8 : s.startValue.utf8Buffer = s.utf8Buffer := by
  unfold Salvage.startValue
  split <;> rfl

@[simp] theorem startNonKey_utf8 : s.startNonKey.utf8Buffer = s.utf8Buffer := by
  unfold Salvage.startNonKey
  extract_lets t
  split
  · exact startValue_utf8 s
  · exact startValue_utf8 s

@[simp] theorem endValue_utf8 : s.endValue.utf8Buffer = s.utf8Buffer := rfl

@[simp] theorem startArray_utf8 : s.startArray.utf8Buffer = s.utf8Buffer := by simp [Salvage.startArray]
@[simp] theorem startObject_utf8 : s.startObject.utf8Buffer = s.utf8Buffer := by simp [Salvage.startObject]

@[simp] theorem endContainer_utf8 : s.endContainer.utf8Buffer = s.utf8Buffer := by
  unfold Salvage.endContainer
  repeat' split
  all_goals simp

@[simp] theorem startString_utf8 : s.startString.utf8Buffer = s.utf8Buffer := by simp [Salvage.startString]

@[simp] theorem endString_utf8 : (s.endString o).utf8Buffer = s.utf8Buffer := by
  unfold Salvage.endString Salvage.emitReplacement
  split <;> simp

@[simp] theorem emitAtom_utf8 (x : List Nat) : (s.emitAtom x).utf8Buffer = s.utf8Buffer := by simp [Salvage.emitAtom]

@[simp] theorem emitBuffer_utf8 (b : Nat) : (s.emitBuffer o b).utf8Buffer = s.utf8Buffer := by
  simp [Salvage.emitBuffer]

end

theorem baseRules_utf8 (c : Option Nat) (s : Salvage) : (baseRules o c s).1.utf8Buffer = s.utf8Buffer := by
  have h1 : (baseEmpty o c s).utf8Buffer = s.utf8Buffer := by
    unfold baseEmpty
    cases c <;> simp only [apply_ite Salvage.utf8Buffer] <;> simp
  have h2 : ∀ s : Salvage, (baseAtom o s).1.utf8Buffer = s.utf8Buffer := by
    intro s
    unfold baseAtom
    extract_lets m
    split
    · simp
    · split
      · rfl
      · split <;> simp
  unfold baseRules
  simp only [apply_ite Prod.fst, apply_ite Salvage.utf8Buffer, h1, h2]
  simp

theorem stringRules_utf8 (c : Option Nat) (s : Salvage) : (stringRules o c s).1.utf8Buffer = s.utf8Buffer := by
  have h1 : (stringEmpty o c s).utf8Buffer = s.utf8Buffer := by
    unfold stringEmpty
    repeat' split
    all_goals simp
  have h2 : (stringEscape o c s).utf8Buffer = s.utf8Buffer := by
    unfold stringEscape
    cases c <;> simp only [apply_ite Salvage.utf8Buffer] <;> simp
  have h3 : ∀ q, (stringQuotes o q c s).utf8Buffer = s.utf8Buffer := by
    intro q
    unfold stringQuotes
    cases c <;> simp only [apply_ite Salvage.utf8Buffer] <;> simp
  have h4 : ∀ b n d, (stringDigits o b n d c s).1.utf8Buffer = s.utf8Buffer := by
    intro b n d
    unfold stringDigits
    simp only [apply_ite Prod.fst, apply_ite Salvage.utf8Buffer]
    simp
  unfold stringRules
  cases c <;> simp only [apply_ite Prod.fst, apply_ite Salvage.utf8Buffer, h1, h2, h3, h4] <;> simp

theorem commentRules_utf8 (c : Option Nat) (s : Salvage) : (commentRules c s).utf8Buffer = s.utf8Buffer := by
  unfold commentRules
  repeat' split
  all_goals simp

theorem numberRules_utf8 (c : Option Nat) (s : Salvage) : (numberRules c s).1.utf8Buffer = s.utf8Buffer := by
  have h1 : (bufferedRules c s).1.utf8Buffer = s.utf8Buffer := by
    unfold bufferedRules
    simp only [apply_ite Prod.fst, apply_ite Salvage.utf8Buffer]
    simp
  have h2 : (decimalRules c s).1.utf8Buffer = s.utf8Buffer := by
    unfold decimalRules
    simp only [apply_ite Prod.fst, apply_ite Salvage.utf8Buffer, endValue_utf8, emit_utf8, push_utf8]
    simp
  unfold numberRules
  simp only [apply_ite Prod.fst, apply_ite Salvage.utf8Buffer, h1, h2]
  simp

theorem allRules_utf8 (c : Option Nat) (s : Salvage) : (allRules o c s).1.utf8Buffer = s.utf8Buffer := by
  unfold allRules
  split <;> simp [baseRules_utf8, stringRules_utf8, commentRules_utf8, numberRules_utf8]

theorem processCodePoint_utf8 (c : Option Nat) (s : Salvage) :
    (processCodePoint o c s).utf8Buffer = s.utf8Buffer := by
  unfold processCodePoint
  simp only [apply_ite Salvage.utf8Buffer, allRules_utf8]
  simp

/-! ### Decoding -/

/-- The beginning of a sequence of bytes. -/
def BufOk (b : Bytes) : Prop :=
  b = [] ∨ ∃ a t, b = a :: t ∧ 0xC2 ≤ a ∧ b.length < sequenceLength a ∧ ∀ c ∈ t, isTrailByte c = true

theorem sequenceLength_le (a : Nat) : 1 ≤ sequenceLength a ∧ sequenceLength a ≤ 4 := by
  unfold sequenceLength
  repeat' split
  all_goals omega

theorem decode1 (a : Nat) : decodeBytes [a] = if a < 0x80 then a else replacement := rfl

theorem decode2 (a b : Nat) : decodeBytes [a, b] = (a - 0xC0) * 0x40 + (b - 0x80) := rfl

theorem decode3 (a b c : Nat) : decodeBytes [a, b, c] =
    if (a - 0xE0) * 0x1000 + (b - 0x80) * 0x40 + (c - 0x80) < 0x800 ∨
      (0xD800 ≤ (a - 0xE0) * 0x1000 + (b - 0x80) * 0x40 + (c - 0x80) ∧
        (a - 0xE0) * 0x1000 + (b - 0x80) * 0x40 + (c - 0x80) < 0xE000) then replacement
    else (a - 0xE0) * 0x1000 + (b - 0x80) * 0x40 + (c - 0x80) := rfl

theorem decode4 (a b c d : Nat) : decodeBytes [a, b, c, d] =
    if (a - 0xF0) * 0x40000 + (b - 0x80) * 0x1000 + (c - 0x80) * 0x40 + (d - 0x80) < 0x10000 ∨
      0x110000 ≤ (a - 0xF0) * 0x40000 + (b - 0x80) * 0x1000 + (c - 0x80) * 0x40 + (d - 0x80) then replacement
    else (a - 0xF0) * 0x40000 + (b - 0x80) * 0x1000 + (c - 0x80) * 0x40 + (d - 0x80) := rfl

theorem scalar_decode {a : Nat} {t : Bytes} (ht : ∀ c ∈ t, isTrailByte c = true)
    (hl : (a :: t).length = sequenceLength a) : Scalar (decodeBytes (a :: t)) := by
  have hs := sequenceLength_le a
  have tb : ∀ c, isTrailByte c = true → 0x80 ≤ c ∧ c < 0xC0 := by intro c h; simpa [isTrailByte] using h
  rcases t with _ | ⟨b, _ | ⟨c, _ | ⟨d, _ | ⟨e, t⟩⟩⟩⟩
  · simp only [decode1, decode2, decode3, decode4]
    split
    · unfold Scalar; omega
    · exact scalar_replacement
  · have := tb b (ht b (by simp))
    unfold sequenceLength at hl
    simp only [decode1, decode2, decode3, decode4]
    unfold Scalar
    simp at hl
    repeat' split at hl
    all_goals first | omega | (simp at hl; done)
  · have := tb b (ht b (by simp))
    have := tb c (ht c (by simp))
    unfold sequenceLength at hl
    simp only [decode1, decode2, decode3, decode4]
    simp at hl
    split
    · exact scalar_replacement
    · unfold Scalar
      repeat' split at hl
      all_goals first | omega | (simp at hl; done)
  · simp only [decode1, decode2, decode3, decode4]
    split
    · exact scalar_replacement
    · unfold Scalar
      have := tb b (ht b (by simp))
      have := tb c (ht c (by simp))
      have := tb d (ht d (by simp))
      omega
  · simp at hl
    omega

/-- A code point of one byte. -/
theorem decode_ascii {a : Nat} {t : Bytes} (ht : ∀ c ∈ t, isTrailByte c = true)
    (hl : (a :: t).length = sequenceLength a) (h : decodeBytes (a :: t) < 0x80) : t = [] ∧ decodeBytes (a :: t) = a := by
  have tb : ∀ c, isTrailByte c = true → 0x80 ≤ c ∧ c < 0xC0 := by intro c h; simpa [isTrailByte] using h
  have hs := sequenceLength_le a
  rcases t with _ | ⟨b, _ | ⟨c, _ | ⟨d, _ | ⟨e, t⟩⟩⟩⟩
  · simp only [decode1, decode2, decode3, decode4] at h ⊢
    split
    · simp
    · rename_i hn
      rw [if_neg hn] at h
      simp [replacement] at h
  · exfalso
    have := tb b (ht b (by simp))
    unfold sequenceLength at hl
    simp only [decode1, decode2, decode3, decode4] at h
    simp at hl
    repeat' split at hl
    all_goals first | omega | (simp at hl; done)
  · exfalso
    simp only [decode1, decode2, decode3, decode4] at h
    split at h
    · simp [replacement] at h
    · omega
  · exfalso
    simp only [decode1, decode2, decode3, decode4] at h
    split at h
    · simp [replacement] at h
    · omega
  · simp at hl
    omega

theorem decode_head {a : Nat} {t : Bytes} (hl : (a :: t).length = sequenceLength a)
    (h : 0x80 ≤ decodeBytes (a :: t)) : 0x80 ≤ a := by
  have : a < 0x80 → sequenceLength a = 1 := by intro h; unfold sequenceLength; rw [if_pos (by omega)]
  by_cases ha : a < 0x80
  · rw [this ha] at hl
    have : t = [] := by simpa using hl
    subst this
    simp [decode1, ha] at h
    exact h
  · omega

end Verif.JsonSalvage
