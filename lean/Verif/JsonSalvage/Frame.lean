/-
The rules do not look at the output: characters in the place of bytes, and the whole output in the place
of its parts.
-/
import Verif.JsonSalvage.Bytes
import Verif.JsonSalvage.Steps

namespace Verif.JsonSalvage

open Verif.JsonStream

variable {o : Options}

/-- The same state with more output before. -/
def Salvage.pre (p : List Nat) (s : Salvage) : Salvage := { s with output := p ++ s.output }

section

variable (p : List Nat) (s : Salvage)

@[simp] theorem pre_buffer : (s.pre p).buffer = s.buffer := rfl
@[simp] theorem pre_state : (s.pre p).state = s.state := rfl
@[simp] theorem pre_key : (s.pre p).key = s.key := rfl
@[simp] theorem pre_stack : (s.pre p).stack = s.stack := rfl
@[simp] theorem pre_sep : (s.pre p).sep = s.sep := rfl
@[simp] theorem pre_surrogate : (s.pre p).surrogate = s.surrogate := rfl
@[simp] theorem pre_mayNest : (s.pre p).mayNest o = s.mayNest o := rfl
@[simp] theorem pre_unquotedNext (c : Option Nat) : (s.pre p).unquotedNext o c = s.unquotedNext o c := rfl
@[simp] theorem pre_bufferCodePoint (b : Nat) : (s.pre p).bufferCodePoint b = s.bufferCodePoint b := rfl

@[simp] theorem pre_emit (x : List Nat) : (s.pre p).emit x = (s.emit x).pre p := by
  simp [Salvage.pre, Salvage.emit]

@[simp] theorem pre_set (st : State) (b : List Nat) : (s.pre p).set st b = (s.set st b).pre p := rfl
@[simp] theorem pre_push (c : Nat) : (s.pre p).push c = (s.push c).pre p := rfl
@[simp] theorem pre_clear : (s.pre p).clear = s.clear.pre p := rfl

@[simp] theorem pre_pushIn (c : Option Nat) : (s.pre p).pushIn c = (s.pushIn c).pre p := by cases c <;> rfl

@[simp] theorem pre_emitCodePoint (c : Nat) : (s.pre p).emitCodePoint o c = (s.emitCodePoint o c).pre p := by
  unfold Salvage.emitCodePoint Salvage.emitNext Salvage.emitReplacement
  rcases e : s.surrogate with _ | l <;> simp only [pre_surrogate, e]
  all_goals
    by_cases h1 : isLead c = true <;> by_cases h2 : isTrail c = true <;> by_cases h3 : 0x110000 ≤ c <;>
      simp [h1, h2, h3, Salvage.pre, Salvage.emit]

@[simp] theorem pre_emitCodePoints (cs : List Nat) :
    (s.pre p).emitCodePoints o cs = (s.emitCodePoints o cs).pre p := by
  induction cs generalizing s with
  | nil => rfl
  | cons c cs ih => rw [Salvage.emitCodePoints, Salvage.emitCodePoints, pre_emitCodePoint, ih]

@[simp] theorem pre_startValue : (s.pre p).startValue = s.startValue.pre p := by
  rw [startValue_eq, startValue_eq]
  simp [Salvage.pre]

@[simp] theorem pre_startNonKey : (s.pre p).startNonKey = s.startNonKey.pre p := by
  unfold Salvage.startNonKey
  simp only [pre_startValue, pre_key, pre_emit]
  split <;> rfl

@[simp] theorem pre_endValue : (s.pre p).endValue = s.endValue.pre p := rfl

@[simp] theorem pre_startArray : (s.pre p).startArray = s.startArray.pre p := by
  simp only [Salvage.startArray, pre_startNonKey, pre_emit]
  rfl

@[simp] theorem pre_startObject : (s.pre p).startObject = s.startObject.pre p := by
  simp only [Salvage.startObject, pre_startNonKey, pre_emit]
  rfl

@[simp] theorem pre_endContainer : (s.pre p).endContainer = s.endContainer.pre p := by
  obtain ⟨u, st, sep, key, buf, state, su, out⟩ := s
  rcases st with _ | ⟨_ | _, st⟩ <;> cases key <;>
    simp [Salvage.endContainer, Salvage.pre, Salvage.emit, Salvage.endValue, Salvage.set]

@[simp] theorem pre_startString : (s.pre p).startString = s.startString.pre p := by
  simp [Salvage.startString]

@[simp] theorem pre_endString : (s.pre p).endString o = (s.endString o).pre p := by
  obtain ⟨u, st, sep, key, buf, state, su, out⟩ := s
  rcases su with _ | su <;>
    simp [Salvage.endString, Salvage.pre, Salvage.emit, Salvage.endValue, Salvage.set, Salvage.emitReplacement]

@[simp] theorem pre_emitAtom (x : List Nat) : (s.pre p).emitAtom x = (s.emitAtom x).pre p := by
  simp [Salvage.emitAtom]

@[simp] theorem pre_emitBuffer (b : Nat) : (s.pre p).emitBuffer o b = (s.emitBuffer o b).pre p := by
  simp only [Salvage.emitBuffer, pre_bufferCodePoint, pre_emitCodePoint]
  rfl

end

/-- The result of a rule with more output before. -/
def pre2 (p : List Nat) (r : Salvage × Bool) : Salvage × Bool := (r.1.pre p, r.2)

theorem ite_pre {c : Prop} [Decidable c] {p : List Nat} {a b : Salvage} :
    (if c then a.pre p else b.pre p) = (if c then a else b).pre p := by split <;> rfl

theorem baseEmpty_pre (p : List Nat) (c : Option Nat) (s : Salvage) :
    baseEmpty o c (s.pre p) = (baseEmpty o c s).pre p := by
  unfold baseEmpty
  cases c
  · rfl
  · simp only [pre_set, pre_push, pre_endContainer, pre_startObject, pre_startArray, pre_startString, pre_startValue, pre_emit,
      pre_key, pre_mayNest, ite_pre]

theorem baseAtom_pre (p : List Nat) (s : Salvage) : baseAtom o (s.pre p) = pre2 p (baseAtom o s) := by
  unfold baseAtom pre2
  by_cases hk : s.key = true <;> rcases hm : matchAtoms s.buffer (atoms o.allowNan) with ⟨_ | out, _ | _⟩ <;>
    by_cases hb : s.buffer = [ch 'b', ch '"'] ∨ s.buffer = [ch 'b', ch '\''] ∨ s.buffer = [ch 'u', ch '"'] ∨
      s.buffer = [ch 'u', ch '\''] <;>
    simp [hk, hm, hb]

theorem baseRules_pre (p : List Nat) (c : Option Nat) (s : Salvage) :
    baseRules o c (s.pre p) = pre2 p (baseRules o c s) := by
  unfold baseRules
  simp only [baseEmpty_pre, baseAtom_pre, pre_buffer, pre_unquotedNext, pre_set, pre_push, pre_emit, pre_endValue, pre_pushIn,
    pre_startString, pre_emitCodePoints, pre_endString, apply_ite (pre2 p)]
  rfl

theorem stringRules_pre (p : List Nat) (c : Option Nat) (s : Salvage) :
    stringRules o c (s.pre p) = pre2 p (stringRules o c s) := by
  have h1 : stringEmpty o c (s.pre p) = (stringEmpty o c s).pre p := by
    unfold stringEmpty
    cases c <;> simp only [pre_state, pre_push, pre_endString, pre_emitCodePoint, ite_pre]
  have h2 : stringEscape o c (s.pre p) = (stringEscape o c s).pre p := by
    unfold stringEscape
    cases c <;> simp only [pre_push, pre_endString, pre_emitCodePoint, pre_emit, pre_clear, ite_pre]
  have h3 : ∀ q, stringQuotes o q c (s.pre p) = (stringQuotes o q c s).pre p := by
    intro q
    unfold stringQuotes
    cases c <;> simp only [pre_buffer, pre_push, pre_endString, pre_emitCodePoint, pre_emit, pre_clear, ite_pre]
  have h4 : ∀ b n d, stringDigits o b n d c (s.pre p) = pre2 p (stringDigits o b n d c s) := by
    intro b n d
    unfold stringDigits
    simp only [pre_buffer, pre_pushIn, pre_emitBuffer, ite_pre, apply_ite (pre2 p)]
    rfl
  unfold stringRules
  cases c <;>
    simp only [h1, h2, h3, h4, pre_state, pre_buffer, pre_unquotedNext, pre_set, pre_push, pre_pushIn, pre_clear, pre_emitBuffer,
      pre_endString, pre_emitCodePoint, apply_ite (pre2 p)] <;> rfl

theorem commentRules_pre (p : List Nat) (c : Option Nat) (s : Salvage) :
    commentRules c (s.pre p) = (commentRules c s).pre p := by
  unfold commentRules
  cases c <;> simp only [pre_state, pre_buffer, pre_set, pre_push, pre_clear, ite_pre]

theorem numberRules_pre (p : List Nat) (c : Option Nat) (s : Salvage) :
    numberRules c (s.pre p) = pre2 p (numberRules c s) := by
  have h1 : bufferedRules c (s.pre p) = pre2 p (bufferedRules c s) := by
    unfold bufferedRules
    simp only [pre_buffer, pre_set, pre_push, pre_pushIn, pre_emit, pre_endValue, ite_pre, apply_ite (pre2 p)]
    rfl
  have h2 : decimalRules c (s.pre p) = pre2 p (decimalRules c s) := by
    unfold decimalRules
    by_cases hd : isDigit09 c = true
    · simp only [hd, if_true]
      by_cases b1 : s.buffer = [ch '.', ch '0', ch 'e']
      · simp [b1, Salvage.push, Salvage.pre, Salvage.emit, pre2]
      · by_cases b2 : s.buffer = [ch '.'] ∨ s.buffer = [ch '.', ch '0', ch 'e', ch '+']
        · simp [b1, b2, pre2]
        · simp [b1, b2, pre2]
    · simp only [hd]
      simp only [pre_buffer, pre_set, pre_push, pre_pushIn, pre_emit, pre_endValue, ite_pre, apply_ite (pre2 p)]
      rfl
  unfold numberRules
  simp only [h1, h2, pre_state, apply_ite (pre2 p)]
  rfl

theorem allRules_pre (p : List Nat) (c : Option Nat) (s : Salvage) :
    allRules o c (s.pre p) = pre2 p (allRules o c s) := by
  unfold allRules
  rw [pre_state]
  rcases s.state <;> simp only [baseRules_pre, stringRules_pre, commentRules_pre, numberRules_pre] <;> rfl

theorem processCodePoint_pre (p : List Nat) (c : Option Nat) (s : Salvage) :
    processCodePoint o c (s.pre p) = (processCodePoint o c s).pre p := by
  unfold processCodePoint
  simp only [allRules_pre, pre2]
  repeat' split
  all_goals rfl

theorem finalOutput_pre (p : List Nat) (s : Salvage) : finalOutput o (s.pre p) = p ++ finalOutput o s := by
  unfold finalOutput
  simp only [processCodePoint_pre]
  simp [Salvage.pre]

/-! ### Characters -/

/-- The same state with other bytes of a character. -/
def Salvage.ub (b : Bytes) (s : Salvage) : Salvage := { s with utf8Buffer := b }

theorem byte_more (s : Salvage) {b : Bytes} {c : Nat} (h1 : isTrailByte c = true ∨ b = [])
    (h2 : sequenceLength ((b ++ [c]).headD 0) > (b ++ [c]).length) :
    processByte o (s.ub b) c = s.ub (b ++ [c]) := by
  unfold processByte
  have : ¬ (isTrailByte c = false ∧ (s.ub b).utf8Buffer ≠ []) := by
    rintro ⟨x, y⟩
    rcases h1 with h | h
    · simp [h] at x
    · exact y h
  have h2 : sequenceLength (((s.ub b).utf8Buffer ++ [c]).headD 0) > ((s.ub b).utf8Buffer ++ [c]).length := h2
  simp only [this, if_false, h2, if_true]
  rfl

theorem byte_last (s : Salvage) {b : Bytes} {c : Nat} (h1 : isTrailByte c = true ∨ b = [])
    (h2 : ¬ sequenceLength ((b ++ [c]).headD 0) > (b ++ [c]).length) :
    processByte o (s.ub b) c = processCodePoint o (some (decodeBytes (b ++ [c]))) (s.ub []) := by
  unfold processByte
  have : ¬ (isTrailByte c = false ∧ (s.ub b).utf8Buffer ≠ []) := by
    rintro ⟨x, y⟩
    rcases h1 with h | h
    · simp [h] at x
    · exact y h
  have h2 : ¬ sequenceLength (((s.ub b).utf8Buffer ++ [c]).headD 0) > ((s.ub b).utf8Buffer ++ [c]).length := h2
  simp only [this, if_false, h2]
  rfl

theorem scalar_char (c : Char) : Scalar c.toNat := by
  have hv : c.toNat < 0xD800 ∨ (0xDFFF < c.toNat ∧ c.toNat < 0x110000) := c.valid
  unfold Scalar
  omega

theorem trail_byte {c : Nat} (h : 0x80 ≤ c ∧ c < 0xC0) : isTrailByte c = true := by
  simpa [isTrailByte] using h

/-- The bytes of a character are read as the character. -/
theorem bytes_char {s : Salvage} (hs : s.utf8Buffer = []) (c : Char) :
    (charBytes c).foldl (processByte o) s = processCodePoint o (some c.toNat) s := by
  have hv : c.toNat < 0xD800 ∨ (0xDFFF < c.toNat ∧ c.toNat < 0x110000) := c.valid
  have hs' : s = s.ub [] := by
    obtain ⟨u, st, sep, key, buf, state, su, out⟩ := s
    simp only at hs
    subst hs
    rfl
  rw [← utf8_char]
  generalize c.toNat = v at *
  rw [hs']
  generalize hn : s.ub [] = n
  unfold utf8
  by_cases h1 : v < 0x80
  · rw [if_pos h1]
    simp only [List.foldl_cons, List.foldl_nil]
    have hl : sequenceLength v = 1 := by unfold sequenceLength; rw [if_pos (by omega)]
    rw [← hn, byte_last s (.inr rfl) (by simp [hl]), List.nil_append, decode1, if_pos h1]
  rw [if_neg h1]
  by_cases h2 : v < 0x800
  · rw [if_pos h2]
    simp only [List.foldl_cons, List.foldl_nil]
    have hl : sequenceLength (0xC0 + v / 0x40) = 2 := by
      unfold sequenceLength; rw [if_neg (by omega), if_pos (by omega)]
    rw [← hn, byte_more s (.inr rfl) (by simp [hl]), List.nil_append,
      byte_last s (.inl (trail_byte (by omega))) (by simp [hl]), List.singleton_append, decode2]
    have e : (0xC0 + v / 0x40 - 0xC0) * 0x40 + (0x80 + v % 0x40 - 0x80) = v := by omega
    rw [e]
  rw [if_neg h2, if_neg (by omega)]
  by_cases h3 : v < 0x10000
  · rw [if_pos h3]
    simp only [List.foldl_cons, List.foldl_nil]
    have hl : sequenceLength (0xE0 + v / 0x1000) = 3 := by
      unfold sequenceLength; rw [if_neg (by omega), if_neg (by omega), if_pos (by omega)]
    have e : (0xE0 + v / 0x1000 - 0xE0) * 0x1000 + (0x80 + v / 0x40 % 0x40 - 0x80) * 0x40 + (0x80 + v % 0x40 - 0x80) = v := by omega
    rw [← hn, byte_more s (.inr rfl) (by simp [hl]), List.nil_append,
      byte_more s (.inl (trail_byte (by omega))) (by simp [hl]), List.singleton_append,
      byte_last s (.inl (trail_byte (by omega))) (by simp [hl]), List.cons_append, List.singleton_append, decode3, e,
      if_neg (by omega)]
  rw [if_neg h3]
  simp only [List.foldl_cons, List.foldl_nil]
  have hl : sequenceLength (0xF0 + v / 0x40000) = 4 := by
    unfold sequenceLength; rw [if_neg (by omega), if_neg (by omega), if_neg (by omega), if_pos (by omega)]
  have e : (0xF0 + v / 0x40000 - 0xF0) * 0x40000 + (0x80 + v / 0x1000 % 0x40 - 0x80) * 0x1000 + (0x80 + v / 0x40 % 0x40 - 0x80) * 0x40 +
      (0x80 + v % 0x40 - 0x80) = v := by omega
  rw [← hn, byte_more s (.inr rfl) (by simp [hl]), List.nil_append,
    byte_more s (.inl (trail_byte (by omega))) (by simp [hl]), List.singleton_append,
    byte_more s (.inl (trail_byte (by omega))) (by simp [hl]), List.cons_append, List.singleton_append,
    byte_last s (.inl (trail_byte (by omega))) (by simp [hl]), List.cons_append, List.cons_append, List.singleton_append, decode4, e,
    if_neg (by omega)]

theorem bytes_run {s : Salvage} (hs : s.utf8Buffer = []) (cs : List Char) :
    (bytesOf cs).foldl (processByte o) s = run o s (codes cs) := by
  induction cs generalizing s with
  | nil => rfl
  | cons c cs ih =>
    have e : bytesOf (c :: cs) = charBytes c ++ bytesOf cs := rfl
    rw [e, List.foldl_append, bytes_char hs, ih (by rw [processCodePoint_utf8]; exact hs)]
    rfl

/-- Bytes with more output before. -/
theorem processByte_pre (p : List Nat) (s : Salvage) (c : Nat) : processByte o (s.pre p) c = (processByte o s c).pre p := by
  unfold processByte
  have e : ∀ (s : Salvage) (b : Bytes), { s.pre p with utf8Buffer := b } = ({ s with utf8Buffer := b } : Salvage).pre p := fun _ _ => rfl
  have e' : ∀ s : Salvage, (s.pre p).utf8Buffer = s.utf8Buffer := fun _ => rfl
  have last : ∀ s : Salvage,
      (if sequenceLength (((s.pre p).utf8Buffer ++ [c]).headD 0) > ((s.pre p).utf8Buffer ++ [c]).length then
        { s.pre p with utf8Buffer := (s.pre p).utf8Buffer ++ [c] }
      else processCodePoint o (some (decodeBytes ((s.pre p).utf8Buffer ++ [c]))) { s.pre p with utf8Buffer := [] }) =
      (if sequenceLength ((s.utf8Buffer ++ [c]).headD 0) > (s.utf8Buffer ++ [c]).length then
        { s with utf8Buffer := s.utf8Buffer ++ [c] }
      else processCodePoint o (some (decodeBytes (s.utf8Buffer ++ [c]))) { s with utf8Buffer := [] }).pre p := by
    intro s
    simp only [e', e, processCodePoint_pre]
    split <;> rfl
  have first : (if isTrailByte c = false ∧ (s.pre p).utf8Buffer ≠ [] then
        processCodePoint o (some replacement) { s.pre p with utf8Buffer := [] } else s.pre p) =
      (if isTrailByte c = false ∧ s.utf8Buffer ≠ [] then
        processCodePoint o (some replacement) { s with utf8Buffer := [] } else s).pre p := by
    simp only [e', e, processCodePoint_pre]
    split <;> rfl
  rw [first]
  exact last _

/-- The output of the parts, and what is not yet written. -/
theorem feed_bytes (t : Bytes) : ∀ (s : Salvage), s.output = [] →
    ∃ y, (feed (salvageStep o) s t).2 = encode y ∧
      (feed (salvageStep o) s t).1.pre y = t.foldl (processByte o) s := by
  induction t with
  | nil =>
    intro s hs
    refine ⟨[], rfl, ?_⟩
    simp [feed, Salvage.pre]
  | cons c t ih =>
    intro s hs
    obtain ⟨y, h1, h2⟩ := ih (salvageStep o s c).1 rfl
    refine ⟨(processByte o s c).output ++ y, ?_, ?_⟩
    · simp only [feed, h1]
      simp [encode, salvageStep]
    · have e : processByte o s c = (salvageStep o s c).1.pre (processByte o s c).output := by
        simp [salvageStep, Salvage.pre]
      have hf : ∀ (l : Bytes) (s : Salvage) (p : List Nat), l.foldl (processByte o) (s.pre p) = (l.foldl (processByte o) s).pre p := by
        intro l
        induction l with
        | nil => intros; rfl
        | cons a l ih => intro s p; simp only [List.foldl_cons, processByte_pre, ih]
      rw [List.foldl_cons, e, hf, ← h2]
      simp [feed, Salvage.pre, salvageStep]

/-- The whole output for a text. -/
theorem salvage_text (cs : List Char) :
    (feed (salvageStep o) initial (bytesOf cs)).2 ++ encode (finalOutput o (feed (salvageStep o) initial (bytesOf cs)).1) =
      encode (finalOutput o (run o initial (codes cs))) := by
  obtain ⟨y, h1, h2⟩ := feed_bytes (o := o) (bytesOf cs) initial rfl
  rw [h1, ← bytes_run (by rfl) cs, ← h2, finalOutput_pre]
  simp [encode]

end Verif.JsonSalvage
