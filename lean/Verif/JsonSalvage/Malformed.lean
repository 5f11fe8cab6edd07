/-
Bytes that are not UTF-8.
-/
import Verif.JsonSalvage.Frame

namespace Verif.JsonSalvage

open Verif.JsonStream

variable {o : Options}

/-! ### The rules do not look at the bytes of a character -/

section

variable (p : Bytes) (s : Salvage)

@[simp] theorem ub_buffer : (s.ub p).buffer = s.buffer := rfl
@[simp] theorem ub_state : (s.ub p).state = s.state := rfl
@[simp] theorem ub_key : (s.ub p).key = s.key := rfl
@[simp] theorem ub_stack : (s.ub p).stack = s.stack := rfl
@[simp] theorem ub_sep : (s.ub p).sep = s.sep := rfl
@[simp] theorem ub_surrogate : (s.ub p).surrogate = s.surrogate := rfl
@[simp] theorem ub_mayNest : (s.ub p).mayNest o = s.mayNest o := rfl
@[simp] theorem ub_unquotedNext (c : Option Nat) : (s.ub p).unquotedNext o c = s.unquotedNext o c := rfl
@[simp] theorem ub_bufferCodePoint (b : Nat) : (s.ub p).bufferCodePoint b = s.bufferCodePoint b := rfl

@[simp] theorem ub_emit (x : List Nat) : (s.ub p).emit x = (s.emit x).ub p := by
  simp [Salvage.ub, Salvage.emit]

@[simp] theorem ub_set (st : State) (b : List Nat) : (s.ub p).set st b = (s.set st b).ub p := rfl
@[simp] theorem ub_push (c : Nat) : (s.ub p).push c = (s.push c).ub p := rfl
@[simp] theorem ub_clear : (s.ub p).clear = s.clear.ub p := rfl

@[simp] theorem ub_pushIn (c : Option Nat) : (s.ub p).pushIn c = (s.pushIn c).ub p := by cases c <;> rfl

@[simp] theorem ub_emitCodePoint (c : Nat) : (s.ub p).emitCodePoint o c = (s.emitCodePoint o c).ub p := by
  unfold Salvage.emitCodePoint Salvage.emitNext Salvage.emitReplacement
  rcases e : s.surrogate with _ | l <;> simp only [ub_surrogate, e]
  all_goals
    by_cases h1 : isLead c = true <;> by_cases h2 : isTrail c = true <;> by_cases h3 : 0x110000 ≤ c <;>
      simp [h1, h2, h3, Salvage.ub, Salvage.emit]

@[simp] theorem ub_emitCodePoints (cs : List Nat) :
    (s.ub p).emitCodePoints o cs = (s.emitCodePoints o cs).ub p := by
  induction cs generalizing s with
  | nil => rfl
  | cons c cs ih => rw [Salvage.emitCodePoints, Salvage.emitCodePoints, ub_emitCodePoint, ih]

@[simp] theorem ub_startValue : (s.ub p).startValue = s.startValue.ub p := by
  rw [startValue_eq, startValue_eq]
  simp [Salvage.ub]

@[simp] theorem ub_startNonKey : (s.ub p).startNonKey = s.startNonKey.ub p := by
  unfold Salvage.startNonKey
  simp only [ub_startValue, ub_key, ub_emit]
  split <;> rfl

@[simp] theorem ub_endValue : (s.ub p).endValue = s.endValue.ub p := rfl

@[simp] theorem ub_startArray : (s.ub p).startArray = s.startArray.ub p := by
  simp only [Salvage.startArray, ub_startNonKey, ub_emit]
  rfl

@[simp] theorem ub_startObject : (s.ub p).startObject = s.startObject.ub p := by
  simp only [Salvage.startObject, ub_startNonKey, ub_emit]
  rfl

@[simp] theorem ub_endContainer : (s.ub p).endContainer = s.endContainer.ub p := by
  obtain ⟨u, st, sep, key, buf, state, su, out⟩ := s
  rcases st with _ | ⟨_ | _, st⟩ <;> cases key <;>
    simp [Salvage.endContainer, Salvage.ub, Salvage.emit, Salvage.endValue, Salvage.set]

@[simp] theorem ub_startString : (s.ub p).startString = s.startString.ub p := by
  simp [Salvage.startString]

@[simp] theorem ub_endString : (s.ub p).endString o = (s.endString o).ub p := by
  obtain ⟨u, st, sep, key, buf, state, su, out⟩ := s
  rcases su with _ | su <;>
    simp [Salvage.endString, Salvage.ub, Salvage.emit, Salvage.endValue, Salvage.set, Salvage.emitReplacement]

@[simp] theorem ub_emitAtom (x : List Nat) : (s.ub p).emitAtom x = (s.emitAtom x).ub p := by
  simp [Salvage.emitAtom]

@[simp] theorem ub_emitBuffer (b : Nat) : (s.ub p).emitBuffer o b = (s.emitBuffer o b).ub p := by
  simp only [Salvage.emitBuffer, ub_bufferCodePoint, ub_emitCodePoint]
  rfl

end

/-- The result of a rule with other bytes. -/
def ub2 (p : Bytes) (r : Salvage × Bool) : Salvage × Bool := (r.1.ub p, r.2)

theorem ite_ub {c : Prop} [Decidable c] {p : Bytes} {a b : Salvage} :
    (if c then a.ub p else b.ub p) = (if c then a else b).ub p := by split <;> rfl

theorem baseEmpty_ub (p : Bytes) (c : Option Nat) (s : Salvage) :
    baseEmpty o c (s.ub p) = (baseEmpty o c s).ub p := by
  unfold baseEmpty
  cases c
  · rfl
  · simp only [ub_set, ub_push, ub_endContainer, ub_startObject, ub_startArray, ub_startString, ub_startValue, ub_emit,
      ub_key, ub_mayNest, ite_ub]

theorem baseAtom_ub (p : Bytes) (s : Salvage) : baseAtom o (s.ub p) = ub2 p (baseAtom o s) := by
  unfold baseAtom ub2
  by_cases hk : s.key = true <;> rcases hm : matchAtoms s.buffer (atoms o.allowNan) with ⟨_ | out, _ | _⟩ <;>
    by_cases hb : s.buffer = [ch 'b', ch '"'] ∨ s.buffer = [ch 'b', ch '\''] ∨ s.buffer = [ch 'u', ch '"'] ∨
      s.buffer = [ch 'u', ch '\''] <;>
    simp [hk, hm, hb]

theorem baseRules_ub (p : Bytes) (c : Option Nat) (s : Salvage) :
    baseRules o c (s.ub p) = ub2 p (baseRules o c s) := by
  unfold baseRules
  simp only [baseEmpty_ub, baseAtom_ub, ub_buffer, ub_unquotedNext, ub_set, ub_push, ub_emit, ub_endValue, ub_pushIn,
    ub_startString, ub_emitCodePoints, ub_endString, apply_ite (ub2 p)]
  rfl

theorem stringRules_ub (p : Bytes) (c : Option Nat) (s : Salvage) :
    stringRules o c (s.ub p) = ub2 p (stringRules o c s) := by
  have h1 : stringEmpty o c (s.ub p) = (stringEmpty o c s).ub p := by
    unfold stringEmpty
    cases c <;> simp only [ub_state, ub_push, ub_endString, ub_emitCodePoint, ite_ub]
  have h2 : stringEscape o c (s.ub p) = (stringEscape o c s).ub p := by
    unfold stringEscape
    cases c <;> simp only [ub_push, ub_endString, ub_emitCodePoint, ub_emit, ub_clear, ite_ub]
  have h3 : ∀ q, stringQuotes o q c (s.ub p) = (stringQuotes o q c s).ub p := by
    intro q
    unfold stringQuotes
    cases c <;> simp only [ub_buffer, ub_push, ub_endString, ub_emitCodePoint, ub_emit, ub_clear, ite_ub]
  have h4 : ∀ b n d, stringDigits o b n d c (s.ub p) = ub2 p (stringDigits o b n d c s) := by
    intro b n d
    unfold stringDigits
    simp only [ub_buffer, ub_pushIn, ub_emitBuffer, ite_ub, apply_ite (ub2 p)]
    rfl
  unfold stringRules
  cases c <;>
    simp only [h1, h2, h3, h4, ub_state, ub_buffer, ub_unquotedNext, ub_set, ub_push, ub_pushIn, ub_clear, ub_emitBuffer,
      ub_endString, ub_emitCodePoint, apply_ite (ub2 p)] <;> rfl

theorem commentRules_ub (p : Bytes) (c : Option Nat) (s : Salvage) :
    commentRules c (s.ub p) = (commentRules c s).ub p := by
  unfold commentRules
  cases c <;> simp only [ub_state, ub_buffer, ub_set, ub_push, ub_clear, ite_ub]

theorem numberRules_ub (p : Bytes) (c : Option Nat) (s : Salvage) :
    numberRules c (s.ub p) = ub2 p (numberRules c s) := by
  have h1 : bufferedRules c (s.ub p) = ub2 p (bufferedRules c s) := by
    unfold bufferedRules
    simp only [ub_buffer, ub_set, ub_push, ub_pushIn, ub_emit, ub_endValue, ite_ub, apply_ite (ub2 p)]
    rfl
  have h2 : decimalRules c (s.ub p) = ub2 p (decimalRules c s) := by
    unfold decimalRules
    by_cases hd : isDigit09 c = true
    · simp only [hd, if_true]
      by_cases b1 : s.buffer = [ch '.', ch '0', ch 'e']
      · simp [b1, Salvage.push, Salvage.ub, Salvage.emit, ub2]
      · by_cases b2 : s.buffer = [ch '.'] ∨ s.buffer = [ch '.', ch '0', ch 'e', ch '+']
        · simp [b1, b2, ub2]
        · simp [b1, b2, ub2]
    · simp only [hd]
      simp only [ub_buffer, ub_set, ub_push, ub_pushIn, ub_emit, ub_endValue, ite_ub, apply_ite (ub2 p)]
      rfl
  unfold numberRules
  simp only [h1, h2, ub_state, apply_ite (ub2 p)]
  rfl

theorem allRules_ub (p : Bytes) (c : Option Nat) (s : Salvage) :
    allRules o c (s.ub p) = ub2 p (allRules o c s) := by
  unfold allRules
  rw [ub_state]
  rcases s.state <;> simp only [baseRules_ub, stringRules_ub, commentRules_ub, numberRules_ub] <;> rfl

theorem processCodePoint_ub (p : Bytes) (c : Option Nat) (s : Salvage) :
    processCodePoint o c (s.ub p) = (processCodePoint o c s).ub p := by
  unfold processCodePoint
  simp only [allRules_ub, ub2]
  repeat' split
  all_goals rfl

theorem finalOutput_ub (p : Bytes) (s : Salvage) : finalOutput o (s.ub p) = finalOutput o s := by
  unfold finalOutput
  simp only [processCodePoint_ub]
  rfl

/-! ### Decoding -/

theorem ub_self {s : Salvage} (hs : s.utf8Buffer = []) : s.ub [] = s := by
  obtain ⟨u, st, sep, key, buf, state, su, out⟩ := s
  simp only at hs
  subst hs
  rfl

theorem length_needs {a n : Nat} (h : Needs a n) : sequenceLength a = n + 1 := by
  unfold sequenceLength
  rcases h with ⟨h1, h2, rfl⟩ | ⟨h1, h2, rfl⟩ | ⟨h1, h2, rfl⟩
  · rw [if_neg (by omega), if_pos (by omega)]
  · rw [if_neg (by omega), if_neg (by omega), if_pos (by omega)]
  · rw [if_neg (by omega), if_neg (by omega), if_neg (by omega), if_pos (by omega)]

/-- The beginning of a character. -/
theorem bytes_begin {s : Salvage} {a n : Nat} (ha : Needs a n) {l : Bytes} (hl : ∀ c ∈ l, IsTrailByte c) :
    ∀ b : Bytes, (b ++ l).length < n → l.foldl (processByte o) (s.ub (a :: b)) = s.ub (a :: (b ++ l)) := by
  induction l with
  | nil => intro b _; simp
  | cons c l ih =>
    intro b hb
    have hc : isTrailByte c = true := trail_byte (hl c (by simp))
    rw [List.foldl_cons, byte_more s (.inl hc)]
    · have := ih (fun c hc => hl c (by simp [hc])) (b ++ [c]) (by simpa using hb)
      rw [List.cons_append, this]
      simp
    · simp only [List.cons_append, List.headD_cons, length_needs ha]
      simp at hb ⊢
      omega

theorem bytes_start {s : Salvage} (hs : s.utf8Buffer = []) {a n : Nat} (ha : Needs a n) {l : Bytes} (hl : ∀ c ∈ l, IsTrailByte c)
    (hn : l.length < n) : (a :: l).foldl (processByte o) s = s.ub (a :: l) := by
  rw [List.foldl_cons, ← ub_self hs, byte_more s (.inr rfl)]
  · have := bytes_begin (o := o) (s := s) ha hl [] (by simpa using hn)
    rw [ub_self hs]
    simpa using this
  · simp [length_needs ha]
    omega

theorem char_of {v : Nat} (hv : v < 0xD800 ∨ (0xDFFF < v ∧ v < 0x110000)) : ∃ c : Char, c.toNat = v := by
  have h : v.isValidChar := by
    unfold Nat.isValidChar
    omega
  exact ⟨Char.ofNat v, by simp [Char.ofNat, h, Char.toNat, Char.ofNatAux]⟩

/-- What is no character is a replacement character. -/
theorem decode_wrong {a n : Nat} (ha : Needs a n) {l : Bytes} (hl : ∀ c ∈ l, IsTrailByte c) (hn : l.length = n)
    (hw : ∀ c, charBytes c ≠ a :: l) : decodeBytes (a :: l) = replacement := by
  have char : ∀ v, (v < 0xD800 ∨ (0xDFFF < v ∧ v < 0x110000)) → utf8 v ≠ a :: l := by
    intro v hv e
    obtain ⟨c, rfl⟩ := char_of hv
    exact hw c (by rw [← utf8_char, e])
  unfold Needs at ha
  rcases l with _ | ⟨b, _ | ⟨c, _ | ⟨d, _ | ⟨e, l⟩⟩⟩⟩
  · simp at hn; omega
  · have hb := hl b (by simp)
    unfold IsTrailByte at hb
    simp at hn
    exfalso
    refine char ((a - 0xC0) * 0x40 + (b - 0x80)) (by omega) ?_
    unfold utf8
    rw [if_neg (by omega), if_pos (by omega)]
    simp only [List.cons.injEq, and_true]
    omega
  · have hb := hl b (by simp)
    have hc := hl c (by simp)
    unfold IsTrailByte at hb hc
    simp at hn
    rw [decode3]
    by_cases h : (a - 0xE0) * 0x1000 + (b - 0x80) * 0x40 + (c - 0x80) < 0x800 ∨
        (0xD800 ≤ (a - 0xE0) * 0x1000 + (b - 0x80) * 0x40 + (c - 0x80) ∧
          (a - 0xE0) * 0x1000 + (b - 0x80) * 0x40 + (c - 0x80) < 0xE000)
    · rw [if_pos h]
    · exfalso
      refine char ((a - 0xE0) * 0x1000 + (b - 0x80) * 0x40 + (c - 0x80)) (by omega) ?_
      unfold utf8
      rw [if_neg (by omega), if_neg (by omega), if_neg (by omega), if_pos (by omega)]
      simp only [List.cons.injEq, and_true]
      omega
  · have hb := hl b (by simp)
    have hc := hl c (by simp)
    have hd := hl d (by simp)
    unfold IsTrailByte at hb hc hd
    simp at hn
    rw [decode4]
    by_cases h : (a - 0xF0) * 0x40000 + (b - 0x80) * 0x1000 + (c - 0x80) * 0x40 + (d - 0x80) < 0x10000 ∨
        0x110000 ≤ (a - 0xF0) * 0x40000 + (b - 0x80) * 0x1000 + (c - 0x80) * 0x40 + (d - 0x80)
    · rw [if_pos h]
    · exfalso
      refine char ((a - 0xF0) * 0x40000 + (b - 0x80) * 0x1000 + (c - 0x80) * 0x40 + (d - 0x80)) (by omega) ?_
      unfold utf8
      rw [if_neg (by omega), if_neg (by omega), if_neg (by omega), if_neg (by omega)]
      simp only [List.cons.injEq, and_true]
      omega
  · simp at hn; omega

theorem run_replacement (s : Salvage) (cs : List Char) :
    run o s (codes ('�' :: cs)) = run o (processCodePoint o (some replacement) s) (codes cs) := rfl

/-- Bytes are read as the text they stand for. -/
theorem decodes_run {t : Bytes} {cs : List Char} (h : Decodes t cs) :
    ∀ {s : Salvage}, s.utf8Buffer = [] → ∃ b, t.foldl (processByte o) s = (run o s (codes cs)).ub b := by
  have keep : ∀ {s : Salvage} (c : Nat), s.utf8Buffer = [] → (processCodePoint o (some c) s).utf8Buffer = [] := by
    intro s c hs
    rw [processCodePoint_utf8, hs]
  induction h with
  | nil => intro s hs; exact ⟨[], (ub_self hs).symm⟩
  | @char c t cs _ ih =>
    intro s hs
    obtain ⟨b, hb⟩ := ih (keep c.toNat hs)
    refine ⟨b, ?_⟩
    rw [List.foldl_append, bytes_char hs, hb]
    rfl
  | @alone a t cs ha _ ih =>
    intro s hs
    obtain ⟨b, hb⟩ := ih (keep replacement hs)
    refine ⟨b, ?_⟩
    unfold IsTrailByte at ha
    have hl : sequenceLength a = 1 := by
      unfold sequenceLength
      by_cases h : a < 0xC2
      · rw [if_pos h]
      · rw [if_neg h, if_neg (by omega), if_neg (by omega), if_neg (by omega)]
    have e : processByte o s a = processCodePoint o (some replacement) s := by
      have := byte_last (o := o) s (b := []) (c := a) (.inr rfl) (by simp [hl])
      rw [ub_self hs, List.nil_append, decode1, if_neg (by omega)] at this
      exact this
    rw [List.foldl_cons, e, hb, run_replacement]
  | @wrong a n l t cs ha hl hn hw _ ih =>
    intro s hs
    obtain ⟨b, hb⟩ := ih (keep replacement hs)
    refine ⟨b, ?_⟩
    have e : (a :: l).foldl (processByte o) s = processCodePoint o (some replacement) s := by
      have hne : l ≠ [] := by
        rintro rfl
        unfold Needs at ha
        simp at hn
        omega
      obtain ⟨l', c, rfl⟩ : ∃ l' c, l = l' ++ [c] := ⟨_, _, (List.dropLast_concat_getLast hne).symm⟩
      have hb := bytes_start (o := o) hs ha (l := l') (fun c hc => hl c (by simp [hc])) (by simp at hn; omega)
      rw [← List.cons_append, List.foldl_append, hb, List.foldl_cons, List.foldl_nil,
        byte_last s (.inl (trail_byte (hl c (by simp)))), List.cons_append, decode_wrong ha hl hn hw, ub_self hs]
      simp only [List.cons_append, List.headD_cons, length_needs ha]
      simp at hn ⊢
      omega
    rw [← List.cons_append, List.foldl_append, e, hb, run_replacement]
  | @short a n l c t cs ha hl hn hc _ ih =>
    intro s hs
    obtain ⟨b, hb⟩ := ih (keep replacement hs)
    refine ⟨b, ?_⟩
    have e : processByte o (s.ub (a :: l)) c = processByte o (processCodePoint o (some replacement) s) c := by
      have ht : isTrailByte c = false := by
        unfold IsTrailByte at hc
        simp [isTrailByte]
        omega
      have h1 := keep replacement hs
      let last : Salvage → Salvage := fun s =>
        if sequenceLength ((s.utf8Buffer ++ [c]).headD 0) > (s.utf8Buffer ++ [c]).length then { s with utf8Buffer := s.utf8Buffer ++ [c] }
        else processCodePoint o (some (decodeBytes (s.utf8Buffer ++ [c]))) { s with utf8Buffer := [] }
      have two : ∀ s' : Salvage, processByte o s' c = last (if isTrailByte c = false ∧ s'.utf8Buffer ≠ [] then
          processCodePoint o (some replacement) (s'.ub []) else s') := fun _ => rfl
      have h2 : (s.ub (a :: l)).ub [] = s := ub_self hs
      rw [two, two, if_pos ⟨ht, by simp [Salvage.ub]⟩, if_neg (fun h => h.2 h1), h2]
    rw [← List.cons_append, List.foldl_append, bytes_start hs ha hl hn, List.foldl_cons, e, ← List.foldl_cons, hb, run_replacement]
  | @cut a n l ha hl hn =>
    intro s hs
    exact ⟨a :: l, bytes_start hs ha hl hn⟩

/-- Bytes stand for a text. -/
theorem decodes_total (t : Bytes) : ∃ cs, Decodes t cs := by
  have main : ∀ n (t : Bytes), t.length ≤ n → ∃ cs, Decodes t cs := by
    intro n
    induction n with
    | zero =>
      intro t ht
      obtain rfl : t = [] := List.length_eq_zero_iff.mp (by omega)
      exact ⟨[], .nil⟩
    | succ n ih =>
      intro t ht
      rcases t with _ | ⟨a, t⟩
      · exact ⟨[], .nil⟩
      simp at ht
      by_cases h1 : a < 0x80
      · obtain ⟨c, hc⟩ := char_of (v := a) (by omega)
        obtain ⟨cs, h⟩ := ih t ht
        refine ⟨c :: cs, ?_⟩
        have e : charBytes c = [a] := by rw [← utf8_char, hc]; simp [utf8, h1]
        have := Decodes.char (c := c) h
        rw [e] at this
        exact this
      by_cases h2 : IsTrailByte a ∨ a = 0xC0 ∨ a = 0xC1 ∨ 0xF8 ≤ a
      · obtain ⟨cs, h⟩ := ih t ht
        exact ⟨_, .alone h2 h⟩
      obtain ⟨k, hk⟩ : ∃ k, Needs a k := by
        unfold IsTrailByte at h2
        unfold Needs
        by_cases h3 : a < 0xE0
        · exact ⟨1, .inl ⟨by omega, h3, rfl⟩⟩
        · by_cases h4 : a < 0xF0
          · exact ⟨2, .inr (.inl ⟨by omega, h4, rfl⟩)⟩
          · exact ⟨3, .inr (.inr ⟨by omega, by omega, rfl⟩)⟩
      have parts : ∀ k (t : Bytes), (∃ l r, t = l ++ r ∧ (∀ b ∈ l, IsTrailByte b) ∧ l.length = k) ∨
          (∃ l, t = l ∧ (∀ b ∈ l, IsTrailByte b) ∧ l.length < k) ∨
          ∃ l b r, t = l ++ b :: r ∧ (∀ b ∈ l, IsTrailByte b) ∧ l.length < k ∧ ¬ IsTrailByte b := by
        intro k
        induction k with
        | zero => intro t; exact .inl ⟨[], t, rfl, by simp, rfl⟩
        | succ k ih =>
          intro t
          rcases t with _ | ⟨b, t⟩
          · exact .inr (.inl ⟨[], rfl, by simp, by simp⟩)
          by_cases hb : IsTrailByte b
          · have cons : ∀ {l : Bytes}, (∀ b ∈ l, IsTrailByte b) → ∀ c ∈ b :: l, IsTrailByte c := by
              intro l hl c hc
              rcases List.mem_cons.mp hc with rfl | hc
              · exact hb
              · exact hl c hc
            rcases ih t with ⟨l, r, rfl, hl, hn⟩ | ⟨l, rfl, hl, hn⟩ | ⟨l, c, r, rfl, hl, hn, hc⟩
            · exact .inl ⟨b :: l, r, rfl, cons hl, by simp [hn]⟩
            · exact .inr (.inl ⟨b :: t, rfl, cons hl, by simp; omega⟩)
            · exact .inr (.inr ⟨b :: l, c, r, rfl, cons hl, by simp; omega, hc⟩)
          · exact .inr (.inr ⟨[], b, t, rfl, by simp, by simp, hb⟩)
      rcases parts k t with ⟨l, r, rfl, hl, hn⟩ | ⟨l, rfl, hl, hn⟩ | ⟨l, c, r, rfl, hl, hn, hc⟩
      · obtain ⟨cs, h⟩ := ih r (by simp at ht; omega)
        by_cases hw : ∃ c, charBytes c = a :: l
        · obtain ⟨c, hc⟩ := hw
          refine ⟨c :: cs, ?_⟩
          have := Decodes.char (c := c) h
          rw [hc] at this
          exact this
        · exact ⟨_, .wrong hk hl hn (fun c hc => hw ⟨c, hc⟩) h⟩
      · exact ⟨[], .cut hk hl hn⟩
      · obtain ⟨cs, h⟩ := ih (c :: r) (by simp at ht ⊢; omega)
        exact ⟨_, .short hk hl hn hc h⟩
  exact main t.length t (Nat.le_refl _)

/-- The whole output for bytes. -/
theorem salvage_decoded {t : Bytes} {cs : List Char} (h : Decodes t cs) :
    (feed (salvageStep o) initial t).2 ++ encode (finalOutput o (feed (salvageStep o) initial t).1) =
      encode (finalOutput o (run o initial (codes cs))) := by
  obtain ⟨y, h1, h2⟩ := feed_bytes (o := o) t initial rfl
  obtain ⟨b, hb⟩ := decodes_run (o := o) h (s := initial) rfl
  rw [h1, ← finalOutput_ub b (run o initial (codes cs)), ← hb, ← h2, finalOutput_pre]
  simp [encode]

end Verif.JsonSalvage
