/-
Steps of the processor inside of strings in quotes.
-/
import Verif.JsonSalvage.Steps

namespace Verif.JsonSalvage

open Verif.JsonStream

variable {o : Options}

/-! ### Buffers and output -/

def Salvage.buf (b : List Nat) (s : Salvage) : Salvage := { s with buffer := b }

section

variable (s : Salvage) (b : List Nat)

theorem buf_push (c : Nat) : (s.buf b).push c = s.buf (b ++ [c]) := rfl
theorem buf_clear : (s.buf b).clear = s.buf [] := rfl
theorem buf_emit (x : List Nat) : (s.buf b).emit x = (s.emit x).buf b := rfl
theorem buf_buf (b' : List Nat) : (s.buf b).buf b' = s.buf b' := rfl
theorem buf_state : (s.buf b).state = s.state := rfl
theorem buf_buffer : (s.buf b).buffer = b := rfl

theorem buf_emitCodePoint (c : Nat) : (s.buf b).emitCodePoint o c = (s.emitCodePoint o c).buf b := by
  unfold Salvage.emitCodePoint Salvage.emitNext Salvage.emitReplacement Salvage.buf Salvage.emit
  simp only
  repeat' split
  all_goals first | rfl | simp_all

theorem buf_nil (h : s.buffer = []) : s.buf [] = s := by
  obtain ⟨u, st, sep, key, buf, state, su, out⟩ := s
  simp only at h
  subst h
  rfl

theorem emitCodePoint_only (c : Nat) :
    ∃ g z, s.emitCodePoint o c = { s with surrogate := g, output := s.output ++ z } := by
  unfold Salvage.emitCodePoint Salvage.emitNext Salvage.emitReplacement Salvage.emit
  simp only
  repeat' split
  all_goals try simp only [List.append_assoc]
  all_goals first
    | exact ⟨_, _, rfl⟩
    | exact ⟨some c, [], congrArg (fun z => Salvage.mk s.utf8Buffer s.stack s.sep s.key s.buffer s.state (some c) z)
        (List.append_nil _).symm⟩
    | skip

theorem emitCodePoint_buffer (c : Nat) : (s.emitCodePoint o c).buffer = s.buffer := by
  obtain ⟨g, z, h⟩ := emitCodePoint_only (o := o) s c
  rw [h]

end

/-- Parts of a string are written. -/
inductive Emits (o : Options) : Salvage → List Tok → Salvage → Prop
  | nil {s} : Emits o s [] s
  | unit {s c ts s'} : Emits o (s.emitCodePoint o c) ts s' → Emits o s (.unit c :: ts) s'
  | kept {s c x ts s'} : Content x [c] → Emits o (s.emit x) ts s' → Emits o s (.kept c :: ts) s'

/-! ### The rest of the text -/

/-- The state after the rest of a string; if nothing ends the string, the end of the input does. -/
def fin (o : Options) (close : List Nat) (s : Salvage) (t : List Nat) : Salvage :=
  if close = [] then processCodePoint o none (run o s t) else run o s t

theorem fin_cons (close : List Nat) (s : Salvage) (c : Nat) (t : List Nat) :
    fin o close s (c :: t) = fin o close (processCodePoint o (some c) s) t := by
  unfold fin
  rw [run_cons]

theorem fin_skip {close : List Nat} {s s1 : Salvage} {t : List Nat} (ht : t = [] → close = [])
    (h : allRules o t.head? s = (s1, false)) (h1 : (allRules o t.head? s1).2 = true) :
    fin o close s t = fin o close s1 t := by
  have e := proc_skip h h1
  rcases t with _ | ⟨c, t⟩
  · unfold fin
    rw [if_pos (ht rfl), if_pos (ht rfl)]
    exact e
  · rw [fin_cons, fin_cons]
    have e : processCodePoint o (some c) s = processCodePoint o (some c) s1 := e
    rw [e]

/-! ### States -/

/-- In a string with the quote `q`, which is tripled or not. -/
structure InStr (q : Nat) (triple : Bool) (s : Salvage) : Prop where
  mode : (s.state = .doubleQuote ∧ q = ch '"' ∧ triple = false) ∨
    (s.state = .singleQuote ∧ q = ch '\'' ∧ triple = false) ∨ (s.state = .backtick ∧ q = ch '`' ∧ triple = false) ∨
    (s.state = .tripleDouble ∧ q = ch '"' ∧ triple = true) ∨ (s.state = .tripleSingle ∧ q = ch '\'' ∧ triple = true)
  buffer : s.buffer = []

variable {q : Nat} {triple : Bool} {s : Salvage}

theorem InStr.quote (h : InStr q triple s) : isQuoteState s.state = true := by
  rcases h.mode with h | h | h | h | h <;> simp [h.1, isQuoteState]

theorem InStr.emitCodePoint (h : InStr q triple s) (c : Nat) : InStr q triple (s.emitCodePoint o c) := by
  refine ⟨?_, ?_⟩
  · rw [emitCodePoint_state]; exact h.mode
  · rw [emitCodePoint_buffer]; exact h.buffer

theorem InStr.emit (h : InStr q triple s) (x : List Nat) : InStr q triple (s.emit x) := ⟨h.mode, h.buffer⟩

theorem allRules_str (h : isQuoteState s.state = true) (c : Option Nat) : allRules o c s = stringRules o c s := by
  unfold allRules
  rcases hst : s.state <;> simp [hst, isQuoteState] at h ⊢

theorem quote_ne (h : isQuoteState s.state = true) : s.state ≠ .unquoted := by
  intro e
  simp [e, isQuoteState] at h

theorem allRules_empty (h : InStr q triple s) (c : Option Nat) : allRules o c s = (stringEmpty o c s, true) := by
  rw [allRules_str h.quote]
  simp [stringRules, quote_ne h.quote, h.buffer]

theorem str_raw (h : InStr q triple s) {c : Nat} (h1 : c ≠ ch '\\') (h2 : c ≠ q) :
    processCodePoint o (some c) s = s.emitCodePoint o c := by
  refine proc1 ?_
  rw [allRules_empty h]
  rcases h.mode with ⟨e, rfl, _⟩ | ⟨e, rfl, _⟩ | ⟨e, rfl, _⟩ | ⟨e, rfl, _⟩ | ⟨e, rfl, _⟩ <;>
    simp [stringEmpty, e, h1, h2]

theorem str_backslash (h : InStr q triple s) : processCodePoint o (some (ch '\\')) s = s.buf [ch '\\'] := by
  refine proc1 ?_
  rw [allRules_empty h]
  simp [stringEmpty, Salvage.push, Salvage.buf, h.buffer]

theorem str_escape (h : InStr q triple s) (c : Nat) :
    processCodePoint o (some c) (s.buf [ch '\\']) = stringEscape o (some c) (s.buf [ch '\\']) := by
  refine proc1 ?_
  rw [allRules_str (by exact h.quote)]
  have : (s.buf [ch '\\']).state ≠ .unquoted := quote_ne h.quote
  simp [stringRules, this, buf_buffer]

theorem run_escape (h : InStr q triple s) (c : Nat) (close t : List Nat) :
    fin o close s (ch '\\' :: c :: t) = fin o close (stringEscape o (some c) (s.buf [ch '\\'])) t := by
  rw [fin_cons, fin_cons, str_backslash h, str_escape h]

theorem esc_emit (h : InStr q triple s) (x : List Nat) : ((s.buf [ch '\\']).emit x).clear = s.emit x :=
  buf_nil (s.emit x) h.buffer

theorem esc_code (h : InStr q triple s) (c : Nat) :
    ((s.buf [ch '\\']).emitCodePoint o c).clear = s.emitCodePoint o c := by
  rw [buf_emitCodePoint, buf_clear]
  exact buf_nil _ (h.emitCodePoint c).buffer

/-! ### Digits -/

theorem isHex_iff {c : Nat} : isHex c = true ↔ IsHex c := by
  simp only [isHex, IsHex, IsDigit, Bool.or_eq_true, Bool.and_eq_true, decide_eq_true_eq]
  omega

theorem digitValue_eq {c : Nat} (h : IsHex c) : digitValue c = digit c ∧ digit c < 16 := by
  unfold IsHex IsDigit at h
  unfold digitValue digit
  repeat' split
  all_goals omega

theorem number_append (base : Nat) (a : List Nat) (c : Nat) : number base (a ++ [c]) = number base a * base + digit c := by
  simp [number, List.foldl_append]

theorem convert_append (base : Nat) (a : List Nat) (c : Nat) :
    convertDigits base (a ++ [c]) = (convertDigits base a * base + digitValue c) % 2 ^ 64 := by
  simp [convertDigits, List.foldl_append]

theorem number_lt {base : Nat} {ds : List Nat} (h : ∀ c ∈ ds, digit c < base) : number base ds < base ^ ds.length := by
  rw [← List.reverse_reverse ds] at h ⊢
  generalize ds.reverse = ds at h ⊢
  induction ds with
  | nil => simp [number]
  | cons c ds ih =>
    rw [List.reverse_cons] at h ⊢
    revert h ih
    generalize ds.reverse = ds
    intro ih h
    rw [number_append]
    have h1 := ih (fun d hd => h d (by simp [hd]))
    have h2 := h c (by simp)
    simp only [List.length_append, List.length_singleton, Nat.pow_succ]
    have : (number base ds + 1) * base ≤ base ^ ds.length * base := Nat.mul_le_mul_right _ h1
    rw [Nat.add_mul] at this
    omega

theorem convert_eq {base : Nat} {ds : List Nat} (h : ∀ c ∈ ds, digitValue c = digit c ∧ digit c < base) (hb : 1 ≤ base)
    (hl : base ^ ds.length ≤ 2 ^ 64) : convertDigits base ds = number base ds := by
  rw [← List.reverse_reverse ds] at h hl ⊢
  generalize ds.reverse = ds at h hl ⊢
  induction ds with
  | nil => rfl
  | cons c ds ih =>
    rw [List.reverse_cons] at h hl ⊢
    revert h hl ih
    generalize ds.reverse = ds
    intro ih h hl
    have hle : base ^ ds.length ≤ 2 ^ 64 := by
      refine Nat.le_trans ?_ hl
      simp only [List.length_append, List.length_singleton]
      exact Nat.pow_le_pow_right hb (by omega)
    have hlt := number_lt (fun d hd => (h d hd).2)
    rw [convert_append, ih (fun d hd => h d (by simp [hd])) hle, (h c (by simp)).1, ← number_append]
    exact Nat.mod_eq_of_lt (Nat.lt_of_lt_of_le hlt hl)

theorem code_eq {base n : Nat} {D : Nat → Prop} (hD : ∀ c, D c → digitValue c = digit c ∧ digit c < base) (hb : 1 ≤ base)
    (hn : base ^ n ≤ 2 ^ 32) {ds : List Nat} (h : ∀ c ∈ ds, D c) (hl : ds.length ≤ n) :
    convertDigits base ds % 2 ^ 32 = number base ds := by
  have h1 : base ^ ds.length ≤ 2 ^ 32 := Nat.le_trans (Nat.pow_le_pow_right hb hl) hn
  rw [convert_eq (fun c hc => hD c (h c hc)) hb (Nat.le_trans h1 (by decide))]
  exact Nat.mod_eq_of_lt (Nat.lt_of_lt_of_le (number_lt fun c hc => (hD c (h c hc)).2) h1)

/-- The digits of an escape. -/
theorem digits_fin {base n k : Nat} {D : Nat → Prop} {dig : Option Nat → Bool}
    (hD : ∀ c, D c → digitValue c = digit c ∧ digit c < base) (hb : 1 ≤ base) (hn : base ^ n ≤ 2 ^ 32)
    (h0 : dig none = false) (hdig : ∀ c, dig (some c) = true ↔ D c) (ex : Nat → Prop) (hex : ∀ c, D c → ¬ ex c)
    (hr : ∀ c acc, (acc = [] → ∀ d, c = some d → ¬ ex d) →
      stringRules o c (s.buf (ch '\\' :: k :: acc)) = stringDigits o base n dig c (s.buf (ch '\\' :: k :: acc)))
    (h : InStr q triple s) (close t : List Nat) (ht : t = [] → close = []) (ds : List Nat) :
    ∀ acc, (acc ++ ds = [] → ∀ d, t.head? = some d → ¬ ex d) → (∀ c ∈ acc, D c) → acc.length < n →
      UpTo D n (acc ++ ds) t →
      fin o close (s.buf (ch '\\' :: k :: acc)) (ds ++ t) = fin o close (s.emitCodePoint o (number base (acc ++ ds))) t := by
  have emits : ∀ acc, (∀ c ∈ acc, D c) → acc.length ≤ n →
      (s.buf (ch '\\' :: k :: acc)).emitBuffer o base = s.emitCodePoint o (number base acc) := by
    intro acc h1 h2
    have e : (s.buf (ch '\\' :: k :: acc)).bufferCodePoint base = number base acc := by
      unfold Salvage.bufferCodePoint
      rw [buf_buffer]
      exact code_eq hD hb hn h1 h2
    unfold Salvage.emitBuffer
    rw [e, buf_emitCodePoint]
    exact buf_nil _ (h.emitCodePoint _).buffer
  have rules : ∀ c acc, (acc = [] → ∀ d, c = some d → ¬ ex d) →
      allRules o c (s.buf (ch '\\' :: k :: acc)) = stringDigits o base n dig c (s.buf (ch '\\' :: k :: acc)) := by
    intro c acc hc
    rw [allRules_str (by exact h.quote)]
    exact hr c acc hc
  induction ds with
  | nil =>
    intro acc hx h1 h2 h3
    rw [List.append_nil] at h3 hx ⊢
    have hd : dig t.head? = false := by
      rcases e : t.head? with _ | c
      · exact h0
      · rcases h3.2 with h' | ⟨_, h'⟩
        · omega
        · have := h' c e
          rw [← hdig] at this
          simpa using this
    have e : allRules o t.head? (s.buf (ch '\\' :: k :: acc)) = (s.emitCodePoint o (number base acc), false) := by
      rw [rules _ _ hx]
      simp only [stringDigits, hd]
      rw [emits acc h1 (by omega)]
      rfl
    rw [List.nil_append, fin_skip ht e (by rw [allRules_empty (h.emitCodePoint _)])]
  | cons d ds ih =>
    intro acc hx h1 h2 h3
    have hd : D d := h3.1 d (by simp)
    have h1' : ∀ c ∈ acc ++ [d], D c := by
      intro c hc
      rcases List.mem_append.mp hc with hc | hc
      · exact h1 c hc
      · simp at hc; subst hc; exact hd
    have e : allRules o (some d) (s.buf (ch '\\' :: k :: acc)) =
        (if acc.length + 1 = n then s.emitCodePoint o (number base (acc ++ [d])) else s.buf (ch '\\' :: k :: (acc ++ [d])),
          true) := by
      rw [rules _ _ (by intro _ d' e; simp at e; subst e; exact hex _ hd)]
      have e0 : (s.buf (ch '\\' :: k :: acc)).pushIn (some d) = s.buf (ch '\\' :: k :: (acc ++ [d])) := rfl
      have e1 : (s.buf (ch '\\' :: k :: (acc ++ [d]))).buffer.length = acc.length + 1 + 2 := by
        rw [buf_buffer]; simp
      have e2 := emits (acc ++ [d]) h1' (by simp; omega)
      unfold stringDigits
      rw [if_pos ((hdig d).mpr hd), e0]
      show (if _ then _ else _, true) = _
      by_cases hl : acc.length + 1 = n
      · rw [if_pos hl, if_pos (by omega), e2]
      · rw [if_neg hl, if_neg (by omega)]
    rw [List.cons_append, fin_cons, proc1 e]
    have e3 : acc ++ d :: ds = acc ++ [d] ++ ds := by simp
    by_cases hl : acc.length + 1 = n
    · rw [if_pos hl]
      have hds : ds = [] := by
        rcases h3.2 with h' | ⟨h', _⟩ <;> simp at h' <;> apply List.length_eq_zero_iff.mp <;> omega
      subst hds
      rfl
    · rw [if_neg hl, e3]
      exact ih (acc ++ [d]) (by simp) h1' (by simp; omega) (by rw [← e3]; exact h3)

end Verif.JsonSalvage
