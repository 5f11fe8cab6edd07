/-
The processor reads strings in quotes.
-/
import Verif.JsonSalvage.StringSteps

namespace Verif.JsonSalvage

open Verif.JsonStream

variable {o : Options}

/-! ### What is written -/

theorem content_append {a b u v : List Nat} (ha : Content a u) (hb : Content b v) : Content (a ++ b) (u ++ v) := by
  induction ha with
  | nil => exact hb
  | plain h _ ih => exact .plain h ih
  | simple h _ ih => exact .simple h ih
  | unicode h h' _ ih =>
    simp only [List.cons_append, List.append_assoc]
    exact .unicode h h' ih
  | pair h h' h1 h2 _ ih =>
    simp only [List.cons_append, List.append_assoc]
    exact .pair h h' h1 h2 ih

theorem content_escape4 {v : Nat} (h : v < 0x10000) (h' : IsScalar v) : Content (escape4 v) [v] := by
  have := Content.unicode (hex4_digits h) h' .nil
  simpa [escape4] using this

theorem content_pair {a b : Nat} (ha : Lead a) (hb : Trail b) : Content (escape4 a ++ escape4 b) [pairCode a b] := by
  have ha' : a < 0x10000 := by have := ha.2; omega
  have hb' : b < 0x10000 := by have := hb.2; omega
  have := Content.pair (hex4_digits ha') (hex4_digits hb') ha hb .nil
  simpa [escape4] using this

theorem lead_of (c : Nat) (h : 0x10000 ≤ c) (h' : c < 0x110000) :
    Lead (leadOf c) ∧ Trail (trailOf c) ∧ pairCode (leadOf c) (trailOf c) = c := by
  unfold Lead Trail pairCode leadOf trailOf
  omega

theorem content_asciiEscape {c : Nat} (h : IsScalar c) : Content (asciiEscape c) [c] := by
  unfold asciiEscape
  by_cases hc : c < 0x10000
  · rw [if_pos hc]
    exact content_escape4 hc h
  · rw [if_neg hc]
    obtain ⟨h1, h2, h3⟩ := lead_of c (by omega) (by rcases h with h | h <;> omega)
    have := content_pair h1 h2
    rw [h3] at this
    exact this

theorem content_scalarText {a : Bool} {c : Nat} (h : IsScalar c) : Content (scalarText a c) [c] := by
  unfold scalarText
  by_cases h1 : c = 8
  · subst h1; exact .simple (r := 8) (by decide) .nil
  rw [if_neg h1]
  by_cases h2 : c = 12
  · subst h2; exact .simple (r := 12) (by decide) .nil
  rw [if_neg h2]
  by_cases h3 : c = 10
  · subst h3; exact .simple (r := 10) (by decide) .nil
  rw [if_neg h3]
  by_cases h4 : c = 13
  · subst h4; exact .simple (r := 13) (by decide) .nil
  rw [if_neg h4]
  by_cases h5 : c = 9
  · subst h5; exact .simple (r := 9) (by decide) .nil
  rw [if_neg h5]
  by_cases h6 : c = ch '\\'
  · subst h6; exact .simple (r := ch '\\') (by decide) .nil
  rw [if_neg h6]
  by_cases h7 : c = ch '"'
  · subst h7; exact .simple (r := ch '"') (by decide) .nil
  rw [if_neg h7]
  by_cases h8 : c < 0x20
  · rw [if_pos h8]; exact content_escape4 (by omega) h
  rw [if_neg h8]
  by_cases h9 : 0x80 ≤ c ∧ a = true
  · rw [if_pos h9]; exact content_asciiEscape h
  · rw [if_neg h9]; exact .plain ⟨by omega, h7, h6⟩ .nil

theorem lead_iff {c : Nat} : isLead c = true ↔ Lead c := by simp [isLead, Lead]

theorem trail_iff {c : Nat} : isTrail c = true ↔ Trail c := by simp [isTrail, Trail]

theorem trail_false {c : Nat} (h : ¬ Trail c) : isTrail c = false := by
  rw [← trail_iff] at h
  simpa using h

theorem lead_false {c : Nat} (h : ¬ Lead c) : isLead c = false := by
  rw [← lead_iff] at h
  simpa using h

theorem content_replacement (a : Bool) : Content (scalarText a replacement) [0xFFFD] :=
  content_scalarText (by unfold IsScalar replacement; omega)

/-- The state after a string: `x` is what was written of it, with the last quote. -/
def ended (s : Salvage) (x : List Nat) : Salvage :=
  { s with surrogate := none, output := s.output ++ (x ++ [ch '"']), state := .base, buffer := [], sep := true,
           key := nextKey s.stack s.key }

theorem ended_emit (s : Salvage) (y x : List Nat) : ended (s.emit y) x = ended s (y ++ x) := by
  simp [ended, Salvage.emit]

theorem endString_none {s : Salvage} (h : s.surrogate = none) : s.endString o = ended s [] := by
  simp [Salvage.endString, h, ended, endValue_eq, Salvage.emit]

theorem endString_some {s : Salvage} {a : Nat} (h : s.surrogate = some a) :
    s.endString o = ended s (scalarText o.ensureAscii replacement) := by
  simp [Salvage.endString, h, ended, endValue_eq, Salvage.emit, Salvage.emitReplacement]

theorem emit_scalar {s : Salvage} (hs : s.surrogate = none) {c : Nat} (h : IsScalar c) :
    s.emitCodePoint o c = s.emit (scalarText o.ensureAscii c) := by
  have h1 : isLead c = false := lead_false (by unfold Lead; rcases h with h | h <;> omega)
  have h2 : isTrail c = false := trail_false (by unfold Trail; rcases h with h | h <;> omega)
  have h3 : ¬ 0x110000 ≤ c := by rcases h with h | h <;> omega
  simp [Salvage.emitCodePoint, Salvage.emitNext, hs, h1, h2, h3]

theorem emit_trail {s : Salvage} (hs : s.surrogate = none) {c : Nat} (h : Trail c) :
    s.emitCodePoint o c = s.emit (scalarText o.ensureAscii replacement) := by
  have h1 : isLead c = false := lead_false (by unfold Lead; unfold Trail at h; omega)
  simp [Salvage.emitCodePoint, Salvage.emitNext, hs, h1, trail_iff.mpr h, Salvage.emitReplacement]

theorem emit_big {s : Salvage} (hs : s.surrogate = none) {c : Nat} (h : 0x110000 ≤ c) :
    s.emitCodePoint o c = s.emit (scalarText o.ensureAscii replacement) := by
  have h1 : isLead c = false := lead_false (by unfold Lead; omega)
  have h2 : isTrail c = false := trail_false (by unfold Trail; omega)
  simp [Salvage.emitCodePoint, Salvage.emitNext, hs, h1, h2, h, Salvage.emitReplacement]

theorem emit_lead {s : Salvage} (hs : s.surrogate = none) {c : Nat} (h : Lead c) :
    s.emitCodePoint o c = { s with surrogate := some c } := by
  simp [Salvage.emitCodePoint, Salvage.emitNext, hs, lead_iff.mpr h]

theorem emit_pair {s : Salvage} (hs : s.surrogate = none) {a b : Nat} (ha : Lead a) (hb : Trail b) :
    ∃ x, Content x [pairCode a b] ∧ (s.emitCodePoint o a).emitCodePoint o b = s.emit x := by
  have h1 : isLead b = false := lead_false (by unfold Lead; unfold Trail at hb; omega)
  have hp : supplementary a b = pairCode a b := by
    unfold supplementary pairCode
    unfold Lead at ha; unfold Trail at hb
    omega
  have hsc : IsScalar (pairCode a b) := by
    unfold IsScalar pairCode
    unfold Lead at ha; unfold Trail at hb
    omega
  refine ⟨if o.ensureAscii then asciiEscape (supplementary a b) else [supplementary a b], ?_, ?_⟩
  · rw [hp]
    split
    · exact content_asciiEscape hsc
    · refine .plain ⟨?_, ?_, ?_⟩ .nil <;> unfold pairCode <;> omega
  · rw [emit_lead hs ha]
    simp [Salvage.emitCodePoint, Salvage.emitNext, h1, trail_iff.mpr hb]
    obtain ⟨u, st, sep, key, buf, state, su, out⟩ := s
    simp only at hs
    subst hs
    rfl

theorem emit_after_lead {s : Salvage} (hs : s.surrogate = none) {a n : Nat} (ha : Lead a) (hn : ¬ Trail n) :
    (s.emitCodePoint o a).emitCodePoint o n = (s.emit (scalarText o.ensureAscii replacement)).emitCodePoint o n := by
  rw [emit_lead hs ha]
  have e : (s.emit (scalarText o.ensureAscii replacement)).surrogate = none := hs
  simp only [Salvage.emitCodePoint, trail_false hn, e]
  simp only [Option.isSome_some, and_self, if_true, Option.isSome_none, Bool.false_eq_true, false_and, if_false]
  congr 1
  obtain ⟨u, st, sep, key, buf, state, su, out⟩ := s
  simp only at hs
  subst hs
  rfl

/-- The text that is written for parts of a string. -/
theorem emits_ended {ts : List Tok} {u : List Nat} (h : Means ts u) :
    ∀ {s s' : Salvage}, Emits o s ts s' → s.surrogate = none → ∃ x, Content x u ∧ s'.endString o = ended s x := by
  induction h with
  | nil =>
    intro s s' he hs
    cases he
    exact ⟨[], .nil, endString_none hs⟩
  | @scalar c ts u hc _ ih =>
    intro s s' he hs
    cases he with
    | unit he =>
      rw [emit_scalar hs hc] at he
      obtain ⟨x, h1, h2⟩ := ih he hs
      exact ⟨_, content_append (content_scalarText hc) h1, by rw [h2, ended_emit]⟩
  | kept _ ih =>
    intro s s' he hs
    cases he with
    | kept hc he =>
      obtain ⟨x, h1, h2⟩ := ih he hs
      exact ⟨_, content_append hc h1, by rw [h2, ended_emit]⟩
  | @pair a b ts u ha hb _ ih =>
    intro s s' he hs
    cases he with
    | unit he =>
      cases he with
      | unit he =>
        obtain ⟨y, hy, e⟩ := emit_pair (o := o) hs ha hb
        rw [e] at he
        obtain ⟨x, h1, h2⟩ := ih he hs
        exact ⟨_, content_append hy h1, by rw [h2, ended_emit]⟩
  | @trail b ts u hb _ ih =>
    intro s s' he hs
    cases he with
    | unit he =>
      rw [emit_trail hs hb] at he
      obtain ⟨x, h1, h2⟩ := ih he hs
      exact ⟨_, content_append (content_replacement _) h1, by rw [h2, ended_emit]⟩
  | @big n ts u hn _ ih =>
    intro s s' he hs
    cases he with
    | unit he =>
      rw [emit_big hs hn] at he
      obtain ⟨x, h1, h2⟩ := ih he hs
      exact ⟨_, content_append (content_replacement _) h1, by rw [h2, ended_emit]⟩
  | @lead a n ts u ha hn _ ih =>
    intro s s' he hs
    cases he with
    | unit he =>
      cases he with
      | unit he =>
        rw [emit_after_lead hs ha hn] at he
        obtain ⟨x, h1, h2⟩ := ih (s := s.emit (scalarText o.ensureAscii replacement)) (.unit he) hs
        exact ⟨_, content_append (content_replacement _) h1, by rw [h2, ended_emit]⟩
  | @leadEnd a ha =>
    intro s s' he hs
    cases he with
    | unit he =>
      cases he
      rw [emit_lead hs ha]
      exact ⟨_, content_replacement _, endString_some rfl⟩

/-! ### What is read -/

theorem body_close {q : Nat} {triple : Bool} {close : List Nat} {ts : List Tok} {t : List Nat} (h : Body q triple close ts t) :
    t = [] → close = [] := by
  cases h with
  | cutQuotes h _ ht => exact fun _ => h
  | _ => simp

theorem endString_buf (s : Salvage) (b : List Nat) : (s.buf b).endString o = s.endString o := by
  unfold Salvage.endString Salvage.buf
  rcases h : s.surrogate <;> simp [h, Salvage.emit, Salvage.endValue, Salvage.set, Salvage.emitReplacement]

variable {q : Nat} {triple : Bool} {s : Salvage}

theorem quotes_rule (h : InStr q true s) {b : List Nat} (hb : b = [q] ∨ b = [q, q]) (c : Nat) :
    processCodePoint o (some c) (s.buf b) = stringQuotes o q (some c) (s.buf b) := by
  refine proc1 ?_
  rw [allRules_str (by exact h.quote)]
  have h1 : (s.buf b).state ≠ .unquoted := quote_ne h.quote
  unfold stringRules
  rw [if_neg h1]
  rcases h.mode with ⟨e, rfl, e'⟩ | ⟨e, rfl, e'⟩ | ⟨e, rfl, e'⟩ | ⟨e, rfl, e'⟩ | ⟨e, rfl, e'⟩ <;>
    first | (simp at e'; done) | skip
  all_goals rcases hb with rfl | rfl <;> simp [buf_buffer]

theorem quote_push (h : InStr q true s) : processCodePoint o (some q) s = s.buf [q] := by
  refine proc1 ?_
  rw [allRules_empty h]
  rcases h.mode with ⟨e, rfl, e'⟩ | ⟨e, rfl, e'⟩ | ⟨e, rfl, e'⟩ | ⟨e, rfl, e'⟩ | ⟨e, rfl, e'⟩ <;>
    first | (simp at e'; done) | skip
  all_goals simp [stringEmpty, e, Salvage.push, Salvage.buf, h.buffer]

theorem quote_close (h : InStr q false s) : processCodePoint o (some q) s = s.endString o := by
  refine proc1 ?_
  rw [allRules_empty h]
  rcases h.mode with ⟨e, rfl, e'⟩ | ⟨e, rfl, e'⟩ | ⟨e, rfl, e'⟩ | ⟨e, rfl, e'⟩ | ⟨e, rfl, e'⟩ <;>
    first | (simp at e'; done) | skip
  all_goals simp [stringEmpty, e]

theorem hex_lt (c : Nat) (h : IsHex c) : digitValue c = digit c ∧ digit c < 16 := digitValue_eq h

theorem oct_lt (c : Nat) (h : IsOct c) : digitValue c = digit c ∧ digit c < 8 := by
  unfold IsOct at h
  have := digitValue_eq (c := c) (.inl ⟨h.1, by omega⟩)
  refine ⟨this.1, ?_⟩
  unfold digit
  rw [if_pos (by omega)]
  omega

theorem hexIn_iff (c : Nat) : isHexIn (some c) = true ↔ IsHex c := by
  simp only [isHexIn]
  exact isHex_iff

theorem octal_iff (c : Nat) : isOctal (some c) = true ↔ IsOct c := by simp [isOctal, IsOct]

/-- The rule of an escape of digits. -/
theorem rule_u (h : InStr q triple s) (c : Option Nat) (acc : List Nat) (hc : acc = [] → ∀ d, c = some d → ¬ d = ch '{') :
    stringRules o c (s.buf (ch '\\' :: ch 'u' :: acc)) = stringDigits o 16 4 isHexIn c (s.buf (ch '\\' :: ch 'u' :: acc)) := by
  have h1 : (s.buf (ch '\\' :: ch 'u' :: acc)).state ≠ .unquoted := quote_ne h.quote
  have h2 : ¬ (acc = [] ∧ c = some (ch '{')) := by
    rintro ⟨h1, h2⟩
    exact hc h1 _ h2 rfl
  unfold stringRules
  rw [if_neg h1]
  simp only [buf_buffer]
  simp [h2]

theorem rule_U (h : InStr q triple s) (c : Option Nat) (acc : List Nat) (hc : acc = [] → ∀ d, c = some d → ¬ d = ch '{') :
    stringRules o c (s.buf (ch '\\' :: ch 'U' :: acc)) = stringDigits o 16 8 isHexIn c (s.buf (ch '\\' :: ch 'U' :: acc)) := by
  have h1 : (s.buf (ch '\\' :: ch 'U' :: acc)).state ≠ .unquoted := quote_ne h.quote
  have h2 : ¬ (acc = [] ∧ c = some (ch '{')) := by
    rintro ⟨h1, h2⟩
    exact hc h1 _ h2 rfl
  unfold stringRules
  rw [if_neg h1]
  simp only [buf_buffer]
  simp [h2]

theorem rule_x (h : InStr q triple s) (c : Option Nat) (acc : List Nat) :
    stringRules o c (s.buf (ch '\\' :: ch 'x' :: acc)) = stringDigits o 16 2 isHexIn c (s.buf (ch '\\' :: ch 'x' :: acc)) := by
  have h1 : (s.buf (ch '\\' :: ch 'x' :: acc)).state ≠ .unquoted := quote_ne h.quote
  unfold stringRules
  rw [if_neg h1]
  simp only [buf_buffer]
  simp

theorem rule_o (h : InStr q triple s) (c : Option Nat) (acc : List Nat) :
    stringRules o c (s.buf (ch '\\' :: ch 'o' :: acc)) = stringDigits o 8 3 isOctal c (s.buf (ch '\\' :: ch 'o' :: acc)) := by
  have h1 : (s.buf (ch '\\' :: ch 'o' :: acc)).state ≠ .unquoted := quote_ne h.quote
  unfold stringRules
  rw [if_neg h1]
  simp only [buf_buffer]
  simp

/-- Digits in braces. -/
theorem braces_run (h : InStr q triple s) (t : List Nat) (close : List Nat) (ds : List Nat) :
    ∀ acc, (∀ c ∈ acc ++ ds, IsHex c) → (acc ++ ds).length ≤ 8 →
      fin o close (s.buf (ch '\\' :: ch '{' :: acc)) (ds ++ ch '}' :: t) =
        fin o close (s.emitCodePoint o (number 16 (acc ++ ds))) t := by
  have rule : ∀ acc c, allRules o (some c) (s.buf (ch '\\' :: ch '{' :: acc)) =
      if isHexIn (some c) = true ∧ acc.length + 2 < 100 then (s.buf (ch '\\' :: ch '{' :: (acc ++ [c])), true)
      else ((s.buf (ch '\\' :: ch '{' :: acc)).emitBuffer o 16, c = ch '}') := by
    intro acc c
    rw [allRules_str (by exact h.quote)]
    have h1 : (s.buf (ch '\\' :: ch '{' :: acc)).state ≠ .unquoted := quote_ne h.quote
    unfold stringRules
    rw [if_neg h1]
    simp only [buf_buffer]
    simp [Salvage.pushIn, buf_push]
  induction ds with
  | nil =>
    intro acc h1 h2
    rw [List.append_nil] at h1 h2 ⊢
    rw [List.nil_append, fin_cons]
    have e : processCodePoint o (some (ch '}')) (s.buf (ch '\\' :: ch '{' :: acc)) =
        s.emitCodePoint o (number 16 acc) := by
      refine proc1 ?_
      rw [rule, if_neg (by simp [isHexIn, isHex])]
      have e : (s.buf (ch '\\' :: ch '{' :: acc)).bufferCodePoint 16 = number 16 acc := by
        unfold Salvage.bufferCodePoint
        rw [buf_buffer]
        exact code_eq (n := 8) hex_lt (by omega) (by decide) h1 h2
      unfold Salvage.emitBuffer
      rw [e, buf_emitCodePoint]
      refine Prod.ext ?_ (by simp)
      exact buf_nil _ (h.emitCodePoint _).buffer
    rw [e]
  | cons d ds ih =>
    intro acc h1 h2
    have hd : isHexIn (some d) = true := (hexIn_iff d).mpr (h1 d (by simp))
    have e3 : acc ++ d :: ds = acc ++ [d] ++ ds := by simp
    rw [List.cons_append, fin_cons, proc1 (by rw [rule, if_pos ⟨hd, by simp at h2; omega⟩]), e3]
    exact ih (acc ++ [d]) (by rw [← e3]; exact h1) (by rw [← e3]; exact h2)

/-- Digits in braces that are not closed. -/
theorem braces_cut (h : InStr q triple s) (ds : List Nat) :
    ∀ acc, (∀ c ∈ acc ++ ds, IsHex c) → (acc ++ ds).length ≤ 8 →
      fin o [] (s.buf (ch '\\' :: ch '{' :: acc)) ds = (s.emitCodePoint o (number 16 (acc ++ ds))).endString o := by
  have rule : ∀ acc c, allRules o c (s.buf (ch '\\' :: ch '{' :: acc)) =
      if isHexIn c = true ∧ acc.length + 2 < 100 then ((s.buf (ch '\\' :: ch '{' :: acc)).pushIn c, true)
      else ((s.buf (ch '\\' :: ch '{' :: acc)).emitBuffer o 16, c = some (ch '}')) := by
    intro acc c
    rw [allRules_str (by exact h.quote)]
    have h1 : (s.buf (ch '\\' :: ch '{' :: acc)).state ≠ .unquoted := quote_ne h.quote
    unfold stringRules
    rw [if_neg h1]
    simp only [buf_buffer]
    simp [Salvage.pushIn, buf_push]
    rfl
  induction ds with
  | nil =>
    intro acc h1 h2
    rw [List.append_nil] at h1 h2 ⊢
    show processCodePoint o none (s.buf (ch '\\' :: ch '{' :: acc)) = _
    have e : (s.buf (ch '\\' :: ch '{' :: acc)).bufferCodePoint 16 = number 16 acc := by
      unfold Salvage.bufferCodePoint
      rw [buf_buffer]
      exact code_eq (n := 8) hex_lt (by omega) (by decide) h1 h2
    have e2 : (s.buf (ch '\\' :: ch '{' :: acc)).emitBuffer o 16 = s.emitCodePoint o (number 16 acc) := by
      unfold Salvage.emitBuffer
      rw [e, buf_emitCodePoint]
      exact buf_nil _ (h.emitCodePoint _).buffer
    refine proc2 (s1 := s.emitCodePoint o (number 16 acc)) ?_ ?_
    · rw [rule, if_neg (by simp [isHexIn]), e2]
      simp
    · rw [allRules_empty (h.emitCodePoint _)]
      rfl
  | cons d ds ih =>
    intro acc h1 h2
    have hd : isHexIn (some d) = true := (hexIn_iff d).mpr (h1 d (by simp))
    have e3 : acc ++ d :: ds = acc ++ [d] ++ ds := by simp
    rw [fin_cons, proc1 (by rw [rule, if_pos ⟨hd, by simp at h2; omega⟩]), e3]
    rw [← ih (acc ++ [d]) (by rw [← e3]; exact h1) (by rw [← e3]; exact h2)]
    simp [Salvage.pushIn, buf_push]

theorem content_simple {c r : Nat} (h : (c, r) ∈ simpleEscapes) : Content [ch '\\', c] [r] := .simple h .nil

theorem kept_of_simple {c r : Nat} (h : (c, r) ∈ simpleEscapes) : c ∈ keptEscapes := by
  simp only [simpleEscapes, List.mem_cons, Prod.mk.injEq, List.not_mem_nil, or_false] at h
  simp only [keptEscapes, List.mem_cons, List.not_mem_nil, or_false]
  omega

/-- A string up to its end. -/
theorem body_fin {close : List Nat} {ts : List Tok} {t : List Nat} (hb : Body q triple close ts t)
    (hc : close = (if triple then [q, q, q] else [q]) ∨ close = []) :
    ∀ {s : Salvage}, InStr q triple s → ∃ s', Emits o s ts s' ∧ fin o close s t = s'.endString o := by
  induction hb with
  | close =>
    intro s h
    refine ⟨s, .nil, ?_⟩
    rcases hc with rfl | rfl
    · rcases triple with _ | _
      · show run o s [q] = _
        rw [run_cons, run_nil, quote_close h]
      · show run o s [q, q, q] = _
        rw [run_cons, run_cons, run_cons, run_nil, quote_push h, quotes_rule h (.inl rfl)]
        have e : stringQuotes o q (some q) (s.buf [q]) = s.buf [q, q] := by
          simp [stringQuotes, buf_buffer, buf_push]
        rw [e, quotes_rule h (.inr rfl)]
        have e : stringQuotes o q (some q) (s.buf [q, q]) = (s.buf [q, q]).endString o := by
          simp [stringQuotes, buf_buffer]
        rw [e, endString_buf]
    · show processCodePoint o none s = _
      refine proc1 ?_
      rw [allRules_empty h]
      rfl
  | @raw c ts t h1 h2 _ ih =>
    intro s h
    obtain ⟨s', he, hf⟩ := ih (h.emitCodePoint (o := o) c)
    exact ⟨s', .unit he, by rw [fin_cons, str_raw h h1 h2, hf]⟩
  | @simple c r ts t hcr _ ih =>
    intro s h
    obtain ⟨s', he, hf⟩ := ih (h.emit [ch '\\', c])
    refine ⟨s', .kept (content_simple hcr) he, ?_⟩
    have e : stringEscape o (some c) (s.buf [ch '\\']) = s.emit [ch '\\', c] := by
      simp only [stringEscape, kept_of_simple hcr, if_true]
      exact esc_emit h _
    rw [run_escape h, e, hf]
  | @bell ts t _ ih =>
    intro s h
    obtain ⟨s', he, hf⟩ := ih (h.emitCodePoint (o := o) 7)
    refine ⟨s', .unit he, ?_⟩
    have e : stringEscape o (some (ch 'a')) (s.buf [ch '\\']) = s.emitCodePoint o 7 := by
      rw [← esc_code h]
      simp [stringEscape, keptEscapes]
    rw [run_escape h, e, hf]
  | @tab ts t _ ih =>
    intro s h
    obtain ⟨s', he, hf⟩ := ih (h.emitCodePoint (o := o) 11)
    refine ⟨s', .unit he, ?_⟩
    have e : stringEscape o (some (ch 'v')) (s.buf [ch '\\']) = s.emitCodePoint o 11 := by
      rw [← esc_code h]
      simp [stringEscape, keptEscapes]
    rw [run_escape h, e, hf]
  | @quote c ts t hcq _ ih =>
    intro s h
    obtain ⟨s', he, hf⟩ := ih (h.emit [c])
    refine ⟨s', .kept (.plain ?_ .nil) he, ?_⟩
    · rcases hcq with rfl | rfl <;> simp [Plain]
    have e : stringEscape o (some c) (s.buf [ch '\\']) = s.emit [c] := by
      rw [← esc_emit h]
      rcases hcq with rfl | rfl <;> simp [stringEscape, keptEscapes]
    rw [run_escape h, e, hf]
  | @hex2 x ds ts t hx hu hb ih =>
    intro s h
    obtain ⟨s', he, hf⟩ := ih (h.emitCodePoint (o := o) (number 16 ds))
    refine ⟨s', .unit he, ?_⟩
    have e : stringEscape o (some x) (s.buf [ch '\\']) = s.buf [ch '\\', ch 'x'] := by
      rcases hx with rfl | rfl <;> simp [stringEscape, keptEscapes, buf_push]
    rw [run_escape h, e, ← hf]
    exact digits_fin (base := 16) (n := 2) (k := ch 'x') hex_lt (by omega) (by decide) rfl hexIn_iff (fun _ => False)
      (by simp) (fun c acc _ => rule_x h c acc) h close t (body_close hb) ds [] (by simp) (by simp) (by simp)
      (by simpa using hu)
  | @hex4 ds ts t hu hbr hb ih =>
    intro s h
    obtain ⟨s', he, hf⟩ := ih (h.emitCodePoint (o := o) (number 16 ds))
    refine ⟨s', .unit he, ?_⟩
    have e : stringEscape o (some (ch 'u')) (s.buf [ch '\\']) = s.buf [ch '\\', ch 'u'] := by
      simp [stringEscape, keptEscapes, buf_push]
    rw [run_escape h, e, ← hf]
    exact digits_fin (base := 16) (n := 4) (k := ch 'u') hex_lt (by omega) (by decide) rfl hexIn_iff (fun d => d = ch '{')
      (by rintro c hc rfl; revert hc; unfold IsHex IsDigit; simp) (fun c acc hc => rule_u h c acc hc) h close t
      (body_close hb) ds [] (by
        intro e d hd he
        subst he
        exact hbr (by simpa using e) hd) (by simp) (by simp)
      (by simpa using hu)
  | @hex8 ds ts t hu hbr hb ih =>
    intro s h
    obtain ⟨s', he, hf⟩ := ih (h.emitCodePoint (o := o) (number 16 ds))
    refine ⟨s', .unit he, ?_⟩
    have e : stringEscape o (some (ch 'U')) (s.buf [ch '\\']) = s.buf [ch '\\', ch 'U'] := by
      simp [stringEscape, keptEscapes, buf_push]
    rw [run_escape h, e, ← hf]
    exact digits_fin (base := 16) (n := 8) (k := ch 'U') hex_lt (by omega) (by decide) rfl hexIn_iff (fun d => d = ch '{')
      (by rintro c hc rfl; revert hc; unfold IsHex IsDigit; simp) (fun c acc hc => rule_U h c acc hc) h close t
      (body_close hb) ds [] (by
        intro e d hd he
        subst he
        exact hbr (by simpa using e) hd) (by simp) (by simp)
      (by simpa using hu)
  | @braces x ds ts t hx hh hl hb ih =>
    intro s h
    obtain ⟨s', he, hf⟩ := ih (h.emitCodePoint (o := o) (number 16 ds))
    refine ⟨s', .unit he, ?_⟩
    have e : stringEscape o (some x) (s.buf [ch '\\']) = s.buf [ch '\\', x] := by
      rcases hx with rfl | rfl <;> simp [stringEscape, keptEscapes, buf_push]
    have e2 : processCodePoint o (some (ch '{')) (s.buf [ch '\\', x]) = s.buf [ch '\\', ch '{'] := by
      refine proc1 ?_
      rw [allRules_str (by exact h.quote)]
      have h1 : (s.buf [ch '\\', x]).state ≠ .unquoted := quote_ne h.quote
      unfold stringRules
      rw [if_neg h1]
      simp only [buf_buffer]
      rcases hx with rfl | rfl <;> simp [buf_clear, buf_push, isHexIn, isHex]
    rw [run_escape h, e, fin_cons, e2, ← hf]
    exact braces_run h t close ds [] (by simpa using hh) (by simpa using hl)
  | @octal ds ts t hne hu hb ih =>
    intro s h
    obtain ⟨s', he, hf⟩ := ih (h.emitCodePoint (o := o) (number 8 ds))
    refine ⟨s', .unit he, ?_⟩
    rcases ds with _ | ⟨d, ds⟩
    · exact absurd rfl hne
    have hd : IsOct d := hu.1 d (by simp)
    have e : stringEscape o (some d) (s.buf [ch '\\']) = s.buf [ch '\\', ch 'o', d] := by
      have h0 : isOctal (some d) = true := (octal_iff d).mpr hd
      unfold IsOct at hd
      have : d ∉ keptEscapes := by
        simp only [keptEscapes, List.mem_cons, List.not_mem_nil, or_false, not_or]
        omega
      simp only [stringEscape]
      rw [if_neg this, if_neg (by omega), if_neg (by omega), if_neg (by omega), if_neg (by omega),
        if_neg (by omega), if_pos h0, buf_push, buf_push]
      rfl
    rw [List.cons_append, run_escape h, e, ← hf]
    exact digits_fin (base := 8) (n := 3) (k := ch 'o') oct_lt (by omega) (by decide) rfl octal_iff (fun _ => False)
      (by simp) (fun c acc _ => rule_o h c acc) h close t (body_close hb) ds [d] (by simp) (by simpa using hd) (by simp)
      hu
  | @lineEnd c ts t hl hc _ ih =>
    intro s h
    obtain ⟨s', he, hf⟩ := ih h
    refine ⟨s', he, ?_⟩
    have e : stringEscape o (some c) (s.buf [ch '\\']) = s := by
      have ht := lineEnd_iff.mpr hl
      have : c ∉ keptEscapes ∧ c ≠ ch 'a' ∧ c ≠ ch 'v' ∧ ¬ (c = ch '`' ∨ c = ch '\'') ∧ ¬ (c = ch 'u' ∨ c = ch 'U') ∧
          ¬ (c = ch 'x' ∨ c = ch 'X') ∧ ¬ (isOctal (some c) = true) := by
        revert hl
        simp only [lineEnds, List.mem_cons, List.not_mem_nil, or_false]
        rintro (rfl | rfl | rfl | rfl) <;> decide
      obtain ⟨a1, a2, a3, a4, a5, a6, a7⟩ := this
      simp only [stringEscape]
      rw [if_neg a1, if_neg a2, if_neg a3, if_neg a4, if_neg a5, if_neg a6, if_neg a7, if_pos ⟨hc, ht⟩, buf_clear,
        buf_nil _ h.buffer]
    rw [run_escape h, e, hf]
  | @crlf ts t _ ih =>
    intro s h
    obtain ⟨s', he, hf⟩ := ih h
    refine ⟨s', he, ?_⟩
    have e : stringEscape o (some 13) (s.buf [ch '\\']) = s.buf [ch '\\', 13] := by
      simp [stringEscape, keptEscapes, buf_push, isOctal]
    have e2 : processCodePoint o (some 10) (s.buf [ch '\\', 13]) = s := by
      refine proc1 ?_
      rw [allRules_str (by exact h.quote)]
      have h1 : (s.buf [ch '\\', 13]).state ≠ .unquoted := quote_ne h.quote
      unfold stringRules
      rw [if_neg h1]
      simp only [buf_buffer]
      simp [buf_clear, buf_nil _ h.buffer]
    rw [run_escape h, e, fin_cons, e2, hf]
  | @cr ts t hh hb ih =>
    intro s h
    obtain ⟨s', he, hf⟩ := ih h
    refine ⟨s', he, ?_⟩
    have e : stringEscape o (some 13) (s.buf [ch '\\']) = s.buf [ch '\\', 13] := by
      simp [stringEscape, keptEscapes, buf_push, isOctal]
    rw [run_escape h, e, ← hf]
    refine fin_skip (body_close hb) ?_ (by rw [allRules_empty h])
    rw [allRules_str (by exact h.quote)]
    have h1 : (s.buf [ch '\\', 13]).state ≠ .unquoted := quote_ne h.quote
    unfold stringRules
    rw [if_neg h1]
    simp only [buf_buffer]
    simp [buf_clear, buf_nil _ h.buffer, hh]
  | @unknown c ts t h20 hes hoc _ ih =>
    intro s h
    obtain ⟨s', he, hf⟩ := ih ((h.emit [ch '\\', ch '\\']).emit [c])
    have hes' := hes
    simp only [escapes, lineEnds, List.mem_append, List.mem_cons, List.not_mem_nil, or_false, not_or] at hes
    refine ⟨s', .kept (content_simple (by decide)) (.kept (.plain ⟨h20, by omega, by omega⟩ .nil) he), ?_⟩
    have e : stringEscape o (some c) (s.buf [ch '\\']) = (s.emit [ch '\\', ch '\\']).emit [c] := by
      have e' : (s.emit [ch '\\', ch '\\']).emit [c] = s.emit [ch '\\', ch '\\', c] := by simp [Salvage.emit]
      have h0 : ¬ isOctal (some c) = true := by rw [octal_iff]; exact hoc
      have a1 : c ∉ keptEscapes := by
        simp only [keptEscapes, List.mem_cons, List.not_mem_nil, or_false, not_or]
        omega
      have a2 : isLineTerminator c = false := by
        have : ¬ isLineTerminator c = true := by
          rw [lineEnd_iff]
          intro hl
          exact hes' (by unfold escapes; exact List.mem_append_right _ hl)
        simpa using this
      rw [e', ← esc_emit h]
      simp only [stringEscape]
      rw [if_neg a1, if_neg (by omega), if_neg (by omega), if_neg (by omega), if_neg (by omega), if_neg (by omega), if_neg h0,
        if_neg (by simp [a2]), if_neg (by omega)]
    rw [run_escape h, e, hf]
  | @one c ts t hl hcq _ ih =>
    intro s h
    subst hl
    obtain ⟨s', he, hf⟩ := ih ((h.emitCodePoint (o := o) q).emitCodePoint (o := o) c)
    refine ⟨s', .unit (.unit he), ?_⟩
    have e : stringQuotes o q (some c) (s.buf [q]) = (s.emitCodePoint o q).emitCodePoint o c := by
      simp only [stringQuotes, buf_buffer, if_true]
      rw [if_neg hcq, buf_emitCodePoint, buf_emitCodePoint, buf_clear]
      exact buf_nil _ ((h.emitCodePoint q).emitCodePoint c).buffer
    rw [fin_cons, fin_cons, quote_push h, quotes_rule h (.inl rfl), e, hf]
  | @two c ts t hl hcq _ ih =>
    intro s h
    subst hl
    obtain ⟨s', he, hf⟩ := ih (((h.emitCodePoint (o := o) q).emitCodePoint (o := o) q).emitCodePoint (o := o) c)
    refine ⟨s', .unit (.unit (.unit he)), ?_⟩
    have e0 : stringQuotes o q (some q) (s.buf [q]) = s.buf [q, q] := by
      simp [stringQuotes, buf_buffer, buf_push]
    have e : stringQuotes o q (some c) (s.buf [q, q]) =
        ((s.emitCodePoint o q).emitCodePoint o q).emitCodePoint o c := by
      have hne : ¬ (s.buf [q, q]).buffer = [q] := by rw [buf_buffer]; simp
      simp only [stringQuotes]
      rw [if_neg hne, if_neg hcq, buf_emitCodePoint, buf_emitCodePoint, buf_emitCodePoint, buf_clear]
      exact buf_nil _ (((h.emitCodePoint q).emitCodePoint q).emitCodePoint c).buffer
    rw [fin_cons, fin_cons, fin_cons, quote_push h, quotes_rule h (.inl rfl), e0, quotes_rule h (.inr rfl), e, hf]
  | cutEscape hcl =>
    intro s h
    subst hcl
    refine ⟨s, .nil, ?_⟩
    show processCodePoint o none (processCodePoint o (some (ch '\\')) s) = _
    rw [str_backslash h, ← endString_buf s [ch '\\']]
    refine proc1 ?_
    rw [allRules_str (by exact h.quote)]
    have h1 : (s.buf [ch '\\']).state ≠ .unquoted := quote_ne h.quote
    unfold stringRules
    rw [if_neg h1]
    simp only [buf_buffer]
    simp [stringEscape]
  | @cutBraces x ds hcl hx hds hlen =>
    intro s h
    subst hcl
    refine ⟨s.emitCodePoint o (number 16 ds), .unit .nil, ?_⟩
    have e : stringEscape o (some x) (s.buf [ch '\\']) = s.buf [ch '\\', x] := by
      rcases hx with rfl | rfl <;> simp [stringEscape, keptEscapes, buf_push]
    have e2 : processCodePoint o (some (ch '{')) (s.buf [ch '\\', x]) = s.buf [ch '\\', ch '{'] := by
      refine proc1 ?_
      rw [allRules_str (by exact h.quote)]
      have h1 : (s.buf [ch '\\', x]).state ≠ .unquoted := quote_ne h.quote
      unfold stringRules
      rw [if_neg h1]
      simp only [buf_buffer]
      rcases hx with rfl | rfl <;> simp [buf_clear, buf_push, isHexIn, isHex]
    rw [run_escape h, e, fin_cons, e2]
    exact braces_cut h ds [] (by simpa using hds) (by simpa using hlen)
  | @cutQuotes t hcl htr ht =>
    intro s h
    subst hcl htr
    refine ⟨s, .nil, ?_⟩
    have e0 : stringQuotes o q (some q) (s.buf [q]) = s.buf [q, q] := by
      simp [stringQuotes, buf_buffer, buf_push]
    have e : run o s t = s.buf t := by
      rcases ht with rfl | rfl
      · rw [run_cons, run_nil, quote_push h]
      · rw [run_cons, run_cons, run_nil, quote_push h, quotes_rule h (.inl rfl), e0]
    show processCodePoint o none (run o s t) = _
    rw [e, ← endString_buf s t]
    refine proc1 ?_
    rw [allRules_str (by exact h.quote)]
    have h1 : (s.buf t).state ≠ .unquoted := quote_ne h.quote
    unfold stringRules
    rw [if_neg h1]
    rcases h.mode with ⟨e, rfl, e'⟩ | ⟨e, rfl, e'⟩ | ⟨e, rfl, e'⟩ | ⟨e, rfl, e'⟩ | ⟨e, rfl, e'⟩ <;>
      first | (simp at e'; done) | skip
    all_goals rcases ht with rfl | rfl <;> simp [buf_buffer, stringQuotes]

end Verif.JsonSalvage
