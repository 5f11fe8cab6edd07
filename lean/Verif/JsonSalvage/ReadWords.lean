/-
The processor reads strings, words and atoms.
-/
import Verif.JsonSalvage.ReadStrings
import Verif.JsonSalvage.ReadNumbers

namespace Verif.JsonSalvage

open Verif.JsonStream

variable {o : Options} {s : Salvage}

/-! ### Strings in quotes -/

theorem ended_num (st : State) (b x : List Nat) : ended (num s st b [ch '"']) x = done s (quoted x) := by
  simp [ended, num, done, quoted]

/-- The first quote. -/
theorem run_quote (h : AtBase s) {q : Nat} (hq : q = ch '"' ∨ q = ch '\'') :
    processCodePoint o (some q) s = num s .base [q] [ch '"'] := by
  rw [proc_base h]
  obtain ⟨u, stk, sep, key, buf, state, su, out⟩ := s
  obtain ⟨h1, h2, h3⟩ := h
  simp only at h1 h2 h3
  subst h1 h2 h3
  rcases hq with rfl | rfl <;>
    simp [baseEmpty, isWhitespace, num, startString_eq, Salvage.push]

theorem run_tick (h : AtBase s) : processCodePoint o (some (ch '`')) s = num s .base [ch '`'] [] := by
  rw [proc_base h]
  obtain ⟨u, stk, sep, key, buf, state, su, out⟩ := s
  obtain ⟨h1, h2, h3⟩ := h
  simp only at h1 h2 h3
  subst h1 h2 h3
  simp [baseEmpty, isWhitespace, num, startValue_eq, Salvage.push]

theorem run_quotes (h : AtBase s) {q : Nat} (hq : q = ch '"' ∨ q = ch '\'') :
    run o s [q, q] = num s .base [q, q] [ch '"'] := by
  rw [run_cons, run_cons, run_nil, run_quote h hq]
  refine proc1 ?_
  rcases hq with rfl | rfl <;> simp [allRules, num, baseRules, Salvage.push]

/-- Strings in quotes are read. -/
theorem quoted_reach (h : AtBase s) {u t : List Nat} {e : Ending} (ht : QuotedText u t e) :
    ∃ x, Content x u ∧ Reach o s t (done s (quoted x)) (Ends e) := by
  cases ht with
  | @empty q hq =>
    refine ⟨[], .nil, ?_⟩
    intro c hc
    rw [run_quotes h hq]
    have hcq : c ≠ some q := by
      rintro rfl
      exact hc rfl
    refine proc_end ?_ (done_base _ _)
    have e : ((num s .base [q, q] [ch '"']).emit [ch '"']).endValue = done s (quoted []) := by
      rw [num_end h.surrogate]
      rfl
    rw [← e]
    rcases hq with rfl | rfl <;> simp [allRules, num, baseRules, hcq]
  | @single q ts t u hq hb hh hm =>
    have hne : t ≠ [] := fun e => by simpa using body_close hb e
    obtain ⟨st, b0, x0, hstart, hin, hrule⟩ : ∃ st b0 x0, processCodePoint o (some q) s = num s .base b0 x0 ∧
        InStr q false (num s st [] [ch '"']) ∧
        ∀ c, c ≠ some q → allRules o c (num s .base b0 x0) = (num s st [] [ch '"'], false) := by
      rcases hq with rfl | rfl | rfl
      · refine ⟨.doubleQuote, _, _, run_quote h (.inl rfl), ⟨by simp [num], rfl⟩, fun c hc => ?_⟩
        simp [allRules, num, baseRules, hc, Salvage.set]
      · refine ⟨.singleQuote, _, _, run_quote h (.inr rfl), ⟨by simp [num], rfl⟩, fun c hc => ?_⟩
        simp [allRules, num, baseRules, hc, Salvage.set]
      · refine ⟨.backtick, _, _, run_tick h, ⟨by simp [num], rfl⟩, fun c hc => ?_⟩
        simp [allRules, num, baseRules, hc, Salvage.set, Salvage.emit]
    obtain ⟨s', he, hf⟩ := body_fin (o := o) (triple := false) hb (.inl rfl) hin
    obtain ⟨x, hx, hend⟩ := emits_ended hm he h.surrogate
    refine ⟨x, hx, Reach.of_eq ?_⟩
    have e1 : run o (num s .base b0 x0) t = run o (num s st [] [ch '"']) t := by
      have := fin_skip (o := o) (close := [q]) (t := t) (fun h => absurd h hne) (hrule t.head? hh)
        (by rw [allRules_empty hin])
      simpa [fin] using this
    have e2 : run o (num s st [] [ch '"']) t = s'.endString o := by simpa [fin] using hf
    rw [run_cons, hstart, e1, e2, hend, ended_num]
  | @triple q ts t u hq hb hm =>
    obtain ⟨st, hstart, hin⟩ : ∃ st, processCodePoint o (some q) (num s .base [q, q] [ch '"']) = num s st [] [ch '"'] ∧
        InStr q true (num s st [] [ch '"']) := by
      rcases hq with rfl | rfl
      · refine ⟨.tripleDouble, proc1 ?_, ⟨by simp [num], rfl⟩⟩
        simp [allRules, num, baseRules, Salvage.set]
      · refine ⟨.tripleSingle, proc1 ?_, ⟨by simp [num], rfl⟩⟩
        simp [allRules, num, baseRules, Salvage.set]
    obtain ⟨s', he, hf⟩ := body_fin (o := o) (triple := true) hb (.inl rfl) hin
    obtain ⟨x, hx, hend⟩ := emits_ended hm he h.surrogate
    refine ⟨x, hx, Reach.of_eq ?_⟩
    have e2 : run o (num s st [] [ch '"']) t = s'.endString o := by simpa [fin] using hf
    have e3 : q :: q :: q :: t = [q, q] ++ q :: t := rfl
    rw [e3, run_append, run_quotes h hq, run_cons, hstart, e2, hend, ended_num]

/-! ### Letters -/

/-- A character of a word at the beginning of a value. -/
theorem run_letter (h : AtBase s) {c : Nat} (hc : WordStart c ∨ (IsDigit c ∧ s.key = true)) :
    processCodePoint o (some c) s = s.buf [c] := by
  rw [proc_base h]
  have hw : isWhitespace c = false := by
    rcases hc with hc | ⟨hc, _⟩
    · have := hc.2
      rw [← whitespace_iff] at this
      simpa using this
    · unfold IsDigit at hc
      simp only [isWhitespace, Bool.or_eq_false_iff, Bool.and_eq_false_iff, decide_eq_false_iff_not, beq_eq_false_iff_ne, ne_eq]
      omega
  have hne : c ≠ ch ',' ∧ c ≠ ch ':' ∧ c ≠ ch '#' ∧ c ≠ ch '/' ∧ c ≠ ch ']' ∧ c ≠ ch '}' ∧ c ≠ ch ')' ∧ c ≠ ch '{' ∧ c ≠ ch '[' ∧
      c ≠ ch '(' ∧ c ≠ ch '"' ∧ c ≠ ch '\'' ∧ c ≠ ch '`' ∧ c ≠ ch '-' ∧ c ≠ ch '+' ∧ c ≠ ch '.' := by
    rcases hc with ⟨hc, _⟩ | ⟨hc, _⟩
    · unfold IsLetter at hc; omega
    · unfold IsDigit at hc; omega
  have hkey : s.key = false → ¬ IsDigit c := by
    intro hk
    rcases hc with ⟨hc, _⟩ | ⟨_, h'⟩
    · unfold IsLetter at hc; unfold IsDigit; omega
    · simp [hk] at h'
  have h19 : s.key = false → isDigit19 (some c) = false := by
    intro hk
    have := hkey hk
    unfold IsDigit at this
    simp only [isDigit19, Bool.and_eq_false_iff, decide_eq_false_iff_not]
    omega
  have h0 : s.key = false → c ≠ ch '0' := by
    intro hk e
    exact hkey hk (by unfold IsDigit; omega)
  obtain ⟨a1, a2, a3, a4, a5, a6, a7, a8, a9, a10, a11, a12, a13, a14, a15, a16⟩ := hne
  unfold baseEmpty
  simp only
  rw [if_neg (by simp [hw, a1, a2]), if_neg a3, if_neg a4, if_neg (by simp [a5, a6, a7]), if_neg (by simp [a8]),
    if_neg (by simp [a9, a10]), if_neg (by simp [a11, a12]), if_neg a13, if_neg (by simp [a14, a15]),
    if_neg (by rintro ⟨h1, h2⟩; exact h0 h1 h2), if_neg (by simp [a16]), if_neg (by rintro ⟨h1, h2⟩; simp [h19 h1] at h2)]
  simp [Salvage.push, Salvage.buf, h.buffer]

/-- Buffers that only the last rules are for. -/
def Lettered (b : List Nat) : Prop := ∃ c r, b = c :: r ∧ c ≠ ch '/' ∧ c ≠ ch '"' ∧ c ≠ ch '\'' ∧ c ≠ ch '`'

/-- The last rules for characters between values. -/
theorem rules_letters {n : Salvage} (hst : n.state = .base) (hb : Lettered n.buffer) (c : Option Nat)
    (hsign : n.buffer = [ch '-'] ∨ n.buffer = [ch '+'] → ∀ d, c = some d → ¬ IsDigit d ∧ d ≠ ch '.') :
    allRules o c n =
      if n.unquotedNext o c = false then ((n.startString.emitCodePoints o n.buffer).endString o, false)
      else baseAtom o (n.pushIn c) := by
  obtain ⟨d, r, e, h1, h2, h3, h4⟩ := hb
  unfold allRules
  rw [hst]
  simp only
  have hd : n.buffer = [ch '-'] ∨ n.buffer = [ch '+'] → isDigit19 c = false ∧ c ≠ some (ch '0') ∧ c ≠ some (ch '.') := by
    intro h
    have := hsign h
    rcases c with _ | c
    · simp [isDigit19]
    · obtain ⟨h1, h2⟩ := this c rfl
      unfold IsDigit at h1
      refine ⟨?_, ?_, ?_⟩
      · simp only [isDigit19, Bool.and_eq_false_iff, decide_eq_false_iff_not]; omega
      · simp only [ne_eq, Option.some.injEq]; omega
      · simpa using h2
  unfold baseRules
  rw [if_neg (by simp [e]), if_neg (by simp [e, h1]), if_neg (by simp [e, h1]), if_neg (by simp [e, h2]), if_neg (by simp [e, h3]),
    if_neg (by simp [e, h4]), if_neg (by simp [e, h2]), if_neg (by simp [e, h3]), if_neg (by simp [e, h4]),
    if_neg (fun h => (hd (.inl h.1)).2.1 h.2), if_neg (fun h => by simp [(hd (.inl h.1)).1] at h),
    if_neg (fun h => (hd (.inl h.1)).2.2 h.2),
    if_neg (fun h => (hd (.inr h.1)).2.1 h.2), if_neg (fun h => by simp [(hd (.inr h.1)).1] at h),
    if_neg (fun h => (hd (.inr h.1)).2.2 h.2)]

theorem next_part (n : Salvage) {c : Nat} (h : WordPart c) : n.unquotedNext o (some c) = true := by
  obtain ⟨_, h1, h2, h3, h4, h5, h6, h7, h8, h9⟩ := h
  rw [← whitespace_iff] at h1
  simp [Salvage.unquotedNext, h1, h2, h3, h4, h5, h6, h7, h8, h9]

theorem next_end (n : Salvage) {c : Option Nat} (h : Ends .word c) : n.unquotedNext o c = false := by
  rcases c with _ | c
  · rfl
  · rcases h with h | h | h | h | h | h
    · simp [Salvage.unquotedNext, whitespace_of h]
    all_goals simp [Salvage.unquotedNext, h]

/-! ### Prefixes of strings -/

theorem atoms_head {nan : Bool} : ∀ p ∈ atoms nan, ∀ c, p.1.head? = some c → c ≠ ch 'b' ∧ c ≠ ch 'u' := by
  have : ∀ p ∈ atoms nan, ∀ c ∈ p.1.head?, c ≠ ch 'b' ∧ c ≠ ch 'u' := by cases nan <;> decide
  exact this

theorem match_none {b : List Nat} {l : List (List Nat × List Nat)} (h : ∀ p ∈ l, anycasePrefix b p.1 = false) :
    matchAtoms b l = (none, false) := by
  induction l with
  | nil => rfl
  | cons p l ih =>
    obtain ⟨a, out⟩ := p
    have h1 : anycasePrefix b a = false := h (a, out) (by simp)
    simp only [matchAtoms, h1]
    exact ih fun p hp => h p (by simp [hp])

theorem run_prefix (h : AtBase s) {c q : Nat} (hc : c = ch 'b' ∨ c = ch 'u') (hq : q = ch '"' ∨ q = ch '\'') :
    processCodePoint o (some q) (processCodePoint o (some c) s) = processCodePoint o (some q) s := by
  have hl : WordStart c := by
    refine ⟨.inl ?_, ?_⟩
    · unfold IsLetter; omega
    · rcases hc with rfl | rfl <;> decide
  rw [run_letter h (.inl hl)]
  refine proc_end ?_ h
  have hnext : (s.buf [c]).unquotedNext o (some q) = true := by
    rcases hq with rfl | rfl <;> simp [Salvage.unquotedNext, isWhitespace]
  have hm : matchAtoms [c, q] (atoms o.allowNan) = (none, false) := by
    refine match_none fun p hp => ?_
    have hh := atoms_head p hp
    rcases hp' : p.1 with _ | ⟨a, as⟩
    · rfl
    · have := hh a (by simp [hp'])
      simp only [anycasePrefix]
      have hlow : toLower c = c := by rcases hc with rfl | rfl <;> rfl
      rw [hlow]
      have hca : c ≠ a := by rintro rfl; rcases hc with hc | hc <;> simp [hc] at this
      simp [hca]
  rw [rules_letters (n := s.buf [c]) h.state ⟨c, [], rfl, by omega, by omega, by omega, by omega⟩ _
    (by rcases hc with rfl | rfl <;> simp [buf_buffer]), hnext, if_neg (by simp)]
  have e : (s.buf [c]).pushIn (some q) = s.buf [c, q] := rfl
  rw [e]
  unfold baseAtom
  rw [buf_buffer, hm]
  have e2 : (if (s.buf [c, q]).key = true then ((none, false) : Option (List Nat) × Bool) else (none, false)) = (none, false) := by
    split <;> rfl
  simp only [e2]
  have e3 : (s.buf [c, q]).set .base [] = s := base_eq h
  rcases hc with rfl | rfl <;> rcases hq with rfl | rfl <;> simp [e3]

theorem quotedText_head {u t : List Nat} {e : Ending} (h : QuotedText u t e) :
    ∃ q r, t = q :: r ∧ (q = ch '"' ∨ q = ch '\'' ∨ q = ch '`') := by
  cases h with
  | empty h => exact ⟨_, _, rfl, by omega⟩
  | single h => exact ⟨_, _, rfl, h⟩
  | triple h => exact ⟨_, _, rfl, by omega⟩

theorem prefixed_reach (h : AtBase s) {c : Nat} {u t : List Nat} {e : Ending} (hc : c = ch 'b' ∨ c = ch 'u')
    (ht : QuotedText u t e) (hh : t.head? ≠ some (ch '`')) :
    ∃ x, Content x u ∧ Reach o s (c :: t) (done s (quoted x)) (Ends e) := by
  obtain ⟨x, h1, h2⟩ := quoted_reach (o := o) h ht
  refine ⟨x, h1, fun d hd => ?_⟩
  rw [← h2 d hd]
  obtain ⟨q, r, rfl, hq⟩ := quotedText_head ht
  have hq : q = ch '"' ∨ q = ch '\'' := by
    rcases hq with hq | hq | hq
    · exact .inl hq
    · exact .inr hq
    · simp [hq] at hh
  rw [run_cons, run_cons, run_cons, run_prefix h hc hq]

/-! ### Words -/

/-- The text of the characters of a word. -/
def wordText (o : Options) (w : List Nat) : List Nat := w.flatMap (scalarText o.ensureAscii)

theorem content_word {w : List Nat} (h : ∀ c ∈ w, IsScalar c) : Content (wordText o w) w := by
  induction w with
  | nil => exact .nil
  | cons c w ih =>
    have := content_append (content_scalarText (a := o.ensureAscii) (h c (by simp))) (ih fun d hd => h d (by simp [hd]))
    simpa [wordText] using this

theorem emit_word {w : List Nat} (h : ∀ c ∈ w, IsScalar c) (n : Salvage) (hn : n.surrogate = none) :
    n.emitCodePoints o w = n.emit (wordText o w) := by
  induction w generalizing n with
  | nil => simp [Salvage.emitCodePoints, wordText, Salvage.emit]
  | cons c w ih =>
    rw [Salvage.emitCodePoints, emit_scalar hn (h c (by simp)), ih (fun d hd => h d (by simp [hd])) (n.emit _) (by exact hn)]
    simp [wordText, Salvage.emit]

/-- Inside of a word. -/
theorem run_unquoted (hs : s.surrogate = none) (w : List Nat) (hw : ∀ c ∈ w, WordPart c) (x : List Nat) :
    Reach o (num s .unquoted [] (ch '"' :: x)) w (done s (quoted (x ++ wordText o w))) (Ends .word) := by
  induction w generalizing x with
  | nil =>
    intro c hc
    rw [run_nil]
    refine proc_end ?_ (done_base _ _)
    have e : (num s .unquoted [] (ch '"' :: x)).endString o = done s (quoted (x ++ wordText o [])) := by
      rw [endString_none (by exact hs)]
      simp [ended, num, done, quoted, wordText]
    rw [← e]
    have hn := next_end (o := o) (num s .unquoted [] (ch '"' :: x)) hc
    unfold allRules
    simp only [num] at hn ⊢
    unfold stringRules
    rw [if_pos rfl]
    rcases c with _ | c
    · rfl
    · simp only [hn, if_true]
  | cons d w ih =>
    have hd := hw d (by simp)
    have e : processCodePoint o (some d) (num s .unquoted [] (ch '"' :: x)) =
        num s .unquoted [] (ch '"' :: (x ++ scalarText o.ensureAscii d)) := by
      refine proc1 ?_
      have hn := next_part (o := o) (num s .unquoted [] (ch '"' :: x)) hd
      have he : (num s .unquoted [] (ch '"' :: x)).emitCodePoint o d =
          num s .unquoted [] (ch '"' :: (x ++ scalarText o.ensureAscii d)) := by
        rw [emit_scalar (by exact hs) hd.1]
        simp [num, Salvage.emit]
      rw [← he]
      unfold allRules
      simp only [num] at hn ⊢
      unfold stringRules
      rw [if_pos rfl]
      simp [hn]
    have := ih (fun c hc => hw c (by simp [hc])) (x ++ scalarText o.ensureAscii d)
    intro c hc
    rw [run_cons, e, this c hc]
    simp [wordText]

theorem start_word (h : AtBase s) {b : List Nat} (hb : ∀ c ∈ b, IsScalar c) (b' : List Nat) :
    (s.buf b').startString.emitCodePoints o b = (num s s.state b' (ch '"' :: wordText o b)) := by
  rw [emit_word hb _ (by rw [startString_eq]; exact h.surrogate), startString_eq]
  simp [Salvage.buf, num, Salvage.emit]

/-- Words whose beginnings are no atoms. -/
theorem run_word (h : AtBase s) {w : List Nat} (hw : IsWord w)
    (hm : s.key = true ∨ ∀ k ≤ w.length, (matchAtoms (w.take k) (atoms o.allowNan)).1 = none) (r : List Nat) :
    ∀ b, b ≠ [] → b ++ r = w → Reach o (s.buf b) r (done s (quoted (wordText o w))) (Ends .word) := by
  obtain ⟨⟨a, ha, hstart⟩, hpart, hbu⟩ := hw
  have lettered : ∀ b r', b ≠ [] → b ++ r' = w → Lettered b ∧ b ≠ [ch '-'] ∧ b ≠ [ch '+'] := by
    intro b r' hne e
    rcases b with _ | ⟨c, b⟩
    · exact absurd rfl hne
    · have : c = a := by
        rw [← e] at ha
        simpa using ha
      subst this
      have hc : c ≠ ch '/' ∧ c ≠ ch '"' ∧ c ≠ ch '\'' ∧ c ≠ ch '`' ∧ c ≠ ch '-' ∧ c ≠ ch '+' := by
        rcases hstart with ⟨hc, _⟩ | hc
        · unfold IsLetter at hc; omega
        · unfold IsDigit at hc; omega
      exact ⟨⟨c, b, rfl, hc.1, hc.2.1, hc.2.2.1, hc.2.2.2.1⟩, by simp [hc.2.2.2.2.1], by simp [hc.2.2.2.2.2]⟩
  induction r with
  | nil =>
    intro b hne e
    rw [List.append_nil] at e
    subst e
    have hsc : ∀ c ∈ b, IsScalar c := fun c hc => (hpart c hc).1
    intro c hc
    rw [run_nil]
    refine proc_end ?_ (done_base _ _)
    obtain ⟨hl, h1, h2⟩ := lettered b [] hne (by simp)
    rw [rules_letters (n := s.buf b) h.state hl _ (by simp [buf_buffer, h1, h2]), next_end _ hc, if_pos rfl, buf_buffer, start_word h hsc,
      endString_none (by exact h.surrogate)]
    simp [ended, num, done, quoted]
  | cons d r ih =>
    intro b hne e
    have e' : (b ++ [d]) ++ r = w := by simpa using e
    have hd : WordPart d := hpart d (by rw [← e]; simp)
    have hsc : ∀ c ∈ b ++ [d], IsScalar c := fun c hc => (hpart c (by rw [← e']; exact List.mem_append_left _ hc)).1
    obtain ⟨hl, h1, h2⟩ := lettered b _ hne e
    have rule : allRules o (some d) (s.buf b) = baseAtom o (s.buf (b ++ [d])) := by
      rw [rules_letters (n := s.buf b) h.state hl _ (by simp [buf_buffer, h1, h2]), next_part _ hd, if_neg (by simp)]
      rfl
    have hatom : allRules o (some d) (s.buf b) = (s.buf (b ++ [d]), true) ∨
        allRules o (some d) (s.buf b) = (num s .unquoted [] (ch '"' :: wordText o (b ++ [d])), true) := by
      rw [rule]
      unfold baseAtom
      rw [buf_buffer]
      have hm1 : (if (s.buf (b ++ [d])).key = true then ((none, false) : Option (List Nat) × Bool)
          else matchAtoms (b ++ [d]) (atoms o.allowNan)).1 = none := by
        rcases hm with hm | hm
        · have : (s.buf (b ++ [d])).key = true := hm
          rw [if_pos this]
        · split
          · rfl
          · have := hm (b.length + 1) (by rw [← e']; simp)
            rw [← e', List.take_append_of_le_length (by simp), List.take_of_length_le (by simp)] at this
            exact this
      simp only [hm1]
      by_cases hm2 : (if (s.buf (b ++ [d])).key = true then ((none, false) : Option (List Nat) × Bool)
          else matchAtoms (b ++ [d]) (atoms o.allowNan)).2 = true
      · left
        rw [if_pos hm2]
      · right
        rw [if_neg hm2]
        have hnq : ¬ (b ++ [d] = [ch 'b', ch '"'] ∨ b ++ [d] = [ch 'b', ch '\''] ∨ b ++ [d] = [ch 'u', ch '"'] ∨
            b ++ [d] = [ch 'u', ch '\'']) := by
          intro hbad
          have hget : ∀ x y : Nat, b ++ [d] = [x, y] → w[0]? = some x ∧ w[1]? = some y := by
            intro x y hxy
            rw [← e', hxy]
            simp
          rcases hbad with hx | hx | hx | hx <;> obtain ⟨g1, g2⟩ := hget _ _ hx <;>
            have := hbu _ _ g1 g2 (by simp) <;> simp at this
        rw [if_neg hnq, start_word h hsc]
        simp [Salvage.set, num]
    intro c hc
    rw [run_cons]
    rcases hatom with ha | ha
    · rw [proc1 ha]
      exact ih (b ++ [d]) (by simp) e' c hc
    · rw [proc1 ha, run_unquoted h.surrogate r (fun c hc => hpart c (by rw [← e']; exact List.mem_append_right _ hc)) _ c hc]
      rw [← e']
      simp [wordText]

theorem word_reach (h : AtBase s) {w : List Nat} (hw : IsWord w)
    (hm : s.key = true ∨ ((∀ c, w.head? = some c → ¬ IsDigit c) ∧
      ∀ k ≤ w.length, (matchAtoms (w.take k) (atoms o.allowNan)).1 = none)) :
    ∃ x, Content x w ∧ Reach o s w (done s (quoted x)) (Ends .word) := by
  refine ⟨wordText o w, content_word fun c hc => (hw.2.1 c hc).1, ?_⟩
  obtain ⟨c, hc, hstart⟩ := hw.1
  rcases e : w with _ | ⟨a, r⟩
  · simp [e] at hc
  · have hac : a = c := by simpa [e] using hc
    subst hac
    have e1 : processCodePoint o (some a) s = s.buf [a] := by
      refine run_letter h ?_
      rcases hstart with hs | hs
      · exact .inl hs
      · rcases hm with hm | hm
        · exact .inr ⟨hs, hm⟩
        · exact absurd hs (hm.1 a hc)
    intro d hd
    rw [run_cons, e1, ← e]
    exact run_word h hw (hm.imp id And.right) r [a] (by simp) e.symm d hd

/-! ### Atoms -/

theorem any_prefix {b a : List Nat} : anycasePrefix b a = true ↔ (∀ c ∈ b, c < 0x80) ∧ b.map small <+: a := by
  induction b generalizing a with
  | nil => simp [anycasePrefix]
  | cons c b ih =>
    cases a with
    | nil => simp [anycasePrefix]
    | cons d a =>
      simp only [anycasePrefix, Bool.and_eq_true, decide_eq_true_eq, beq_iff_eq, ih, List.map_cons, List.cons_prefix_cons,
        List.mem_cons, forall_eq_or_imp]
      have : toLower c = small c := rfl
      rw [this]
      constructor
      · rintro ⟨⟨h1, h2⟩, h3, h4⟩
        exact ⟨⟨h1, h3⟩, h2, h4⟩
      · rintro ⟨⟨h1, h3⟩, h2, h4⟩
        exact ⟨⟨h1, h2⟩, h3, h4⟩

theorem match_some {b out : List Nat} {l : List (List Nat × List Nat)} (h : (matchAtoms b l).1 = some out) :
    ∃ a, (a, out) ∈ l ∧ b.map small = a := by
  induction l with
  | nil => simp [matchAtoms] at h
  | cons p l ih =>
    obtain ⟨a, out'⟩ := p
    simp only [matchAtoms] at h
    by_cases h1 : anycasePrefix b a = true
    · rw [if_pos h1] at h
      by_cases h2 : b.length = a.length
      · rw [if_pos h2] at h
        simp at h
        subst h
        refine ⟨a, by simp, ?_⟩
        exact (any_prefix.mp h1).2.eq_of_length (by simpa using h2)
      · rw [if_neg h2] at h
        obtain ⟨a', h3, h4⟩ := ih h
        exact ⟨a', by simp [h3], h4⟩
    · rw [if_neg h1] at h
      obtain ⟨a', h3, h4⟩ := ih h
      exact ⟨a', by simp [h3], h4⟩

/-- Matching does not depend on the case of letters. -/
theorem match_small {b : List Nat} (hb : ∀ c ∈ b, c < 0x80) (l : List (List Nat × List Nat)) :
    matchAtoms b l = matchAtoms (b.map small) l := by
  have hs : ∀ c ∈ b, small c < 0x80 ∧ small (small c) = small c := by
    intro c hc
    have := hb c hc
    unfold small
    repeat' split
    all_goals omega
  have hp : ∀ a, anycasePrefix b a = anycasePrefix (b.map small) a := by
    intro a
    rw [Bool.eq_iff_iff, any_prefix, any_prefix, List.map_map]
    have e : b.map (small ∘ small) = b.map small := List.map_congr_left fun c hc => (hs c hc).2
    rw [e]
    simp only [hb, List.mem_map, forall_exists_index, and_imp]
    constructor
    · rintro ⟨_, h⟩
      exact ⟨by rintro c x hx rfl; exact (hs x hx).1, h⟩
    · rintro ⟨_, h⟩
      exact ⟨fun c hc => by simpa using hb c hc, h⟩
  induction l with
  | nil => rfl
  | cons p l ih =>
    obtain ⟨a, out⟩ := p
    simp only [matchAtoms, hp a, List.length_map, ih]

/-- The atoms are the words with meanings. -/
theorem meanings_atoms {nan : Bool} {a : List Nat} {v : Value} (h : (a, v) ∈ meanings nan) :
    ∃ out, (a, out) ∈ atoms nan ∧ Writes (.value v) out := by
  cases nan
  · simp only [meanings, Bool.false_eq_true, if_false, List.append_nil, List.mem_cons, Prod.mk.injEq, List.not_mem_nil, or_false] at h
    rcases h with ⟨rfl, rfl⟩ | ⟨rfl, rfl⟩ | ⟨rfl, rfl⟩ | ⟨rfl, rfl⟩
    · exact ⟨boolText true, by decide, .bool true⟩
    · exact ⟨boolText false, by decide, .bool false⟩
    · exact ⟨nullText, by decide, .null⟩
    · exact ⟨nullText, by decide, .null⟩
  · simp only [meanings, if_true, List.cons_append, List.nil_append, List.mem_cons, Prod.mk.injEq, List.not_mem_nil, or_false] at h
    rcases h with ⟨rfl, rfl⟩ | ⟨rfl, rfl⟩ | ⟨rfl, rfl⟩ | ⟨rfl, rfl⟩ | ⟨rfl, rfl⟩ | ⟨rfl, rfl⟩ | ⟨rfl, rfl⟩ | ⟨rfl, rfl⟩ | ⟨rfl, rfl⟩ |
      ⟨rfl, rfl⟩
    · exact ⟨boolText true, by decide, .bool true⟩
    · exact ⟨boolText false, by decide, .bool false⟩
    · exact ⟨nullText, by decide, .null⟩
    · exact ⟨nullText, by decide, .null⟩
    · exact ⟨nanText, by decide, .nan⟩
    · exact ⟨nanText, by decide, .nan⟩
    · exact ⟨nanText, by decide, .nan⟩
    · exact ⟨infinityText, by decide, .infinity⟩
    · exact ⟨infinityText, by decide, .infinity⟩
    · exact ⟨ch '-' :: infinityText, by decide, .minusInfinity⟩

theorem atoms_meaning {nan : Bool} {a out : List Nat} (h : (a, out) ∈ atoms nan) : ∃ v, (a, v) ∈ meanings nan := by
  cases nan
  · simp only [atoms, Bool.false_eq_true, if_false, List.append_nil, List.mem_cons, Prod.mk.injEq, List.not_mem_nil, or_false] at h
    rcases h with ⟨rfl, rfl⟩ | ⟨rfl, rfl⟩ | ⟨rfl, rfl⟩ | ⟨rfl, rfl⟩ <;> exact ⟨_, by simp [meanings]; rfl⟩
  · simp only [atoms, if_true, List.cons_append, List.nil_append, List.mem_cons, Prod.mk.injEq, List.not_mem_nil, or_false] at h
    rcases h with ⟨rfl, rfl⟩ | ⟨rfl, rfl⟩ | ⟨rfl, rfl⟩ | ⟨rfl, rfl⟩ | ⟨rfl, rfl⟩ | ⟨rfl, rfl⟩ | ⟨rfl, rfl⟩ | ⟨rfl, rfl⟩ | ⟨rfl, rfl⟩ |
      ⟨rfl, rfl⟩ <;> exact ⟨_, by simp [meanings]; rfl⟩

theorem no_atom {nan : Bool} {w : List Nat} (h : ∀ a v, (a, v) ∈ meanings nan → ¬ a <+: w.map small) (k : Nat) :
    (matchAtoms (w.take k) (atoms nan)).1 = none := by
  rcases e : (matchAtoms (w.take k) (atoms nan)).1 with _ | out
  · rfl
  · obtain ⟨a, h1, h2⟩ := match_some e
    obtain ⟨v, hv⟩ := atoms_meaning h1
    refine absurd ?_ (h a v hv)
    rw [← h2, List.map_take]
    exact List.take_prefix _ _

/-- The table of atoms: each is found at its last character only. -/
theorem atoms_table {nan : Bool} : ∀ p ∈ atoms nan, matchAtoms p.1 (atoms nan) = (some p.2, true) ∧
    (∀ k < p.1.length, 1 < k → matchAtoms (p.1.take k) (atoms nan) = (none, true)) ∧ 1 < p.1.length ∧
    (∀ c ∈ p.1, c < 0x80 ∧ ((97 ≤ c ∧ c ≤ 122) ∨ c = ch '+' ∨ c = ch '-')) ∧
    ∀ c ∈ p.1.tail, 97 ≤ c ∧ c ≤ 122 := by
  cases nan <;> decide

/-- The rest of an atom. -/
theorem run_atom {n : Salvage} (hst : n.state = .base) (hk : n.key = false) {a out t : List Nat} (ha : (a, out) ∈ atoms o.allowNan)
    (ht : t.map small = a) (r : List Nat) :
    ∀ b, b ≠ [] → r ≠ [] → b ++ r = t → run o (n.buf b) r = ((n.buf []).emitAtom out).set .base [] := by
  obtain ⟨h1, h2, h3, h4, h5⟩ := atoms_table (a, out) ha
  simp only at h1 h2 h3 h4 h5
  have hsmall : ∀ c ∈ t, c < 0x80 ∧ ((65 ≤ c ∧ c ≤ 90) ∨ (97 ≤ c ∧ c ≤ 122) ∨ c = ch '+' ∨ c = ch '-') := by
    intro c hc
    have := h4 (small c) (by rw [← ht]; exact List.mem_map_of_mem hc)
    unfold small at this
    split at this <;> omega
  induction r with
  | nil => intro b _ h; exact absurd rfl h
  | cons d r ih =>
    intro b hb _ e
    have e' : (b ++ [d]) ++ r = t := by simpa using e
    have hd := hsmall d (by rw [← e]; simp)
    have hd' : (65 ≤ d ∧ d ≤ 90) ∨ (97 ≤ d ∧ d ≤ 122) := by
      have hmem : small d ∈ a.tail := by
        rw [← ht, ← e]
        rcases b with _ | ⟨x, b⟩
        · exact absurd rfl hb
        · simp
      have := h5 _ hmem
      unfold small at this
      split at this <;> omega
    have hlet : Lettered b := by
      rcases b with _ | ⟨x, b⟩
      · exact absurd rfl hb
      · have := hsmall x (by rw [← e]; simp)
        exact ⟨x, b, rfl, by omega, by omega, by omega, by omega⟩
    have hpart : (n.buf b).unquotedNext o (some d) = true := by
      refine next_part _ ⟨.inl (by omega), ?_, by omega, by omega, by omega, by omega, by omega, by omega, by omega, by omega⟩
      rw [← whitespace_iff]
      simp only [isWhitespace, Bool.or_eq_true, Bool.and_eq_true, decide_eq_true_eq, beq_iff_eq]
      omega
    have rule : allRules o (some d) (n.buf b) = baseAtom o (n.buf (b ++ [d])) := by
      rw [rules_letters (n := n.buf b) hst hlet _ (by
        intro _ x hx
        simp at hx; subst hx
        unfold IsDigit
        omega), hpart, if_neg (by simp)]
      rfl
    have hlt : ∀ c ∈ b ++ [d], c < 0x80 := fun c hc => (hsmall c (by rw [← e']; exact List.mem_append_left _ hc)).1
    have hmap : (b ++ [d]).map small = a.take (b.length + 1) := by
      have e2 : (b ++ [d]).map small ++ r.map small = a := by rw [← List.map_append, e', ht]
      rw [← e2, List.take_append_of_le_length (by simp), List.take_of_length_le (by simp)]
    have hlen : a.length = b.length + 1 + r.length := by
      have e2 : (b ++ [d]).map small ++ r.map small = a := by rw [← List.map_append, e', ht]
      rw [← e2]
      simp
      omega
    have hkey : (n.buf (b ++ [d])).key = false := hk
    rw [run_cons]
    rcases r with _ | ⟨d', r⟩
    · have hm : matchAtoms (b ++ [d]) (atoms o.allowNan) = (some out, true) := by
        rw [match_small hlt, hmap, List.take_of_length_le (by simp at hlen; omega), h1]
      have : allRules o (some d) (n.buf b) = (((n.buf []).emitAtom out).set .base [], true) := by
        rw [rule]
        unfold baseAtom
        rw [buf_buffer, hkey, if_neg (by simp), hm]
        simp [Salvage.emitAtom, endValue_eq, startValue_eq, Salvage.emit, Salvage.set, Salvage.buf]
      rw [proc1 this, run_nil]
    · have hm : matchAtoms (b ++ [d]) (atoms o.allowNan) = (none, true) := by
        rw [match_small hlt, hmap]
        refine h2 _ (by simp at hlen; omega) ?_
        rcases b with _ | ⟨x, b⟩
        · exact absurd rfl hb
        · simp
      have : allRules o (some d) (n.buf b) = (n.buf (b ++ [d]), true) := by
        rw [rule]
        unfold baseAtom
        rw [buf_buffer, hkey, if_neg (by simp), hm]
        simp
      rw [proc1 this]
      exact ih (b ++ [d]) (by simp) (by simp) e'

theorem atom_run (h : AtBase s) (hk : s.key = false) {a t : List Nat} {v : Value} (ha : (a, v) ∈ meanings o.allowNan)
    (ht : t.map small = a) : ∃ x, Writes (.value v) x ∧ run o s t = done s x := by
  obtain ⟨out, hout, hw⟩ := meanings_atoms ha
  refine ⟨out, hw, ?_⟩
  obtain ⟨h1, h2, h3, h4, h5⟩ := atoms_table (a, out) hout
  simp only at h1 h2 h3 h4 h5
  rcases t with _ | ⟨c, r⟩
  · simp at ht; subst ht; simp at h3
  have hr : r ≠ [] := by
    rintro rfl
    rw [← ht] at h3
    simp at h3
  have hc : ((65 ≤ c ∧ c ≤ 90) ∨ (97 ≤ c ∧ c ≤ 122)) ∨ c = ch '+' ∨ c = ch '-' := by
    have := h4 (small c) (by rw [← ht]; simp)
    unfold small at this
    split at this <;> omega
  have fin : ∀ n : Salvage, n = s ∨ n = num s .base [] [] → ((n.buf []).emitAtom out).set .base [] = done s out := by
    intro n hn
    obtain ⟨u, stk, sep, key, buf, state, su, out'⟩ := s
    obtain ⟨h1, h2, h3⟩ := h
    simp only at h1 h2 h3
    subst h1 h2 h3
    rcases hn with rfl | rfl
    · simp [Salvage.emitAtom, endValue_eq, startValue_eq, Salvage.emit, Salvage.set, Salvage.buf, done]
    · simp [Salvage.emitAtom, endValue_eq, startValue_eq, Salvage.emit, Salvage.set, Salvage.buf, done, num, sepText]
  rw [run_cons]
  rcases hc with hc | hc
  · have e1 : processCodePoint o (some c) s = s.buf [c] := by
      refine run_letter h (.inl ⟨.inl ?_, ?_⟩)
      · unfold IsLetter; omega
      · rw [← whitespace_iff]
        simp only [isWhitespace, Bool.or_eq_true, Bool.and_eq_true, decide_eq_true_eq, beq_iff_eq]
        omega
    rw [e1, run_atom h.state hk hout ht r [c] (by simp) hr rfl, fin s (.inl rfl)]
  · have e1 : processCodePoint o (some c) s = (num s .base [] []).buf [c] := by
      rw [proc_base h]
      obtain ⟨u, stk, sep, key, buf, state, su, out'⟩ := s
      obtain ⟨h1, h2, h3⟩ := h
      simp only at h1 h2 h3 hk
      subst h1 h2 h3 hk
      rcases hc with rfl | rfl <;> simp [baseEmpty, isWhitespace, num, startValue_eq, Salvage.push, Salvage.buf]
    rw [e1, run_atom (n := num s .base [] []) rfl hk hout ht r [c] (by simp) hr rfl, fin _ (.inr rfl)]

end Verif.JsonSalvage
