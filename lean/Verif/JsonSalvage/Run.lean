/-
The invariant holds for all inputs; what the end of the input makes of it.
-/
import Verif.JsonSalvage.LeafRules
import Verif.JsonSalvage.Strict
import Verif.JsonStream.Strings

namespace Verif.JsonSalvage

open Verif.JsonStream

variable {D : Defects} {raw : Prop} {o : Options}

theorem allRules_inv {s : Salvage} {pre : List Nat} {last c : Option Nat} (hd : o.allowNan = true → D.nan)
    (h : Inv D raw o s (pre ++ s.output) last) (hp : Pair D raw last c) (hc : ∀ d, c = some d → Scalar d)
    (hn : ¬ (s.state = .base ∧ s.buffer = [ch '`', ch '`'] ∧ c = none)) :
    Post D raw o pre c (allRules o c s) := by
  unfold allRules
  rcases hst : s.state with _ | _ | _ | _ | _ | _ | _ | _ | _ | _ | _ <;> simp only
  · exact baseRules_inv hd hst h hp (fun e => hn ⟨hst, e⟩)
  · exact stringRules_inv (by simp [hst, isQuoteState]) h hp hc
  · exact stringRules_inv (by simp [hst, isQuoteState]) h hp hc
  · exact stringRules_inv (by simp [hst, isQuoteState]) h hp hc
  · exact stringRules_inv (by simp [hst, isQuoteState]) h hp hc
  · exact stringRules_inv (by simp [hst, isQuoteState]) h hp hc
  · exact stringRules_inv (by simp [hst, isQuoteState]) h hp hc
  · exact post_one (commentRules_inv (.inl hst) h)
  · exact post_one (commentRules_inv (.inr hst) h)
  · exact numberRules_inv (.inl hst) h
  · exact numberRules_inv (.inr hst) h

theorem pair_none (c : Option Nat) : Pair D raw none c := by
  constructor <;> simp

theorem processCodePoint_inv {s : Salvage} {pre : List Nat} {last : Option Nat} {c : Nat}
    (hd : o.allowNan = true → D.nan) (h : Inv D raw o s (pre ++ s.output) last) (hp : Pair D raw last (some c))
    (hc : Scalar c) :
    Inv D raw o (processCodePoint o (some c) s) (pre ++ (processCodePoint o (some c) s).output) (some c) := by
  have hc' : ∀ d, some c = some d → Scalar d := by simp; exact hc
  have h1 := allRules_inv hd h hp hc' (by simp)
  unfold processCodePoint
  by_cases e1 : (allRules o (some c) s).2 = true
  · simp only [e1, if_true]
    exact h1.1
  · have h2 := allRules_inv hd (h1.2 (by simpa using e1) none) (pair_none (some c)) hc' (by simp)
    by_cases e2 : (allRules o (some c) (allRules o (some c) s).1).2 = true
    · simp only [e1, e2, if_true]
      exact h2.1
    · have h3 := allRules_inv hd (h2.2 (by simpa using e2) none) (pair_none (some c)) hc' (by simp)
      simp only [e1, e2]
      exact h3.1

/-! ### The end of the input -/

/-- No leaf is open. -/
def Rest (s : Salvage) : Prop :=
  (s.state = .base ∧ s.buffer = []) ∨ s.state = .lineComment ∨ s.state = .blockComment

theorem rest_endValue (s : Salvage) : Rest s.endValue := .inl ⟨rfl, rfl⟩

theorem rest_endString (s : Salvage) : Rest (s.endString o) := rest_endValue _

theorem emitCodePoint_state (c : Nat) (s : Salvage) : (s.emitCodePoint o c).state = s.state := by
  unfold Salvage.emitCodePoint Salvage.emitNext Salvage.emitReplacement Salvage.emit
  repeat' split
  all_goals rfl

theorem rest_none {s : Salvage} (h : Rest s) :
    (allRules o none s).2 = true ∧ Rest (allRules o none s).1 := by
  rcases h with ⟨h1, h2⟩ | h1 | h1
  · simp [allRules, h1, baseRules, h2, baseEmpty, Rest]
  · simp [allRules, h1, commentRules, Rest]
  · simp only [allRules, h1, commentRules]
    simp only [Rest, h1]
    refine ⟨trivial, ?_⟩
    split
    · simp_all
    · split <;> simp [h1, Salvage.clear]

theorem quote_none {s : Salvage} (h : isQuoteState s.state = true) (hb : s.buffer = []) :
    (allRules o none s).2 = true ∧ Rest (allRules o none s).1 := by
  have : allRules o none s = stringRules o none s := by
    unfold allRules
    rcases hst : s.state <;> simp [hst, isQuoteState] at h ⊢
  rw [this]
  unfold stringRules
  rw [if_neg (by intro e; simp [e, isQuoteState] at h), if_pos hb]
  exact ⟨rfl, rest_endString s⟩

/-- What one attempt makes of the end of the input. -/
theorem none_shape (s : Salvage) (hn : ¬ (s.state = .base ∧ s.buffer = [ch '`', ch '`'])) :
    ((allRules o none s).2 = true → Rest (allRules o none s).1) ∧
      ((allRules o none s).2 = false → Rest (allRules o none s).1 ∨
        (isQuoteState (allRules o none s).1.state = true ∧ (allRules o none s).1.buffer = [])) := by
  have str : isQuoteState s.state = true ∨ s.state = .unquoted →
      ((stringRules o none s).2 = true → Rest (stringRules o none s).1) ∧
      ((stringRules o none s).2 = false → Rest (stringRules o none s).1 ∨
        (isQuoteState (stringRules o none s).1.state = true ∧ (stringRules o none s).1.buffer = [])) := by
    intro hst
    unfold stringRules
    by_cases hu : s.state = .unquoted
    · rw [if_pos hu]
      exact ⟨by simp, fun _ => .inl (rest_endString s)⟩
    have hq : isQuoteState s.state = true := by
      rcases hst with h | h
      · exact h
      · exact absurd h hu
    have buf : ∀ b, isQuoteState (s.emitBuffer o b).state = true ∧ (s.emitBuffer o b).buffer = [] := by
      intro b
      exact ⟨by simpa [Salvage.emitBuffer, emitCodePoint_state] using hq, rfl⟩
    rw [if_neg hu]
    by_cases c0 : s.buffer = []
    · rw [if_pos c0]
      exact ⟨fun _ => rest_endString s, by simp⟩
    rw [if_neg c0]
    by_cases c1 : s.buffer = [ch '\\']
    · rw [if_pos c1]
      exact ⟨fun _ => rest_endString s, by simp⟩
    rw [if_neg c1]
    by_cases c2 : s.buffer = [ch '\\', 13]
    · rw [if_pos c2]
      rw [if_neg (by simp)]
      exact ⟨by simp, fun _ => .inr ⟨hq, rfl⟩⟩
    rw [if_neg c2]
    by_cases c3 : s.buffer = [ch '"'] ∨ s.buffer = [ch '"', ch '"']
    · rw [if_pos c3]
      exact ⟨fun _ => rest_endString s, by simp⟩
    rw [if_neg c3]
    by_cases c4 : s.buffer = [ch '\''] ∨ s.buffer = [ch '\'', ch '\'']
    · rw [if_pos c4]
      exact ⟨fun _ => rest_endString s, by simp⟩
    rw [if_neg c4]
    by_cases c5 : s.buffer.take 2 = [ch '\\', ch 'u']
    · rw [if_pos c5]
      rw [if_neg (by simp)]
      simp only [stringDigits, isHexIn]
      exact ⟨by simp, fun _ => .inr (by simpa using buf 16)⟩
    rw [if_neg c5]
    by_cases c6 : s.buffer.take 2 = [ch '\\', ch 'o']
    · rw [if_pos c6]
      simp only [stringDigits, isOctal]
      exact ⟨by simp, fun _ => .inr (by simpa using buf 8)⟩
    rw [if_neg c6]
    by_cases c7 : s.buffer.take 2 = [ch '\\', ch 'x']
    · rw [if_pos c7]
      simp only [stringDigits, isHexIn]
      exact ⟨by simp, fun _ => .inr (by simpa using buf 16)⟩
    rw [if_neg c7]
    by_cases c8 : s.buffer.take 2 = [ch '\\', ch 'U']
    · rw [if_pos c8]
      rw [if_neg (by simp)]
      simp only [stringDigits, isHexIn]
      exact ⟨by simp, fun _ => .inr (by simpa using buf 16)⟩
    rw [if_neg c8]
    by_cases c9 : s.buffer.take 2 = [ch '\\', ch '{']
    · rw [if_pos c9]
      simp only [isHexIn]
      exact ⟨by simp, fun _ => .inr (by simpa using buf 16)⟩
    rw [if_neg c9]
    exact ⟨fun _ => .inl ⟨rfl, rfl⟩, by simp⟩
  have num : (numberRules none s).2 = false ∧ Rest (numberRules none s).1 := by
    unfold numberRules
    rw [if_neg (by simp)]
    split
    · simp [bufferedRules, isDigit19, isHexIn, isOctal, isBinary, isE, isSuffix, rest_endValue]
    · simp [decimalRules, isDigit09, isE, isSuffix, rest_endValue]
  unfold allRules
  rcases hst : s.state with _ | _ | _ | _ | _ | _ | _ | _ | _ | _ | _ <;> simp only
  · unfold baseRules
    by_cases hb : s.buffer = []
    · rw [if_pos hb]
      exact ⟨fun _ => .inl ⟨hst, hb⟩, by simp⟩
    rw [if_neg hb, if_neg (by simp), if_neg (by simp)]
    by_cases c0 : s.buffer = [ch '"']
    · rw [if_pos c0, if_neg (by simp)]
      exact ⟨by simp, fun _ => .inr ⟨rfl, rfl⟩⟩
    rw [if_neg c0]
    by_cases c1 : s.buffer = [ch '\'']
    · rw [if_pos c1, if_neg (by simp)]
      exact ⟨by simp, fun _ => .inr ⟨rfl, rfl⟩⟩
    rw [if_neg c1]
    by_cases c2 : s.buffer = [ch '`']
    · rw [if_pos c2, if_neg (by simp)]
      exact ⟨by simp, fun _ => .inr ⟨rfl, rfl⟩⟩
    rw [if_neg c2]
    by_cases c3 : s.buffer = [ch '"', ch '"']
    · rw [if_pos c3, if_neg (by simp)]
      exact ⟨by simp, fun _ => .inl (rest_endValue _)⟩
    rw [if_neg c3]
    by_cases c4 : s.buffer = [ch '\'', ch '\'']
    · rw [if_pos c4, if_neg (by simp)]
      exact ⟨by simp, fun _ => .inl (rest_endValue _)⟩
    rw [if_neg c4]
    rw [if_neg (by rintro ⟨e, _⟩; exact hn ⟨hst, e⟩), if_neg (by simp), if_neg (by simp [isDigit19]), if_neg (by simp),
      if_neg (by simp), if_neg (by simp [isDigit19]), if_neg (by simp), if_pos (show s.unquotedNext o none = false from rfl)]
    exact ⟨by simp, fun _ => .inl (rest_endString _)⟩
  · exact str (by simp [hst, isQuoteState])
  · exact str (by simp [hst, isQuoteState])
  · exact str (by simp [hst, isQuoteState])
  · exact str (by simp [hst, isQuoteState])
  · exact str (by simp [hst, isQuoteState])
  · exact str (by simp [hst, isQuoteState])
  · have := rest_none (o := o) (s := s) (.inr (.inl hst))
    simp only [allRules, hst] at this
    exact ⟨fun _ => this.2, by simp⟩
  · have := rest_none (o := o) (s := s) (.inr (.inr hst))
    simp only [allRules, hst] at this
    exact ⟨fun _ => this.2, by simp⟩
  · exact ⟨by simp [num.1], fun _ => .inl num.2⟩
  · exact ⟨by simp [num.1], fun _ => .inl num.2⟩

theorem closeAll_ascii (st : List Container) : ∀ sep key, ∀ c ∈ closeAll st sep key, c < 0x80 := by
  induction st with
  | nil => simp [closeAll]
  | cons x st ih =>
    intro sep key c hc
    rcases x with _ | _
    · simp only [closeAll, List.mem_cons] at hc
      rcases hc with rfl | hc
      · decide
      · exact ih _ _ c hc
    · simp only [closeAll, List.mem_append, List.mem_cons] at hc
      rcases hc with hc | rfl | hc
      · split at hc
        · simp at hc
        · split at hc <;> simp at hc <;> omega
      · decide
      · exact ih _ _ c hc

theorem rest_between {s : Salvage} {x : List Nat} {last : Option Nat} (hr : Rest s)
    (h : Inv D raw o s x last) : Between D s.stack s.sep s.key x := by
  obtain ⟨_, hi⟩ := h
  rcases hr with ⟨h1, h2⟩ | h1 | h1
  · simp only [StateInv, h1] at hi
    obtain ⟨_, hi⟩ := hi
    cases hi with
    | plain _ h => exact h
    | quote hb => simp [h2] at hb
    | tick hb => simp [h2] at hb
    | sign hb => simp [h2] at hb
  · simp only [StateInv, h1] at hi
    exact hi.2
  · simp only [StateInv, h1] at hi
    exact hi.2

theorem finalOutput_spec {s : Salvage} {pre : List Nat} {last : Option Nat} (hd : o.allowNan = true → D.nan)
    (h : Inv D raw o s (pre ++ s.output) last) :
    LooseDoc D (pre ++ finalOutput o s) ∧ AllGood o raw (pre ++ finalOutput o s) := by
  have fin : ∀ s', Inv D raw o s' (pre ++ s'.output) none → Rest s' →
      LooseDoc D (pre ++ (s'.output ++ closeAll s'.stack s'.sep s'.key)) ∧
        AllGood o raw (pre ++ (s'.output ++ closeAll s'.stack s'.sep s'.key)) := by
    intro s' hi hr
    rw [← List.append_assoc]
    exact ⟨between_close (rest_between hr hi), good_step hi.1 (closeAll_ascii _ _ _)⟩
  have hpn : Pair D raw last none := by constructor <;> simp [isDigit09]
  unfold finalOutput
  by_cases hn : s.state = .base ∧ s.buffer = [ch '`', ch '`']
  · -- two backticks
    have e : processCodePoint o none s = s.emit [ch '"', ch '"'] := by
      have : allRules o none s = (s.emit [ch '"', ch '"'], true) := by
        simp [allRules, hn.1, baseRules, hn.2]
      simp [processCodePoint, this]
    obtain ⟨hg, hi⟩ := h
    simp only [StateInv, hn.1] at hi
    obtain ⟨_, hi⟩ := hi
    have hr : s.sep = false ∧ Ready D s.stack s.key (pre ++ s.output) ∧ D.unfinished := by
      cases hi with
      | plain hb h => simp [hn.2, isSpecial] at hb
      | quote hb => simp [hn.2] at hb
      | tick hb h1 h2 =>
        refine ⟨h1, h2, ?_⟩
        rcases hb with hb | hb
        · simp [hn.2] at hb
        · exact hb.2
      | sign hb hb' => simp [hn.2] at hb; omega
    obtain ⟨h1, h2, h3⟩ := hr
    rw [e]
    simp only [Salvage.emit, h1]
    constructor
    · have := ready_close h2 h3
      simpa using this
    · have := good_step (o := o) (raw := raw) hg
        (z := [ch '"', ch '"'] ++ closeAll s.stack false s.key) (by
          intro c hc
          rcases List.mem_append.mp hc with hc | hc
          · simp at hc; omega
          · exact closeAll_ascii _ _ _ c hc)
      simpa using this
  · have h1 := allRules_inv (c := none) hd h hpn (by simp) (by rintro ⟨e1, e2, _⟩; exact hn ⟨e1, e2⟩)
    have n1 := none_shape (o := o) s hn
    unfold processCodePoint
    by_cases e1 : (allRules o none s).2 = true
    · simp only [e1, if_true]
      exact fin _ h1.1 (n1.1 e1)
    · have e1' : (allRules o none s).2 = false := by simpa using e1
      have n2 : ¬ ((allRules o none s).1.state = .base ∧ (allRules o none s).1.buffer = [ch '`', ch '`'] ∧
          (none : Option Nat) = none) := by
        rintro ⟨e2, e3, _⟩
        rcases n1.2 e1' with (⟨_, h⟩ | h | h) | ⟨_, h⟩
        · simp [e3] at h
        · simp [e2] at h
        · simp [e2] at h
        · simp [e3] at h
      have h2 := allRules_inv hd (h1.2 e1' none) (pair_none none) (by simp) n2
      have n3 : (allRules o none (allRules o none s).1).2 = true ∧ Rest (allRules o none (allRules o none s).1).1 := by
        rcases n1.2 e1' with h | ⟨h, h'⟩
        · exact rest_none h
        · exact quote_none h h'
      simp only [e1, n3.1, if_true]
      exact fin _ h2.1 n3.2

end Verif.JsonSalvage
