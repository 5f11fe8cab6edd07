/-
Steps of the processor on parts of texts: what is between values, and containers.
-/
import Verif.JsonSalvage.Run
import Verif.JsonSalvage.Lenient

namespace Verif.JsonSalvage

open Verif.JsonStream

variable {o : Options}

/-- The state after the code points `t`. -/
def run (o : Options) (s : Salvage) (t : List Nat) : Salvage := t.foldl (fun s c => processCodePoint o (some c) s) s

theorem run_nil (s : Salvage) : run o s [] = s := rfl

theorem run_cons (s : Salvage) (c : Nat) (t : List Nat) :
    run o s (c :: t) = run o (processCodePoint o (some c) s) t := rfl

theorem run_append (s : Salvage) (a b : List Nat) : run o s (a ++ b) = run o (run o s a) b := by
  simp [run, List.foldl_append]

theorem proc1 {c : Option Nat} {s s' : Salvage} (h : allRules o c s = (s', true)) : processCodePoint o c s = s' := by
  simp [processCodePoint, h]

theorem proc2 {c : Option Nat} {s s1 s' : Salvage} (h : allRules o c s = (s1, false))
    (h' : allRules o c s1 = (s', true)) : processCodePoint o c s = s' := by
  simp [processCodePoint, h, h']

theorem proc_skip {c : Option Nat} {s s1 : Salvage} (h : allRules o c s = (s1, false))
    (h' : (allRules o c s1).2 = true) : processCodePoint o c s = processCodePoint o c s1 := by
  rw [proc2 h (Prod.ext rfl h'), proc1 (Prod.ext rfl h')]

/-- Between values. -/
structure AtBase (s : Salvage) : Prop where
  state : s.state = .base
  buffer : s.buffer = []
  surrogate : s.surrogate = none

theorem allRules_base {s : Salvage} (h : AtBase s) (c : Option Nat) : allRules o c s = (baseEmpty o c s, true) := by
  simp [allRules, h.state, baseRules, h.buffer]

theorem proc_base {s : Salvage} (h : AtBase s) (c : Option Nat) : processCodePoint o c s = baseEmpty o c s :=
  proc1 (allRules_base h c)

theorem proc_end {c : Option Nat} {s s1 : Salvage} (h : allRules o c s = (s1, false)) (h1 : AtBase s1) :
    processCodePoint o c s = processCodePoint o c s1 :=
  proc_skip h (by rw [allRules_base h1])

/-- The text `t` leads to `s'`, at the latest when `P` holds of what follows. -/
def Reach (o : Options) (s : Salvage) (t : List Nat) (s' : Salvage) (P : Option Nat → Prop) : Prop :=
  ∀ c, P c → processCodePoint o c (run o s t) = processCodePoint o c s'

theorem Reach.of_eq {s s' : Salvage} {t : List Nat} {P : Option Nat → Prop} (h : run o s t = s') :
    Reach o s t s' P := fun _ _ => by rw [h]

theorem Reach.mono {s s' : Salvage} {t : List Nat} {P Q : Option Nat → Prop} (h : Reach o s t s' P)
    (hq : ∀ c, Q c → P c) : Reach o s t s' Q := fun c hc => h c (hq c hc)

/-- One text after another.  `Q` must allow the first character of the second text, or what follows if this
is empty. -/
theorem Reach.append {s s1 s' : Salvage} {t r : List Nat} {P Q : Option Nat → Prop} (h1 : Reach o s t s1 P)
    (hr : ∀ c, Q c → P (r.head?.or c)) (h2 : Reach o s1 r s' Q) (hq : r ≠ [] → ∃ c, Q c) : Reach o s (t ++ r) s' Q := by
  intro c hc
  rcases r with _ | ⟨d, r⟩
  · have e := h2 c hc
    rw [run_nil] at e
    rw [List.append_nil, h1 c (by simpa using hr c hc), e]
  · have e := h1 (some d) (by
      obtain ⟨c, hc⟩ := hq (by simp)
      simpa using hr c hc)
    have e2 := h2 c hc
    rw [run_cons] at e2
    rw [run_append, run_cons, e, e2]

/-- A value was written. -/
def done (s : Salvage) (x : List Nat) : Salvage :=
  { s with
    output := s.output ++ (sepText s.stack s.sep s.key ++ x), state := .base, buffer := [], surrogate := none, sep := true,
    key := nextKey s.stack s.key }

theorem done_base (s : Salvage) (x : List Nat) : AtBase (done s x) := ⟨rfl, rfl, rfl⟩

/-! ### Fillers -/

theorem whitespace_of {c : Nat} (h : c ∈ spaces) : isWhitespace c = true := by
  have : ∀ c ∈ spaces, isWhitespace c = true := by decide
  exact this c h

theorem of_whitespace {c : Nat} (h : isWhitespace c = true) : c ∈ spaces := by
  simp only [isWhitespace, Bool.or_eq_true, Bool.and_eq_true, decide_eq_true_eq, beq_iff_eq] at h
  simp only [spaces, List.mem_cons, List.not_mem_nil, or_false]
  omega

theorem whitespace_iff {c : Nat} : isWhitespace c = true ↔ c ∈ spaces := ⟨of_whitespace, whitespace_of⟩

theorem lineEnd_iff {c : Nat} : isLineTerminator c = true ↔ c ∈ lineEnds := by
  simp [isLineTerminator, lineEnds, or_assoc]

theorem base_eq {s : Salvage} (h : AtBase s) : s.set .base [] = s := by
  obtain ⟨u, st, sep, key, buf, state, su, out⟩ := s
  have h1 := h.state
  have h2 := h.buffer
  simp only at h1 h2
  subst h1 h2
  rfl

theorem run_line {s : Salvage} (b : List Nat) (h : s.state = .lineComment) (hb : ∀ c ∈ b, c ∉ lineEnds) :
    run o s b = s := by
  induction b with
  | nil => rfl
  | cons c b ih =>
    have hc : isLineTerminator c = false := by
      have := hb c (by simp)
      rw [← lineEnd_iff] at this
      simpa using this
    have e : processCodePoint o (some c) s = s := proc1 (by simp [allRules, h, commentRules, hc])
    rw [run_cons, e]
    exact ih (fun d hd => hb d (by simp [hd]))

theorem run_block {b : List Nat} (hb : CommentBody b) (s : Salvage) (h : s.state = .blockComment) (h' : s.buffer = []) :
    run o s b = s := by
  induction hb generalizing s with
  | nil => rfl
  | @other c t hc _ ih =>
    have e : processCodePoint o (some c) s = s := proc1 (by simp [allRules, h, commentRules, h', hc])
    rw [run_cons, e]
    exact ih s h h'
  | @star c t hc _ ih =>
    have e : processCodePoint o (some (ch '*')) s = s.push (ch '*') :=
      proc1 (by simp [allRules, h, commentRules, h'])
    have e' : processCodePoint o (some c) (s.push (ch '*')) = s := by
      refine proc1 ?_
      have : (s.push (ch '*')).clear = s := by
        obtain ⟨u, st, sep, key, buf, state, su, out⟩ := s
        simp only at h'
        subst h'
        rfl
      simp [allRules, h, commentRules, h', hc, Salvage.push, Salvage.clear]
      simpa [Salvage.push, Salvage.clear, h', h] using this
    rw [run_cons, e, run_cons, e']
    exact ih s h h'

theorem run_slash {s : Salvage} (h : AtBase s) (c : Nat) (st : State)
    (hc : (c = ch '/' ∧ st = .lineComment) ∨ (c = ch '*' ∧ st = .blockComment)) :
    run o s [ch '/', c] = s.set st [] := by
  have e : processCodePoint o (some (ch '/')) s = s.push (ch '/') := by
    rw [proc_base h]
    simp [baseEmpty, isWhitespace]
  rw [run_cons, e, run_cons, run_nil]
  refine proc1 ?_
  rcases hc with ⟨rfl, rfl⟩ | ⟨rfl, rfl⟩ <;>
    simp [allRules, h.state, Salvage.push, h.buffer, baseRules, Salvage.set]

theorem run_lineEnd {s : Salvage} (h : AtBase s) {e : Nat} (he : e ∈ lineEnds) :
    processCodePoint o (some e) (s.set .lineComment []) = s := by
  rw [← lineEnd_iff] at he
  have : allRules o (some e) (s.set .lineComment []) = (s.set .base [], true) := by
    simp [allRules, Salvage.set, commentRules, he]
  rw [proc1 this, base_eq h]

theorem run_hash {s : Salvage} (h : AtBase s) :
    processCodePoint o (some (ch '#')) s = s.set .lineComment [] := by
  rw [proc_base h]
  simp [baseEmpty, isWhitespace]

theorem run_filler {w : List Nat} (hw : Filler w) {s : Salvage} (h : AtBase s) : run o s w = s := by
  induction hw with
  | nil => rfl
  | @space c t hc _ ih =>
    have e : processCodePoint o (some c) s = s := by
      rw [proc_base h]
      rcases hc with hc | rfl | rfl
      · simp [baseEmpty, whitespace_of hc]
      · simp [baseEmpty]
      · simp [baseEmpty]
    rw [run_cons, e, ih]
  | @hash b e t hb he _ ih =>
    rw [run_cons, run_hash h, run_append, run_line b rfl hb, run_cons, run_lineEnd h he, ih]
  | @line b e t hb he _ ih =>
    have : ch '/' :: ch '/' :: (b ++ e :: t) = [ch '/', ch '/'] ++ (b ++ e :: t) := rfl
    rw [this, run_append, run_slash h _ .lineComment (.inl ⟨rfl, rfl⟩), run_append, run_line b rfl hb, run_cons,
      run_lineEnd h he, ih]
  | @block b t hb _ ih =>
    have : ch '/' :: ch '*' :: (b ++ ch '*' :: ch '/' :: t) = [ch '/', ch '*'] ++ (b ++ ch '*' :: ch '/' :: t) := rfl
    rw [this, run_append, run_slash h _ .blockComment (.inr ⟨rfl, rfl⟩), run_append, run_block hb _ rfl rfl, run_cons,
      run_cons]
    have e1 : processCodePoint o (some (ch '*')) (s.set .blockComment []) = s.set .blockComment [ch '*'] :=
      proc1 (by simp [allRules, Salvage.set, commentRules, Salvage.push])
    have e2 : processCodePoint o (some (ch '/')) (s.set .blockComment [ch '*']) = s := by
      have : allRules o (some (ch '/')) (s.set .blockComment [ch '*']) = (s.set .base [], true) := by
        simp [allRules, Salvage.set, commentRules]
      rw [proc1 this, base_eq h]
    rw [e1, e2, ih]

/-- A comment that is not ended leaves the rest alone. -/
theorem run_openComment {w : List Nat} (hw : OpenComment w) {s : Salvage} (h : AtBase s) :
    ∃ st, run o s w = s.set st [] ∧ (st = .lineComment ∨ st = .blockComment) := by
  cases hw with
  | hash hb => exact ⟨.lineComment, by rw [run_cons, run_hash h, run_line _ rfl hb], .inl rfl⟩
  | @line b hb =>
    refine ⟨.lineComment, ?_, .inl rfl⟩
    have : ch '/' :: ch '/' :: b = [ch '/', ch '/'] ++ b := rfl
    rw [this, run_append, run_slash h _ .lineComment (.inl ⟨rfl, rfl⟩), run_line b rfl hb]
  | @block b hb =>
    refine ⟨.blockComment, ?_, .inr rfl⟩
    have : ch '/' :: ch '*' :: b = [ch '/', ch '*'] ++ b := rfl
    rw [this, run_append, run_slash h _ .blockComment (.inr ⟨rfl, rfl⟩), run_block hb _ rfl rfl]

end Verif.JsonSalvage
