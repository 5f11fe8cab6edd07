/-
The processor reads numbers.
-/
import Verif.JsonSalvage.StringSteps

namespace Verif.JsonSalvage

open Verif.JsonStream

variable {o : Options}

def isNum (st : State) : Prop := st = .numberBuffered ∨ st = .numberDecimal

/-- In a number; `x` is what was written of it. -/
def num (s : Salvage) (st : State) (b x : List Nat) : Salvage :=
  { s with sep := false, state := st, buffer := b, output := s.output ++ (sepText s.stack s.sep s.key ++ x) }

/-- All states while reading a text are those of numbers. -/
def Stays (o : Options) : Salvage → List Nat → Prop
  | s, [] => isNum s.state
  | s, c :: t => isNum s.state ∧ Stays o (processCodePoint o (some c) s) t

theorem stays_append {s : Salvage} {a b : List Nat} (h1 : Stays o s a) (h2 : Stays o (run o s a) b) :
    Stays o s (a ++ b) := by
  induction a generalizing s with
  | nil => exact h2
  | cons c a ih => exact ⟨h1.1, ih h1.2 h2⟩

theorem stays_head {s : Salvage} {a : List Nat} (h : Stays o s a) : isNum s.state := by
  cases a with
  | nil => exact h
  | cons c a => exact h.1

theorem allRules_num {s : Salvage} (h : isNum s.state) (c : Option Nat) : allRules o c s = numberRules c s := by
  unfold allRules
  rcases h with h | h <;> simp [h]

theorem proc_sep {s : Salvage} (h : isNum s.state) {c : Nat} (hc : c ∈ separators) : processCodePoint o (some c) s = s := by
  refine proc1 ?_
  rw [allRules_num h]
  simp only [separators, List.mem_cons, List.not_mem_nil, or_false] at hc
  rcases hc with rfl | rfl <;> simp [numberRules]

/-- Separators do not matter. -/
theorem run_separators {s : Salvage} {r : List Nat} (h : Stays o s (r.filter (· ∉ separators))) :
    run o s r = run o s (r.filter (· ∉ separators)) := by
  induction r generalizing s with
  | nil => rfl
  | cons c r ih =>
    by_cases hc : c ∈ separators
    · have e : (c :: r).filter (· ∉ separators) = r.filter (· ∉ separators) := by simp [hc]
      rw [e] at h ⊢
      rw [run_cons, proc_sep (stays_head h) hc]
      exact ih h
    · have e : (c :: r).filter (· ∉ separators) = c :: r.filter (· ∉ separators) := by simp [hc]
      rw [e] at h ⊢
      rw [run_cons, run_cons]
      exact ih h.2

/-- Ends a number here. -/
def Closes (o : Options) (n m : Salvage) : Prop :=
  ∀ c, (Ends .number c ∨ isSuffix c = true) → allRules o c n = (m, isSuffix c)

theorem ends_suffix {c : Option Nat} (h : Ends .number c) : isSuffix c = false := by
  rcases c with _ | c
  · rfl
  · obtain ⟨_, h, _⟩ := h
    simp only [isSuffix, Option.some.injEq, decide_eq_false_iff_not]
    unfold IsLetter at h
    omega

/-- Whatever ends a number is nothing that it could go on with. -/
structure Other (c : Option Nat) : Prop where
  sep : ¬ (c = some (ch '_') ∨ c = some (ch '\''))
  digit : isDigit09 c = false
  hex : isHexIn c = false ∨ isSuffix c = true
  isE : isE c = false
  dot : c ≠ some (ch '.')
  sign : ¬ (c = some (ch '+') ∨ c = some (ch '-'))
  letter : c ≠ some (ch 'x') ∧ c ≠ some (ch 'X') ∧ c ≠ some (ch 'o') ∧ c ≠ some (ch 'O') ∧ c ≠ some (ch 'b') ∧
    c ≠ some (ch 'B')

theorem other {c : Option Nat} (h : Ends .number c ∨ isSuffix c = true) : Other c := by
  rcases h with h | h
  · rcases c with _ | c
    · exact ⟨by simp, rfl, .inl rfl, rfl, by simp, by simp, by simp⟩
    · obtain ⟨h1, h2, h3, h4, h5, h6, h7⟩ := h
      unfold IsLetter at h2
      unfold IsDigit at h1
      refine ⟨?_, ?_, .inl ?_, ?_, ?_, ?_, ?_⟩
      · simp only [Option.some.injEq]; omega
      · simp only [isDigit09, Bool.and_eq_false_iff, decide_eq_false_iff_not]; omega
      · simp only [isHexIn, isHex, Bool.or_eq_false_iff, Bool.and_eq_false_iff, decide_eq_false_iff_not]; omega
      · simp only [isE, Option.some.injEq, decide_eq_false_iff_not]; omega
      · simp only [ne_eq, Option.some.injEq]; omega
      · simp only [Option.some.injEq]; omega
      · simp only [ne_eq, Option.some.injEq]; omega
  · have h' := h
    simp only [isSuffix, decide_eq_true_eq] at h'
    rcases h' with rfl | rfl | rfl <;> exact ⟨by decide, by decide, .inr h, by decide, by decide, by decide, by decide⟩

theorem Other.digit19 {c : Option Nat} (h : Other c) : isDigit19 c = false := by
  have := h.digit
  rcases c with _ | c
  · rfl
  · simp only [isDigit09, Bool.and_eq_false_iff, decide_eq_false_iff_not] at this
    simp only [isDigit19, Bool.and_eq_false_iff, decide_eq_false_iff_not]
    omega

theorem Other.zero {c : Option Nat} (h : Other c) : c ≠ some (ch '0') := by
  rintro rfl
  have := h.digit
  simp [isDigit09] at this

theorem Other.hexIn {c : Option Nat} (h : Other c) : isHexIn c = false := by
  rcases h.hex with h | h
  · exact h
  · simp only [isSuffix, decide_eq_true_eq] at h
    rcases h with rfl | rfl | rfl <;> decide

theorem Other.octal {c : Option Nat} (h : Other c) : isOctal c = false := by
  have := h.digit
  rcases c with _ | c
  · rfl
  · simp only [isDigit09, Bool.and_eq_false_iff, decide_eq_false_iff_not] at this
    simp only [isOctal, Bool.and_eq_false_iff, decide_eq_false_iff_not]
    omega

theorem Other.binary {c : Option Nat} (h : Other c) : isBinary c = false := by
  have := h.digit
  rcases c with _ | c
  · rfl
  · simp only [isDigit09, Bool.and_eq_false_iff, decide_eq_false_iff_not] at this
    simp only [isBinary, Bool.or_eq_false_iff, beq_eq_false_iff_ne, ne_eq]
    omega

variable {s : Salvage}

theorem num_end (hs : s.surrogate = none) (st : State) (b x y : List Nat) :
    ((num s st b x).emit y).endValue = done s (x ++ y) := by
  obtain ⟨u, stk, sep, key, buf, state, su, out⟩ := s
  simp only at hs
  subst hs
  simp [num, endValue_eq, Salvage.emit, done]

theorem num_end' (hs : s.surrogate = none) (st : State) (b x : List Nat) : (num s st b x).endValue = done s x := by
  have := num_end hs st b x []
  simpa [Salvage.emit] using this

/-- Numbers end. -/
theorem closes_decimal (hs : s.surrogate = none) {b x y : List Nat}
    (h : (b = [ch '.'] ∨ b = [ch '.', ch '0', ch 'e'] ∨ b = [ch '.', ch '0', ch 'e', ch '+']) ∧ y = [ch '0'] ∨
      (b = [] ∨ b = [ch '.', ch '0'] ∨ b = [ch '.', ch '0', ch 'e', ch '+', ch '0']) ∧ y = []) :
    Closes o (num s .numberDecimal b x) (done s (x ++ y)) := by
  intro c hc
  have ho := other hc
  rw [allRules_num (.inr rfl)]
  unfold numberRules
  rw [if_neg ho.sep, if_neg (by simp [num])]
  unfold decimalRules
  rw [if_neg (by simp [ho.digit]), if_neg (by simp [ho.dot]), if_neg (by simp [ho.isE]), if_neg (by simp [ho.isE]),
    if_neg (by simp [ho.isE]), if_neg (by simp only [ho.sign, and_false, not_false_eq_true])]
  rcases h with ⟨h, rfl⟩ | ⟨h, rfl⟩
  · rw [← num_end hs .numberDecimal b x]
    simp only
    rw [if_pos (by exact h)]
  · rw [List.append_nil, ← num_end' hs .numberDecimal b x]
    simp only
    rw [if_neg (by rcases h with rfl | rfl | rfl <;> simp [num])]

theorem closes_buffered (hs : s.surrogate = none) {b x : List Nat}
    (h : b = [ch '0'] ∨ b.take 2 = [ch '0', ch 'x'] ∨ b.take 2 = [ch '0', ch 'o'] ∨ b.take 2 = [ch '0', ch 'b']) :
    Closes o (num s .numberBuffered b x) (done s (x ++ bufferedNumber b)) := by
  intro c hc
  have ho := other hc
  obtain ⟨a1, a2, a3, a4, a5, a6⟩ := ho.letter
  rw [allRules_num (.inl rfl)]
  unfold numberRules
  rw [if_neg ho.sep, if_pos (by exact rfl)]
  unfold bufferedRules
  rw [if_neg (by simp [ho.digit19]), if_neg (by simp [ho.zero]), if_neg (by simp [ho.dot]), if_neg (by simp [a1, a2]),
    if_neg (by simp [a3, a4]), if_neg (by simp [a5, a6]), if_neg (by simp [ho.hexIn]), if_neg (by simp [ho.octal]),
    if_neg (by simp [ho.binary])]
  simp only
  rw [if_neg (by simp [ho.isE]), ← num_end hs .numberBuffered b x]
  rfl

/-! ### Steps -/

theorem dec_digit {b b' x : List Nat} {c : Nat} (hc : IsDigit c)
    (h : (b = [] ∧ b' = []) ∨ ((b = [ch '.'] ∨ b = [ch '.', ch '0']) ∧ b' = [ch '.', ch '0']) ∨
      ((b = [ch '.', ch '0', ch 'e'] ∨ b = [ch '.', ch '0', ch 'e', ch '+'] ∨ b = [ch '.', ch '0', ch 'e', ch '+', ch '0']) ∧
        b' = [ch '.', ch '0', ch 'e', ch '+', ch '0'])) :
    processCodePoint o (some c) (num s .numberDecimal b x) = num s .numberDecimal b' (x ++ [c]) := by
  refine proc1 ?_
  have hd : isDigit09 (some c) = true := by simp [isDigit09]; exact hc
  unfold IsDigit at hc
  rw [allRules_num (.inr rfl)]
  unfold numberRules
  rw [if_neg (by simp only [Option.some.injEq]; omega), if_neg (by simp [num])]
  unfold decimalRules
  rw [if_pos hd]
  rcases h with ⟨rfl, rfl⟩ | ⟨rfl | rfl, rfl⟩ | ⟨rfl | rfl | rfl, rfl⟩ <;> simp [num, Salvage.push, Salvage.emit]

theorem dec_digits {b x : List Nat} (h : b = [] ∨ b = [ch '.', ch '0'] ∨ b = [ch '.', ch '0', ch 'e', ch '+', ch '0'])
    (ds : List Nat) (hd : ∀ c ∈ ds, IsDigit c) :
    run o (num s .numberDecimal b x) ds = num s .numberDecimal b (x ++ ds) ∧ Stays o (num s .numberDecimal b x) ds := by
  induction ds generalizing x with
  | nil => exact ⟨by simp [run_nil], .inr rfl⟩
  | cons c ds ih =>
    have e : processCodePoint o (some c) (num s .numberDecimal b x) = num s .numberDecimal b (x ++ [c]) := by
      refine dec_digit (hd c (by simp)) ?_
      rcases h with rfl | rfl | rfl <;> simp
    obtain ⟨h1, h2⟩ := ih (x := x ++ [c]) (fun d h => hd d (by simp [h]))
    refine ⟨by rw [run_cons, e, h1]; simp, .inr rfl, ?_⟩
    rw [e]
    exact h2

/-- The digits after a point. -/
theorem frac_digits {x : List Nat} (fs : List Nat) (hd : ∀ c ∈ fs, IsDigit c) :
    ∃ b, run o (num s .numberDecimal [ch '.'] x) fs = num s .numberDecimal b (x ++ fs) ∧
      Stays o (num s .numberDecimal [ch '.'] x) fs ∧
      ((b = [ch '.'] ∧ fs = []) ∨ (b = [ch '.', ch '0'] ∧ fs ≠ [])) := by
  cases fs with
  | nil => exact ⟨_, by rw [List.append_nil]; rfl, .inr rfl, .inl ⟨rfl, rfl⟩⟩
  | cons c fs =>
    have e : processCodePoint o (some c) (num s .numberDecimal [ch '.'] x) = num s .numberDecimal [ch '.', ch '0'] (x ++ [c]) :=
      dec_digit (hd c (by simp)) (by simp)
    obtain ⟨h1, h2⟩ := dec_digits (o := o) (s := s) (b := [ch '.', ch '0']) (x := x ++ [c]) (by simp) fs
      (fun d h => hd d (by simp [h]))
    refine ⟨_, by rw [run_cons, e, h1, List.append_assoc]; rfl, ⟨.inr rfl, ?_⟩, .inr ⟨rfl, by simp⟩⟩
    rw [e]
    exact h2

/-- The digits of an exponent. -/
theorem exp_digits {b x : List Nat} (hb : b = [ch '.', ch '0', ch 'e'] ∨ b = [ch '.', ch '0', ch 'e', ch '+'])
    (hs : s.surrogate = none) (xs : List Nat) (hd : ∀ c ∈ xs, IsDigit c) :
    Stays o (num s .numberDecimal b x) xs ∧
      Closes o (run o (num s .numberDecimal b x) xs) (done s (x ++ orZero xs)) := by
  cases xs with
  | nil =>
    refine ⟨.inr rfl, ?_⟩
    refine closes_decimal hs (.inl ⟨.inr hb, rfl⟩)
  | cons c xs =>
    have e : processCodePoint o (some c) (num s .numberDecimal b x) =
        num s .numberDecimal [ch '.', ch '0', ch 'e', ch '+', ch '0'] (x ++ [c]) :=
      dec_digit (hd c (by simp)) (by rcases hb with rfl | rfl <;> simp)
    obtain ⟨h1, h2⟩ := dec_digits (o := o) (s := s) (b := [ch '.', ch '0', ch 'e', ch '+', ch '0']) (x := x ++ [c]) (by simp) xs
      (fun d h => hd d (by simp [h]))
    refine ⟨⟨.inr rfl, by rw [e]; exact h2⟩, ?_⟩
    rw [run_cons, e, h1]
    have := closes_decimal (o := o) hs (b := [ch '.', ch '0', ch 'e', ch '+', ch '0']) (x := x ++ [c] ++ xs) (y := []) (.inr ⟨by simp, rfl⟩)
    simpa [orZero] using this

/-- An exponent after its letter. -/
theorem exp_run {x g xs : List Nat} (hs : s.surrogate = none) (hg : g = [] ∨ g = [ch '+'] ∨ g = [ch '-'])
    (hd : ∀ c ∈ xs, IsDigit c) :
    Stays o (num s .numberDecimal [ch '.', ch '0', ch 'e'] x) (g ++ xs) ∧
      Closes o (run o (num s .numberDecimal [ch '.', ch '0', ch 'e'] x) (g ++ xs)) (done s (x ++ (g ++ orZero xs))) := by
  have sign : ∀ c, c = ch '+' ∨ c = ch '-' → processCodePoint o (some c) (num s .numberDecimal [ch '.', ch '0', ch 'e'] x) =
      num s .numberDecimal [ch '.', ch '0', ch 'e', ch '+'] (x ++ [c]) := by
    intro c hc
    refine proc1 ?_
    rw [allRules_num (.inr rfl)]
    rcases hc with rfl | rfl <;>
      simp [numberRules, decimalRules, num, isDigit09, isE, Salvage.push, Salvage.emit]
  rcases hg with rfl | rfl | rfl
  · exact exp_digits (.inl rfl) hs xs hd
  · obtain ⟨h1, h2⟩ := exp_digits (o := o) (x := x ++ [ch '+']) (.inr rfl) hs xs hd
    rw [List.singleton_append, run_cons, sign _ (.inl rfl)]
    refine ⟨⟨.inr rfl, by rw [sign _ (.inl rfl)]; exact h1⟩, ?_⟩
    simpa using h2
  · obtain ⟨h1, h2⟩ := exp_digits (o := o) (x := x ++ [ch '-']) (.inr rfl) hs xs hd
    rw [List.singleton_append, run_cons, sign _ (.inr rfl)]
    refine ⟨⟨.inr rfl, by rw [sign _ (.inr rfl)]; exact h1⟩, ?_⟩
    simpa using h2

/-- After the integer part `ds`. -/
def IntAt (s : Salvage) (x ds : List Nat) (n : Salvage) : Prop :=
  (n = num s .numberBuffered [ch '0'] x ∧ dropZeros ds = [ch '0']) ∨ n = num s .numberDecimal [] (x ++ dropZeros ds)

theorem IntAt.isNum {x ds : List Nat} {n : Salvage} (h : IntAt s x ds n) : isNum n.state := by
  rcases h with ⟨rfl, _⟩ | rfl
  · exact .inl rfl
  · exact .inr rfl

theorem IntAt.dot {x ds : List Nat} {n : Salvage} (h : IntAt s x ds n) :
    processCodePoint o (some (ch '.')) n = num s .numberDecimal [ch '.'] (x ++ dropZeros ds ++ [ch '.']) := by
  refine proc1 ?_
  rw [allRules_num h.isNum]
  rcases h with ⟨rfl, h⟩ | rfl
  · simp [numberRules, bufferedRules, num, isDigit19, Salvage.emit, Salvage.set, h]
  · simp [numberRules, decimalRules, num, isDigit09, Salvage.emit, Salvage.push]

theorem IntAt.e {x ds : List Nat} {n : Salvage} (h : IntAt s x ds n) {c : Nat} (hc : c = ch 'e' ∨ c = ch 'E') :
    processCodePoint o (some c) n =
      num s .numberDecimal [ch '.', ch '0', ch 'e'] (x ++ dropZeros ds ++ [ch 'e']) := by
  refine proc1 ?_
  rw [allRules_num h.isNum]
  rcases h with ⟨rfl, h⟩ | rfl <;> rcases hc with rfl | rfl
  · simp [numberRules, bufferedRules, num, isDigit19, Salvage.emit, Salvage.set, h, bufferedNumber, isE]
  · simp [numberRules, bufferedRules, num, isDigit19, Salvage.emit, Salvage.set, h, bufferedNumber, isE]
  · simp [numberRules, decimalRules, num, isDigit09, Salvage.emit, Salvage.push, isE]
  · simp [numberRules, decimalRules, num, isDigit09, Salvage.emit, Salvage.push, isE]

theorem IntAt.closes {x ds : List Nat} {n : Salvage} (h : IntAt s x ds n) (hs : s.surrogate = none) :
    Closes o n (done s (x ++ dropZeros ds)) := by
  rcases h with ⟨rfl, h⟩ | rfl
  · rw [h]
    exact closes_buffered hs (.inl rfl)
  · have := closes_decimal (o := o) hs (b := []) (x := x ++ dropZeros ds) (y := []) (.inr ⟨by simp, rfl⟩)
    simpa using this

/-- After the first character of a number. -/
def first (s : Salvage) (x : List Nat) (c : Nat) : Salvage :=
  if c = ch '0' then num s .numberBuffered [ch '0'] x
  else if c = ch '.' then num s .numberDecimal [ch '.'] (x ++ [ch '0', ch '.'])
  else num s .numberDecimal [] (x ++ [c])

theorem dropZeros_nonzero {c : Nat} {t : List Nat} (h : c ≠ ch '0') : dropZeros (c :: t) = c :: t := by
  cases t with
  | nil => rfl
  | cons d t => simp only [dropZeros, if_neg h]

theorem dropZeros_zero (t : List Nat) : dropZeros (ch '0' :: t) = dropZeros t := by
  cases t with
  | nil => rfl
  | cons d t => simp only [dropZeros, if_true]

/-- The integer part. -/
theorem int_run {x : List Nat} (c : Nat) (r : List Nat) (hd : ∀ d ∈ c :: r, IsDigit d) :
    Stays o (first s x c) r ∧ IntAt s x (c :: r) (run o (first s x c) r) := by
  induction r generalizing c with
  | nil =>
    have hc := hd c (by simp)
    unfold first
    by_cases h0 : c = ch '0'
    · rw [if_pos h0]
      subst h0
      exact ⟨.inl rfl, .inl ⟨rfl, rfl⟩⟩
    · rw [if_neg h0, if_neg (by unfold IsDigit at hc; omega)]
      refine ⟨.inr rfl, .inr ?_⟩
      rw [run_nil]
      rfl
  | cons d r ih =>
    have hc := hd c (by simp)
    have hdd := hd d (by simp)
    by_cases h0 : c = ch '0'
    · subst h0
      have e0 : first s x (ch '0') = num s .numberBuffered [ch '0'] x := by simp [first]
      have e : processCodePoint o (some d) (first s x (ch '0')) = first s x d := by
        rw [e0]
        refine proc1 ?_
        rw [allRules_num (.inl rfl)]
        unfold IsDigit at hdd
        unfold numberRules
        rw [if_neg (by simp only [Option.some.injEq]; omega), if_pos (by exact rfl)]
        unfold bufferedRules first
        by_cases h1 : d = ch '0'
        · subst h1
          rw [if_neg (by simp [isDigit19]), if_pos ⟨rfl, rfl⟩, if_pos rfl]
        · have h2 : isDigit19 (some d) = true := by
            simp only [isDigit19, Bool.and_eq_true, decide_eq_true_eq]
            omega
          rw [if_pos ⟨rfl, h2⟩, if_neg h1, if_neg (by omega)]
          simp [num, Salvage.emit, Salvage.set]
      obtain ⟨h1, h2⟩ := ih d (fun a ha => hd a (by simp at ha ⊢; right; exact ha))
      refine ⟨⟨by rw [e0]; exact .inl rfl, by rw [e]; exact h1⟩, ?_⟩
      rw [run_cons, e]
      unfold IntAt
      rw [dropZeros_zero]
      exact h2
    · have e0 : first s x c = num s .numberDecimal [] (x ++ [c]) := by
        unfold first
        rw [if_neg h0, if_neg (by unfold IsDigit at hc; omega)]
      obtain ⟨h1, h2⟩ := dec_digits (o := o) (s := s) (b := []) (x := x ++ [c]) (.inl rfl) (d :: r)
        (fun a ha => hd a (by simp at ha ⊢; right; exact ha))
      rw [e0]
      refine ⟨h2, .inr ?_⟩
      rw [h1, dropZeros_nonzero h0]
      simp

/-- A fraction after its point. -/
theorem frac_run {x : List Nat} (hs : s.surrogate = none) {fs : List Nat} (hd : ∀ c ∈ fs, IsDigit c) :
    Stays o (num s .numberDecimal [ch '.'] x) fs ∧
      Closes o (run o (num s .numberDecimal [ch '.'] x) fs) (done s (x ++ orZero fs)) := by
  obtain ⟨b, h1, h2, h3⟩ := frac_digits (o := o) (s := s) (x := x) fs hd
  refine ⟨h2, ?_⟩
  rw [h1]
  rcases h3 with ⟨rfl, rfl⟩ | ⟨rfl, h3⟩
  · rw [List.append_nil]
    exact closes_decimal hs (.inl ⟨.inl rfl, rfl⟩)
  · have := closes_decimal (o := o) hs (b := [ch '.', ch '0']) (x := x ++ fs) (y := []) (.inr ⟨by simp, rfl⟩)
    simpa [orZero, h3] using this

/-- A fraction and an exponent. -/
theorem fracExp_run {x : List Nat} (hs : s.surrogate = none) {fs g xs : List Nat} {e : Nat} (hd : ∀ c ∈ fs, IsDigit c)
    (he : e = ch 'e' ∨ e = ch 'E') (hg : g = [] ∨ g = [ch '+'] ∨ g = [ch '-']) (hx : ∀ c ∈ xs, IsDigit c) :
    Stays o (num s .numberDecimal [ch '.'] x) (fs ++ e :: (g ++ xs)) ∧
      Closes o (run o (num s .numberDecimal [ch '.'] x) (fs ++ e :: (g ++ xs)))
        (done s (x ++ (orZero fs ++ ch 'e' :: (g ++ orZero xs)))) := by
  obtain ⟨b, h1, h2, h3⟩ := frac_digits (o := o) (s := s) (x := x) fs hd
  have e1 : processCodePoint o (some e) (num s .numberDecimal b (x ++ fs)) =
      num s .numberDecimal [ch '.', ch '0', ch 'e'] (x ++ orZero fs ++ [ch 'e']) := by
    refine proc1 ?_
    rw [allRules_num (.inr rfl)]
    rcases h3 with ⟨rfl, rfl⟩ | ⟨rfl, h3⟩ <;> rcases he with rfl | rfl
    · simp [numberRules, decimalRules, num, isDigit09, Salvage.emit, Salvage.push, isE, orZero]
    · simp [numberRules, decimalRules, num, isDigit09, Salvage.emit, Salvage.push, isE, orZero]
    · simp [numberRules, decimalRules, num, isDigit09, Salvage.emit, Salvage.push, isE, orZero, h3]
    · simp [numberRules, decimalRules, num, isDigit09, Salvage.emit, Salvage.push, isE, orZero, h3]
  obtain ⟨h4, h5⟩ := exp_run (o := o) (x := x ++ orZero fs ++ [ch 'e']) hs hg hx
  rw [run_append, h1, run_cons, e1]
  refine ⟨stays_append h2 ?_, ?_⟩
  · rw [h1]
    exact ⟨.inr rfl, by rw [e1]; exact h4⟩
  · simpa using h5

/-- The digits after `0x` and the like. -/
theorem base_run {k : Nat} {x : List Nat} {D : Nat → Prop} (hk : (k = ch 'x' ∧ D = IsHex) ∨ (k = ch 'o' ∧ D = IsOct) ∨
    (k = ch 'b' ∧ D = fun c => c = 48 ∨ c = 49)) (ds : List Nat) :
    ∀ acc, (∀ c ∈ ds, D c) → (acc ++ ds).length ≤ 90 →
      Stays o (num s .numberBuffered (ch '0' :: k :: acc) x) ds ∧
        run o (num s .numberBuffered (ch '0' :: k :: acc) x) ds = num s .numberBuffered (ch '0' :: k :: (acc ++ ds)) x := by
  induction ds with
  | nil => intro acc _ _; exact ⟨.inl rfl, by rw [List.append_nil]; rfl⟩
  | cons d ds ih =>
    intro acc hd hl
    have hD := hd d (by simp)
    have e : processCodePoint o (some d) (num s .numberBuffered (ch '0' :: k :: acc) x) =
        num s .numberBuffered (ch '0' :: k :: (acc ++ [d])) x := by
      refine proc1 ?_
      rw [allRules_num (.inl rfl)]
      have hhex : IsHex d := by
        rcases hk with ⟨rfl, rfl⟩ | ⟨rfl, rfl⟩ | ⟨rfl, rfl⟩
        · exact hD
        · unfold IsOct at hD; unfold IsHex IsDigit; omega
        · unfold IsHex IsDigit; change d = 48 ∨ d = 49 at hD; omega
      unfold numberRules
      rw [if_neg (by unfold IsHex IsDigit at hhex; simp only [Option.some.injEq]; omega), if_pos (by exact rfl)]
      have hb : (num s .numberBuffered (ch '0' :: k :: acc) x).buffer = ch '0' :: k :: acc := rfl
      have hlen : (ch '0' :: k :: acc).length < 100 := by simp at hl ⊢; omega
      unfold bufferedRules
      rw [hb]
      rw [if_neg (by simp), if_neg (by simp), if_neg (by simp), if_neg (by simp), if_neg (by simp), if_neg (by simp)]
      rcases hk with ⟨rfl, rfl⟩ | ⟨rfl, rfl⟩ | ⟨rfl, rfl⟩
      · rw [if_pos ⟨rfl, by simp only [isHexIn]; exact isHex_iff.mpr hD⟩, if_pos hlen]
        rfl
      · rw [if_neg (by simp), if_pos ⟨rfl, by simpa [isOctal, IsOct] using hD⟩, if_pos hlen]
        rfl
      · rw [if_neg (by simp), if_neg (by simp), if_pos ⟨rfl, by simpa [isBinary] using hD⟩, if_pos hlen]
        rfl
    obtain ⟨h1, h2⟩ := ih (acc ++ [d]) (fun c hc => hd c (by simp [hc])) (by simpa using hl)
    refine ⟨⟨.inl rfl, by rw [e]; exact h1⟩, ?_⟩
    rw [run_cons, e, h2]
    simp

theorem decimal_eq (n : Nat) : decimal n = decimalDigits n := by
  induction n using Nat.strongRecOn with
  | ind n ih =>
    unfold decimal decimalDigits
    by_cases h : n < 10
    · simp [h]
    · simp [h, ih (n / 10) (by omega)]

/-- Numbers without a sign. -/
theorem unsigned_run {x n : List Nat} {c : Nat} {r : List Nat} (hs : s.surrogate = none) (h : Unsigned n (c :: r)) :
    (IsDigit c ∨ c = ch '.') ∧ Stays o (first s x c) r ∧ Closes o (run o (first s x c) r) (done s (x ++ n)) := by
  generalize ht : c :: r = t at h
  have e0 : first s x (ch '0') = num s .numberBuffered [ch '0'] x := by simp [first]
  have edot : first s x (ch '.') = num s .numberDecimal [ch '.'] (x ++ [ch '0', ch '.']) := by simp [first]
  -- the bases
  have bases : ∀ (k y : Nat) (D : Nat → Prop) (base : Nat) (ds : List Nat), ((k = ch 'x' ∧ D = IsHex) ∨ (k = ch 'o' ∧ D = IsOct) ∨
      (k = ch 'b' ∧ D = fun c => c = 48 ∨ c = 49)) → (∀ c ∈ ds, D c) → ds.length ≤ 64 →
      processCodePoint o (some y) (num s .numberBuffered [ch '0'] x) = num s .numberBuffered [ch '0', k] x →
      bufferedNumber (ch '0' :: k :: ds) = decimalDigits (number base ds) →
      Stays o (num s .numberBuffered [ch '0'] x) (y :: ds) ∧
        Closes o (run o (num s .numberBuffered [ch '0'] x) (y :: ds)) (done s (x ++ decimalDigits (number base ds))) := by
    intro k y D base ds hk hd hl hy hb
    obtain ⟨h1, h2⟩ := base_run (o := o) (s := s) (x := x) hk ds [] hd (by simp; omega)
    refine ⟨⟨.inl rfl, by rw [hy]; exact h1⟩, ?_⟩
    rw [run_cons, hy, h2, ← hb]
    refine closes_buffered hs (.inr ?_)
    rcases hk with ⟨rfl, _⟩ | ⟨rfl, _⟩ | ⟨rfl, _⟩ <;> simp
  cases h with
  | @int ds hd =>
    subst ht
    obtain ⟨h1, h2⟩ := int_run (o := o) (s := s) (x := x) c r hd.2
    exact ⟨.inl (hd.2 c (by simp)), h1, h2.closes hs⟩
  | @frac ds fs hd =>
    have hfs : ∀ c ∈ fs, IsDigit c := fun c hc => hd c (by simp [hc])
    rcases ds with _ | ⟨d, ds⟩
    · rw [List.nil_append] at ht
      obtain ⟨rfl, rfl⟩ := List.cons.inj ht
      refine ⟨.inr rfl, ?_⟩
      rw [edot]
      obtain ⟨h1, h2⟩ := frac_run (o := o) (x := x ++ [ch '0', ch '.']) hs hfs
      exact ⟨h1, by simpa [dropZeros] using h2⟩
    · obtain ⟨rfl, rfl⟩ := List.cons.inj ht
      obtain ⟨h1, h2⟩ := int_run (o := o) (s := s) (x := x) c ds (fun a ha => hd a (List.mem_append_left _ ha))
      obtain ⟨h3, h4⟩ := frac_run (o := o) (x := x ++ dropZeros (c :: ds) ++ [ch '.']) hs hfs
      refine ⟨.inl (hd c (by simp)), stays_append h1 ⟨h2.isNum, by rw [h2.dot]; exact h3⟩, ?_⟩
      show Closes o (run o (first s x c) (ds ++ _)) _
      rw [run_append, run_cons, h2.dot]
      simpa using h4
  | @intExp ds e g xs hd he hg hx =>
    rcases ds with _ | ⟨d, ds⟩
    · exact absurd rfl hd.1
    · obtain ⟨rfl, rfl⟩ := List.cons.inj ht
      obtain ⟨h1, h2⟩ := int_run (o := o) (s := s) (x := x) c ds hd.2
      obtain ⟨h3, h4⟩ := exp_run (o := o) (x := x ++ dropZeros (c :: ds) ++ [ch 'e']) hs hg hx
      refine ⟨.inl (hd.2 c (by simp)), stays_append h1 ⟨h2.isNum, by rw [h2.e he]; exact h3⟩, ?_⟩
      show Closes o (run o (first s x c) (ds ++ _)) _
      rw [run_append, run_cons, h2.e he]
      simpa using h4
  | @fracExp ds fs e g xs hd he hg hx =>
    have hfs : ∀ c ∈ fs, IsDigit c := fun c hc => hd c (by simp [hc])
    rcases ds with _ | ⟨d, ds⟩
    · rw [List.nil_append] at ht
      obtain ⟨rfl, rfl⟩ := List.cons.inj ht
      refine ⟨.inr rfl, ?_⟩
      rw [edot]
      obtain ⟨h1, h2⟩ := fracExp_run (o := o) (x := x ++ [ch '0', ch '.']) hs hfs he hg hx
      exact ⟨h1, by simpa [dropZeros] using h2⟩
    · obtain ⟨rfl, rfl⟩ := List.cons.inj ht
      obtain ⟨h1, h2⟩ := int_run (o := o) (s := s) (x := x) c ds (fun a ha => hd a (List.mem_append_left _ ha))
      obtain ⟨h3, h4⟩ := fracExp_run (o := o) (x := x ++ dropZeros (c :: ds) ++ [ch '.']) hs hfs he hg hx
      refine ⟨.inl (hd c (by simp)), stays_append h1 ⟨h2.isNum, by rw [h2.dot]; exact h3⟩, ?_⟩
      show Closes o (run o (first s x c) (ds ++ _)) _
      rw [run_append, run_cons, h2.dot]
      simpa using h4
  | @hex y ds hy hd hl =>
    obtain ⟨rfl, rfl⟩ := List.cons.inj ht
    refine ⟨.inl (by unfold IsDigit; omega), ?_⟩
    rw [e0]
    refine bases (ch 'x') y IsHex 16 ds (by simp) hd (by omega) ?_ ?_
    · refine proc1 ?_
      rw [allRules_num (.inl rfl)]
      rcases hy with rfl | rfl <;> simp [numberRules, bufferedRules, num, isDigit19, Salvage.push]
    · simp only [bufferedNumber]
      rw [if_neg (by simp), if_pos (by exact rfl), decimal_eq]
      congr 1
      refine convert_eq (fun c hc => digitValue_eq (hd c hc)) (by omega) ?_
      exact Nat.le_trans (Nat.pow_le_pow_right (by omega) hl) (by decide)
  | @octal y ds hy hd hl =>
    obtain ⟨rfl, rfl⟩ := List.cons.inj ht
    refine ⟨.inl (by unfold IsDigit; omega), ?_⟩
    rw [e0]
    refine bases (ch 'o') y IsOct 8 ds (by simp) hd (by omega) ?_ ?_
    · refine proc1 ?_
      rw [allRules_num (.inl rfl)]
      rcases hy with rfl | rfl <;> simp [numberRules, bufferedRules, num, isDigit19, Salvage.push]
    · simp only [bufferedNumber]
      rw [if_neg (by simp), if_neg (by simp), if_pos (by exact rfl), decimal_eq]
      congr 1
      refine convert_eq (fun c hc => ?_) (by omega) ?_
      · have := hd c hc
        unfold IsOct at this
        refine ⟨(digitValue_eq (.inl ⟨this.1, by omega⟩)).1, ?_⟩
        unfold digit
        rw [if_pos (by omega)]
        omega
      exact Nat.le_trans (Nat.pow_le_pow_right (by omega) hl) (by decide)
  | @binary y ds hy hd hl =>
    obtain ⟨rfl, rfl⟩ := List.cons.inj ht
    refine ⟨.inl (by unfold IsDigit; omega), ?_⟩
    rw [e0]
    refine bases (ch 'b') y _ 2 ds (by right; right; exact ⟨rfl, rfl⟩) hd (by omega) ?_ ?_
    · refine proc1 ?_
      rw [allRules_num (.inl rfl)]
      rcases hy with rfl | rfl <;> simp [numberRules, bufferedRules, num, isDigit19, Salvage.push]
    · simp only [bufferedNumber]
      rw [if_neg (by simp), if_neg (by simp), if_neg (by simp), if_pos (by exact rfl), decimal_eq]
      congr 1
      refine convert_eq (fun c hc => ?_) (by omega) ?_
      · have := hd c hc
        refine ⟨(digitValue_eq (.inl ⟨by omega, by omega⟩)).1, ?_⟩
        unfold digit
        rw [if_pos (by omega)]
        omega
      exact Nat.le_trans (Nat.pow_le_pow_right (by omega) hl) (by decide)

/-! ### Numbers with signs -/

theorem run_first (h : AtBase s) (hk : s.key = false) {sg : List Nat} {c : Nat} (hc : IsDigit c ∨ c = ch '.')
    (hsg : sg = [] ∨ sg = [ch '+'] ∨ sg = [ch '-']) :
    run o s (sg ++ [c]) = first s (if sg = [ch '-'] then [ch '-'] else []) c := by
  have hd : (c = ch '0' ∧ isDigit19 (some c) = false) ∨ (c = ch '.' ∧ isDigit19 (some c) = false) ∨
      (c ≠ ch '0' ∧ c ≠ ch '.' ∧ isDigit19 (some c) = true ∧ 49 ≤ c ∧ c ≤ 57) := by
    unfold IsDigit at hc
    rcases Nat.lt_or_ge c 49 with h | h
    · rcases hc with hc | rfl
      · obtain rfl : c = 48 := by omega
        exact .inl ⟨rfl, rfl⟩
      · exact .inr (.inl ⟨rfl, rfl⟩)
    · right; right
      refine ⟨by omega, by omega, ?_, by omega⟩
      simp only [isDigit19, Bool.and_eq_true, decide_eq_true_eq]
      omega
  obtain ⟨u, stk, sep, key, buf, state, su, out⟩ := s
  obtain ⟨h1, h2, h3⟩ := h
  simp only at h1 h2 h3 hk
  subst h1 h2 h3 hk
  rcases hsg with rfl | rfl | rfl
  · rw [List.nil_append, run_cons, run_nil, proc_base ⟨rfl, rfl, rfl⟩]
    rcases hd with ⟨rfl, _⟩ | ⟨rfl, _⟩ | ⟨n0, nd, h19, hlo, hhi⟩
    · simp [baseEmpty, isWhitespace, first, num, startValue_eq, Salvage.set]
    · simp [baseEmpty, isWhitespace, first, num, startValue_eq, Salvage.set, Salvage.emit]
    · have hw : isWhitespace c = false := by
        simp only [isWhitespace, Bool.or_eq_false_iff, Bool.and_eq_false_iff, decide_eq_false_iff_not, beq_eq_false_iff_ne, ne_eq]
        omega
      unfold baseEmpty first
      simp only
      rw [if_neg (by rw [hw]; simp; omega), if_neg (by omega), if_neg (by omega), if_neg (by omega), if_neg (by omega), if_neg (by omega),
        if_neg (by omega), if_neg (by omega), if_neg (by omega), if_neg (by omega), if_neg (by omega), if_pos ⟨by trivial, h19⟩, if_neg n0,
        if_neg nd]
      simp [num, startValue_eq, Salvage.set, Salvage.emit]
  · have e : processCodePoint o (some (ch '+')) ⟨u, stk, sep, false, [], .base, none, out⟩ =
        num ⟨u, stk, sep, false, [], .base, none, out⟩ .base [ch '+'] [] := by
      rw [proc_base ⟨rfl, rfl, rfl⟩]
      simp [baseEmpty, isWhitespace, num, startValue_eq, Salvage.push]
    rw [List.singleton_append, run_cons, run_cons, run_nil, e]
    refine proc1 ?_
    rcases hd with ⟨rfl, h19⟩ | ⟨rfl, h19⟩ | ⟨n0, nd, h19, hlo, hhi⟩
    · simp [allRules, num, baseRules, first, Salvage.set, h19]
    · simp [allRules, num, baseRules, first, Salvage.set, h19, Salvage.emit]
    · simp [allRules, num, baseRules, first, Salvage.set, h19, n0, nd, Salvage.emit]
  · have e : processCodePoint o (some (ch '-')) ⟨u, stk, sep, false, [], .base, none, out⟩ =
        num ⟨u, stk, sep, false, [], .base, none, out⟩ .base [ch '-'] [] := by
      rw [proc_base ⟨rfl, rfl, rfl⟩]
      simp [baseEmpty, isWhitespace, num, startValue_eq, Salvage.push]
    rw [List.singleton_append, run_cons, run_cons, run_nil, e]
    refine proc1 ?_
    rcases hd with ⟨rfl, h19⟩ | ⟨rfl, h19⟩ | ⟨n0, nd, h19, hlo, hhi⟩
    · simp [allRules, num, baseRules, first, Salvage.set, h19, Salvage.emit]
    · simp [allRules, num, baseRules, first, Salvage.set, h19, Salvage.emit]
    · simp [allRules, num, baseRules, first, Salvage.set, h19, n0, nd, Salvage.emit]

theorem number_closes (h : AtBase s) (hk : s.key = false) {out t : List Nat} {e : Ending} (hn : NumberText out t e) :
    (e = .number ∧ Closes o (run o s t) (done s out)) ∨ (e = .closed ∧ run o s t = done s out) := by
  induction hn with
  | @plain sg out n c r hsg _ hu hout =>
    left
    refine ⟨rfl, ?_⟩
    obtain ⟨h1, h2, h3⟩ := unsigned_run (o := o) (x := if sg = [ch '-'] then [ch '-'] else []) h.surrogate hu
    have e : sg ++ c :: r = (sg ++ [c]) ++ r := by simp
    rw [e, run_append, run_first h hk h1 hsg, run_separators h2, hout]
    have e' : (if sg = [ch '-'] then ch '-' :: n else n) = (if sg = [ch '-'] then [ch '-'] else []) ++ n := by
      split <;> rfl
    rw [e']
    exact h3
  | @suffix out t x _ hx ih =>
    right
    refine ⟨rfl, ?_⟩
    rcases ih with ⟨_, ih⟩ | ⟨h, _⟩
    · have hs : isSuffix (some x) = true := by rcases hx with rfl | rfl | rfl <;> decide
      rw [run_append, run_cons, run_nil]
      refine proc1 ?_
      rw [ih _ (.inr hs), hs]
    · exact absurd h (by simp)

/-- Numbers are read. -/
theorem number_reach (h : AtBase s) (hk : s.key = false) {out t : List Nat} {e : Ending} (hn : NumberText out t e) :
    Reach o s t (done s out) (Ends e) := by
  rcases number_closes (o := o) h hk hn with ⟨rfl, h1⟩ | ⟨rfl, h1⟩
  · intro c hc
    have := h1 c (.inl hc)
    rw [ends_suffix hc] at this
    exact proc_end this (done_base _ _)
  · exact Reach.of_eq h1

end Verif.JsonSalvage
