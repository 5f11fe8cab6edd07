/-
The invariant of the processor: what has been written is the beginning of a text.
-/
import Verif.JsonSalvage.Emit

namespace Verif.JsonSalvage

open Verif.JsonStream

/-! ### Numbers -/

def Sign (t : List Nat) : Prop := t = [] ∨ t = [ch '-']

def IntPart (t : List Nat) : Prop := t = [ch '0'] ∨ (Digits t ∧ t.head? ≠ some (ch '0'))

def FracPart (t : List Nat) : Prop := t = [] ∨ ∃ ds, Digits ds ∧ t = ch '.' :: ds

/-- The beginning of a decimal number, for each buffer. -/
inductive Decimal : List Nat → List Nat → Prop
  | int {sg i} : Sign sg → Digits i → i.head? ≠ some (ch '0') → Decimal [] (sg ++ i)
  | dot {sg i} : Sign sg → IntPart i → Decimal [ch '.'] (sg ++ i ++ [ch '.'])
  | frac {sg i ds} : Sign sg → IntPart i → Digits ds → Decimal [ch '.', ch '0'] (sg ++ i ++ ch '.' :: ds)
  | e {sg i f} : Sign sg → IntPart i → FracPart f → Decimal [ch '.', ch '0', ch 'e'] (sg ++ i ++ f ++ [ch 'e'])
  | sign {sg i f g} : Sign sg → IntPart i → FracPart f → (g = ch '+' ∨ g = ch '-') →
      Decimal [ch '.', ch '0', ch 'e', ch '+'] (sg ++ i ++ f ++ [ch 'e', g])
  | exp {sg i f g ds} : Sign sg → IntPart i → FracPart f → (g = [] ∨ g = [ch '+'] ∨ g = [ch '-']) → Digits ds →
      Decimal [ch '.', ch '0', ch 'e', ch '+', ch '0'] (sg ++ i ++ f ++ ch 'e' :: (g ++ ds))

theorem digits_snoc {ds : List Nat} {c : Nat} (h : Digits ds) (hc : 48 ≤ c ∧ c ≤ 57) : Digits (ds ++ [c]) := by
  refine ⟨by simp, ?_⟩
  intro d hd
  rcases List.mem_append.mp hd with h' | h'
  · exact h.2 d h'
  · simp at h'; subst h'; exact hc

theorem digits_one {c : Nat} (hc : 48 ≤ c ∧ c ≤ 57) : Digits [c] := by
  refine ⟨by simp, ?_⟩
  intro d hd
  simp at hd; subst hd; exact hc

theorem head_snoc {ds : List Nat} {c : Nat} (h : Digits ds) : (ds ++ [c]).head? = ds.head? := by
  rcases ds with _ | ⟨d, ds⟩
  · exact absurd rfl h.1
  · rfl

/-- What ends a decimal number. -/
def decimalEnd (b : List Nat) : List Nat :=
  if b = [ch '.'] ∨ b = [ch '.', ch '0', ch 'e'] ∨ b = [ch '.', ch '0', ch 'e', ch '+'] then [ch '0'] else []

theorem decimal_number {b t : List Nat} (h : Decimal b t) : IsNumber (t ++ decimalEnd b) := by
  have z : Digits [ch '0'] := digits_one (by omega)
  cases h with
  | int hs hi hh => exact ⟨_, _, [], [], by simp [decimalEnd], hs, .inr ⟨hi, hh⟩, .inl rfl, .inl rfl⟩
  | dot hs hi => exact ⟨_, _, [ch '.', ch '0'], [], by simp [decimalEnd], hs, hi, .inr ⟨_, z, rfl⟩, .inl rfl⟩
  | frac hs hi hd => exact ⟨_, _, _, [], by simp [decimalEnd], hs, hi, .inr ⟨_, hd, rfl⟩, .inl rfl⟩
  | e hs hi hf =>
    exact ⟨_, _, _, [ch 'e', ch '0'], by simp [decimalEnd], hs, hi, hf,
      .inr ⟨ch 'e', [], [ch '0'], .inl rfl, .inl rfl, z, rfl⟩⟩
  | sign hs hi hf hg =>
    rename_i g
    exact ⟨_, _, _, [ch 'e', g, ch '0'], by simp [decimalEnd], hs, hi, hf,
      .inr ⟨ch 'e', [g], [ch '0'], .inl rfl, .inr (by rcases hg with rfl | rfl <;> simp), z, rfl⟩⟩
  | exp hs hi hf hg hd =>
    exact ⟨_, _, _, _, by simp [decimalEnd], hs, hi, hf, .inr ⟨ch 'e', _, _, .inl rfl, hg, hd, rfl⟩⟩

theorem decimal_int (n : Nat) : IntPart (decimal n) := by
  induction n using Nat.strongRecOn with
  | _ n ih =>
    rw [decimal]
    split
    · by_cases h0 : n = 0
      · left; simp [h0]
      · right; exact ⟨digits_one (by omega), by simp; omega⟩
    · have hd : 48 ≤ 48 + n % 10 ∧ 48 + n % 10 ≤ 57 := by omega
      rcases ih (n / 10) (by omega) with h | ⟨h1, h2⟩
      · -- the quotient is not zero
        exfalso
        have : n / 10 = 0 := by
          rw [decimal] at h
          split at h
          · simp at h; omega
          · exfalso
            have := congrArg List.length h
            simp at this
            have hne : decimal (n / 10 / 10) ≠ [] := by
              rw [decimal]; split <;> simp
            exact hne (List.length_eq_zero_iff.mp (by simpa using this))
        omega
      · right
        exact ⟨digits_snoc h1 hd, by rw [head_snoc h1]; exact h2⟩

/-- Buffers of numbers that are not known to be decimal. -/
def BufInt (b : List Nat) : Prop := b = [ch '0'] ∨ ∃ k ds, b = ch '0' :: k :: ds ∧ (k = ch 'x' ∨ k = ch 'o' ∨ k = ch 'b')

theorem bufInt_number {b : List Nat} (h : BufInt b) : IntPart (bufferedNumber b) := by
  rcases h with rfl | ⟨k, ds, rfl, rfl | rfl | rfl⟩
  · left; rfl
  all_goals
    simp only [bufferedNumber]
    simpa using decimal_int _

/-! ### The invariant -/

/-- What may be written where a number starts. -/
def NumReady (D : Defects) (s : Salvage) (y : List Nat) : Prop :=
  (s.key = false ∧ s.sep = false ∧ Ready D s.stack false y) ∨
    (s.key = true ∧ D.numberKey ∧ Between D s.stack s.sep true y)

theorem numReady_end {D : Defects} {s : Salvage} {y t : List Nat} (h : NumReady D s y) (ht : IsNumber t) :
    Between D s.stack true (nextKey s.stack s.key) (y ++ t) := by
  rcases h with ⟨h1, _, h3⟩ | ⟨h1, h2, h3⟩
  · rw [h1]; exact ready_value h3 (.num ht)
  · rw [h1]; exact between_number_key h3 h2 ht

/-- Buffers inside of strings. -/
def StrBuf (b : List Nat) : Prop :=
  b = [] ∨ b = [ch '\\'] ∨ b = [ch '\\', 13] ∨ b = [ch '"'] ∨ b = [ch '"', ch '"'] ∨ b = [ch '\''] ∨
    b = [ch '\'', ch '\''] ∨
    ∃ k ds, b = ch '\\' :: k :: ds ∧ (k = ch 'u' ∨ k = ch 'o' ∨ k = ch 'x' ∨ k = ch 'U' ∨ k = ch '{')

def isSpecial (c : Nat) : Prop := c = ch '"' ∨ c = ch '\'' ∨ c = ch '`' ∨ c = ch '-' ∨ c = ch '+'

/-- Between leafs.  `last` is the last code point of the input. -/
inductive BaseInv (D : Defects) (s : Salvage) (x : List Nat) (last : Option Nat) : Prop
  | plain : (∀ c, s.buffer.head? = some c → ¬ isSpecial c) → Between D s.stack s.sep s.key x → BaseInv D s x last
  | quote {y} : (s.buffer = [ch '"'] ∨ s.buffer = [ch '"', ch '"'] ∨ s.buffer = [ch '\''] ∨
      s.buffer = [ch '\'', ch '\'']) → s.sep = false → Ready D s.stack s.key y → x = y ++ [ch '"'] →
      BaseInv D s x last
  | tick : ((s.buffer = [ch '`'] ∧ last = some (ch '`')) ∨ (s.buffer = [ch '`', ch '`'] ∧ D.unfinished)) →
      s.sep = false → Ready D s.stack s.key x → BaseInv D s x last
  | sign {c bs} : s.buffer = c :: bs → (c = ch '-' ∨ c = ch '+') → (bs = [] → last = some c) →
      ((s.key = false ∧ s.sep = false ∧ Ready D s.stack false x) ∨
        (s.key = true ∧ bs = [] ∧ Between D s.stack s.sep true x)) → BaseInv D s x last

/-- Inside of a string. -/
structure StrInv (D : Defects) (s : Salvage) (x : List Nat) (last : Option Nat) : Prop where
  surrogate : SurrOk s.surrogate
  sep : s.sep = false
  buffer : s.state ≠ .unquoted → StrBuf s.buffer
  last : s.state ≠ .unquoted → s.buffer = [ch '\\'] → last = some (ch '\\')
  text : ∃ y b, Ready D s.stack s.key y ∧ LooseBody D.control b ∧ x = y ++ ch '"' :: b

def StateInv (D : Defects) (s : Salvage) (x : List Nat) (last : Option Nat) : Prop :=
  match s.state with
  | .base => s.surrogate = none ∧ BaseInv D s x last
  | .lineComment => s.surrogate = none ∧ Between D s.stack s.sep s.key x
  | .blockComment => s.surrogate = none ∧ Between D s.stack s.sep s.key x
  | .numberBuffered => s.surrogate = none ∧ BufInt s.buffer ∧ ∃ y sg, NumReady D s y ∧ Sign sg ∧ x = y ++ sg
  | .numberDecimal => s.surrogate = none ∧ ∃ y t, NumReady D s y ∧ Decimal s.buffer t ∧ x = y ++ t
  | _ => StrInv D s x last

/-- The invariant: `x` is what has been written so far. -/
def Inv (D : Defects) (raw : Prop) (o : Options) (s : Salvage) (x : List Nat) (last : Option Nat) : Prop :=
  AllGood o raw x ∧ StateInv D s x last

/-- What the last two code points say about the defects. -/
structure Pair (D : Defects) (raw : Prop) (last c : Option Nat) : Prop where
  number : (last = some (ch '-') ∨ last = some (ch '+')) → (isDigit09 c = true ∨ c = some (ch '.')) → D.numberKey
  control : last = some (ch '\\') → ∀ d, c = some d → d < 0x20 → D.control
  raw : last = some (ch '\\') → ∀ d, c = some d → 0x80 ≤ d → raw
  tick : last = some (ch '`') → c = some (ch '`') → D.unfinished

/-- What holds after a rule. -/
def Post (D : Defects) (raw : Prop) (o : Options) (pre : List Nat) (c : Option Nat) (r : Salvage × Bool) : Prop :=
  Inv D raw o r.1 (pre ++ r.1.output) c ∧ (r.2 = false → ∀ l, Inv D raw o r.1 (pre ++ r.1.output) l)

variable {D : Defects} {raw : Prop} {o : Options}

theorem inv_between {s : Salvage} {x : List Nat} (hg : AllGood o raw x) (hst : s.state = .base)
    (hb : s.buffer = []) (hs : s.surrogate = none) (h : Between D s.stack s.sep s.key x) (l : Option Nat) :
    Inv D raw o s x l := by
  refine ⟨hg, ?_⟩
  simp only [StateInv, hst]
  exact ⟨hs, .plain (by simp [hb]) h⟩

theorem post_all {pre : List Nat} {c : Option Nat} {s : Salvage} {k : Bool}
    (h : ∀ l, Inv D raw o s (pre ++ s.output) l) : Post D raw o pre c (s, k) := ⟨h c, fun _ => h⟩

theorem post_one {pre : List Nat} {c : Option Nat} {s : Salvage}
    (h : Inv D raw o s (pre ++ s.output) c) : Post D raw o pre c (s, true) := ⟨h, by simp⟩

def isQuoteState : State → Bool
  | .doubleQuote => true
  | .singleQuote => true
  | .backtick => true
  | .tripleDouble => true
  | .tripleSingle => true
  | _ => false

theorem stateInv_string {s : Salvage} {x : List Nat} {l : Option Nat}
    (hst : isQuoteState s.state = true ∨ s.state = .unquoted) : StateInv D s x l ↔ StrInv D s x l := by
  unfold StateInv
  rcases h : s.state <;> simp [h, isQuoteState] at hst ⊢

end Verif.JsonSalvage
