/-
What is written for the bytes of any input.
-/
import Verif.JsonSalvage.Bytes

namespace Verif.JsonSalvage

open Verif.JsonStream

variable {D : Defects} {raw : Prop} {o : Options}

/-- What the bytes `t` of the input say about the defects. -/
structure Allowed (o : Options) (D : Defects) (raw : Prop) (t : Bytes) : Prop where
  nan : o.allowNan = true → D.nan
  number : HasPair (fun x y => (x = ch '-' ∨ x = ch '+') ∧ ((48 ≤ y ∧ y ≤ 57) ∨ y = ch '.')) t → D.numberKey
  control : HasPair (fun x y => x = ch '\\' ∧ y < 0x20) t → D.control
  raw : HasPair (fun x y => x = ch '\\' ∧ 0x80 ≤ y) t → raw
  tick : HasPair (fun x y => x = ch '`' ∧ y = ch '`') t → D.unfinished

/-- The invariant after the bytes `read`. -/
def ByteInv (D : Defects) (raw : Prop) (o : Options) (s : Salvage) (x : List Nat) (read : Bytes) : Prop :=
  ∃ last, Inv D raw o s x last ∧ BufOk s.utf8Buffer ∧
    ∀ a, last = some a → a < 0x80 → ∃ p, read = p ++ a :: s.utf8Buffer

/-- The invariant does not depend on the bytes read and on where the output is kept. -/
theorem inv_of {s s' : Salvage} {x : List Nat} {l : Option Nat} (h : Inv D raw o s x l) (h1 : s'.stack = s.stack)
    (h2 : s'.sep = s.sep) (h3 : s'.key = s.key) (h4 : s'.buffer = s.buffer) (h5 : s'.state = s.state)
    (h6 : s'.surrogate = s.surrogate) : Inv D raw o s' x l := by
  obtain ⟨u, st, sep, key, buf, state, su, out⟩ := s
  obtain ⟨u', st', sep', key', buf', state', su', out'⟩ := s'
  simp only at h1 h2 h3 h4 h5 h6
  subst h1 h2 h3 h4 h5 h6
  refine ⟨h.1, ?_⟩
  replace h := h.2
  cases state' <;> simp only [StateInv] at h ⊢
  case base =>
    refine ⟨h.1, ?_⟩
    cases h.2 with
    | plain a b => exact .plain a b
    | quote a b c d => exact .quote a b c d
    | tick a b c => exact .tick a b c
    | sign a b c d => exact .sign a b c d
  all_goals first
    | exact h
    | exact ⟨h.1, h.2, h.3, h.4, h.5⟩

/-- The code point `c` of the bytes `b`, of which the first is `a`. -/
theorem pair_of {t read b rest : Bytes} {last : Option Nat} {c a : Nat} (ha : Allowed o D raw t)
    (hl : ∀ d, last = some d → d < 0x80 → ∃ p, read = p ++ d :: (a :: b)) (ht : t = read ++ rest)
    (h1 : c < 0x80 → c = a) (h2 : 0x80 ≤ c → 0x80 ≤ a) : Pair D raw last (some c) := by
  have pair : ∀ d, last = some d → d < 0x80 → ∃ p q, t = p ++ d :: a :: q := by
    intro d h hd
    obtain ⟨p, hp⟩ := hl d h hd
    exact ⟨p, b ++ rest, by simp [ht, hp]⟩
  constructor
  · intro h h'
    have hc : (48 ≤ c ∧ c ≤ 57) ∨ c = ch '.' := by simpa [isDigit09] using h'
    have e := h1 (by omega)
    subst e
    rcases h with h | h <;> obtain ⟨p, q, e⟩ := pair _ h (by decide)
    · exact ha.number ⟨p, _, _, q, e, .inl rfl, hc⟩
    · exact ha.number ⟨p, _, _, q, e, .inr rfl, hc⟩
  · intro h d hd hlt
    simp at hd; subst hd
    have e := h1 (by omega)
    subst e
    obtain ⟨p, q, e⟩ := pair _ h (by decide)
    exact ha.control ⟨p, _, _, q, e, rfl, hlt⟩
  · intro h d hd hlt
    simp at hd; subst hd
    obtain ⟨p, q, e⟩ := pair _ h (by decide)
    exact ha.raw ⟨p, _, _, q, e, rfl, h2 hlt⟩
  · intro h hd
    simp at hd
    have e := h1 (by omega)
    subst e
    obtain ⟨p, q, e⟩ := pair _ h (by decide)
    exact ha.tick ⟨p, _, _, q, e, rfl, hd⟩

/-- A byte that does not end a sequence too early. -/
theorem byte_tail {s : Salvage} {pre : List Nat} {t read rest : Bytes} {c : Nat} (ha : Allowed o D raw t)
    (h : ByteInv D raw o s (pre ++ s.output) read) (ht : t = read ++ c :: rest)
    (hc : s.utf8Buffer = [] ∨ isTrailByte c = true) (s' : Salvage)
    (hs' : s' = if sequenceLength ((s.utf8Buffer ++ [c]).headD 0) > (s.utf8Buffer ++ [c]).length then
        { s with utf8Buffer := s.utf8Buffer ++ [c] }
      else processCodePoint o (some (decodeBytes (s.utf8Buffer ++ [c]))) { s with utf8Buffer := [] }) :
    ByteInv D raw o s' (pre ++ s'.output) (read ++ [c]) := by
  obtain ⟨last, hi, hb, hl⟩ := h
  -- the bytes of the code point
  obtain ⟨a, b, hab, hbt, hle⟩ : ∃ a b, s.utf8Buffer ++ [c] = a :: b ∧ (∀ d ∈ b, isTrailByte d = true) ∧
      (a :: b).length ≤ sequenceLength a := by
    rcases hb with hb | ⟨a, b, hb, h1, h2, h3⟩
    · exact ⟨c, [], by simp [hb], by simp, by simpa using (sequenceLength_le c).1⟩
    · refine ⟨a, b ++ [c], by simp [hb], ?_, ?_⟩
      · intro d hd
        rcases List.mem_append.mp hd with hd | hd
        · exact h3 d hd
        · simp at hd; subst hd
          rcases hc with hc | hc
          · simp [hb] at hc
          · exact hc
      · rw [hb] at h2
        simp at h2 ⊢
        omega
  have hl' : ∀ d, last = some d → d < 0x80 → ∃ p, read ++ [c] = p ++ d :: (a :: b) := by
    intro d h1 h2
    obtain ⟨p, hp⟩ := hl d h1 h2
    exact ⟨p, by rw [hp, ← hab]; simp⟩
  have ht' : t = (read ++ [c]) ++ rest := by simp [ht]
  subst hs'
  by_cases hlt : sequenceLength ((s.utf8Buffer ++ [c]).headD 0) > (s.utf8Buffer ++ [c]).length
  · rw [if_pos hlt]
    rw [hab] at hlt ⊢
    simp only [List.headD_cons] at hlt
    refine ⟨last, inv_of hi rfl rfl rfl rfl rfl rfl, .inr ⟨a, b, rfl, ?_, hlt, hbt⟩, hl'⟩
    have : a < 0xC2 → sequenceLength a = 1 := by intro h; unfold sequenceLength; rw [if_pos h]
    by_cases h : a < 0xC2
    · rw [this h] at hlt; simp at hlt
    · omega
  · rw [if_neg hlt]
    rw [hab] at hlt ⊢
    simp only [List.headD_cons] at hlt
    have hlen : (a :: b).length = sequenceLength a := by omega
    have hp := pair_of ha hl' ht' (c := decodeBytes (a :: b)) (fun h => (decode_ascii hbt hlen h).2) (decode_head hlen)
    have hi' : Inv D raw o { s with utf8Buffer := [] } (pre ++ s.output) last := inv_of hi rfl rfl rfl rfl rfl rfl
    refine ⟨_, processCodePoint_inv ha.nan hi' hp (scalar_decode hbt hlen), ?_, ?_⟩
    · rw [processCodePoint_utf8]; exact .inl rfl
    · intro d hd hlt
      simp only [Option.some.injEq] at hd
      rw [processCodePoint_utf8]
      obtain ⟨e1, e2⟩ := decode_ascii hbt hlen (by omega)
      have hnil : s.utf8Buffer = [] := by
        have := congrArg List.length hab
        rw [e1] at this
        simpa using this
      rw [hnil, e1] at hab
      simp at hab
      refine ⟨read, ?_⟩
      rw [← hd, e2, hab]

theorem processByte_inv {s : Salvage} {pre : List Nat} {t read rest : Bytes} {c : Nat} (ha : Allowed o D raw t)
    (h : ByteInv D raw o s (pre ++ s.output) read) (ht : t = read ++ c :: rest) :
    ByteInv D raw o (processByte o s c) (pre ++ (processByte o s c).output) (read ++ [c]) := by
  unfold processByte
  by_cases hf : isTrailByte c = false ∧ s.utf8Buffer ≠ []
  · simp only [hf, if_true, and_self, not_false_eq_true, ne_eq]
    refine byte_tail (s := processCodePoint o (some replacement) { s with utf8Buffer := [] }) ha ?_ ht
      (.inl (by rw [processCodePoint_utf8])) _ rfl
    obtain ⟨last, hi, hb, hl⟩ := h
    obtain ⟨a, b, hb, h1, _⟩ : ∃ a b, s.utf8Buffer = a :: b ∧ 0xC2 ≤ a ∧ True := by
      rcases hb with hb | ⟨a, b, hb, h1, h2, h3⟩
      · exact absurd hb hf.2
      · exact ⟨a, b, hb, h1, trivial⟩
    have hp : Pair D raw last (some replacement) :=
      pair_of (b := b) ha (by rw [← hb]; exact hl) ht (by simp [replacement]) (fun _ => by omega)
    have hi' : Inv D raw o { s with utf8Buffer := [] } (pre ++ s.output) last := inv_of hi rfl rfl rfl rfl rfl rfl
    refine ⟨_, processCodePoint_inv ha.nan hi' hp scalar_replacement, ?_, ?_⟩
    · rw [processCodePoint_utf8]; exact .inl rfl
    · intro d hd hlt
      simp at hd; subst hd
      simp [replacement] at hlt
  · simp only [hf, if_false]
    refine byte_tail ha h ht ?_ _ rfl
    by_cases h1 : s.utf8Buffer = []
    · exact .inl h1
    · refine .inr ?_
      cases hc : isTrailByte c
      · exact absurd ⟨hc, h1⟩ hf
      · rfl

theorem feed_inv {t : Bytes} (ha : Allowed o D raw t) (rest : Bytes) :
    ∀ (s : Salvage) (x : List Nat) (read : Bytes), t = read ++ rest → s.output = [] → ByteInv D raw o s x read →
      ∃ y, (feed (salvageStep o) s rest).2 = encode y ∧ (feed (salvageStep o) s rest).1.output = [] ∧
        ByteInv D raw o (feed (salvageStep o) s rest).1 (x ++ y) t := by
  induction rest with
  | nil =>
    intro s x read ht ho h
    refine ⟨[], rfl, ho, ?_⟩
    rw [ht]
    simpa [feed] using h
  | cons c rest ih =>
    intro s x read ht ho h
    have h1 := processByte_inv (s := s) (pre := x) ha (by simpa [ho] using h) ht
    have h2 : ByteInv D raw o (salvageStep o s c).1 (x ++ (processByte o s c).output) (read ++ [c]) := by
      obtain ⟨last, hi, hb, hl⟩ := h1
      refine ⟨last, ?_, hb, hl⟩
      exact inv_of hi rfl rfl rfl rfl rfl rfl
    obtain ⟨y, e1, e2, e3⟩ := ih (salvageStep o s c).1 _ _ (by simp [ht]) rfl h2
    refine ⟨(processByte o s c).output ++ y, ?_, ?_, ?_⟩
    · simp only [feed, e1]
      simp [encode, salvageStep]
    · exact e2
    · rw [← List.append_assoc]
      exact e3

theorem encode_good {x : List Nat} (h : AllGood o raw x) :
    ∃ cs : List Char, encode x = bytesOf cs ∧ codes cs = x := by
  induction x with
  | nil => exact ⟨[], rfl, rfl⟩
  | cons c x ih =>
    obtain ⟨cs, h1, h2⟩ := ih (fun d hd => h d (by simp [hd]))
    have hc := (h c (by simp)).1
    have hv : c.isValidChar := by
      unfold Nat.isValidChar
      unfold Scalar at hc
      omega
    refine ⟨Char.ofNat c :: cs, ?_, ?_⟩
    · have : (Char.ofNat c).toNat = c := by
        simp [Char.ofNat, hv, Char.toNat, Char.ofNatAux]
      simp only [encode, bytesOf, List.flatMap_cons] at h1 ⊢
      rw [← utf8_char, this, h1]
    · have : (Char.ofNat c).toNat = c := by
        simp [Char.ofNat, hv, Char.toNat, Char.ofNatAux]
      simp only [codes, List.map_cons] at h2 ⊢
      rw [this, h2]

/-- All that is written for an input is a text with defects that its bytes allow. -/
theorem salvage_valid {t : Bytes} (ha : Allowed o D raw t) :
    ∃ cs : List Char,
      (feed (salvageStep o) initial t).2 ++ encode (finalOutput o (feed (salvageStep o) initial t).1) = bytesOf cs ∧
      LooseDoc D (codes cs) ∧ (o.ensureAscii = true → ¬ raw → ∀ c ∈ codes cs, c < 0x80) := by
  have h0 : ByteInv D raw o initial [] [] := by
    refine ⟨none, ⟨by simp [AllGood], ?_⟩, .inl rfl, by simp⟩
    simp only [StateInv, initial]
    exact ⟨trivial, .plain (by simp) ⟨rfl, fun _ => rfl, .nil⟩⟩
  obtain ⟨y, e1, e2, last, hi, _, _⟩ := feed_inv ha t initial [] [] rfl rfl h0
  have := finalOutput_spec (pre := y) ha.nan (s := (feed (salvageStep o) initial t).1) (last := last)
    (by simpa [e2] using hi)
  obtain ⟨h1, h2⟩ := this
  obtain ⟨cs, h3, h4⟩ := encode_good h2
  refine ⟨cs, ?_, by rw [h4]; exact h1, ?_⟩
  · rw [e1, ← h3]
    simp [encode]
  · intro he hr c hc
    rw [h4] at hc
    rcases (h2 c hc).2 he with h | h
    · exact h
    · exact absurd h hr

end Verif.JsonSalvage
