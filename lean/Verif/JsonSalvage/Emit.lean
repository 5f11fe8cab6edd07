/-
What is written for the characters of a string.
-/
import Verif.JsonSalvage.Structure

namespace Verif.JsonSalvage

open Verif.JsonStream

/-- The code points of characters. -/
def Scalar (c : Nat) : Prop := c < 0xD800 ∨ (0xE000 ≤ c ∧ c < 0x110000)

/-- A code point that may be written. -/
def Good (o : Options) (raw : Prop) (c : Nat) : Prop := Scalar c ∧ (o.ensureAscii = true → c < 0x80 ∨ raw)

theorem good_ascii {o : Options} {raw : Prop} {c : Nat} (h : c < 0x80) : Good o raw c :=
  ⟨Or.inl (by omega), fun _ => Or.inl h⟩

def AllGood (o : Options) (raw : Prop) (x : List Nat) : Prop := ∀ c ∈ x, Good o raw c

theorem allGood_append {o : Options} {raw : Prop} {x y : List Nat} :
    AllGood o raw (x ++ y) ↔ AllGood o raw x ∧ AllGood o raw y := by
  simp only [AllGood, List.mem_append]
  constructor
  · intro h; exact ⟨fun c hc => h c (.inl hc), fun c hc => h c (.inr hc)⟩
  · rintro ⟨h1, h2⟩ c (hc | hc)
    · exact h1 c hc
    · exact h2 c hc

theorem allGood_ascii {o : Options} {raw : Prop} {x : List Nat} (h : ∀ c ∈ x, c < 0x80) : AllGood o raw x :=
  fun c hc => good_ascii (h c hc)

theorem hexDigit_spec {v : Nat} (h : v < 16) : HexDigit (hexDigit v) v := by
  unfold HexDigit hexDigit
  split <;> omega

theorem hexDigit_lt {v : Nat} (h : v < 16) : hexDigit v < 0x80 := by
  unfold hexDigit
  split <;> omega

theorem hex4_digits {v : Nat} (h : v < 0x10000) :
    Hex4 [hexDigit (v / 4096), hexDigit (v / 256 % 16), hexDigit (v / 16 % 16), hexDigit (v % 16)] v := by
  refine ⟨_, _, _, _, v / 4096, v / 256 % 16, v / 16 % 16, v % 16, rfl, hexDigit_spec (by omega),
    hexDigit_spec (by omega), hexDigit_spec (by omega), hexDigit_spec (by omega), by omega⟩

theorem body_append {P : Prop} {a b : List Nat} (ha : LooseBody P a) (hb : LooseBody P b) :
    LooseBody P (a ++ b) := by
  induction ha with
  | nil => exact hb
  | plain h _ ih => exact .plain h ih
  | simple h _ ih => exact .simple h ih
  | unicode h _ ih =>
    simp only [List.cons_append, List.append_assoc]
    exact .unicode h ih
  | control h hc _ ih => exact .control h hc ih

theorem body_escape4 {P : Prop} {v : Nat} (h : v < 0x10000) : LooseBody P (escape4 v) := by
  have := LooseBody.unicode (control := P) (hex4_digits h) .nil
  simpa [escape4] using this

theorem escape4_ascii {v : Nat} (h : v < 0x10000) : ∀ c ∈ escape4 v, c < 0x80 := by
  have h1 := hexDigit_lt (v := v / 4096) (by omega)
  have h2 := hexDigit_lt (v := v / 256 % 16) (by omega)
  have h3 := hexDigit_lt (v := v / 16 % 16) (by omega)
  have h4 := hexDigit_lt (v := v % 16) (by omega)
  simp only [escape4, List.mem_cons, List.not_mem_nil, or_false]
  rintro c (rfl | rfl | rfl | rfl | rfl | rfl) <;> first | assumption | omega

theorem leadOf_lt {c : Nat} (h : c < 0x110000) : leadOf c < 0x10000 := by unfold leadOf; omega
theorem trailOf_lt {c : Nat} : trailOf c < 0x10000 := by unfold trailOf; omega

theorem body_asciiEscape {P : Prop} {c : Nat} (h : c < 0x110000) : LooseBody P (asciiEscape c) := by
  unfold asciiEscape
  split
  · exact body_escape4 (by assumption)
  · exact body_append (body_escape4 (leadOf_lt h)) (body_escape4 trailOf_lt)

theorem asciiEscape_ascii {c : Nat} (h : c < 0x110000) : ∀ d ∈ asciiEscape c, d < 0x80 := by
  unfold asciiEscape
  split
  · exact escape4_ascii (by assumption)
  · intro d hd
    rcases List.mem_append.mp hd with h' | h'
    · exact escape4_ascii (leadOf_lt h) d h'
    · exact escape4_ascii trailOf_lt d h'

/-- The text of a scalar is in the body of a string. -/
theorem body_scalarText {P : Prop} {a : Bool} {c : Nat} (h : c < 0x110000) : LooseBody P (scalarText a c) := by
  unfold scalarText
  split
  · exact .simple (r := 8) (by decide) .nil
  split
  · exact .simple (r := 12) (by decide) .nil
  split
  · exact .simple (r := 10) (by decide) .nil
  split
  · exact .simple (r := 13) (by decide) .nil
  split
  · exact .simple (r := 9) (by decide) .nil
  split
  · exact .simple (r := ch '\\') (by decide) .nil
  split
  · exact .simple (r := ch '"') (by decide) .nil
  split
  · exact body_escape4 (by omega)
  split
  · exact body_asciiEscape h
  · exact .plain ⟨by omega, by assumption, by assumption⟩ .nil

theorem good_scalarText {o : Options} {raw : Prop} {c : Nat} (h : Scalar c) :
    AllGood o raw (scalarText o.ensureAscii c) := by
  have hlt : c < 0x110000 := by rcases h with h | h <;> omega
  unfold scalarText
  repeat' split
  all_goals first
    | exact allGood_ascii (escape4_ascii (by omega))
    | exact allGood_ascii (asciiEscape_ascii hlt)
    | (apply allGood_ascii; simp; done)
    | skip
  intro d hd
  have e : d = c := by simpa using hd
  subst e
  refine ⟨h, fun ha => ?_⟩
  by_cases hc : d < 0x80
  · exact Or.inl hc
  · rename_i hn
    exact absurd ⟨by omega, ha⟩ hn

theorem scalar_replacement : Scalar replacement := by unfold Scalar replacement; omega

/-- The pending half of a pair is the first half of a pair. -/
def SurrOk (g : Option Nat) : Prop := ∀ l, g = some l → isLead l = true

theorem lead_range {l : Nat} (h : isLead l = true) : 0xD800 ≤ l ∧ l < 0xDC00 := by
  simpa [isLead] using h

theorem trail_range {l : Nat} (h : isTrail l = true) : 0xDC00 ≤ l ∧ l < 0xE000 := by
  simpa [isTrail] using h

theorem supplementary_range {a b : Nat} (ha : isLead a = true) (hb : isTrail b = true) :
    0x10000 ≤ supplementary a b ∧ supplementary a b < 0x110000 := by
  have := lead_range ha
  have := trail_range hb
  unfold supplementary
  omega

/-- One code point of a string. -/
theorem emitCodePoint_spec (o : Options) (raw P : Prop) (c : Nat) (s : Salvage) (hs : SurrOk s.surrogate) :
    ∃ g z, s.emitCodePoint o c = { s with surrogate := g, output := s.output ++ z } ∧ SurrOk g ∧
      LooseBody P z ∧ AllGood o raw z := by
  have hr : LooseBody P (scalarText o.ensureAscii replacement) :=
    body_scalarText (by unfold replacement; omega)
  have gr : AllGood o raw (scalarText o.ensureAscii replacement) := good_scalarText scalar_replacement
  have hn : SurrOk none := by simp [SurrOk]
  -- what follows when no half of a pair is pending
  have main : ∀ s : Salvage, s.surrogate = none → isTrail c = false →
      ∃ g z, s.emitNext o c = { s with surrogate := g, output := s.output ++ z } ∧
        SurrOk g ∧ LooseBody P z ∧ AllGood o raw z := by
    intro s hs ht
    unfold Salvage.emitNext
    by_cases hl : isLead c = true
    · rw [if_pos hl]
      exact ⟨some c, [], by simp, by simpa [SurrOk] using hl, .nil, by simp [AllGood]⟩
    rw [if_neg hl, if_neg (by simp [ht])]
    by_cases hc : 0x110000 ≤ c
    · rw [if_pos hc]
      exact ⟨none, _, by simp [Salvage.emitReplacement, Salvage.emit, ← hs], hn, hr, gr⟩
    rw [if_neg hc]
    refine ⟨none, scalarText o.ensureAscii c, by simp [Salvage.emit, ← hs], hn, body_scalarText (by omega),
      good_scalarText ?_⟩
    simp [isLead, isTrail] at hl ht
    unfold Scalar; omega
  unfold Salvage.emitCodePoint
  by_cases ht : isTrail c = true
  · rw [if_neg (by simp [ht])]
    unfold Salvage.emitNext
    simp only [ht]
    have hl : isLead c = false := by
      have := trail_range ht
      simp only [isLead, Bool.and_eq_false_iff, decide_eq_false_iff_not]
      omega
    simp only [hl]
    rcases e : s.surrogate with _ | l
    · exact ⟨none, _, by simp [Salvage.emitReplacement, Salvage.emit, e], hn, hr, gr⟩
    · have hb := supplementary_range (hs l e) ht
      rcases ha : o.ensureAscii with _ | _
      · refine ⟨none, [supplementary l c], by simp [Salvage.emit, e], hn,
          .plain ⟨by omega, by omega, by omega⟩ .nil, ?_⟩
        intro d hd
        have e : d = supplementary l c := by simpa using hd
        subst e
        exact ⟨Or.inr (by omega), by simp [ha]⟩
      · refine ⟨none, _, by simp [Salvage.emit, e], hn, body_asciiEscape (c := supplementary l c) (by omega), ?_⟩
        exact allGood_ascii (asciiEscape_ascii (by omega))
  · have ht : isTrail c = false := by simpa using ht
    by_cases he : s.surrogate.isSome = true
    · obtain ⟨g, z, h1, h2, h3, h4⟩ := main ({ s with surrogate := none }.emitReplacement o) rfl ht
      refine ⟨g, scalarText o.ensureAscii replacement ++ z, ?_, h2, body_append hr h3, allGood_append.mpr ⟨gr, h4⟩⟩
      rw [if_pos ⟨he, ht⟩, h1]
      simp [Salvage.emitReplacement, Salvage.emit]
    · obtain ⟨g, z, h1, h2, h3, h4⟩ := main s (by simpa using he) ht
      exact ⟨g, z, by rw [if_neg (by simp [he]), h1], h2, h3, h4⟩

theorem emitCodePoints_spec (o : Options) (raw P : Prop) (l : List Nat) (s : Salvage) (hs : SurrOk s.surrogate) :
    ∃ g z, s.emitCodePoints o l = { s with surrogate := g, output := s.output ++ z } ∧ SurrOk g ∧
      LooseBody P z ∧ AllGood o raw z := by
  induction l generalizing s with
  | nil => exact ⟨s.surrogate, [], by simp [Salvage.emitCodePoints], hs, .nil, by simp [AllGood]⟩
  | cons c l ih =>
    obtain ⟨g, z, h1, h2, h3, h4⟩ := emitCodePoint_spec o raw P c s hs
    obtain ⟨g', z', h1', h2', h3', h4'⟩ := ih (s.emitCodePoint o c) (by rw [h1]; exact h2)
    refine ⟨g', z ++ z', ?_, h2', body_append h3 h3', allGood_append.mpr ⟨h4, h4'⟩⟩
    rw [Salvage.emitCodePoints, h1', h1]
    simp

/-- The end of a string. -/
theorem endString_spec (o : Options) (raw P : Prop) (s : Salvage) :
    ∃ z, s.endString o = { s with
        surrogate := none, output := s.output ++ (z ++ [ch '"']), state := .base, buffer := [], sep := true,
        key := nextKey s.stack s.key } ∧
      LooseBody P z ∧ AllGood o raw z := by
  unfold Salvage.endString
  by_cases he : s.surrogate.isSome = true
  · refine ⟨scalarText o.ensureAscii replacement, ?_, body_scalarText (by unfold replacement; omega),
      good_scalarText scalar_replacement⟩
    simp [he, Salvage.emitReplacement, Salvage.emit, Salvage.endValue, Salvage.set, nextKey]
    all_goals rfl
  · have he : s.surrogate = none := by simpa using he
    refine ⟨[], ?_, .nil, by simp [AllGood]⟩
    simp [he, Salvage.emit, Salvage.endValue, Salvage.set, nextKey]
    all_goals rfl

theorem startValue_eq (s : Salvage) :
    s.startValue = { s with sep := false, output := s.output ++ sepText s.stack s.sep s.key } := by
  unfold Salvage.startValue sepText
  rcases h : s.sep with _ | _ <;> simp [Salvage.emit]

theorem endValue_eq (s : Salvage) :
    s.endValue = { s with state := .base, buffer := [], sep := true, key := nextKey s.stack s.key } := by
  rfl

theorem startString_eq (s : Salvage) :
    s.startString = { s with sep := false, output := s.output ++ (sepText s.stack s.sep s.key ++ [ch '"']) } := by
  simp [Salvage.startString, startValue_eq, Salvage.emit]

theorem sepText_ascii (st : List Container) (sep key : Bool) : ∀ c ∈ sepText st sep key, c < 0x80 := by
  intro c hc
  unfold sepText at hc
  split at hc
  · have e : c = separator st key := by simpa using hc
    subst e
    unfold separator
    repeat' split
    all_goals decide
  · simp at hc

end Verif.JsonSalvage
