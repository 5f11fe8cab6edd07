/-
Characters of JSON texts.
-/
import Verif.JsonStream.Chunks

namespace Verif.JsonStream

theorem isSpace_iff (c : Nat) : isSpace c = true ↔ Space c := by
  unfold isSpace Space
  simp only [Bool.or_eq_true, beq_iff_eq, Bool.and_eq_true, decide_eq_true_eq]
  omega

theorem Space.isSpace {c : Nat} (h : Space c) : isSpace c = true := (isSpace_iff c).2 h

/-- Characters of numbers, `null`, `true` and `false`. -/
def Other (c : Nat) : Prop :=
  33 ≤ c ∧ c ≠ ch '"' ∧ c ≠ ch '[' ∧ c ≠ ch ']' ∧ c ≠ ch '{' ∧ c ≠ ch '}' ∧ c ≠ ch ',' ∧ c ≠ ch ':' ∧
    c ≠ ch '\\'

theorem Other.isSpace {c : Nat} (h : Other c) : isSpace c = false := by
  cases e : Verif.JsonStream.isSpace c
  · rfl
  · have := (isSpace_iff c).1 e
    unfold Space at this
    have := h.1
    omega

def Scalar (t : Bytes) : Prop := t ≠ [] ∧ ∀ c ∈ t, Other c

theorem scalar_null : Scalar nullText := by
  refine ⟨by simp [nullText], ?_⟩
  simp [nullText, Other]

theorem scalar_bool (b : Bool) : Scalar (boolText b) := by
  cases b <;> exact ⟨by simp [boolText], by simp [boolText, Other]⟩

theorem other_digit {c : Nat} (h : 48 ≤ c ∧ c ≤ 57) : Other c := by
  unfold Other
  omega

theorem IsNumber.scalar {t : Bytes} (h : IsNumber t) : Scalar t := by
  obtain ⟨sign, int, frac, exp, rfl, hs, hi, hf, he⟩ := h
  have hint : int ≠ [] ∧ ∀ c ∈ int, Other c := by
    rcases hi with rfl | ⟨⟨h1, h2⟩, _⟩
    · exact ⟨by simp, by simp [Other]⟩
    · exact ⟨h1, fun c hc => other_digit (h2 c hc)⟩
  have hsign : ∀ c ∈ sign, Other c := by
    rcases hs with rfl | rfl <;> simp [Other]
  have hfrac : ∀ c ∈ frac, Other c := by
    rcases hf with rfl | ⟨ds, ⟨_, h2⟩, rfl⟩
    · simp
    · intro c hc
      rcases List.mem_cons.1 hc with rfl | hc
      · simp [Other]
      · exact other_digit (h2 c hc)
  have hexp : ∀ c ∈ exp, Other c := by
    rcases he with rfl | ⟨e, s, ds, h1, h2, ⟨_, h3⟩, rfl⟩
    · simp
    · intro c hc
      rcases List.mem_append.1 hc with hc | hc
      · rcases List.mem_cons.1 hc with rfl | hc
        · rcases h1 with rfl | rfl <;> simp [Other]
        · rcases h2 with rfl | rfl | rfl
          · simp at hc
          · simp only [List.mem_singleton] at hc
            subst hc
            simp [Other]
          · simp only [List.mem_singleton] at hc
            subst hc
            simp [Other]
      · exact other_digit (h3 c hc)
  refine ⟨by simp [hint.1], ?_⟩
  intro c hc
  simp only [List.mem_append] at hc
  rcases hc with ((hc | hc) | hc) | hc
  · exact hsign c hc
  · exact hint.2 c hc
  · exact hfrac c hc
  · exact hexp c hc

theorem elems_ne_nil {W : Bytes → Prop} {n : Node} {t : Bytes} (h : Text W n t) :
    ∀ l, n = .elems l → l ≠ [] := by
  intro l e
  cases h <;> simp_all
  all_goals (subst e; simp)

theorem members_ne_nil {W : Bytes → Prop} {n : Node} {t : Bytes} (h : Text W n t) :
    ∀ l, n = .members l → l ≠ [] := by
  intro l e
  cases h <;> simp_all
  all_goals (subst e; simp)

def compactNode : Node → Bytes
  | .value v => compact v
  | .elems l => compactElems l
  | .members l => compactMembers l

theorem compactElems_cons (v : Json) {l : List Json} (h : l ≠ []) :
    compactElems (v :: l) = compact v ++ ch ',' :: compactElems l := by
  cases l with
  | nil => exact absurd rfl h
  | cons => rfl

theorem compactMembers_cons (k : Bytes) (v : Json) {l : List (Bytes × Json)} (h : l ≠ []) :
    compactMembers ((k, v) :: l) = quoted k ++ ch ':' :: (compact v ++ ch ',' :: compactMembers l) := by
  cases l with
  | nil => exact absurd rfl h
  | cons => rfl

/-- A text without whitespace is the compact text. -/
theorem compact_of_empty {n : Node} {t : Bytes} (h : Text Empty n t) : t = compactNode n := by
  induction h with
  | null => rfl
  | bool => rfl
  | num => rfl
  | str => rfl
  | arrNil hw => cases hw; rfl
  | arr _ ih => subst ih; rfl
  | objNil hw => cases hw; rfl
  | obj _ ih => subst ih; rfl
  | elem hw _ hw' ih => cases hw; cases hw'; subst ih; simp [compactNode, compactElems]
  | elems hw _ hw' hr ih ih' =>
    cases hw; cases hw'; subst ih; subst ih'
    simp [compactNode, compactElems_cons _ (elems_ne_nil hr _ rfl)]
  | member hw _ hw1 hw2 _ hw' ih =>
    cases hw; cases hw1; cases hw2; cases hw'; subst ih; simp [compactNode, compactMembers]
  | members hw _ hw1 hw2 _ hw' hr ih ih' =>
    cases hw; cases hw1; cases hw2; cases hw'; subst ih; subst ih'
    simp [compactNode, compactMembers_cons _ _ (members_ne_nil hr _ rfl)]

/-- What has a text has a compact text. -/
theorem text_compact {W : Bytes → Prop} {n : Node} {t : Bytes} (h : Text W n t) :
    Text Empty n (compactNode n) := by
  have e0 : Empty [] := rfl
  induction h with
  | null => exact .null
  | bool => exact .bool _
  | num h => exact .num h
  | str h => exact .str h
  | arrNil hw => exact .arrNil (w := []) e0
  | arr _ ih => exact .arr ih
  | objNil hw => exact .objNil (w := []) e0
  | obj _ ih => exact .obj ih
  | elem hw _ hw' ih =>
    have := Text.elem (w := []) (w' := []) e0 ih e0
    simpa [compactNode, compactElems] using this
  | elems hw _ hw' hr ih ih' =>
    have := Text.elems (w := []) (w' := []) e0 ih e0 ih'
    simpa [compactNode, compactElems_cons _ (elems_ne_nil hr _ rfl)] using this
  | member hw hk hw1 hw2 _ hw' ih =>
    have := Text.member (w := []) (w' := []) (w1 := []) (w2 := []) e0 hk e0 e0 ih e0
    simpa [compactNode, compactMembers] using this
  | members hw hk hw1 hw2 _ hw' hr ih ih' =>
    have := Text.members (w := []) (w' := []) (w1 := []) (w2 := []) e0 hk e0 e0 ih e0 ih'
    simpa [compactNode, compactMembers_cons _ _ (members_ne_nil hr _ rfl)] using this

theorem spaces_empty {w : Bytes} (h : Empty w) : Spaces w := by
  cases h
  simp [Spaces]

/-- Texts without whitespace have whitespace of any kind. -/
theorem text_spaces {n : Node} {t : Bytes} (h : Text Empty n t) : Text Spaces n t := by
  induction h with
  | null => exact .null
  | bool => exact .bool _
  | num h => exact .num h
  | str h => exact .str h
  | arrNil hw => exact .arrNil (spaces_empty hw)
  | arr _ ih => exact .arr ih
  | objNil hw => exact .objNil (spaces_empty hw)
  | obj _ ih => exact .obj ih
  | elem hw _ hw' ih => exact .elem (spaces_empty hw) ih (spaces_empty hw')
  | elems hw _ hw' hr ih ih' => exact .elems (spaces_empty hw) ih (spaces_empty hw') ih'
  | member hw hk hw1 hw2 _ hw' ih =>
    exact .member (spaces_empty hw) hk (spaces_empty hw1) (spaces_empty hw2) ih (spaces_empty hw')
  | members hw hk hw1 hw2 _ hw' hr ih ih' =>
    exact .members (spaces_empty hw) hk (spaces_empty hw1) (spaces_empty hw2) ih (spaces_empty hw') ih'

/-- Values that have a text. -/
def Valid (v : Json) : Prop := Text Empty (.value v) (compact v)

theorem valid_of_text {W : Bytes → Prop} {v : Json} {t : Bytes} (h : Text W (.value v) t) : Valid v :=
  text_compact h

theorem Doc.valid {l : List Json} {t : Bytes} (h : Doc l t) : ∀ v ∈ l, Valid v := by
  induction h with
  | nil => simp
  | last _ h => simpa using valid_of_text h
  | cons _ h _ _ ih =>
    intro v hv
    rcases List.mem_cons.1 hv with rfl | hv
    · exact valid_of_text h
    · exact ih v hv

theorem Row.valid {l : List Json} {t : Bytes} (h : Row l t) : ∀ v ∈ l, Valid v := by
  induction h with
  | nil => simp
  | last _ h => simpa using valid_of_text h
  | cons _ h _ _ ih =>
    intro v hv
    rcases List.mem_cons.1 hv with rfl | hv
    · exact valid_of_text h
    · exact ih v hv
  | closed _ h _ _ ih =>
    intro v hv
    rcases List.mem_cons.1 hv with rfl | hv
    · exact valid_of_text h
    · exact ih v hv
  | bracket _ h _ _ ih =>
    intro v hv
    rcases List.mem_cons.1 hv with rfl | hv
    · exact valid_of_text h
    · exact ih v hv

theorem hexDigit_plain {d v : Nat} (h : HexDigit d v) : Plain d := by
  unfold HexDigit at h
  unfold Plain
  omega

theorem simple_ne {c r : Nat} (h : (c, r) ∈ simpleEscapes) : 0x20 ≤ c := by
  simp [simpleEscapes] at h
  omega

/-! Bodies have no control characters. -/

theorem IsBody.ge {b : Bytes} (h : IsBody b) : ∀ c ∈ b, 0x20 ≤ c := by
  induction h with
  | nil => simp
  | plain hc _ ih => simpa using ⟨hc.1, by simpa using ih⟩
  | simple hc _ ih =>
    intro c hc'
    rcases List.mem_cons.1 hc' with rfl | hc'
    · simp
    · rcases List.mem_cons.1 hc' with rfl | hc'
      · exact simple_ne hc
      · exact ih c hc'
  | unicode hh _ ih =>
    obtain ⟨a, b, c, d, va, vb, vc, vd, rfl, ha, hb, hc, hd, _⟩ := hh
    intro x hx
    simp only [List.mem_cons, List.cons_append, List.nil_append] at hx
    rcases hx with rfl | rfl | rfl | rfl | rfl | rfl | hx
    · simp
    · simp
    · exact (hexDigit_plain ha).1
    · exact (hexDigit_plain hb).1
    · exact (hexDigit_plain hc).1
    · exact (hexDigit_plain hd).1
    · exact ih x hx

/-- A text without whitespace has no control characters. -/
theorem text_ge {n : Node} {t : Bytes} (h : Text Empty n t) : ∀ c ∈ t, 0x20 ≤ c := by
  have sc : ∀ {t : Bytes}, Scalar t → ∀ c ∈ t, 0x20 ≤ c := fun h c hc => by
    have := (h.2 c hc).1
    omega
  have qc : ∀ {b : Bytes}, IsBody b → ∀ c ∈ quoted b, 0x20 ≤ c := by
    intro b hb c hc
    simp only [quoted, List.mem_cons, List.mem_append, List.mem_singleton] at hc
    rcases hc with rfl | hc | rfl | hc
    · simp
    · exact hb.ge c hc
    · simp
    · simp at hc
  induction h with
  | null => exact sc scalar_null
  | bool b => exact sc (scalar_bool b)
  | num h => exact sc h.scalar
  | str h => exact qc h
  | arrNil hw => cases hw; simp
  | arr _ ih =>
    intro c hc
    simp only [List.mem_cons, List.mem_append, List.mem_singleton, List.not_mem_nil, or_false] at hc
    rcases hc with rfl | hc | rfl
    · simp
    · exact ih c hc
    · simp
  | objNil hw => cases hw; simp
  | obj _ ih =>
    intro c hc
    simp only [List.mem_cons, List.mem_append, List.not_mem_nil, or_false] at hc
    rcases hc with rfl | hc | rfl
    · simp
    · exact ih c hc
    · simp
  | elem hw _ hw' ih => cases hw; cases hw'; simpa using ih
  | elems hw _ hw' hr ih ih' =>
    cases hw; cases hw'
    intro c hc
    simp only [List.mem_cons, List.mem_append, List.nil_append] at hc
    rcases hc with hc | rfl | hc
    · exact ih c hc
    · simp
    · exact ih' c hc
  | member hw hk hw1 hw2 _ hw' ih =>
    cases hw; cases hw'; cases hw1; cases hw2
    intro c hc
    simp only [List.mem_cons, List.mem_append, List.nil_append, List.append_nil] at hc
    rcases hc with hc | rfl | hc
    · exact qc hk c hc
    · simp
    · exact ih c hc
  | members hw hk hw1 hw2 _ hw' hr ih ih' =>
    cases hw; cases hw'; cases hw1; cases hw2
    intro c hc
    simp only [List.mem_cons, List.mem_append, List.nil_append] at hc
    rcases hc with hc | rfl | hc | rfl | hc
    · exact qc hk c hc
    · simp
    · exact ih c hc
    · simp
    · exact ih' c hc

theorem Valid.nl {v : Json} (h : Valid v) : nl ∉ compact v := fun hc => by
  exact absurd (text_ge h _ hc) (by decide)

/-- The first character of a value. -/
theorem text_head {W : Bytes → Prop} {v : Json} {t : Bytes} (h : Text W (.value v) t) :
    ∃ c t', t = c :: t' ∧ 33 ≤ c ∧ c ≠ ch ']' ∧ c ≠ ch '}' ∧ c ≠ ch ',' ∧ c ≠ ch ':' := by
  have sc : ∀ {t : Bytes}, Scalar t →
      ∃ c t', t = c :: t' ∧ 33 ≤ c ∧ c ≠ ch ']' ∧ c ≠ ch '}' ∧ c ≠ ch ',' ∧ c ≠ ch ':' := by
    intro t h
    cases t with
    | nil => exact absurd rfl h.1
    | cons c t =>
      have := h.2 c List.mem_cons_self
      exact ⟨c, t, rfl, this.1, this.2.2.2.1, this.2.2.2.2.2.1, this.2.2.2.2.2.2.1,
        this.2.2.2.2.2.2.2.1⟩
  cases h with
  | null => exact sc scalar_null
  | bool b => exact sc (scalar_bool b)
  | num h => exact sc h.scalar
  | str h => exact ⟨_, _, rfl, by simp, by simp, by simp, by simp, by simp⟩
  | arrNil hw => exact ⟨_, _, rfl, by simp, by simp, by simp, by simp, by simp⟩
  | arr _ => exact ⟨_, _, rfl, by simp, by simp, by simp, by simp, by simp⟩
  | objNil hw => exact ⟨_, _, rfl, by simp, by simp, by simp, by simp, by simp⟩
  | obj _ => exact ⟨_, _, rfl, by simp, by simp, by simp, by simp, by simp⟩

end Verif.JsonStream
