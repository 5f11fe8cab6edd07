/-
The processor that removes whitespace.
-/
import Verif.JsonStream.Lemmas

namespace Verif.JsonStream

/-- The state outside of strings. -/
def cst (d : Int) (v : Bool) : Compact := { depth := d, inValue := v, inString := false, inEscape := false }

/-- The state in a string. -/
def cstr (d : Int) (v : Bool) : Compact := { depth := d, inValue := v, inString := true, inEscape := false }

theorem compact_body {b : Bytes} (h : IsBody b) (d : Int) (v : Bool) :
    feed compactStep (cstr d v) b = (cstr d v, b) := by
  have pl : ∀ c, Plain c → compactStep (cstr d v) c = (cstr d v, [c]) := by
    intro c hc
    simp [compactStep, cstr, hc.2.1, hc.2.2]
  have es : ∀ c, feed compactStep (cstr d v) [ch '\\', c] = (cstr d v, [ch '\\', c]) := by
    intro c
    simp [feed, compactStep, cstr]
  induction h with
  | nil => rfl
  | plain hc _ ih => exact feed_cons (pl _ hc) ih
  | simple _ _ ih => exact feed_seq (es _) ih
  | unicode hh _ ih =>
    obtain ⟨a, b, c, e, _, _, _, _, rfl, ha, hb, hc, he, _⟩ := hh
    exact feed_seq (es _) (feed_cons (pl _ (hexDigit_plain ha)) (feed_cons (pl _ (hexDigit_plain hb))
      (feed_cons (pl _ (hexDigit_plain hc)) (feed_cons (pl _ (hexDigit_plain he)) ih))))

theorem compact_quoted {b : Bytes} (h : IsBody b) (d : Int) (hd : d ≠ 0) :
    feed compactStep (cst d true) (quoted b) = (cst d true, quoted b) := by
  have h1 : compactStep (cst d true) (ch '"') = (cstr d true, [ch '"']) := by
    simp [compactStep, cst, cstr, isSpace]
  have h2 : compactStep (cstr d true) (ch '"') = (cst d true, [ch '"']) := by
    simp [compactStep, cst, cstr, Compact.newline, hd]
  exact feed_cons h1 (feed_seq (compact_body h d true) (feed_one h2))

theorem compact_quoted_top {b : Bytes} (h : IsBody b) (v : Bool) :
    feed compactStep (cst 0 v) (quoted b) = (cst 0 false, quoted b ++ [nl]) := by
  have h1 : compactStep (cst 0 v) (ch '"') = (cstr 0 true, [ch '"']) := by
    simp [compactStep, cst, cstr, isSpace]
  have h2 : compactStep (cstr 0 true) (ch '"') = (cst 0 false, [ch '"', nl]) := by
    simp [compactStep, cst, cstr, Compact.newline]
  have := feed_cons h1 (feed_seq (compact_body h 0 true) (feed_one h2))
  simpa [quoted] using this

theorem compact_other {c : Nat} (h : Other c) (d : Int) (v : Bool) :
    compactStep (cst d v) c = (cst d true, [c]) := by
  have hs := h.isSpace
  unfold Other at h
  simp only [compactStep, cst]
  simp [hs, h]

theorem compact_others {t : Bytes} (h : ∀ c ∈ t, Other c) (d : Int) :
    feed compactStep (cst d true) t = (cst d true, t) := by
  induction t with
  | nil => rfl
  | cons c t ih =>
    exact feed_cons (compact_other (h c List.mem_cons_self) d true)
      (ih fun x hx => h x (List.mem_cons_of_mem _ hx))

theorem compact_scalar {t : Bytes} (h : Scalar t) (d : Int) (v : Bool) :
    feed compactStep (cst d v) t = (cst d true, t) := by
  cases t with
  | nil => exact absurd rfl h.1
  | cons c t =>
    exact feed_cons (compact_other (h.2 c List.mem_cons_self) d v)
      (compact_others (fun x hx => h.2 x (List.mem_cons_of_mem _ hx)) d)

theorem compact_space {c : Nat} (h : Space c) (d : Int) (v : Bool) (hd : d ≠ 0 ∨ v = false) :
    compactStep (cst d v) c = (cst d v, []) := by
  have hn : ¬ (d = 0 ∧ v = true) := by
    rcases hd with h | rfl
    · exact fun e => h e.1
    · simp
  simp [compactStep, cst, h.isSpace, Compact.newline, hn]

theorem compact_spaces {w : Bytes} (h : Spaces w) (d : Int) (v : Bool) (hd : d ≠ 0 ∨ v = false) :
    feed compactStep (cst d v) w = (cst d v, []) := by
  induction w with
  | nil => rfl
  | cons c w ih =>
    exact feed_cons (compact_space (h c List.mem_cons_self) d v hd)
      (ih fun x hx => h x (List.mem_cons_of_mem _ hx))

theorem compact_sep {d : Int} (c : Nat) (hc : c = ch ',' ∨ c = ch ':') :
    compactStep (cst d true) c = (cst d true, [c]) := by
  rcases hc with rfl | rfl <;> simp [compactStep, cst, isSpace]

theorem compact_open {d : Int} (c : Nat) (hc : c = ch '[' ∨ c = ch '{') (v : Bool) (hd : d ≠ 0 ∨ v = false) :
    compactStep (cst d v) c = (cst (d + 1) true, [c]) := by
  have hn : ¬ (d = 0 ∧ v = true) := by
    rcases hd with h | rfl
    · exact fun e => h e.1
    · simp
  rcases hc with rfl | rfl <;> simp [compactStep, cst, isSpace, Compact.newline, hn]

theorem compact_close {d : Int} (c : Nat) (hc : c = ch ']' ∨ c = ch '}') (hd : d ≠ 1) :
    compactStep (cst d true) c = (cst (d - 1) true, [c]) := by
  have : ¬ d - 1 = 0 := by omega
  rcases hc with rfl | rfl <;> simp [compactStep, cst, isSpace, Compact.newline, this]

theorem compact_close_top (c : Nat) (hc : c = ch ']' ∨ c = ch '}') :
    compactStep (cst 1 true) c = (cst 0 false, [c, nl]) := by
  rcases hc with rfl | rfl <;> simp [compactStep, cst, isSpace, Compact.newline]

theorem compact_node {n : Node} {t : Bytes} (h : Text Spaces n t) :
    ∀ d : Int, 1 ≤ d → feed compactStep (cst d true) t = (cst d true, compactNode n) := by
  induction h with
  | null => exact fun d _ => compact_scalar scalar_null d _
  | bool b => exact fun d _ => compact_scalar (scalar_bool b) d _
  | num h => exact fun d _ => compact_scalar h.scalar d _
  | str h => exact fun d hd => compact_quoted h d (by omega)
  | arrNil hw =>
    intro d hd
    have := feed_cons (compact_open (ch '[') (.inl rfl) true (.inl (by omega : d ≠ 0)))
      (feed_seq (compact_spaces hw (d + 1) true (.inl (by omega)))
        (feed_one (compact_close (ch ']') (.inl rfl) (by omega : d + 1 ≠ 1))))
    rw [Int.add_sub_cancel] at this
    exact this
  | arr _ ih =>
    intro d hd
    have := feed_cons (compact_open (ch '[') (.inl rfl) true (.inl (by omega : d ≠ 0)))
      (feed_seq (ih (d + 1) (by omega))
        (feed_one (compact_close (ch ']') (.inl rfl) (by omega : d + 1 ≠ 1))))
    rw [Int.add_sub_cancel] at this
    exact this
  | objNil hw =>
    intro d hd
    have := feed_cons (compact_open (ch '{') (.inr rfl) true (.inl (by omega : d ≠ 0)))
      (feed_seq (compact_spaces hw (d + 1) true (.inl (by omega)))
        (feed_one (compact_close (ch '}') (.inr rfl) (by omega : d + 1 ≠ 1))))
    rw [Int.add_sub_cancel] at this
    exact this
  | obj _ ih =>
    intro d hd
    have := feed_cons (compact_open (ch '{') (.inr rfl) true (.inl (by omega : d ≠ 0)))
      (feed_seq (ih (d + 1) (by omega))
        (feed_one (compact_close (ch '}') (.inr rfl) (by omega : d + 1 ≠ 1))))
    rw [Int.add_sub_cancel] at this
    exact this
  | elem hw _ hw' ih =>
    intro d hd
    have sp := fun {w} (h : Spaces w) => compact_spaces h d true (.inl (by omega))
    have := feed_seq (sp hw) (feed_seq (ih d hd) (sp hw'))
    simpa [compactNode, compactElems] using this
  | elems hw _ hw' hr ih ih' =>
    intro d hd
    have sp := fun {w} (h : Spaces w) => compact_spaces h d true (.inl (by omega))
    have := feed_seq (sp hw) (feed_seq (ih d hd) (feed_seq (sp hw')
      (feed_cons (compact_sep (ch ',') (.inl rfl)) (ih' d hd))))
    simpa [compactNode, compactElems_cons _ (elems_ne_nil hr _ rfl)] using this
  | member hw hk hw1 hw2 _ hw' ih =>
    intro d hd
    have sp := fun {w} (h : Spaces w) => compact_spaces h d true (.inl (by omega))
    have := feed_seq (sp hw) (feed_seq (compact_quoted hk d (by omega)) (feed_seq (sp hw1)
      (feed_cons (compact_sep (ch ':') (.inr rfl)) (feed_seq (sp hw2) (feed_seq (ih d hd) (sp hw'))))))
    simpa [compactNode, compactMembers] using this
  | members hw hk hw1 hw2 _ hw' hr ih ih' =>
    intro d hd
    have sp := fun {w} (h : Spaces w) => compact_spaces h d true (.inl (by omega))
    have := feed_seq (sp hw) (feed_seq (compact_quoted hk d (by omega)) (feed_seq (sp hw1)
      (feed_cons (compact_sep (ch ':') (.inr rfl)) (feed_seq (sp hw2) (feed_seq (ih d hd)
        (feed_seq (sp hw') (feed_cons (compact_sep (ch ',') (.inl rfl)) (ih' d hd))))))))
    simpa [compactNode, compactMembers_cons _ _ (members_ne_nil hr _ rfl)] using this

/-- A value at the top level: the newline is written at its end or is still due. -/
theorem compact_top {v : Json} {t : Bytes} (h : Text Spaces (.value v) t) :
    feed compactStep (cst 0 false) t = (cst 0 false, compact v ++ [nl]) ∨
    feed compactStep (cst 0 false) t = (cst 0 true, compact v) := by
  cases h with
  | null => exact .inr (compact_scalar scalar_null _ _)
  | bool b => exact .inr (compact_scalar (scalar_bool b) _ _)
  | num h => exact .inr (compact_scalar h.scalar _ _)
  | str h => exact .inl (compact_quoted_top h _)
  | arrNil hw =>
    have := feed_cons (compact_open (d := 0) (ch '[') (.inl rfl) false (.inr rfl))
      (feed_seq (compact_spaces hw 1 true (.inl (by omega)))
        (feed_one (compact_close_top (ch ']') (.inl rfl))))
    exact .inl this
  | arr h =>
    have := feed_cons (compact_open (d := 0) (ch '[') (.inl rfl) false (.inr rfl))
      (feed_seq (compact_node h 1 (by omega))
        (feed_one (compact_close_top (ch ']') (.inl rfl))))
    exact .inl (by simpa [compact, compactNode] using this)
  | objNil hw =>
    have := feed_cons (compact_open (d := 0) (ch '{') (.inr rfl) false (.inr rfl))
      (feed_seq (compact_spaces hw 1 true (.inl (by omega)))
        (feed_one (compact_close_top (ch '}') (.inr rfl))))
    exact .inl this
  | obj h =>
    have := feed_cons (compact_open (d := 0) (ch '{') (.inr rfl) false (.inr rfl))
      (feed_seq (compact_node h 1 (by omega))
        (feed_one (compact_close_top (ch '}') (.inr rfl))))
    exact .inl (by simpa [compact, compactNode] using this)

/-- All that the processor writes from a state on. -/
def compactRest (s : Compact) (x : Bytes) : Bytes :=
  (feed compactStep s x).2 ++ compactFinish (feed compactStep s x).1

theorem compact_top_closed {v : Json} {t : Bytes} (h : Text Spaces (.value v) t) (hv : EndsItself v) :
    feed compactStep (cst 0 false) t = (cst 0 false, compact v ++ [nl]) := by
  rcases compact_top h with h' | h'
  · exact h'
  · cases h with
    | null => exact hv.elim
    | bool b => exact hv.elim
    | num h => exact hv.elim
    | str h => exact compact_quoted_top h _
    | arrNil hw =>
      have := feed_cons (compact_open (d := 0) (ch '[') (.inl rfl) false (.inr rfl))
        (feed_seq (compact_spaces hw 1 true (.inl (by omega)))
          (feed_one (compact_close_top (ch ']') (.inl rfl))))
      exact this
    | arr h =>
      have := feed_cons (compact_open (d := 0) (ch '[') (.inl rfl) false (.inr rfl))
        (feed_seq (compact_node h 1 (by omega))
          (feed_one (compact_close_top (ch ']') (.inl rfl))))
      simpa [compact, compactNode] using this
    | objNil hw =>
      have := feed_cons (compact_open (d := 0) (ch '{') (.inr rfl) false (.inr rfl))
        (feed_seq (compact_spaces hw 1 true (.inl (by omega)))
          (feed_one (compact_close_top (ch '}') (.inr rfl))))
      exact this
    | obj h =>
      have := feed_cons (compact_open (d := 0) (ch '{') (.inr rfl) false (.inr rfl))
        (feed_seq (compact_node h 1 (by omega))
          (feed_one (compact_close_top (ch '}') (.inr rfl))))
      simpa [compact, compactNode] using this

theorem compactify_row {l : List Json} {t : Bytes} (h : Row l t) :
    compactRest compactInit t = lines l := by
  change compactRest (cst 0 false) t = lines l
  have fin0 : compactFinish (cst 0 false) = [] := rfl
  have fin1 : compactFinish (cst 0 true) = [nl] := rfl
  have e : ∀ v l, lines (v :: l) = compact v ++ ([nl] ++ lines l) := by simp [lines]
  induction h with
  | nil hw => simp [compactRest, compact_spaces hw 0 false (.inr rfl), fin0, lines]
  | last hw hv =>
    unfold compactRest
    rcases compact_top hv with h | h
    · rw [feed_seq (compact_spaces hw 0 false (.inr rfl)) h, fin0]
      simp [lines]
    · rw [feed_seq (compact_spaces hw 0 false (.inr rfl)) h, fin1]
      simp [lines]
  | @cons w v t c l r hw hv hc hr ih =>
    have hstep : compactStep (cst 0 true) c = (cst 0 false, [nl]) := by
      simp [compactStep, cst, hc.isSpace, Compact.newline]
    rcases hf : feed compactStep (cst 0 false) r with ⟨s', o⟩
    have ih' : o ++ compactFinish s' = lines l := by
      rw [← ih, compactRest, hf]
    unfold compactRest
    rcases compact_top hv with h | h
    · rw [feed_seq (compact_spaces hw 0 false (.inr rfl))
        (feed_seq h (feed_cons (compact_space hc 0 false (.inr rfl)) hf)), e, ← ih']
      simp
    · rw [feed_seq (compact_spaces hw 0 false (.inr rfl)) (feed_seq h (feed_cons hstep hf)), e, ← ih']
      simp
  | @closed w v t l r hw hv hc hr ih =>
    rcases hf : feed compactStep (cst 0 false) r with ⟨s', o⟩
    have ih' : o ++ compactFinish s' = lines l := by
      rw [← ih, compactRest, hf]
    unfold compactRest
    rw [feed_seq (compact_spaces hw 0 false (.inr rfl)) (feed_seq (compact_top_closed hv hc) hf), e, ← ih']
    simp
  | @bracket w v t c l r hw hv hc hr ih =>
    have hs0 : compactStep (cst 0 false) c = (cst 1 true, [c]) := by
      rcases hc with rfl | rfl <;> rfl
    have hs1 : compactStep (cst 0 true) c = (cst 1 true, [nl, c]) := by
      rcases hc with rfl | rfl <;> rfl
    rcases hf : feed compactStep (cst 1 true) r with ⟨s', o⟩
    have ih' : c :: o ++ compactFinish s' = lines l := by
      rw [← ih, compactRest, feed_cons hs0 hf]
      rfl
    unfold compactRest
    rcases compact_top hv with h | h
    · rw [feed_seq (compact_spaces hw 0 false (.inr rfl)) (feed_seq h (feed_cons hs0 hf)), e, ← ih']
      simp
    · rw [feed_seq (compact_spaces hw 0 false (.inr rfl)) (feed_seq h (feed_cons hs1 hf)), e, ← ih']
      simp

theorem Doc.row {l : List Json} {t : Bytes} (h : Doc l t) : Row l t := by
  induction h with
  | nil hw => exact .nil hw
  | last hw hv => exact .last hw hv
  | cons hw hv hc _ ih => exact .cons hw hv hc ih

theorem compactify_doc {l : List Json} {t : Bytes} (h : Doc l t) : compactRest compactInit t = lines l :=
  compactify_row h.row

theorem compact_follows : Follows compactProcessor compactRest := loop_follows _ _ _

end Verif.JsonStream
