/-
The processor that adds whitespace.
-/
import Verif.JsonStream.Compactify

namespace Verif.JsonStream

variable (indent : Bytes)

def pst (d : Nat) (hc nn : Bool) : Pretty :=
  { depth := d, hasContents := hc, inString := false, inEscape := false, needsNewline := nn }

def pstr (d : Nat) (hc nn : Bool) : Pretty :=
  { depth := d, hasContents := hc, inString := true, inEscape := false, needsNewline := nn }

/-- The newline that is due. -/
def due (d : Nat) (nn : Bool) : Bytes := if nn then newLine indent d else []

theorem pretty_newline (d : Nat) (hc nn : Bool) :
    (pst d hc nn).newline indent = (pst d hc false, due indent d nn) := by
  cases nn <;> simp [Pretty.newline, pst, due, newLine, indentation]

theorem pretty_body {b : Bytes} (h : IsBody b) (d : Nat) (hc nn : Bool) :
    feed (prettyStep indent) (pstr d hc nn) b = (pstr d hc nn, b) := by
  have pl : ∀ c, Plain c → prettyStep indent (pstr d hc nn) c = (pstr d hc nn, [c]) := by
    intro c hc
    simp [prettyStep, pstr, hc.2.1, hc.2.2]
  have es : ∀ c, feed (prettyStep indent) (pstr d hc nn) [ch '\\', c] = (pstr d hc nn, [ch '\\', c]) := by
    intro c
    simp [feed, prettyStep, pstr]
  induction h with
  | nil => rfl
  | plain hc _ ih => exact feed_cons (pl _ hc) ih
  | simple _ _ ih => exact feed_seq (es _) ih
  | unicode hh _ ih =>
    obtain ⟨a, b, c, e, _, _, _, _, rfl, ha, hb, hc, he, _⟩ := hh
    exact feed_seq (es _) (feed_cons (pl _ (hexDigit_plain ha)) (feed_cons (pl _ (hexDigit_plain hb))
      (feed_cons (pl _ (hexDigit_plain hc)) (feed_cons (pl _ (hexDigit_plain he)) ih))))

theorem pretty_quoted {b : Bytes} (h : IsBody b) (d : Nat) (hc nn : Bool) :
    feed (prettyStep indent) (pst d hc nn) (quoted b) =
      (pst d true (d == 0), due indent d nn ++ quoted b) := by
  have h1 : prettyStep indent (pst d hc nn) (ch '"') = (pstr d true false, due indent d nn ++ [ch '"']) := by
    have : prettyStep indent (pst d hc nn) (ch '"') =
        ({ ((pst d hc nn).newline indent).1 with inString := true, hasContents := true },
          ((pst d hc nn).newline indent).2 ++ [ch '"']) := by
      simp [prettyStep, pst, isSpace]
    rw [this, pretty_newline]
    rfl
  have h2 : prettyStep indent (pstr d true false) (ch '"') = (pst d true (d == 0), [ch '"']) := by
    cases d <;> simp [prettyStep, pst, pstr] <;> omega
  have := feed_cons h1 (feed_seq (pretty_body indent h d true false) (feed_one h2))
  simpa [quoted] using this

theorem pretty_other {c : Nat} (h : Other c) (d : Nat) (hc nn : Bool) :
    prettyStep indent (pst d hc nn) c = (pst d true false, due indent d nn ++ [c]) := by
  have hs := h.isSpace
  unfold Other at h
  have : prettyStep indent (pst d hc nn) c =
      ({ ((pst d hc nn).newline indent).1 with hasContents := true },
        ((pst d hc nn).newline indent).2 ++ [c]) := by
    simp [prettyStep, pst, hs, h]
  rw [this, pretty_newline]
  rfl

theorem pretty_others {t : Bytes} (h : ∀ c ∈ t, Other c) (d : Nat) :
    feed (prettyStep indent) (pst d true false) t = (pst d true false, t) := by
  induction t with
  | nil => rfl
  | cons c t ih =>
    exact feed_cons (pretty_other indent (h c List.mem_cons_self) d true false)
      (ih fun x hx => h x (List.mem_cons_of_mem _ hx))

theorem pretty_scalar {t : Bytes} (h : Scalar t) (d : Nat) (hc nn : Bool) :
    feed (prettyStep indent) (pst d hc nn) t = (pst d true false, due indent d nn ++ t) := by
  cases t with
  | nil => exact absurd rfl h.1
  | cons c t =>
    have := feed_cons (pretty_other indent (h.2 c List.mem_cons_self) d hc nn)
      (pretty_others indent (fun x hx => h.2 x (List.mem_cons_of_mem _ hx)) d)
    simpa using this

theorem pretty_space {c : Nat} (h : Space c) (d : Nat) (hc nn : Bool) :
    prettyStep indent (pst d hc nn) c = (pst d hc (nn || d == 0), []) := by
  cases d <;> simp [prettyStep, pst, h.isSpace] <;> omega

theorem pretty_spaces {w : Bytes} (h : Spaces w) (d : Nat) (hc nn : Bool) :
    feed (prettyStep indent) (pst d hc nn) w = (pst d hc (nn || (!w.isEmpty && d == 0)), []) := by
  induction w generalizing nn with
  | nil => simp [feed]
  | cons c w ih =>
    have := feed_cons (pretty_space indent (h c List.mem_cons_self) d hc nn)
      (ih (fun x hx => h x (List.mem_cons_of_mem _ hx)) (nn || d == 0))
    rw [this]
    cases nn <;> cases hd : d == 0 <;> simp

theorem pretty_spaces_in {w : Bytes} (h : Spaces w) (d : Nat) (hd : 1 ≤ d) (hc nn : Bool) :
    feed (prettyStep indent) (pst d hc nn) w = (pst d hc nn, []) := by
  rw [pretty_spaces indent h]
  have : (d == 0) = false := by simp; omega
  simp [this]

theorem pretty_comma (d : Nat) (hc nn : Bool) :
    prettyStep indent (pst d hc nn) (ch ',') = (pst d true true, [ch ',']) := by
  simp [prettyStep, pst, isSpace]

theorem pretty_colon (d : Nat) (hc nn : Bool) :
    prettyStep indent (pst d hc nn) (ch ':') = (pst d true nn, [ch ':', 32]) := by
  simp [prettyStep, pst, isSpace]

theorem pretty_open (c : Nat) (h : c = ch '[' ∨ c = ch '{') (d : Nat) (hc nn : Bool) :
    prettyStep indent (pst d hc nn) c = (pst (d + 1) false true, due indent d nn ++ [c]) := by
  have : prettyStep indent (pst d hc nn) c =
      (⟨((pst d hc nn).newline indent).1.depth + 1, false, ((pst d hc nn).newline indent).1.inString,
          ((pst d hc nn).newline indent).1.inEscape, true⟩,
        ((pst d hc nn).newline indent).2 ++ [c]) := by
    rcases h with rfl | rfl <;> simp [prettyStep, pst, isSpace]
  rw [this, pretty_newline]
  simp [pst]

theorem pretty_close (c : Nat) (h : c = ch ']' ∨ c = ch '}') (d : Nat) (hc nn : Bool) :
    prettyStep indent (pst (d + 1) hc nn) c =
      (pst d true true, (if hc then newLine indent d else []) ++ [c]) := by
  have hd : ((d + 1 : Nat) : Int) - 1 = (d : Nat) := by omega
  cases hc
  · rcases h with rfl | rfl <;> simp [prettyStep, pst, isSpace] <;> omega
  · have hn := pretty_newline indent d true true
    simp only [pst] at hn
    rcases h with rfl | rfl <;>
    · simp [prettyStep, pst, isSpace, due] at hn ⊢
      rw [hn]
      simp

theorem pretty_arr_ne (d : Nat) {l : List Json} (h : l ≠ []) :
    pretty indent d (.arr l) =
      ch '[' :: (prettyElems indent (d + 1) l ++ newLine indent d ++ [ch ']']) := by
  cases l with
  | nil => exact absurd rfl h
  | cons => rfl

theorem pretty_obj_ne (d : Nat) {l : List (Bytes × Json)} (h : l ≠ []) :
    pretty indent d (.obj l) =
      ch '{' :: (prettyMembers indent (d + 1) l ++ newLine indent d ++ [ch '}']) := by
  cases l with
  | nil => exact absurd rfl h
  | cons => rfl

theorem prettyElems_cons (d : Nat) (v : Json) {l : List Json} (h : l ≠ []) :
    prettyElems indent d (v :: l) =
      newLine indent d ++ pretty indent d v ++ ch ',' :: prettyElems indent d l := by
  cases l with
  | nil => exact absurd rfl h
  | cons => rfl

theorem prettyMembers_cons (d : Nat) (k : Bytes) (v : Json) {l : List (Bytes × Json)} (h : l ≠ []) :
    prettyMembers indent d ((k, v) :: l) =
      newLine indent d ++ quoted k ++ [ch ':', 32] ++ pretty indent d v ++
        ch ',' :: prettyMembers indent d l := by
  cases l with
  | nil => exact absurd rfl h
  | cons => rfl

/-- What is written for a node, the newline that is due included. -/
def prettyNode (d : Nat) (nn : Bool) : Node → Bytes
  | .value v => due indent d nn ++ pretty indent d v
  | .elems l => prettyElems indent d l
  | .members l => prettyMembers indent d l

/-- Values may stand anywhere, elements and members in containers, at a new line. -/
def PrettyAt (d : Nat) (nn : Bool) : Node → Prop
  | .value _ => True
  | _ => 1 ≤ d ∧ nn = true

theorem pretty_node {n : Node} {t : Bytes} (h : Text Spaces n t) :
    ∀ d hc nn, PrettyAt d nn n → ∃ nn', feed (prettyStep indent) (pst d hc nn) t =
      (pst d true nn', prettyNode indent d nn n) := by
  induction h with
  | null => exact fun d _ _ _ => ⟨_, pretty_scalar indent scalar_null d _ _⟩
  | bool b => exact fun d _ _ _ => ⟨_, pretty_scalar indent (scalar_bool b) d _ _⟩
  | num h => exact fun d _ _ _ => ⟨_, pretty_scalar indent h.scalar d _ _⟩
  | str h => exact fun d hc nn _ => ⟨_, pretty_quoted indent h d hc nn⟩
  | arrNil hw =>
    intro d hc nn _
    have := feed_cons (pretty_open indent (ch '[') (.inl rfl) d hc nn)
      (feed_seq (pretty_spaces_in indent hw (d + 1) (by omega) false true)
        (feed_one (pretty_close indent (ch ']') (.inl rfl) d false true)))
    exact ⟨_, by simpa [prettyNode, pretty] using this⟩
  | arr ht ih =>
    intro d hc nn _
    obtain ⟨nn', h⟩ := ih (d + 1) false true ⟨by omega, rfl⟩
    have := feed_cons (pretty_open indent (ch '[') (.inl rfl) d hc nn)
      (feed_seq h (feed_one (pretty_close indent (ch ']') (.inl rfl) d true nn')))
    exact ⟨_, by simpa [prettyNode, pretty_arr_ne indent d (elems_ne_nil ht _ rfl)] using this⟩
  | objNil hw =>
    intro d hc nn _
    have := feed_cons (pretty_open indent (ch '{') (.inr rfl) d hc nn)
      (feed_seq (pretty_spaces_in indent hw (d + 1) (by omega) false true)
        (feed_one (pretty_close indent (ch '}') (.inr rfl) d false true)))
    exact ⟨_, by simpa [prettyNode, pretty] using this⟩
  | obj ht ih =>
    intro d hc nn _
    obtain ⟨nn', h⟩ := ih (d + 1) false true ⟨by omega, rfl⟩
    have := feed_cons (pretty_open indent (ch '{') (.inr rfl) d hc nn)
      (feed_seq h (feed_one (pretty_close indent (ch '}') (.inr rfl) d true nn')))
    exact ⟨_, by simpa [prettyNode, pretty_obj_ne indent d (members_ne_nil ht _ rfl)] using this⟩
  | elem hw _ hw' ih =>
    intro d hc nn ⟨hd, hn⟩
    subst hn
    obtain ⟨nn', h⟩ := ih d hc true trivial
    have := feed_seq (pretty_spaces_in indent hw d hd hc true)
      (feed_seq h (pretty_spaces_in indent hw' d hd true nn'))
    exact ⟨_, by simpa [prettyNode, prettyElems, due] using this⟩
  | elems hw _ hw' hr ih ih' =>
    intro d hc nn ⟨hd, hn⟩
    subst hn
    obtain ⟨nn', h⟩ := ih d hc true trivial
    obtain ⟨nn2, h2⟩ := ih' d true true ⟨hd, rfl⟩
    have := feed_seq (pretty_spaces_in indent hw d hd hc true)
      (feed_seq h (feed_seq (pretty_spaces_in indent hw' d hd true nn')
        (feed_cons (pretty_comma indent d true nn') h2)))
    exact ⟨_, by simpa [prettyNode, prettyElems_cons indent d _ (elems_ne_nil hr _ rfl), due] using this⟩
  | member hw hk hw1 hw2 _ hw' ih =>
    intro d hc nn ⟨hd, hn⟩
    subst hn
    have e0 : (d == 0) = false := by simp; omega
    obtain ⟨nn', h⟩ := ih d true false trivial
    have hq := pretty_quoted indent hk d hc true
    rw [e0] at hq
    have := feed_seq (pretty_spaces_in indent hw d hd hc true) (feed_seq hq
      (feed_seq (pretty_spaces_in indent hw1 d hd true false)
        (feed_cons (pretty_colon indent d true false)
          (feed_seq (pretty_spaces_in indent hw2 d hd true false)
            (feed_seq h (pretty_spaces_in indent hw' d hd true nn'))))))
    exact ⟨_, by simpa [prettyNode, prettyMembers, due] using this⟩
  | members hw hk hw1 hw2 _ hw' hr ih ih' =>
    intro d hc nn ⟨hd, hn⟩
    subst hn
    have e0 : (d == 0) = false := by simp; omega
    obtain ⟨nn', h⟩ := ih d true false trivial
    obtain ⟨nn2, h2⟩ := ih' d true true ⟨hd, rfl⟩
    have hq := pretty_quoted indent hk d hc true
    rw [e0] at hq
    have := feed_seq (pretty_spaces_in indent hw d hd hc true) (feed_seq hq
      (feed_seq (pretty_spaces_in indent hw1 d hd true false)
        (feed_cons (pretty_colon indent d true false)
          (feed_seq (pretty_spaces_in indent hw2 d hd true false)
            (feed_seq h (feed_seq (pretty_spaces_in indent hw' d hd true nn')
              (feed_cons (pretty_comma indent d true nn') h2)))))))
    exact ⟨_, by simpa [prettyNode, prettyMembers_cons indent d _ _ (members_ne_nil hr _ rfl), due]
      using this⟩

/-- A newline if there are values and a newline is due. -/
def prettyDocText (lead : Bool) (l : List Json) : Bytes :=
  match l with
  | [] => []
  | v :: l =>
    (if lead then [nl] else []) ++ pretty indent 0 v ++ l.flatMap fun v => nl :: pretty indent 0 v

/-- Whether a text begins with whitespace. -/
def leadingSpace (t : Bytes) : Bool :=
  match t with
  | [] => false
  | c :: _ => isSpace c

theorem text_notSpace {W : Bytes → Prop} {v : Json} {t r : Bytes} (h : Text W (.value v) t) :
    leadingSpace (t ++ r) = false := by
  obtain ⟨c, t', rfl, h33, _⟩ := text_head h
  simp only [List.cons_append, leadingSpace]
  cases e : isSpace c
  · rfl
  · have := (isSpace_iff c).1 e
    unfold Space at this
    omega

theorem leading_append {w : Bytes} (hw : Spaces w) {W : Bytes → Prop} {v : Json} {t r : Bytes}
    (h : Text W (.value v) t) : leadingSpace (w ++ (t ++ r)) = !w.isEmpty := by
  cases w with
  | nil => simpa using text_notSpace h
  | cons c w => simpa [leadingSpace] using (hw c List.mem_cons_self).isSpace

theorem prettify_doc {l : List Json} {t : Bytes} (h : Doc l t) : ∀ hc nn,
    (feed (prettyStep indent) (pst 0 hc nn) t).2 = prettyDocText indent (nn || leadingSpace t) l := by
  have hdue : ∀ b, due indent 0 b = if b then [nl] else [] := fun b => by
    cases b <;> simp [due, newLine]
  induction h with
  | nil hw =>
    intro hc nn
    rw [pretty_spaces indent hw]
    rfl
  | last hw hv =>
    intro hc nn
    obtain ⟨nn', h⟩ := pretty_node indent hv 0 hc (nn || !List.isEmpty _) trivial
    have h1 := pretty_spaces indent hw 0 hc nn
    simp only [BEq.rfl, Bool.and_true] at h1
    rw [feed_seq h1 h]
    have := leading_append (r := []) hw hv
    rw [List.append_nil] at this
    simp [prettyDocText, prettyNode, hdue, this]
  | cons hw hv hc' hr ih =>
    intro hc nn
    obtain ⟨nn', h⟩ := pretty_node indent hv 0 hc (nn || !List.isEmpty _) trivial
    have h1 := pretty_spaces indent hw 0 hc nn
    simp only [BEq.rfl, Bool.and_true] at h1
    have h2 := pretty_space indent hc' 0 true nn'
    simp only [BEq.rfl, Bool.or_true] at h2
    have h3 := ih true true
    rcases hf : feed (prettyStep indent) (pst 0 true true) _ with ⟨s', o⟩
    rw [hf] at h3
    rw [feed_seq h1 (feed_seq h (feed_cons h2 hf)), leading_append hw hv]
    simp only at h3
    subst h3
    cases ‹List Json› <;> simp [prettyDocText, prettyNode, hdue]

theorem prettify_follows :
    Follows (prettyProcessor indent) (fun (s : Pretty) x => (feed (prettyStep indent) s x).2) := by
  have := loop_follows (σ := Pretty)
    { depth := 0, hasContents := false, inString := false, inEscape := false, needsNewline := false }
    (prettyStep indent) (fun _ => [])
  simp only [List.append_nil] at this
  exact this

end Verif.JsonStream
