/-
The processor that extracts values, on compact texts.
-/
import Verif.JsonStream.Strings

namespace Verif.JsonStream

variable {o : ExtractOptions}

/-! ### States -/

/-- The state outside of matches. -/
def xst (p : List Part) (b any : Bool) : Extract :=
  { path := p, objectKey := b, keyLiteral := [], inMatch := false, anyMatches := any, matchDepth := 0,
    inString := false, inEscape := false }

/-- The state in a match. -/
def mst (p : List Part) (b : Bool) (d : Int) : Extract :=
  { path := p, objectKey := b, keyLiteral := [], inMatch := true, anyMatches := true, matchDepth := d,
    inString := false, inEscape := false }

/-- No match starts on its own. -/
def Settled (o : ExtractOptions) : List Part → Prop
  | [] => o.match_ [] = false
  | .index i :: _ => i ≠ -1
  | .key _ :: _ => True

theorem before_settled (s : Extract) (c : Nat) (hm : s.inMatch = false) (h : Settled o s.path) :
    s.before o c = (s, []) := by
  obtain ⟨p, ok, kl, im, am, md, is, ie⟩ := s
  simp only at hm
  subst hm
  cases p with
  | nil =>
    have h' : o.match_ [] = false := h
    simp [Extract.before, Extract.tryMatch, h']
  | cons x p =>
    cases x with
    | key k => simp [Extract.before]
    | index i =>
      have h' : i ≠ -1 := h
      simp [Extract.before, h']

theorem before_match (s : Extract) (c : Nat) (hm : s.inMatch = true) : s.before o c = (s, []) := by
  obtain ⟨p, ok, kl, im, am, md, is, ie⟩ := s
  simp only at hm
  subst hm
  simp [Extract.before]

theorem step_of_before {s : Extract} {c : Nat} (h : s.before o c = (s, [])) :
    extractStep o s c = s.char o c := by
  simp [extractStep, h]

theorem step_settled {s : Extract} {c : Nat} (hm : s.inMatch = false) (h : Settled o s.path) :
    extractStep o s c = s.char o c := step_of_before (before_settled s c hm h)

theorem step_match {s : Extract} {c : Nat} (hm : s.inMatch = true) : extractStep o s c = s.char o c :=
  step_of_before (before_match s c hm)

/-! ### In a match -/

def mstr (p : List Part) (b : Bool) (d : Int) : Extract := { mst p b d with inString := true }

theorem match_body {x : Bytes} (h : IsBody x) (p : List Part) (b : Bool) (d : Int) :
    feed (extractStep o) (mstr p b d) x = (mstr p b d, x) := by
  have pl : ∀ c, Plain c → extractStep o (mstr p b d) c = (mstr p b d, [c]) := by
    intro c hc
    rw [step_match rfl]
    simp [Extract.char, mstr, mst, hc.2.1, hc.2.2]
  have es : ∀ c, feed (extractStep o) (mstr p b d) [ch '\\', c] = (mstr p b d, [ch '\\', c]) := by
    intro c
    have h1 : extractStep o (mstr p b d) (ch '\\') = ({ mstr p b d with inEscape := true }, [ch '\\']) := by
      rw [step_match rfl]
      simp [Extract.char, mstr, mst]
    have h2 : extractStep o { mstr p b d with inEscape := true } c = (mstr p b d, [c]) := by
      rw [step_match rfl]
      simp [Extract.char, mstr, mst]
    exact feed_cons h1 (feed_one h2)
  induction h with
  | nil => rfl
  | plain hc _ ih => exact feed_cons (pl _ hc) ih
  | @simple c _ _ _ _ ih => exact feed_seq (es c) ih
  | unicode hh _ ih =>
    obtain ⟨a, b, c, e, _, _, _, _, rfl, ha, hb, hc, he, _⟩ := hh
    exact feed_seq (es (ch 'u')) (feed_cons (pl _ (hexDigit_plain ha)) (feed_cons (pl _ (hexDigit_plain hb))
      (feed_cons (pl _ (hexDigit_plain hc)) (feed_cons (pl _ (hexDigit_plain he)) ih))))

theorem match_quoted {x : Bytes} (h : IsBody x) (p : List Part) (b : Bool) (d : Int) :
    feed (extractStep o) (mst p b d) (quoted x) = (mst p b d, quoted x) := by
  have h1 : extractStep o (mst p b d) (ch '"') = (mstr p b d, [ch '"']) := by
    rw [step_match rfl]
    simp [Extract.char, mstr, mst]
  have h2 : extractStep o (mstr p b d) (ch '"') = (mst p b d, [ch '"']) := by
    rw [step_match rfl]
    simp [Extract.char, mstr, mst]
  exact feed_cons h1 (feed_seq (match_body h p b d) (feed_one h2))

theorem match_scalar {t : Bytes} (h : ∀ c ∈ t, Other c) (p : List Part) (b : Bool) (d : Int) :
    feed (extractStep o) (mst p b d) t = (mst p b d, t) := by
  induction t with
  | nil => rfl
  | cons c t ih =>
    have h1 : extractStep o (mst p b d) c = (mst p b d, [c]) := by
      have hc := h c List.mem_cons_self
      unfold Other at hc
      have hn : c ≠ nl := by
        have := hc.1
        unfold nl
        omega
      rw [step_match rfl]
      simp [Extract.char, mst, hc, hn]
    exact feed_cons h1 (ih fun x hx => h x (List.mem_cons_of_mem _ hx))

theorem match_open (c : Nat) (h : c = ch '[' ∨ c = ch '{') (p : List Part) (b : Bool) (d : Int) :
    extractStep o (mst p b d) c = (mst p b (d + 1), [c]) := by
  rw [step_match rfl]
  rcases h with rfl | rfl <;> simp [Extract.char, mst]

theorem match_close (c : Nat) (h : c = ch ']' ∨ c = ch '}') (p : List Part) (b : Bool) (d : Int) (hd : 0 ≤ d) :
    extractStep o (mst p b (d + 1)) c = (mst p b d, [c]) := by
  have : ¬ d + 1 = 0 := by omega
  rw [step_match rfl]
  rcases h with rfl | rfl <;> simp [Extract.char, mst, this]

theorem match_comma (p : List Part) (b : Bool) (d : Int) (hd : 1 ≤ d) :
    extractStep o (mst p b d) (ch ',') = (mst p b d, [ch ',']) := by
  have : ¬ d = 0 := by omega
  rw [step_match rfl]
  simp [Extract.char, mst, this]

theorem match_colon (p : List Part) (b : Bool) (d : Int) :
    extractStep o (mst p b d) (ch ':') = (mst p b d, [ch ':']) := by
  rw [step_match rfl]
  simp [Extract.char, mst, nl]

theorem match_node {n : Node} {t : Bytes} (h : Text Empty n t) (p : List Part) (b : Bool) :
    ∀ d : Int, (match n with | .value _ => 0 ≤ d | _ => 1 ≤ d) →
      feed (extractStep o) (mst p b d) t = (mst p b d, t) := by
  have e : ∀ {w : Bytes}, Empty w → w = [] := fun h => h
  induction h with
  | null => exact fun d _ => match_scalar scalar_null.2 p b d
  | bool x => exact fun d _ => match_scalar (scalar_bool x).2 p b d
  | num h => exact fun d _ => match_scalar h.scalar.2 p b d
  | str h => exact fun d _ => match_quoted h p b d
  | arrNil hw =>
    intro d hd
    obtain rfl := e hw
    exact feed_cons (match_open _ (.inl rfl) p b d) (feed_one (match_close _ (.inl rfl) p b d hd))
  | arr _ ih =>
    intro d hd
    have hd' : (0 : Int) ≤ d := hd
    exact feed_cons (match_open _ (.inl rfl) p b d) (feed_seq (ih (d + 1) (by simp only; omega))
      (feed_one (match_close _ (.inl rfl) p b d hd)))
  | objNil hw =>
    intro d hd
    obtain rfl := e hw
    exact feed_cons (match_open _ (.inr rfl) p b d) (feed_one (match_close _ (.inr rfl) p b d hd))
  | obj _ ih =>
    intro d hd
    have hd' : (0 : Int) ≤ d := hd
    exact feed_cons (match_open _ (.inr rfl) p b d) (feed_seq (ih (d + 1) (by simp only; omega))
      (feed_one (match_close _ (.inr rfl) p b d hd)))
  | elem hw _ hw' ih =>
    intro d hd
    obtain rfl := e hw
    obtain rfl := e hw'
    have hd' : (1 : Int) ≤ d := hd
    have := ih d (by simp only; omega)
    simpa using this
  | elems hw _ hw' _ ih ih' =>
    intro d hd
    obtain rfl := e hw
    obtain rfl := e hw'
    have hd' : (1 : Int) ≤ d := hd
    have := feed_seq (ih d (by simp only; omega)) (feed_cons (match_comma p b d hd) (ih' d hd))
    simpa using this
  | member hw hk hw1 hw2 _ hw' ih =>
    intro d hd
    obtain rfl := e hw
    obtain rfl := e hw1
    obtain rfl := e hw2
    obtain rfl := e hw'
    have hd' : (1 : Int) ≤ d := hd
    have := feed_seq (match_quoted hk p b d) (feed_cons (match_colon p b d) (ih d (by simp only; omega)))
    simpa using this
  | members hw hk hw1 hw2 _ hw' _ ih ih' =>
    intro d hd
    obtain rfl := e hw
    obtain rfl := e hw1
    obtain rfl := e hw2
    obtain rfl := e hw'
    have hd' : (1 : Int) ≤ d := hd
    have := feed_seq (match_quoted hk p b d) (feed_cons (match_colon p b d)
      (feed_seq (ih d (by simp only; omega)) (feed_cons (match_comma p b d hd) (ih' d hd))))
    simpa using this

/-! ### Outside of matches -/

theorem out_scalar {t : Bytes} (h : ∀ c ∈ t, Other c) (p : List Part) (b any : Bool) (hs : Settled o p) :
    feed (extractStep o) (xst p b any) t = (xst p b any, []) := by
  induction t with
  | nil => rfl
  | cons c t ih =>
    have h1 : extractStep o (xst p b any) c = (xst p b any, []) := by
      have hc := h c List.mem_cons_self
      unfold Other at hc
      have hn : c ≠ nl := by
        have := hc.1
        unfold nl
        omega
      rw [step_settled rfl hs]
      simp [Extract.char, xst, hc, hn]
    exact feed_cons h1 (ih fun x hx => h x (List.mem_cons_of_mem _ hx))

def xstr (p : List Part) (b any : Bool) (lit : Bytes) : Extract :=
  { xst p b any with inString := true, keyLiteral := lit }

/-- Keys are remembered. -/
def kept (b : Bool) (t : Bytes) : Bytes := if b then t else []

theorem kept_append (b : Bool) (x y : Bytes) : kept b (x ++ y) = kept b x ++ kept b y := by
  cases b <;> simp [kept]

theorem out_body {x : Bytes} (h : IsBody x) (p : List Part) (b any : Bool) (hs : Settled o p) :
    ∀ lit, feed (extractStep o) (xstr p b any lit) x = (xstr p b any (lit ++ kept b x), []) := by
  have pl : ∀ c, Plain c → ∀ lit,
      extractStep o (xstr p b any lit) c = (xstr p b any (lit ++ kept b [c]), []) := by
    intro c hc lit
    rw [step_settled rfl hs]
    cases b <;> simp [Extract.char, xstr, xst, hc.2.1, hc.2.2, kept]
  have es : ∀ c lit, feed (extractStep o) (xstr p b any lit) [ch '\\', c] =
      (xstr p b any (lit ++ kept b [ch '\\', c]), []) := by
    intro c lit
    have h1 : extractStep o (xstr p b any lit) (ch '\\') =
        ({ xstr p b any (lit ++ kept b [ch '\\']) with inEscape := true }, []) := by
      rw [step_settled rfl hs]
      cases b <;> simp [Extract.char, xstr, xst, kept]
    have h2 : ∀ lit, extractStep o { xstr p b any lit with inEscape := true } c =
        (xstr p b any (lit ++ kept b [c]), []) := by
      intro lit
      rw [step_settled rfl hs]
      cases b <;> simp [Extract.char, xstr, xst, kept]
    have := feed_cons h1 (feed_one (h2 _))
    rw [List.append_assoc, ← kept_append] at this
    exact this
  induction h with
  | nil =>
    intro lit
    cases b <;> simp [feed, kept]
  | @plain c t hc _ ih =>
    intro lit
    have := feed_cons (pl _ hc lit) (ih _)
    rw [List.append_assoc, ← kept_append] at this
    exact this
  | @simple c _ t _ _ ih =>
    intro lit
    have := feed_seq (es c lit) (ih _)
    rw [List.append_assoc, ← kept_append] at this
    exact this
  | unicode hh _ ih =>
    intro lit
    obtain ⟨a, b, c, e, _, _, _, _, rfl, ha, hb, hc, he, _⟩ := hh
    have := feed_seq (es (ch 'u') lit) (feed_cons (pl _ (hexDigit_plain ha) _)
      (feed_cons (pl _ (hexDigit_plain hb) _)
        (feed_cons (pl _ (hexDigit_plain hc) _) (feed_cons (pl _ (hexDigit_plain he) _) (ih _)))))
    simp only [List.append_assoc, ← kept_append] at this
    exact this

theorem out_quoted {x : Bytes} (h : IsBody x) (p : List Part) (b any : Bool) (hs : Settled o p) :
    feed (extractStep o) (xst p b any) (quoted x) =
      ({ xst p b any with keyLiteral := kept b (quoted x) }, []) := by
  have h1 : extractStep o (xst p b any) (ch '"') = (xstr p b any (kept b [ch '"']), []) := by
    rw [step_settled rfl hs]
    cases b <;> simp [Extract.char, xstr, xst, kept]
  have h2 : ∀ lit, extractStep o (xstr p b any lit) (ch '"') =
      ({ xst p b any with keyLiteral := lit ++ kept b [ch '"'] }, []) := by
    intro lit
    rw [step_settled rfl hs]
    cases b <;> simp [Extract.char, xstr, xst, kept]
  have := feed_cons h1 (feed_seq (out_body h p b any hs _) (feed_one (h2 _)))
  simp only [List.append_assoc, ← kept_append] at this
  exact this

theorem out_bracket (p : List Part) (b any : Bool) (hs : Settled o p) :
    extractStep o (xst p b any) (ch '[') = (xst (.index (-1) :: p) false any, []) := by
  rw [step_settled rfl hs]
  simp [Extract.char, xst]

theorem out_brace (p : List Part) (b any : Bool) (hs : Settled o p) :
    extractStep o (xst p b any) (ch '{') = (xst (.key [] :: p) true any, []) := by
  rw [step_settled rfl hs]
  simp [Extract.char, xst]

theorem out_emptyArray (p : List Part) (b any : Bool) :
    extractStep o (xst (.index (-1) :: p) b any) (ch ']') = (xst p b any, []) := by
  have : (xst (.index (-1) :: p) b any).before o (ch ']') = (xst (.index (-1) :: p) b any, []) := by
    simp [Extract.before, xst]
  rw [step_of_before this]
  simp [Extract.char, xst]

theorem out_colon (k0 k : Bytes) (p : List Part) (b any : Bool) :
    extractStep o { xst (.key k0 :: p) b any with keyLiteral := k } (ch ':') =
      (xst (.key (unquoteAll k) :: p) false any).tryMatch o := by
  have hs : Settled o ({ xst (.key k0 :: p) b any with keyLiteral := k } : Extract).path := trivial
  rw [step_settled rfl hs]
  simp [Extract.char, xst, Extract.inObject]

/-- The first element of an array. -/
theorem out_first {c : Nat} (hc : c ≠ ch ']') (p : List Part) (b any : Bool) :
    extractStep o (xst (.index (-1) :: p) b any) c =
      ((extractStep o ((xst (.index 0 :: p) b any).tryMatch o).1 c).1,
        ((xst (.index 0 :: p) b any).tryMatch o).2 ++
          (extractStep o ((xst (.index 0 :: p) b any).tryMatch o).1 c).2) := by
  have h1 : (xst (.index (-1) :: p) b any).before o c = (xst (.index 0 :: p) b any).tryMatch o := by
    simp [Extract.before, xst, hc]
  have h2 : ((xst (.index 0 :: p) b any).tryMatch o).1.before o c =
      (((xst (.index 0 :: p) b any).tryMatch o).1, []) := by
    by_cases hm : o.match_ (xst (.index 0 :: p) b any).path.reverse = true
    · apply before_match
      unfold Extract.tryMatch
      rw [if_pos hm]
    · have e : (xst (.index 0 :: p) b any).tryMatch o = (xst (.index 0 :: p) b any, []) := by
        unfold Extract.tryMatch
        rw [if_neg hm]
        rfl
      rw [e]
      apply before_settled
      · rfl
      · show (0 : Int) ≠ -1
        omega
  rw [step_of_before h2]
  simp only [extractStep, h1]

/-! ### Ends of values -/

/-- The state after a value, and what is still to be written for it. -/
def Ended (o : ExtractOptions) (p : List Part) (b any : Bool) (s : Extract) (rest : Bytes) : Prop :=
  (s = mst p b 0 ∧ any = true ∧ rest = pairEnd o) ∨ (s = xst p b any ∧ rest = [])

theorem ended_close {p : List Part} {x : Part} {b any : Bool} {s : Extract} {rest : Bytes}
    (h : Ended o (x :: p) b any s rest) (hs : Settled o (x :: p)) (c : Nat) (hc : c = ch ']' ∨ c = ch '}') :
    extractStep o s c = (xst p b any, rest) := by
  rcases h with ⟨rfl, rfl, rfl⟩ | ⟨rfl, rfl⟩
  · rw [step_match rfl]
    rcases hc with rfl | rfl <;> simp [Extract.char, mst, xst]
  · rw [step_settled rfl hs]
    rcases hc with rfl | rfl <;> simp [Extract.char, xst]

theorem ended_comma_array {p : List Part} {i : Int} {b any : Bool} {s : Extract} {rest : Bytes}
    (h : Ended o (.index i :: p) b any s rest) (hi : i ≠ -1) :
    extractStep o s (ch ',') = (((xst (.index (i + 1) :: p) b any).tryMatch o).1,
      rest ++ ((xst (.index (i + 1) :: p) b any).tryMatch o).2) := by
  rcases h with ⟨rfl, rfl, rfl⟩ | ⟨rfl, rfl⟩
  · rw [step_match rfl]
    simp [Extract.char, mst, xst, Extract.inArray, incIndex]
  · rw [step_settled rfl (show Settled o (.index i :: p) from hi)]
    simp [Extract.char, xst, Extract.inArray, incIndex]

theorem ended_comma_object {p : List Part} {k : Bytes} {b any : Bool} {s : Extract} {rest : Bytes}
    (h : Ended o (.key k :: p) b any s rest) :
    extractStep o s (ch ',') = (xst (.key k :: p) true any, rest) := by
  rcases h with ⟨rfl, rfl, rfl⟩ | ⟨rfl, rfl⟩
  · rw [step_match rfl]
    simp [Extract.char, mst, xst, Extract.inArray, Extract.inObject]
  · rw [step_settled rfl (show Settled o (.key k :: p) from trivial)]
    simp [Extract.char, xst, Extract.inArray, Extract.inObject]

/-! ### What is written -/

def itemText (o : ExtractOptions) (m : List Part × Json) : Bytes :=
  (if o.withPath then pathArray m.1 else []) ++ (compact m.2 ++ pairEnd o)

def matchesText (o : ExtractOptions) : Bool → List (List Part × Json) → Bytes
  | _, [] => []
  | any, m :: l => (if any then ch ',' else ch '[') :: (itemText o m ++ matchesText o true l)

def anyOf (any : Bool) (l : List (List Part × Json)) : Bool := any || !l.isEmpty

theorem matchesText_append (any : Bool) (x y : List (List Part × Json)) :
    matchesText o any (x ++ y) = matchesText o any x ++ matchesText o (anyOf any x) y := by
  induction x generalizing any with
  | nil => cases any <;> simp [matchesText, anyOf]
  | cons m x ih =>
    have : anyOf any (m :: x) = anyOf true x := by simp [anyOf]
    simp [matchesText, ih, this]

theorem anyOf_append (any : Bool) (x y : List (List Part × Json)) :
    anyOf any (x ++ y) = anyOf (anyOf any x) y := by
  cases any <;> cases x <;> cases y <;> simp [anyOf]

/-! ### Values -/

/-- The content of keys. -/
def dec (k : Bytes) : Bytes := unquoteAll (quoted k)

/-- Values in which no key is misread: with `e`, objects may be empty, but strings are not
elements of arrays. -/
def Fine (e : Bool) (v : Json) : Prop := if e then noListedString v = true else noEmptyObject v = true

def FineNode (e : Bool) : Node → Prop
  | .value v => Fine e v
  | .elems l => if e then noListedElems l = true else noEmptyElems l = true
  | .members l => if e then noListedMembers l = true else noEmptyMembers l = true

def Value (o : ExtractOptions) (e : Bool) (v : Json) (t : Bytes) : Prop :=
  ∀ p b any, Settled o p.reverse → (e = false → b = false) → (b = true → isString v = false) →
    ∃ b', (e = false → b' = false) ∧
      feed (extractStep o) (xst p.reverse b any) t =
        (xst p.reverse b' (anyOf any (below o.match_ dec p v)), matchesText o any (below o.match_ dec p v))

theorem try_hit {s : Extract} (h : o.match_ s.path.reverse = true) : s.tryMatch o =
    ({ s with inMatch := true, matchDepth := 0, anyMatches := true },
      [if s.anyMatches then ch ',' else ch '['] ++ if o.withPath then pathArray s.path.reverse else []) := by
  unfold Extract.tryMatch
  rw [if_pos h]

theorem try_miss {s : Extract} (h : ¬ o.match_ s.path.reverse = true) : s.tryMatch o =
    ({ s with inMatch := false }, []) := by
  unfold Extract.tryMatch
  rw [if_neg h]

/-- A value for which a match was just tried. -/
theorem slot {e : Bool} {v : Json} {t : Bytes} (ht : Text Empty (.value v) t) (h : Value o e v t)
    (p : List Part) (b any : Bool) (hs : Settled o p.reverse) (hb : e = false → b = false)
    (hv : b = true → isString v = false) :
    ∃ b' s out rest, (e = false → b' = false) ∧
      feed (extractStep o) ((xst p.reverse b any).tryMatch o).1 t = (s, out) ∧
      Ended o p.reverse b' (anyOf any (found o.match_ dec p v)) s rest ∧
      ((xst p.reverse b any).tryMatch o).2 ++ (out ++ rest) = matchesText o any (found o.match_ dec p v) := by
  have er : (xst p.reverse b any).path.reverse = p := List.reverse_reverse p
  have et : t = compact v := compact_of_empty ht
  by_cases hm : o.match_ p = true
  · rw [try_hit (by rw [er]; exact hm), er]
    refine ⟨b, mst p.reverse b 0, t, pairEnd o, hb, match_node ht p.reverse b 0 (by simp), .inl ⟨rfl, ?_, rfl⟩, ?_⟩
    · simp [found, hm, anyOf]
    · cases any <;> simp [found, hm, matchesText, itemText, et, xst]
  · rw [try_miss (by rw [er]; exact hm)]
    obtain ⟨b', h1, h2⟩ := h p b any hs hb hv
    refine ⟨b', _, _, [], h1, h2, .inr ⟨?_, rfl⟩, ?_⟩
    · simp [found, hm]
    · simp [found, hm]

def Elems (o : ExtractOptions) (e : Bool) (l : List Json) (t : Bytes) : Prop :=
  ∀ p (i : Nat) b any, (e = false → b = false) →
    ∃ b' s out rest, (e = false → b' = false) ∧ ∃ j : Nat,
      feed (extractStep o) ((xst (.index i :: p.reverse) b any).tryMatch o).1 t = (s, out) ∧
      Ended o (.index j :: p.reverse) b' (anyOf any (belowElems o.match_ dec p i l)) s rest ∧
      ((xst (.index i :: p.reverse) b any).tryMatch o).2 ++ (out ++ rest) =
        matchesText o any (belowElems o.match_ dec p i l)

def Members (o : ExtractOptions) (e : Bool) (l : List (Bytes × Json)) (t : Bytes) : Prop :=
  ∀ p k any,
    ∃ b' s out rest k', (e = false → b' = false) ∧
      feed (extractStep o) (xst (.key k :: p.reverse) true any) t = (s, out) ∧
      Ended o (.key k' :: p.reverse) b' (anyOf any (belowMembers o.match_ dec p l)) s rest ∧
      out ++ rest = matchesText o any (belowMembers o.match_ dec p l)

def NodeOk (o : ExtractOptions) (e : Bool) : Node → Bytes → Prop
  | .value v, t => Value o e v t
  | .elems l, t => Elems o e l t
  | .members l, t => Members o e l t

theorem elem_slot {e : Bool} {v : Json} {t : Bytes} (ht : Text Empty (.value v) t) (h : Value o e v t)
    (p : List Part) (i : Nat) (b any : Bool) (hb : e = false → b = false) (hv : b = true → isString v = false) :
    ∃ b' s out rest, (e = false → b' = false) ∧
      feed (extractStep o) ((xst (.index i :: p.reverse) b any).tryMatch o).1 t = (s, out) ∧
      Ended o (.index i :: p.reverse) b' (anyOf any (found o.match_ dec (p ++ [.index i]) v)) s rest ∧
      ((xst (.index i :: p.reverse) b any).tryMatch o).2 ++ (out ++ rest) =
        matchesText o any (found o.match_ dec (p ++ [.index i]) v) := by
  have := slot ht h (p ++ [.index i]) b any (by simp [Settled]) hb hv
  simpa using this

theorem feed_head {s s' : Extract} {c : Nat} {t z : Bytes}
    (h : extractStep o s c = ((extractStep o s' c).1, z ++ (extractStep o s' c).2)) :
    feed (extractStep o) s (c :: t) =
      ((feed (extractStep o) s' (c :: t)).1, z ++ (feed (extractStep o) s' (c :: t)).2) := by
  simp [feed, h]

theorem elems_head {n : Node} {t : Bytes} (h : Text Empty n t) :
    ∀ l, n = .elems l → ∃ c t', t = c :: t' ∧ c ≠ ch ']' := by
  have e : ∀ {w : Bytes}, Empty w → w = [] := fun h => h
  intro l hl
  subst hl
  cases h with
  | elem hw hv _ =>
    obtain rfl := e hw
    obtain ⟨c, t', rfl, _, h, _⟩ := text_head hv
    exact ⟨c, _, rfl, h⟩
  | elems hw hv _ _ =>
    obtain rfl := e hw
    obtain ⟨c, t', rfl, _, h, _⟩ := text_head hv
    exact ⟨c, _, rfl, h⟩

theorem fine_elem {e : Bool} {v : Json} {l : List Json} (h : FineNode e (.elems (v :: l))) :
    Fine e v ∧ FineNode e (.elems l) ∧ (e = true → isString v = false) := by
  cases e <;> simp [FineNode, Fine, noListedElems, noEmptyElems] at h ⊢
  · exact h
  · exact ⟨h.1.2, h.2, h.1.1⟩

theorem fine_member {e : Bool} {k : Bytes} {v : Json} {l : List (Bytes × Json)}
    (h : FineNode e (.members ((k, v) :: l))) : Fine e v ∧ FineNode e (.members l) := by
  cases e <;> simp [FineNode, Fine, noListedMembers, noEmptyMembers] at h ⊢ <;> exact h

theorem extract_node {e : Bool} {n : Node} {t : Bytes} (h : Text Empty n t) : FineNode e n → NodeOk o e n t := by
  have em : ∀ {w : Bytes}, Empty w → w = [] := fun h => h
  have sc : ∀ {v : Json} {t : Bytes}, (∀ p, below o.match_ dec p v = []) → Scalar t → Value o e v t := by
    intro v t hv ht p b any hs hb _
    refine ⟨b, hb, ?_⟩
    rw [hv, out_scalar ht.2 _ _ _ hs]
    simp [anyOf, matchesText]
  induction h with
  | null => exact fun _ => sc (fun _ => rfl) scalar_null
  | bool b => exact fun _ => sc (fun _ => rfl) (scalar_bool b)
  | num h => exact fun _ => sc (fun _ => rfl) h.scalar
  | @str x h =>
    intro _ p b any hs hb hv
    have : b = false := by
      cases b
      · rfl
      · exact absurd (hv rfl) (by simp [isString])
    subst this
    refine ⟨false, fun _ => rfl, ?_⟩
    rw [out_quoted h _ _ _ hs]
    simp [kept, xst, below, anyOf, matchesText]
  | arrNil hw =>
    intro _ p b any hs hb hv
    obtain rfl := em hw
    refine ⟨false, fun _ => rfl, ?_⟩
    have := feed_cons (out_bracket p.reverse b any hs) (feed_one (out_emptyArray p.reverse false any))
    simpa [below, belowElems, anyOf, matchesText] using this
  | @arr l t ht ih =>
    intro hf p b any hs hb hv
    obtain ⟨c, t', rfl, hc⟩ := elems_head ht l rfl
    obtain ⟨b', s, out, rest, hb', j, h1, h2, h3⟩ := ih hf p 0 false any (fun _ => rfl)
    refine ⟨b', hb', ?_⟩
    have h4 := feed_head (t := t') (out_first (o := o) hc p.reverse false any)
    have h5 : feed (extractStep o) (xst (.index 0 :: p.reverse) false any |>.tryMatch o).1 (c :: t') = (s, out) := h1
    rw [h5] at h4
    have := feed_cons (out_bracket p.reverse b any hs) (feed_seq h4
      (feed_one (ended_close h2 (by simp [Settled]) (ch ']') (.inl rfl))))
    have h6 : ((xst (.index 0 :: p.reverse) false any).tryMatch o).2 ++ (out ++ rest) =
        matchesText o any (belowElems o.match_ dec p 0 l) := h3
    rw [List.nil_append, List.append_assoc, h6] at this
    exact this
  | objNil hw =>
    intro hf p b any hs hb hv
    obtain rfl := em hw
    refine ⟨true, ?_, ?_⟩
    · intro he
      subst he
      simp [FineNode, Fine, noEmptyObject] at hf
    · have := feed_cons (out_brace p.reverse b any hs)
        (feed_one (ended_close (o := o) (x := .key []) (p := p.reverse) (b := true) (any := any) (.inr ⟨rfl, rfl⟩) trivial (ch '}') (.inr rfl)))
      simpa [below, belowMembers, anyOf, matchesText] using this
  | @obj l t ht ih =>
    intro hf p b any hs hb hv
    have hl : l ≠ [] := members_ne_nil ht l rfl
    have hf' : FineNode e (.members l) := by
      cases l with
      | nil => exact absurd rfl hl
      | cons m l => cases e <;> simpa [FineNode, Fine, noEmptyObject, noListedString] using hf
    obtain ⟨b', s, out, rest, k', hb', h1, h2, h3⟩ := ih hf' p [] any
    refine ⟨b', hb', ?_⟩
    have := feed_cons (out_brace p.reverse b any hs) (feed_seq h1
      (feed_one (ended_close h2 trivial (ch '}') (.inr rfl))))
    rw [List.nil_append, h3] at this
    exact this
  | @elem v w t w' hw ht hw' ih =>
    intro hf p i b any hb
    obtain rfl := em hw
    obtain rfl := em hw'
    obtain ⟨f1, _, f3⟩ := fine_elem hf
    have hv : b = true → isString v = false := fun hb' => f3 (by
      cases e
      · rw [hb rfl] at hb'
        exact absurd hb' (by simp)
      · rfl)
    obtain ⟨b', s, out, rest, g1, g2, g3, g4⟩ := elem_slot ht (ih f1) p i b any hb hv
    refine ⟨b', s, out, rest, g1, i, ?_, ?_, ?_⟩
    · simpa using g2
    · simpa [belowElems, found] using g3
    · simpa [belowElems, found] using g4
  | @elems v w t w' l r hw ht hw' hr ih ih' =>
    intro hf p i b any hb
    obtain rfl := em hw
    obtain rfl := em hw'
    obtain ⟨f1, f2, f3⟩ := fine_elem hf
    have hv : b = true → isString v = false := fun hb' => f3 (by
      cases e
      · rw [hb rfl] at hb'
        exact absurd hb' (by simp)
      · rfl)
    obtain ⟨b1, s1, out1, rest1, g1, g2, g3, g4⟩ := elem_slot ht (ih f1) p i b any hb hv
    obtain ⟨b2, s2, out2, rest2, k1, j, k2, k3, k4⟩ := ih' f2 p (i + 1) b1
      (anyOf any (found o.match_ dec (p ++ [.index i]) v)) g1
    have hc := ended_comma_array g3 (by omega)
    have hi : ((i : Int) + 1) = ((i + 1 : Nat) : Int) := by omega
    rw [hi] at hc
    have hf := feed_seq g2 (feed_cons hc k2)
    refine ⟨b2, s2, _, rest2, k1, j, by simpa using hf, ?_, ?_⟩
    · rw [← anyOf_append] at k3
      exact k3
    · show _ = matchesText o any (found o.match_ dec (p ++ [.index i]) v ++ belowElems o.match_ dec p (i + 1) l)
      rw [matchesText_append, ← g4, ← k4]
      simp
  | @member k v w w1 w2 t w' hw hk hw1 hw2 ht hw' ih =>
    intro hf p k0 any
    obtain rfl := em hw
    obtain rfl := em hw1
    obtain rfl := em hw2
    obtain rfl := em hw'
    obtain ⟨f1, _⟩ := fine_member hf
    obtain ⟨b', s, out, rest, g1, g2, g3, g4⟩ := slot ht (ih f1) (p ++ [.key (dec k)]) false any
      (by simp [Settled]) (fun _ => rfl) (by simp)
    have e1 : (p ++ [Part.key (dec k)]).reverse = Part.key (dec k) :: p.reverse := by simp
    rw [e1] at g2 g3 g4
    have hq := out_quoted (o := o) hk (.key k0 :: p.reverse) true any trivial
    have hc : extractStep o { xst (.key k0 :: p.reverse) true any with keyLiteral := quoted k } (ch ':') =
        (((xst (.key (dec k) :: p.reverse) false any).tryMatch o).1,
          ((xst (.key (dec k) :: p.reverse) false any).tryMatch o).2) :=
      out_colon (o := o) k0 (quoted k) p.reverse true any
    have := feed_seq hq (feed_cons hc g2)
    refine ⟨b', s, _, rest, dec k, g1, by simpa using this, ?_, ?_⟩
    · simpa [belowMembers, found] using g3
    · simpa [belowMembers, found] using g4
  | @members k v w w1 w2 t w' l r hw hk hw1 hw2 ht hw' hr ih ih' =>
    intro hf p k0 any
    obtain rfl := em hw
    obtain rfl := em hw1
    obtain rfl := em hw2
    obtain rfl := em hw'
    obtain ⟨f1, f2⟩ := fine_member hf
    obtain ⟨b', s, out, rest, g1, g2, g3, g4⟩ := slot ht (ih f1) (p ++ [.key (dec k)]) false any
      (by simp [Settled]) (fun _ => rfl) (by simp)
    have e1 : (p ++ [Part.key (dec k)]).reverse = Part.key (dec k) :: p.reverse := by simp
    rw [e1] at g2 g3 g4
    obtain ⟨b2, s2, out2, rest2, k', k1, k2, k3, k4⟩ := ih' f2 p (dec k)
      (anyOf any (found o.match_ dec (p ++ [.key (dec k)]) v))
    have hq := out_quoted (o := o) hk (.key k0 :: p.reverse) true any trivial
    have hc : extractStep o { xst (.key k0 :: p.reverse) true any with keyLiteral := quoted k } (ch ':') =
        (((xst (.key (dec k) :: p.reverse) false any).tryMatch o).1,
          ((xst (.key (dec k) :: p.reverse) false any).tryMatch o).2) :=
      out_colon (o := o) k0 (quoted k) p.reverse true any
    have := feed_seq hq (feed_cons hc (feed_seq g2 (feed_cons (ended_comma_object g3) k2)))
    refine ⟨b2, s2, _, rest2, k', k1, by simpa using this, ?_, ?_⟩
    · rw [← anyOf_append] at k3
      exact k3
    · show _ = matchesText o any (found o.match_ dec (p ++ [.key (dec k)]) v ++ belowMembers o.match_ dec p l)
      rw [matchesText_append, ← g4, ← k4]
      simp

end Verif.JsonStream
