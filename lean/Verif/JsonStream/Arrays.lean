/-
The processors that take arrays apart.
-/
import Verif.JsonStream.Lines

namespace Verif.JsonStream

/-! ### Explode -/

def est (d : Int) (top hc : Bool) : Explode :=
  { depth := d, top := top, hasContents := hc, inString := false, inEscape := false }

def estr (d : Int) (top hc : Bool) : Explode :=
  { depth := d, top := top, hasContents := hc, inString := true, inEscape := false }

/-- Text is written in top-level arrays. -/
def shown (b : Bool) (t : Bytes) : Bytes := if b then t else []

theorem shown_append (b : Bool) (x y : Bytes) : shown b x ++ shown b y = shown b (x ++ y) := by
  cases b <;> simp [shown]

theorem explode_body {b : Bytes} (h : IsBody b) (d : Int) (top hc : Bool) :
    feed explodeStep (estr d top hc) b = (estr d top hc, shown top b) := by
  have pl : ∀ c, Plain c → explodeStep (estr d top hc) c = (estr d top hc, shown top [c]) := by
    intro c hc
    cases top <;> simp [explodeStep, estr, hc.2.1, hc.2.2, Explode.emit, shown]
  have es : ∀ c, feed explodeStep (estr d top hc) [ch '\\', c] = (estr d top hc, shown top [ch '\\', c]) := by
    intro c
    cases top <;> simp [feed, explodeStep, estr, Explode.emit, shown]
  induction h with
  | nil => cases top <;> rfl
  | plain hc _ ih =>
    have := feed_cons (pl _ hc) ih
    rwa [shown_append] at this
  | @simple c _ _ _ _ ih =>
    have := feed_seq (es c) ih
    rwa [shown_append] at this
  | unicode hh _ ih =>
    obtain ⟨a, b, c, e, _, _, _, _, rfl, ha, hb, hc, he, _⟩ := hh
    have := feed_seq (es (ch 'u')) (feed_cons (pl _ (hexDigit_plain ha)) (feed_cons (pl _ (hexDigit_plain hb))
      (feed_cons (pl _ (hexDigit_plain hc)) (feed_cons (pl _ (hexDigit_plain he)) ih))))
    simp only [shown_append] at this
    exact this

theorem explode_quoted {b : Bytes} (h : IsBody b) (d : Int) (top hc : Bool) :
    feed explodeStep (est d top hc) (quoted b) = (est d top true, shown top (quoted b)) := by
  have h1 : explodeStep (est d top hc) (ch '"') = (estr d top true, shown top [ch '"']) := by
    cases top <;> simp [explodeStep, est, estr, Explode.emit, shown]
  have h2 : explodeStep (estr d top true) (ch '"') = (est d top true, shown top [ch '"']) := by
    cases top <;> simp [explodeStep, est, estr, Explode.emit, shown]
  have := feed_cons h1 (feed_seq (explode_body h d top true) (feed_one h2))
  simp only [shown_append] at this
  exact this

theorem explode_other {c : Nat} (h : Other c) (d : Int) (top hc : Bool) :
    explodeStep (est d top hc) c = (est d top true, shown top [c]) := by
  have hs := h.isSpace
  unfold Other at h
  simp only [explodeStep, est]
  simp [hs, h, Explode.emit, shown]

theorem explode_others {t : Bytes} (h : ∀ c ∈ t, Other c) (d : Int) (top : Bool) :
    feed explodeStep (est d top true) t = (est d top true, shown top t) := by
  induction t with
  | nil => cases top <;> rfl
  | cons c t ih =>
    have := feed_cons (explode_other (h c List.mem_cons_self) d top true)
      (ih fun x hx => h x (List.mem_cons_of_mem _ hx))
    simp only [shown_append] at this
    exact this

theorem explode_scalar {t : Bytes} (h : Scalar t) (d : Int) (top hc : Bool) :
    feed explodeStep (est d top hc) t = (est d top true, shown top t) := by
  cases t with
  | nil => exact absurd rfl h.1
  | cons c t =>
    have := feed_cons (explode_other (h.2 c List.mem_cons_self) d top hc)
      (explode_others (fun x hx => h.2 x (List.mem_cons_of_mem _ hx)) d top)
    simp only [shown_append] at this
    exact this

theorem space_ne {c : Nat} (h : Space c) : c ≠ ch '[' ∧ c ≠ ch ']' ∧ c ≠ ch '{' ∧ c ≠ ch '}' ∧ c ≠ ch ',' ∧
    c ≠ ch '"' ∧ c ≠ ch ':' := by
  unfold Space at h
  omega

theorem explode_space {c : Nat} (h : Space c) (d : Int) (top hc : Bool) :
    explodeStep (est d top hc) c = (est d top hc, []) := by
  have hs := space_ne h
  simp [explodeStep, est, h.isSpace, hs]

theorem explode_spaces {w : Bytes} (h : Spaces w) (d : Int) (top hc : Bool) :
    feed explodeStep (est d top hc) w = (est d top hc, []) := by
  induction w with
  | nil => rfl
  | cons c w ih =>
    exact feed_cons (explode_space (h c List.mem_cons_self) d top hc)
      (ih fun x hx => h x (List.mem_cons_of_mem _ hx))

theorem explode_sep (c : Nat) (h : c = ch ',' ∨ c = ch ':') (d : Int) (top hc : Bool)
    (hd : 2 ≤ d ∨ top = false) :
    explodeStep (est d top hc) c = (est d top true, shown top [c]) := by
  have hn : ¬ (top = true ∧ d = 1) := by
    rcases hd with h | rfl
    · rintro ⟨_, rfl⟩
      omega
    · simp
  rcases h with rfl | rfl <;> cases top <;> simp [explodeStep, est, isSpace, Explode.emit, shown] at hn ⊢ <;> simp [hn]

theorem explode_open (c : Nat) (h : c = ch '[' ∨ c = ch '{') (d : Int) (top hc : Bool) (hd : 1 ≤ d) :
    explodeStep (est d top hc) c = (est (d + 1) top true, shown top [c]) := by
  have : ¬ d = 0 := by omega
  have h1 : ¬ d + 1 = 1 := by omega
  rcases h with rfl | rfl <;> cases top <;> simp [explodeStep, est, Explode.emit, shown, this, h1]

theorem explode_close (c : Nat) (h : c = ch ']' ∨ c = ch '}') (d : Int) (top hc : Bool) (hd : 1 ≤ d) :
    explodeStep (est (d + 1) top hc) c = (est d top hc, shown top [c]) := by
  have : ¬ d = 0 := by omega
  have h1 : ¬ d + 1 = 1 := by omega
  rcases h with rfl | rfl <;> cases top <;> simp [explodeStep, est, Explode.emit, shown, this, h1]

/-- Nodes that are written as they are. -/
def ExplodeAt (d : Int) (top : Bool) : Node → Prop
  | .value _ => 1 ≤ d
  | _ => 1 ≤ d ∧ (2 ≤ d ∨ top = false)

theorem explode_node {n : Node} {t : Bytes} (h : Text Spaces n t) :
    ∀ d top hc, ExplodeAt d top n →
      feed explodeStep (est d top hc) t = (est d top true, shown top (compactNode n)) := by
  induction h with
  | null => exact fun d top hc _ => explode_scalar scalar_null d top hc
  | bool b => exact fun d top hc _ => explode_scalar (scalar_bool b) d top hc
  | num h => exact fun d top hc _ => explode_scalar h.scalar d top hc
  | str h => exact fun d top hc _ => explode_quoted h d top hc
  | arrNil hw =>
    intro d top hc hd
    have := feed_cons (explode_open (ch '[') (.inl rfl) d top hc hd)
      (feed_seq (explode_spaces hw (d + 1) top true)
        (feed_one (explode_close (ch ']') (.inl rfl) d top true hd)))
    simp only [List.nil_append, shown_append] at this
    exact this
  | arr ht ih =>
    intro d top hc hd
    change 1 ≤ d at hd
    have := feed_cons (explode_open (ch '[') (.inl rfl) d top hc hd)
      (feed_seq (ih (d + 1) top true ⟨by omega, .inl (by omega)⟩)
        (feed_one (explode_close (ch ']') (.inl rfl) d top true hd)))
    simp only [shown_append] at this
    exact this
  | objNil hw =>
    intro d top hc hd
    have := feed_cons (explode_open (ch '{') (.inr rfl) d top hc hd)
      (feed_seq (explode_spaces hw (d + 1) top true)
        (feed_one (explode_close (ch '}') (.inr rfl) d top true hd)))
    simp only [List.nil_append, shown_append] at this
    exact this
  | obj ht ih =>
    intro d top hc hd
    change 1 ≤ d at hd
    have := feed_cons (explode_open (ch '{') (.inr rfl) d top hc hd)
      (feed_seq (ih (d + 1) top true ⟨by omega, .inl (by omega)⟩)
        (feed_one (explode_close (ch '}') (.inr rfl) d top true hd)))
    simp only [shown_append] at this
    exact this
  | elem hw _ hw' ih =>
    intro d top hc hd
    have := feed_seq (explode_spaces hw d top hc)
      (feed_seq (ih d top hc hd.1) (explode_spaces hw' d top true))
    simpa [compactNode, compactElems] using this
  | elems hw _ hw' hr ih ih' =>
    intro d top hc hd
    have := feed_seq (explode_spaces hw d top hc)
      (feed_seq (ih d top hc hd.1) (feed_seq (explode_spaces hw' d top true)
        (feed_cons (explode_sep (ch ',') (.inl rfl) d top true hd.2) (ih' d top true hd))))
    simpa [compactNode, compactElems_cons _ (elems_ne_nil hr _ rfl), shown_append] using this
  | member hw hk hw1 hw2 _ hw' ih =>
    intro d top hc hd
    have := feed_seq (explode_spaces hw d top hc) (feed_seq (explode_quoted hk d top hc)
      (feed_seq (explode_spaces hw1 d top true)
        (feed_cons (explode_sep (ch ':') (.inr rfl) d top true hd.2)
          (feed_seq (explode_spaces hw2 d top true)
            (feed_seq (ih d top true hd.1) (explode_spaces hw' d top true))))))
    simpa [compactNode, compactMembers, shown_append] using this
  | members hw hk hw1 hw2 _ hw' hr ih ih' =>
    intro d top hc hd
    have := feed_seq (explode_spaces hw d top hc) (feed_seq (explode_quoted hk d top hc)
      (feed_seq (explode_spaces hw1 d top true)
        (feed_cons (explode_sep (ch ':') (.inr rfl) d top true hd.2)
          (feed_seq (explode_spaces hw2 d top true)
            (feed_seq (ih d top true hd.1) (feed_seq (explode_spaces hw' d top true)
              (feed_cons (explode_sep (ch ',') (.inl rfl) d top true hd.2) (ih' d top true hd))))))))
    simpa [compactNode, compactMembers_cons _ _ (members_ne_nil hr _ rfl), shown_append] using this

/-- The elements of a top-level array. -/
theorem explode_elems {n : Node} {t : Bytes} (h : Text Spaces n t) :
    ∀ l, n = .elems l → ∀ hc, ∃ o, feed explodeStep (est 1 true hc) t = (est 1 true true, o) ∧
      o ++ [nl] = lines l := by
  induction h with
  | elem hw hv hw' _ =>
    intro l e hc
    cases e
    have := feed_seq (explode_spaces hw 1 true hc)
      (feed_seq (explode_node hv 1 true hc (by simp [ExplodeAt])) (explode_spaces hw' 1 true true))
    exact ⟨_, this, by simp [shown, lines, compactNode]⟩
  | elems hw hv hw' hr _ ih =>
    intro l e hc
    cases e
    obtain ⟨o, h1, h2⟩ := ih _ rfl true
    have hs : explodeStep (est 1 true true) (ch ',') = (est 1 true true, [nl]) := by
      simp [explodeStep, est]
    have := feed_seq (explode_spaces hw 1 true hc)
      (feed_seq (explode_node hv 1 true hc (by simp [ExplodeAt])) (feed_seq (explode_spaces hw' 1 true true)
        (feed_cons hs h1)))
    refine ⟨_, this, ?_⟩
    rw [lines_cons, ← h2]
    simp [shown, compactNode]
  | _ => intro l e; cases e

theorem explode_top {v : Json} {t : Bytes} (h : Text Spaces (.value v) t) (hc : Bool) :
    ∃ hc', feed explodeStep (est 0 false hc) t = (est 0 false hc', lines (elements v)) := by
  have ho : explodeStep (est 0 false hc) (ch '[') = (est 1 true false, []) := by simp [explodeStep, est]
  have hob : explodeStep (est 0 false hc) (ch '{') = (est 1 false true, []) := by
    simp [explodeStep, est, Explode.emit]
  have hcl : ∀ b, explodeStep (est 1 true b) (ch ']') = (est 0 false false, if b then [nl] else []) := by
    intro b
    cases b <;> simp [explodeStep, est]
  have hcb : explodeStep (est 1 false true) (ch '}') = (est 0 false true, []) := by
    simp [explodeStep, est, Explode.emit]
  cases h with
  | null => exact ⟨_, explode_scalar scalar_null _ _ _⟩
  | bool b => exact ⟨_, explode_scalar (scalar_bool b) _ _ _⟩
  | num h => exact ⟨_, explode_scalar h.scalar _ _ _⟩
  | str h => exact ⟨_, explode_quoted h _ _ _⟩
  | arrNil hw =>
    exact ⟨_, feed_cons ho (feed_seq (explode_spaces hw 1 true false) (feed_one (hcl false)))⟩
  | arr h =>
    obtain ⟨o, h1, h2⟩ := explode_elems h _ rfl false
    have := feed_cons ho (feed_seq h1 (feed_one (hcl true)))
    refine ⟨false, this.trans ?_⟩
    simp only [elements, ← h2, if_true, List.nil_append]
  | objNil hw =>
    exact ⟨_, feed_cons hob (feed_seq (explode_spaces hw 1 false true) (feed_one hcb))⟩
  | obj h =>
    exact ⟨_, feed_cons hob (feed_seq (explode_node h 1 false true ⟨by omega, .inr rfl⟩) (feed_one hcb))⟩

theorem explode_doc {l : List Json} {t : Bytes} (h : Doc l t) : ∀ hc,
    (feed explodeStep (est 0 false hc) t).2 = lines (l.flatMap elements) := by
  have hl : ∀ a b : List Json, lines (a ++ b) = lines a ++ lines b := fun a b => by simp [lines]
  induction h with
  | nil hw => intro hc; rw [explode_spaces hw]; rfl
  | last hw hv =>
    intro hc
    obtain ⟨hc', h⟩ := explode_top hv hc
    rw [feed_seq (explode_spaces hw 0 false hc) h]
    simp
  | cons hw hv hs hr ih =>
    intro hc
    obtain ⟨hc', h⟩ := explode_top hv hc
    have h3 := ih hc'
    rcases hf : feed explodeStep (est 0 false hc') _ with ⟨s', o⟩
    rw [hf] at h3
    rw [feed_seq (explode_spaces hw 0 false hc) (feed_seq h (feed_cons (explode_space hs 0 false hc') hf))]
    simp only at h3
    simp [hl, h3]

theorem explode_follows :
    Follows explodeProcessor (fun (s : Explode) x => (feed explodeStep s x).2) := by
  have := loop_follows (σ := Explode)
    { depth := 0, top := false, hasContents := false, inString := false, inEscape := false }
    explodeStep (fun _ => [])
  simp only [List.append_nil] at this
  exact this

/-! ### The n-th element -/

variable (n : Int)

def nst (d : Int) (top : Bool) (i : Int) (hc em : Bool) : Nth :=
  { depth := d, top := top, index := i, hasContents := hc, emitted := em, inString := false, inEscape := false }

def nstr (d : Int) (top : Bool) (i : Int) (hc em : Bool) : Nth :=
  { depth := d, top := top, index := i, hasContents := hc, emitted := em, inString := true, inEscape := false }

def nshown (top : Bool) (i : Int) (t : Bytes) : Bytes := if top = true ∧ i = n then t else []

theorem nshown_append (top : Bool) (i : Int) (x y : Bytes) :
    nshown n top i x ++ nshown n top i y = nshown n top i (x ++ y) := by
  unfold nshown
  split <;> simp

theorem nshown_nil (top : Bool) (i : Int) : nshown n top i [] = [] := by
  unfold nshown
  split <;> rfl

theorem nth_body {b : Bytes} (h : IsBody b) (d : Int) (top : Bool) (i : Int) (hc em : Bool) :
    feed (nthStep n) (nstr d top i hc em) b = (nstr d top i hc em, nshown n top i b) := by
  have pl : ∀ c, Plain c → nthStep n (nstr d top i hc em) c = (nstr d top i hc em, nshown n top i [c]) := by
    intro c hc
    simp [nthStep, nstr, hc.2.1, hc.2.2, Nth.emit, nshown] <;> rfl
  have es : ∀ c, feed (nthStep n) (nstr d top i hc em) [ch '\\', c] =
      (nstr d top i hc em, nshown n top i [ch '\\', c]) := by
    intro c
    have h1 : nthStep n (nstr d top i hc em) (ch '\\') =
        ({ nstr d top i hc em with inEscape := true }, nshown n top i [ch '\\']) := by
      simp [nthStep, nstr, Nth.emit, nshown] <;> rfl
    have h2 : nthStep n { nstr d top i hc em with inEscape := true } c =
        (nstr d top i hc em, nshown n top i [c]) := by
      simp [nthStep, nstr, Nth.emit, nshown] <;> rfl
    have := feed_cons h1 (feed_one h2)
    rwa [nshown_append] at this
  induction h with
  | nil => rw [nshown_nil]; rfl
  | plain hc _ ih =>
    have := feed_cons (pl _ hc) ih
    rwa [nshown_append] at this
  | @simple c _ _ _ _ ih =>
    have := feed_seq (es c) ih
    rwa [nshown_append] at this
  | unicode hh _ ih =>
    obtain ⟨a, b, c, e, _, _, _, _, rfl, ha, hb, hc, he, _⟩ := hh
    have := feed_seq (es (ch 'u')) (feed_cons (pl _ (hexDigit_plain ha)) (feed_cons (pl _ (hexDigit_plain hb))
      (feed_cons (pl _ (hexDigit_plain hc)) (feed_cons (pl _ (hexDigit_plain he)) ih))))
    simp only [nshown_append] at this
    exact this

theorem nth_quoted {b : Bytes} (h : IsBody b) (d : Int) (top : Bool) (i : Int) (hc em : Bool) (hd : d ≠ 0) :
    feed (nthStep n) (nst d top i hc em) (quoted b) = (nst d top i true em, nshown n top i (quoted b)) := by
  have h1 : nthStep n (nst d top i hc em) (ch '"') = (nstr d top i true em, nshown n top i [ch '"']) := by
    simp [nthStep, nst, nstr, Nth.emit, nshown, hd]
  have h2 : nthStep n (nstr d top i true em) (ch '"') = (nst d top i true em, nshown n top i [ch '"']) := by
    simp [nthStep, nst, nstr, Nth.emit, nshown] <;> rfl
  have := feed_cons h1 (feed_seq (nth_body n h d top i true em) (feed_one h2))
  simp only [nshown_append] at this
  exact this

/-- Contents are noted in top-level arrays only. -/
theorem nth_other {c : Nat} (h : Other c) (d : Int) (top : Bool) (i : Int) (hc em : Bool) (hd : d ≠ 0) :
    nthStep n (nst d top i hc em) c = (nst d top i (hc || top) em, nshown n top i [c]) := by
  have hs := h.isSpace
  unfold Other at h
  simp only [nthStep, nst]
  cases top <;> simp [hs, h, Nth.emit, nshown, hd]

theorem nth_scalar {t : Bytes} (h : Scalar t) (d : Int) (top : Bool) (i : Int) (hc em : Bool) (hd : d ≠ 0) :
    feed (nthStep n) (nst d top i hc em) t = (nst d top i (hc || top) em, nshown n top i t) := by
  obtain ⟨hne, ha⟩ := h
  induction t generalizing hc with
  | nil => exact absurd rfl hne
  | cons c t ih =>
    have h1 := nth_other n (ha c List.mem_cons_self) d top i hc em hd
    cases t with
    | nil => exact feed_one h1
    | cons c' t =>
      have := feed_cons h1 (ih (hc || top) (by simp) fun x hx => ha x (List.mem_cons_of_mem _ hx))
      simp only [nshown_append, Bool.or_assoc, Bool.or_self] at this
      exact this

theorem nth_space {c : Nat} (h : Space c) (d : Int) (top : Bool) (i : Int) (hc em : Bool) :
    nthStep n (nst d top i hc em) c = (nst d top i hc em, []) := by
  have hs := space_ne h
  simp [nthStep, nst, h.isSpace, hs]

theorem nth_spaces {w : Bytes} (h : Spaces w) (d : Int) (top : Bool) (i : Int) (hc em : Bool) :
    feed (nthStep n) (nst d top i hc em) w = (nst d top i hc em, []) := by
  induction w with
  | nil => rfl
  | cons c w ih =>
    exact feed_cons (nth_space n (h c List.mem_cons_self) d top i hc em)
      (ih fun x hx => h x (List.mem_cons_of_mem _ hx))

theorem nth_sep (c : Nat) (h : c = ch ',' ∨ c = ch ':') (d : Int) (top : Bool) (i : Int) (hc em : Bool)
    (hd : 1 ≤ d) (hd' : 2 ≤ d ∨ top = false) :
    nthStep n (nst d top i hc em) c = (nst d top i (hc || top) em, nshown n top i [c]) := by
  have hn : ¬ (top = true ∧ d = 1) := by
    rcases hd' with h | rfl
    · rintro ⟨_, rfl⟩
      omega
    · simp
  have h0 : ¬ d = 0 := by omega
  rcases h with rfl | rfl <;> cases top <;>
    simp [nthStep, nst, isSpace, Nth.emit, nshown, h0] at hn ⊢ <;> simp [hn]

theorem nth_open (c : Nat) (h : c = ch '[' ∨ c = ch '{') (d : Int) (top : Bool) (i : Int) (hc em : Bool)
    (hd : 1 ≤ d) :
    nthStep n (nst d top i hc em) c = (nst (d + 1) top i true em, nshown n top i [c]) := by
  have : ¬ d = 0 := by omega
  have h1 : ¬ d + 1 = 1 := by omega
  rcases h with rfl | rfl <;> simp [nthStep, nst, Nth.emit, nshown, this, h1] <;> rfl

theorem nth_close (c : Nat) (h : c = ch ']' ∨ c = ch '}') (d : Int) (top : Bool) (i : Int) (hc em : Bool)
    (hd : 1 ≤ d) :
    nthStep n (nst (d + 1) top i hc em) c = (nst d top i hc em, nshown n top i [c]) := by
  have : ¬ d = 0 := by omega
  have h1 : ¬ d + 1 = 1 := by omega
  rcases h with rfl | rfl <;> simp [nthStep, nst, Nth.emit, nshown, this, h1] <;> rfl

theorem nth_node {m : Node} {t : Bytes} (h : Text Spaces m t) :
    ∀ d top i hc em, ExplodeAt d top m → ∃ hc', (top = true → hc' = true) ∧
      feed (nthStep n) (nst d top i hc em) t = (nst d top i hc' em, nshown n top i (compactNode m)) := by
  have sc : ∀ {t}, Scalar t → ∀ d top i hc em, 1 ≤ d → ∃ hc', (top = true → hc' = true) ∧
      feed (nthStep n) (nst d top i hc em) t = (nst d top i hc' em, nshown n top i t) := by
    intro t h d top i hc em hd
    exact ⟨hc || top, by rintro rfl; simp, nth_scalar n h d top i hc em (by omega)⟩
  induction h with
  | null => exact sc scalar_null
  | bool b => exact sc (scalar_bool b)
  | num h => exact sc h.scalar
  | str h =>
    intro d top i hc em hd
    change 1 ≤ d at hd
    exact ⟨true, fun _ => rfl, nth_quoted n h d top i hc em (by omega)⟩
  | arrNil hw =>
    intro d top i hc em hd
    have := feed_cons (nth_open n (ch '[') (.inl rfl) d top i hc em hd)
      (feed_seq (nth_spaces n hw (d + 1) top i true em)
        (feed_one (nth_close n (ch ']') (.inl rfl) d top i true em hd)))
    simp only [List.nil_append, nshown_append] at this
    exact ⟨_, fun _ => rfl, this⟩
  | arr ht ih =>
    intro d top i hc em hd
    change 1 ≤ d at hd
    obtain ⟨hc', h1, h2⟩ := ih (d + 1) top i true em ⟨by omega, .inl (by omega)⟩
    have := feed_cons (nth_open n (ch '[') (.inl rfl) d top i hc em hd)
      (feed_seq h2 (feed_one (nth_close n (ch ']') (.inl rfl) d top i hc' em hd)))
    simp only [nshown_append] at this
    exact ⟨_, h1, this⟩
  | objNil hw =>
    intro d top i hc em hd
    have := feed_cons (nth_open n (ch '{') (.inr rfl) d top i hc em hd)
      (feed_seq (nth_spaces n hw (d + 1) top i true em)
        (feed_one (nth_close n (ch '}') (.inr rfl) d top i true em hd)))
    simp only [List.nil_append, nshown_append] at this
    exact ⟨_, fun _ => rfl, this⟩
  | obj ht ih =>
    intro d top i hc em hd
    change 1 ≤ d at hd
    obtain ⟨hc', h1, h2⟩ := ih (d + 1) top i true em ⟨by omega, .inl (by omega)⟩
    have := feed_cons (nth_open n (ch '{') (.inr rfl) d top i hc em hd)
      (feed_seq h2 (feed_one (nth_close n (ch '}') (.inr rfl) d top i hc' em hd)))
    simp only [nshown_append] at this
    exact ⟨_, h1, this⟩
  | elem hw _ hw' ih =>
    intro d top i hc em hd
    obtain ⟨hc', h1, h2⟩ := ih d top i hc em hd.1
    have := feed_seq (nth_spaces n hw d top i hc em) (feed_seq h2 (nth_spaces n hw' d top i hc' em))
    exact ⟨_, h1, by simpa [compactNode, compactElems] using this⟩
  | elems hw _ hw' hr ih ih' =>
    intro d top i hc em hd
    obtain ⟨hc', h1, h2⟩ := ih d top i hc em hd.1
    obtain ⟨hc2, h3, h4⟩ := ih' d top i (hc' || top) em hd
    have := feed_seq (nth_spaces n hw d top i hc em) (feed_seq h2 (feed_seq (nth_spaces n hw' d top i hc' em)
      (feed_cons (nth_sep n (ch ',') (.inl rfl) d top i hc' em hd.1 hd.2) h4)))
    exact ⟨_, h3, by
      simpa [compactNode, compactElems_cons _ (elems_ne_nil hr _ rfl), nshown_append] using this⟩
  | member hw hk hw1 hw2 _ hw' ih =>
    intro d top i hc em hd
    obtain ⟨hc', h1, h2⟩ := ih d top i (true || top) em hd.1
    have hd1 := hd.1
    have := feed_seq (nth_spaces n hw d top i hc em) (feed_seq (nth_quoted n hk d top i hc em (by omega))
      (feed_seq (nth_spaces n hw1 d top i true em)
        (feed_cons (nth_sep n (ch ':') (.inr rfl) d top i true em hd.1 hd.2)
          (feed_seq (nth_spaces n hw2 d top i (true || top) em)
            (feed_seq h2 (nth_spaces n hw' d top i hc' em))))))
    exact ⟨_, h1, by simpa [compactNode, compactMembers, nshown_append] using this⟩
  | members hw hk hw1 hw2 _ hw' hr ih ih' =>
    intro d top i hc em hd
    obtain ⟨hc', h1, h2⟩ := ih d top i (true || top) em hd.1
    obtain ⟨hc2, h3, h4⟩ := ih' d top i (hc' || top) em hd
    have hd1 := hd.1
    have := feed_seq (nth_spaces n hw d top i hc em) (feed_seq (nth_quoted n hk d top i hc em (by omega))
      (feed_seq (nth_spaces n hw1 d top i true em)
        (feed_cons (nth_sep n (ch ':') (.inr rfl) d top i true em hd.1 hd.2)
          (feed_seq (nth_spaces n hw2 d top i (true || top) em)
            (feed_seq h2 (feed_seq (nth_spaces n hw' d top i hc' em)
              (feed_cons (nth_sep n (ch ',') (.inl rfl) d top i hc' em hd.1 hd.2) h4)))))))
    exact ⟨_, h3, by
      simpa [compactNode, compactMembers_cons _ _ (members_ne_nil hr _ rfl), nshown_append] using this⟩

/-- The line of the elements from index `i` on; `em` if a line is there already. -/
def nthLine (i : Int) (em : Bool) (l : List Json) : Bytes :=
  if n < i then []
  else
    match l[(n - i).toNat]? with
    | some v => compact v ++ [nl]
    | none => if em then [] else nullLine

theorem nth_elems {m : Node} {t : Bytes} (h : Text Spaces m t) :
    ∀ l, m = .elems l → ∀ i hc em, feed (nthStep n) (nst 1 true i hc em) (t ++ [ch ']']) =
      (nst 0 false 0 false false, nthLine n i em l) := by
  induction h with
  | elem hw hv hw' _ =>
    intro l e i hc em
    cases e
    obtain ⟨hc', h1, h2⟩ := nth_node n hv 1 true i hc em (by simp [ExplodeAt])
    cases h1 rfl
    have hcl : nthStep n (nst 1 true i true em) (ch ']') = (nst 0 false 0 false false,
        if i = n then [nl] else if i < n then (if em then [] else nullLine) else []) := by
      by_cases e1 : i = n
      · simp [nthStep, nst, e1, Nth.endValue]
      · by_cases e2 : i < n
        · cases em <;> simp [nthStep, nst, e1, e2, Nth.endValue, Nth.null]
        · simp [nthStep, nst, e1, e2, Nth.endValue]
    have := feed_seq (feed_seq (nth_spaces n hw 1 true i hc em)
      (feed_seq h2 (nth_spaces n hw' 1 true i true em))) (feed_one hcl)
    rw [this]
    unfold nthLine nshown compactNode
    by_cases e1 : i = n
    · have : ¬ n < i := by omega
      subst e1
      simp
    · by_cases e2 : i < n
      · have h3 : ¬ n < i := by omega
        obtain ⟨k, hk⟩ : ∃ k, (n - i).toNat = k + 1 := ⟨(n - i).toNat - 1, by omega⟩
        simp [e1, e2, h3, hk]
      · have h3 : n < i := by omega
        simp [e1, e2, h3]
  | @elems v w t w' l' r hw hv hw' hr _ ih =>
    intro l e i hc em
    cases e
    obtain ⟨hc', h1, h2⟩ := nth_node n hv 1 true i hc em (by simp [ExplodeAt])
    cases h1 rfl
    have hs : nthStep n (nst 1 true i true em) (ch ',') =
        (nst 1 true (i + 1) true (em || decide (i = n)), if i = n then [nl] else []) := by
      by_cases e1 : i = n
      · simp [nthStep, nst, e1]
      · simp [nthStep, nst, e1]
    have := feed_seq (nth_spaces n hw 1 true i hc em)
      (feed_seq h2 (feed_seq (nth_spaces n hw' 1 true i true em)
        (feed_cons hs (ih _ rfl (i + 1) true (em || decide (i = n))))))
    have hassoc : w ++ (t ++ (w' ++ 44 :: r)) ++ [93] = w ++ (t ++ (w' ++ 44 :: (r ++ [93]))) := by simp
    rw [hassoc, this]
    unfold nthLine nshown compactNode
    by_cases e1 : i = n
    · subst e1
      have h3 : i < i + 1 := by omega
      simp [h3]
    · by_cases e2 : i < n
      · have h3 : ¬ n < i := by omega
        have h4 : ¬ n < i + 1 := by omega
        obtain ⟨k, hk⟩ : ∃ k, (n - i).toNat = k + 1 := ⟨(n - i).toNat - 1, by omega⟩
        have hk' : (n - (i + 1)).toNat = k := by omega
        simp [e1, h3, h4, hk, hk']
      · have h3 : n < i := by omega
        have h4 : n < i + 1 := by omega
        simp [e1, h3, h4]
  | _ => intro l e; cases e

theorem nth_arr {l : List Json} {t : Bytes} (h : Text Spaces (.value (.arr l)) t) (hc em : Bool)
    (hp : hc = false ∧ em = false ∨ (∃ k : Nat, n = k ∧ k < l.length)) :
    feed (nthStep n) (nst 0 false 0 hc em) t = (nst 0 false 0 false false, nthLine n 0 em l) := by
  have ho : nthStep n (nst 0 false 0 hc em) (ch '[') = (nst 1 true 0 hc em, []) := by
    simp [nthStep, nst]
  cases h with
  | arrNil hw =>
    rcases hp with ⟨rfl, rfl⟩ | ⟨k, _, hk⟩
    · have hcl : nthStep n (nst 1 true 0 false false) (ch ']') =
          (nst 0 false 0 false false, nthLine n 0 false []) := by
        unfold nthLine
        by_cases e1 : n < 0
        · have h2 : ¬ 0 = n := by omega
          have h3 : ¬ 0 < n := by omega
          simp [nthStep, nst, e1, h2, h3, Nth.endValue]
        · by_cases e2 : n = 0
          · subst e2
            simp [nthStep, nst, Nth.endValue]
          · have h2 : ¬ 0 = n := by omega
            have h3 : 0 < n := by omega
            simp [nthStep, nst, e1, h2, h3, Nth.endValue, Nth.null]
      exact feed_cons ho (feed_seq (nth_spaces n hw 1 true 0 false false) (feed_one hcl))
    · simp at hk
  | arr h => exact feed_cons ho (nth_elems n h _ rfl 0 hc em)

theorem nth_obj {l : List (Bytes × Json)} {t : Bytes} (h : Text Spaces (.value (.obj l)) t) :
    feed (nthStep n) (nst 0 false 0 false false) t = (nst 0 false 0 false false, nullLine) := by
  have hob : nthStep n (nst 0 false 0 false false) (ch '{') = (nst 1 false 0 true true, nullLine) := by
    simp [nthStep, nst, Nth.null, Nth.emit]
  have hcb : ∀ hc, nthStep n (nst 1 false 0 hc true) (ch '}') = (nst 0 false 0 false false, []) := by
    intro hc
    simp [nthStep, nst, Nth.endValue, Nth.emit]
  cases h with
  | objNil hw =>
    exact feed_cons hob (feed_seq (nth_spaces n hw 1 false 0 true true) (feed_one (hcb true)))
  | obj h =>
    obtain ⟨hc', _, h2⟩ := nth_node n h 1 false 0 true true ⟨by omega, .inr rfl⟩
    have := feed_cons hob (feed_seq h2 (feed_one (hcb hc')))
    simpa [nshown] using this

theorem nth_top_others {t : Bytes} (h : ∀ c ∈ t, Other c) (hc : Bool) :
    feed (nthStep n) (nst 0 false 0 hc true) t = (nst 0 false 0 hc true, []) := by
  induction t with
  | nil => rfl
  | cons c t ih =>
    have ho := h c List.mem_cons_self
    have h1 : nthStep n (nst 0 false 0 hc true) c = (nst 0 false 0 hc true, []) := by
      have hs := ho.isSpace
      unfold Other at ho
      simp only [nthStep, nst]
      simp [hs, ho, Nth.null]
    exact feed_cons h1 (ih fun x hx => h x (List.mem_cons_of_mem _ hx))

theorem nth_top_scalar {t : Bytes} (h : Scalar t) :
    feed (nthStep n) (nst 0 false 0 false false) t = (nst 0 false 0 false true, nullLine) := by
  cases t with
  | nil => exact absurd rfl h.1
  | cons c t =>
    have ho := h.2 c List.mem_cons_self
    have h1 : nthStep n (nst 0 false 0 false false) c = (nst 0 false 0 false true, nullLine) := by
      have hs := ho.isSpace
      unfold Other at ho
      simp only [nthStep, nst]
      simp [hs, ho, Nth.null]
    exact feed_cons h1 (nth_top_others n (fun x hx => h.2 x (List.mem_cons_of_mem _ hx)) false)

theorem nth_top_str {b : Bytes} (h : IsBody b) :
    feed (nthStep n) (nst 0 false 0 false false) (quoted b) = (nst 0 false 0 true true, nullLine) := by
  have h1 : nthStep n (nst 0 false 0 false false) (ch '"') = (nstr 0 false 0 true true, nullLine) := by
    simp [nthStep, nst, nstr, Nth.emit, Nth.null]
  have h2 : nthStep n (nstr 0 false 0 true true) (ch '"') = (nst 0 false 0 true true, []) := by
    simp [nthStep, nst, nstr, Nth.emit]
  have := feed_cons h1 (feed_seq (nth_body n h 0 false 0 true true) (feed_one h2))
  simpa [nshown, quoted] using this

/-- Only a value that is not a container leaves something behind. -/
theorem nth_top {v : Json} {t : Bytes} (h : Text Spaces (.value v) t) :
    ∃ hc em, (isContainer v = true → hc = false ∧ em = false) ∧
      feed (nthStep n) (nst 0 false 0 false false) t = (nst 0 false 0 hc em,
        match v with
        | .arr l => nthLine n 0 false l
        | _ => nullLine) := by
  cases v with
  | null => cases h; exact ⟨false, true, by simp [isContainer], nth_top_scalar n scalar_null⟩
  | bool b => cases h; exact ⟨false, true, by simp [isContainer], nth_top_scalar n (scalar_bool b)⟩
  | num t => cases h with
    | num h => exact ⟨false, true, by simp [isContainer], nth_top_scalar n h.scalar⟩
  | str b => cases h with
    | str h => exact ⟨true, true, by simp [isContainer], nth_top_str n h⟩
  | arr l => exact ⟨false, false, by simp, nth_arr n h false false (.inl ⟨rfl, rfl⟩)⟩
  | obj l => exact ⟨false, false, by simp, nth_obj n h⟩

theorem nthLine_eq (k : Nat) (l : List Json) (em : Bool) (h : em = false ∨ k < l.length) :
    nthLine k 0 em l = compact (nthValue k (.arr l)) ++ [nl] := by
  have h0 : ¬ (k : Int) < 0 := by omega
  have h1 : ((k : Int) - 0).toNat = k := by omega
  unfold nthLine nthValue elements
  rw [if_neg h0, h1]
  cases e : l[k]? with
  | some v => rfl
  | none =>
    rcases h with rfl | h
    · rfl
    · rw [List.getElem?_eq_none_iff] at e
      omega

theorem nth_top_nat {v : Json} {t : Bytes} (k : Nat) (h : Text Spaces (.value v) t) (hc em : Bool)
    (hp : hc = false ∧ em = false ∨ k < (elements v).length) :
    ∃ hc' em', (isContainer v = true → hc' = false ∧ em' = false) ∧
      feed (nthStep k) (nst 0 false 0 hc em) t =
        (nst 0 false 0 hc' em', compact (nthValue k v) ++ [nl]) := by
  rcases hp with ⟨rfl, rfl⟩ | hp
  · obtain ⟨hc', em', h1, h2⟩ := nth_top k h
    refine ⟨hc', em', h1, h2.trans ?_⟩
    cases v with
    | arr l => rw [← nthLine_eq k l false (.inl rfl)]
    | _ => rfl
  · cases v with
    | arr l =>
      exact ⟨false, false, fun _ => ⟨rfl, rfl⟩,
        (nth_arr k h hc em (.inr ⟨k, rfl, hp⟩)).trans (by rw [nthLine_eq k l em (.inr hp)])⟩
    | _ => simp [elements] at hp

theorem nth_doc {l : List Json} {t : Bytes} (h : Doc l t) (k : Nat) (ho : NthOk k l) : ∀ hc em,
    (hc = false ∧ em = false ∨ ∀ u l', l = u :: l' → k < (elements u).length) →
    (feed (nthStep k) (nst 0 false 0 hc em) t).2 = lines (l.map (nthValue k)) := by
  induction h with
  | nil hw =>
    intro hc em _
    rw [nth_spaces k hw]
    rfl
  | last hw hv =>
    intro hc em hp
    obtain ⟨hc', em', _, h⟩ := nth_top_nat k hv hc em (hp.imp id fun h => h _ _ rfl)
    rw [feed_seq (nth_spaces k hw 0 false 0 hc em) h]
    simp [lines]
  | @cons w v t c l r hw hv hs hr ih =>
    intro hc em hp
    obtain ⟨hc', em', h1, h⟩ := nth_top_nat k hv hc em (hp.imp id fun h => h _ _ rfl)
    have h3 := ih ho.2 hc' em' (by
      cases e : isContainer v
      · exact .inr (ho.1 e)
      · exact .inl (h1 e))
    rcases hf : feed (nthStep k) (nst 0 false 0 hc' em') r with ⟨s', o⟩
    rw [hf] at h3
    rw [feed_seq (nth_spaces k hw 0 false 0 hc em)
      (feed_seq h (feed_cons (nth_space k hs 0 false 0 hc' em') hf))]
    simp only at h3
    rw [List.map_cons, lines_cons, ← h3]
    simp

/-- Negative indices: nothing for arrays, `null` for objects. -/
theorem nth_doc_negative (hn : n < 0) {l : List Json} {t : Bytes} (h : Doc l t)
    (ho : ∀ v ∈ l, isContainer v = true) :
    (feed (nthStep n) (nst 0 false 0 false false) t).2 =
      l.flatMap fun v => match v with
        | .arr _ => []
        | _ => nullLine := by
  have hl : ∀ l, nthLine n 0 false l = [] := fun l => by simp [nthLine, hn]
  have top : ∀ {v : Json} {t : Bytes}, Text Spaces (.value v) t → isContainer v = true →
      feed (nthStep n) (nst 0 false 0 false false) t = (nst 0 false 0 false false,
        match v with
        | .arr _ => []
        | _ => nullLine) := by
    intro v t h hc
    obtain ⟨a, b, h1, h2⟩ := nth_top n h
    obtain ⟨rfl, rfl⟩ := h1 hc
    rw [h2]
    cases v <;> simp [hl]
  induction h with
  | nil hw => rw [nth_spaces n hw]; rfl
  | last hw hv =>
    rw [feed_seq (nth_spaces n hw 0 false 0 false false) (top hv (ho _ List.mem_cons_self))]
    simp
  | @cons w v t c l r hw hv hs hr ih =>
    have h3 := ih fun v hv => ho v (List.mem_cons_of_mem _ hv)
    rcases hf : feed (nthStep n) (nst 0 false 0 false false) r with ⟨s', o⟩
    rw [hf] at h3
    rw [feed_seq (nth_spaces n hw 0 false 0 false false) (feed_seq (top hv (ho _ List.mem_cons_self))
      (feed_cons (nth_space n hs 0 false 0 false false) hf))]
    simp only at h3
    simp [h3]

theorem nth_follows :
    Follows (nthProcessor n) (fun (s : Nth) x => (feed (nthStep n) s x).2) := by
  have := loop_follows (σ := Nth)
    { depth := 0, top := false, index := 0, hasContents := false, emitted := false,
      inString := false, inEscape := false } (nthStep n) (fun _ => [])
  simp only [List.append_nil] at this
  exact this

end Verif.JsonStream
