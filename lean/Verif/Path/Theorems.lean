import Verif.Path.Lemmas

/-!
C05-C07: data slice paths
(`/repo/py/koladata/ext/storage/data_slice_path.py`).
-/
namespace Verif.Path

/-! ### C05 -/

/-- C05: parsing the string form of a path gives the path back, for every list of
actions and every attribute name. -/
theorem C05_parse_toStr {t : Text} (ht : TextLaws t) (p : List Action) :
    parse t (toStr t p) = .ok p := by
  have hs : ∀ a : Action, Spelling t a (a.toStr t) := by
    intro a
    cases a with
    | dictGetKeys => exact .keys
    | dictGetValues => exact .values
    | listExplode => exact .explode
    | getAttr name =>
      simp only [Action.toStr]
      split
      · rename_i h; exact .dot h
      · have := Spelling.quoted (t := t) (name := name) (b := t.enc name) (q := '"') (.inl rfl)
          (fun hm => ht.enc_chars name _ hm rfl) (ht.dec_enc name)
        simpa [sGetAttr] using this
  have hsp : Spells t p (toStr t p) := by
    induction p with
    | nil => exact .nil
    | cons a p ih => exact .cons (hs a) ih
  have := parseLoop_complete ht hsp (toStr t p).length [] (Nat.le_refl _)
  simpa [parse] using this

/-- C05: different paths have different string forms. -/
theorem C05_toStr_injective {t : Text} (ht : TextLaws t) {p q : List Action}
    (h : toStr t p = toStr t q) : p = q := by
  have hp := C05_parse_toStr ht p
  have hq := C05_parse_toStr ht q
  rw [h, hq] at hp
  cases hp; rfl

/-! ### C06 -/

/-- C06: the parser accepts exactly the concatenations of the documented
spellings, and returns the path that was spelled. -/
theorem C06_accepts_exactly_the_grammar {t : Text} (ht : TextLaws t) (s : List Char)
    (p : List Action) : parse t s = .ok p ↔ Spells t p s := by
  constructor
  · intro h
    obtain ⟨p', hp, hs⟩ := parseLoop_sound s.length s [] p h
    simp at hp; subst hp; exact hs
  · intro h
    simpa [parse] using parseLoop_complete ht h s.length [] (Nat.le_refl _)

/-- C06: no string spells two paths. -/
theorem C06_unambiguous {t : Text} (ht : TextLaws t) {s : List Char} {p q : List Action}
    (hp : Spells t p s) (hq : Spells t q s) : p = q := by
  have h1 := (C06_accepts_exactly_the_grammar ht s p).2 hp
  have h2 := (C06_accepts_exactly_the_grammar ht s q).2 hq
  rw [h1] at h2; cases h2; rfl

/-- C06: on every string the parse loop ends, with a path or with `ValueError`;
the latter exactly if the string spells no path. -/
theorem C06_parse_terminates {t : Text} (ht : TextLaws t) (s : List Char) :
    (∃ p, parse t s = .ok p) ∨ (parse t s = .valueError ∧ ¬ ∃ p, Spells t p s) := by
  cases h : parse t s with
  | ok p => exact .inl ⟨p, rfl⟩
  | stillRunning => exact absurd h (parseLoop_terminates s.length s [] (Nat.le_refl _))
  | valueError =>
    refine .inr ⟨rfl, ?_⟩
    rintro ⟨p, hp⟩
    rw [(C06_accepts_exactly_the_grammar ht s p).2 hp] at h
    cases h

/-- C06: more loop iterations do not change the outcome. -/
theorem C06_parse_stable {t : Text} (ht : TextLaws t) (s : List Char) (n : Nat)
    (hn : s.length ≤ n) (p : List Action) : parseLoop t n s [] = .ok p ↔ parse t s = .ok p := by
  rw [C06_accepts_exactly_the_grammar ht]
  constructor
  · intro h
    obtain ⟨p', hp, hs⟩ := parseLoop_sound n s [] p h
    simp at hp; subst hp; exact hs
  · intro h; simpa using parseLoop_complete ht h n [] hn

/-- C06: the canonical string of an accepted string parses to the same path. -/
theorem C06_canonical {t : Text} (ht : TextLaws t) {s : List Char} {p : List Action}
    (_h : parse t s = .ok p) : parse t (toStr t p) = .ok p := C05_parse_toStr ht p

/-! ### C07 -/

section
variable {S : Type} (kind : S → Kind S)

private theorem within_iff (maxDepth : Int) (d : Int) :
    within maxDepth d = true ↔ (maxDepth = -1 ∨ d ≤ maxDepth) := by
  unfold within
  split
  · simp_all
  · simp_all

private theorem gen_nil (maxDepth : Int) (n : Nat) (d : Int) :
    genLoop kind maxDepth n [] d = ([], true) := by
  cases n <;> simp [genLoop]

private theorem valid_prefix {s : S} {p q : List Action} (h : Valid kind s (p ++ q)) :
    Valid kind s p := by
  induction p generalizing s with
  | nil => exact .nil
  | cons a p ih =>
    cases h with
    | cons h1 h2 => exact .cons h1 (ih h2)

private theorem gen_spec (hd : AttrsDistinct kind) (s : S) (maxDepth : Int) (n : Nat) (d : Nat)
    (level : List (List Action × S)) (hl : IsLevel kind s d level) :
    (∀ p, p ∈ (genLoop kind maxDepth n level d).1 ↔
      Valid kind s p ∧ d ≤ p.length ∧ p.length < d + n ∧
        (maxDepth = -1 ∨ (p.length : Int) ≤ maxDepth)) ∧
    (genLoop kind maxDepth n level d).1.Nodup ∧
    (genLoop kind maxDepth n level d).1.Pairwise (fun p q => p.length ≤ q.length) ∧
    ((genLoop kind maxDepth n level d).2 = true ↔
      ¬ ∃ p, Valid kind s p ∧ p.length = d + n ∧ (maxDepth = -1 ∨ (p.length : Int) ≤ maxDepth)) := by
  induction n generalizing d level with
  | zero =>
    refine ⟨?_, by simp [genLoop], by simp [genLoop], ?_⟩
    · intro p; simp only [genLoop, List.not_mem_nil, false_iff]
      rintro ⟨_, h1, h2, _⟩; omega
    · simp only [genLoop, Bool.or_eq_true, Bool.not_eq_true']
      constructor
      · rintro (h | h) ⟨p, hv, hlen, hw⟩
        · obtain ⟨s', w⟩ := (walk_iff_valid kind).2 hv
          have hm := (hl.mem p s').2 ⟨w, by omega⟩
          cases level <;> simp_all
        · have : within maxDepth (d : Int) = true := (within_iff _ _).2 (by
            rcases hw with hw | hw
            · exact .inl hw
            · right; omega)
          rw [this] at h; cases h
      · intro h
        cases hlev : level with
        | nil => simp
        | cons x l =>
          right
          refine Bool.eq_false_iff.2 fun hw => h ?_
          rw [within_iff] at hw
          obtain ⟨w, hlen⟩ := (hl.mem x.1 x.2).1 (by simp [hlev])
          refine ⟨x.1, (walk_iff_valid kind).1 ⟨_, w⟩, by omega, ?_⟩
          rw [hlen]; exact hw
  | succ n ih =>
    unfold genLoop
    by_cases hstop : (level.isEmpty || !(within maxDepth (d : Int))) = true
    · simp only [hstop, if_true]
      have hnone : ¬ ∃ p, Valid kind s p ∧ d ≤ p.length ∧
          (maxDepth = -1 ∨ (p.length : Int) ≤ maxDepth) := by
        rintro ⟨p, hv, hlen, hw⟩
        simp only [Bool.or_eq_true, Bool.not_eq_true'] at hstop
        rcases hstop with h | h
        · have hv' : Valid kind s (p.take d) := by
            apply valid_prefix (q := p.drop d); rwa [List.take_append_drop]
          obtain ⟨s', w⟩ := (walk_iff_valid kind).2 hv'
          have hm := (hl.mem _ s').2 ⟨w, by simp; omega⟩
          cases level <;> simp_all
        · have : within maxDepth (d : Int) = true := (within_iff _ _).2 (by
            rcases hw with hw | hw
            · exact .inl hw
            · right; omega)
          rw [this] at h; cases h
      refine ⟨?_, by simp, by simp, ?_⟩
      · intro p
        simp only [List.not_mem_nil, false_iff]
        rintro ⟨hv, h1, _, h3⟩
        exact hnone ⟨p, hv, h1, h3⟩
      · simp only [true_iff]
        rintro ⟨p, hv, h1, h3⟩
        exact hnone ⟨p, hv, by omega, h3⟩
    · simp only [hstop, Bool.false_eq_true, if_false]
      have hwd : within maxDepth (d : Int) = true := by
        simp only [Bool.or_eq_true, Bool.not_eq_true', not_or, Bool.not_eq_false] at hstop
        exact hstop.2
      have hwd' := (within_iff _ _).1 hwd
      -- the current level
      have hcur : ∀ p, p ∈ level.map (·.1) ↔ Valid kind s p ∧ p.length = d := by
        intro p
        constructor
        · intro hm
          obtain ⟨x, hx, rfl⟩ := List.mem_map.1 hm
          obtain ⟨w, hlen⟩ := (hl.mem x.1 x.2).1 hx
          exact ⟨(walk_iff_valid kind).1 ⟨_, w⟩, hlen⟩
        · rintro ⟨hv, hlen⟩
          obtain ⟨s', w⟩ := (walk_iff_valid kind).2 hv
          exact List.mem_map.2 ⟨(p, s'), (hl.mem p s').2 ⟨w, hlen⟩, rfl⟩
      have hcurSorted : (level.map (·.1)).Pairwise (fun p q => p.length ≤ q.length) := by
        rw [List.pairwise_iff_forall_sublist]
        intro a b hab
        have ha := (hcur a).1 (hab.subset (by simp))
        have hb := (hcur b).1 (hab.subset (by simp))
        omega
      by_cases hw1 : within maxDepth ((d : Int) + 1) = true
      · simp only [hw1, if_true]
        have hn := isLevel_succ kind hd hl
        obtain ⟨i1, i2, i3, i4⟩ := ih (d + 1) _ hn
        have e : ((d + 1 : Nat) : Int) = (d : Int) + 1 := by omega
        rw [e] at i1 i2 i3 i4
        simp only [nextLevel] at i1 i2 i3 i4
        refine ⟨?_, ?_, ?_, ?_⟩
        · intro p
          simp only [List.mem_append, i1, hcur]
          constructor
          · rintro (⟨hv, hlen⟩ | ⟨hv, h1, h2, h3⟩)
            · refine ⟨hv, by omega, by omega, ?_⟩
              rcases hwd' with h | h
              · exact .inl h
              · right; omega
            · exact ⟨hv, by omega, by omega, h3⟩
          · rintro ⟨hv, h1, h2, h3⟩
            by_cases hlen : p.length = d
            · exact .inl ⟨hv, hlen⟩
            · exact .inr ⟨hv, by omega, by omega, h3⟩
        · rw [List.nodup_append]
          refine ⟨hl.nodup, i2, ?_⟩
          intro a ha b hb hab
          subst hab
          have h1 := (hcur a).1 ha
          have h2 := (i1 a).1 hb
          omega
        · rw [List.pairwise_append]
          refine ⟨hcurSorted, i3, ?_⟩
          intro a ha b hb
          have h1 := (hcur a).1 ha
          have h2 := (i1 b).1 hb
          omega
        · rw [i4]
          have : d + 1 + n = d + (n + 1) := by omega
          rw [this]
      · have hw1' : ¬ (maxDepth = -1 ∨ (d : Int) + 1 ≤ maxDepth) := by
          rw [← within_iff]; exact hw1
        simp only [hw1, Bool.false_eq_true, if_false]
        rw [gen_nil]
        refine ⟨?_, ?_, ?_, ?_⟩
        · intro p
          simp only [List.append_nil, hcur]
          constructor
          · rintro ⟨hv, hlen⟩
            refine ⟨hv, by omega, by omega, ?_⟩
            rcases hwd' with h | h
            · exact .inl h
            · right; omega
          · rintro ⟨hv, h1, h2, h3⟩
            refine ⟨hv, ?_⟩
            rcases h3 with h3 | h3
            · exact absurd (.inl h3) hw1'
            · refine Classical.byContradiction fun hne => hw1' (.inr ?_)
              omega
        · simpa using hl.nodup
        · simpa using hcurSorted
        · simp only [true_iff]
          rintro ⟨p, hv, hlen, h3⟩
          apply hw1'
          rcases h3 with h3 | h3
          · exact .inl h3
          · right; omega

/-- C07: with a maximum depth the generator ends after at most `maxDepth + 1`
levels, and it yields exactly the valid paths of at most that depth, each once,
by non-decreasing depth. `max_depth < -1` yields nothing. -/
theorem C07_bounded_enumeration_exact (hd : AttrsDistinct kind) (s : S) (maxDepth : Int)
    (hmax : maxDepth ≠ -1) (n : Nat) (hn : maxDepth < n) :
    (generate kind s maxDepth n).2 = true ∧
    (∀ p, p ∈ (generate kind s maxDepth n).1 ↔ Valid kind s p ∧ (p.length : Int) ≤ maxDepth) ∧
    (generate kind s maxDepth n).1.Nodup ∧
    (generate kind s maxDepth n).1.Pairwise (fun p q => p.length ≤ q.length) := by
  obtain ⟨h1, h2, h3, h4⟩ := gen_spec kind hd s maxDepth n 0 _ (isLevel_zero kind s)
  simp only [Int.ofNat_zero, Nat.zero_add, hmax, false_or] at h1 h2 h3 h4
  refine ⟨?_, ?_, h2, h3⟩
  · refine h4.2 ?_
    rintro ⟨p, _, hl, hle⟩
    omega
  · intro p
    unfold generate
    rw [h1 p]
    constructor
    · rintro ⟨hv, _, _, hle⟩; exact ⟨hv, hle⟩
    · rintro ⟨hv, hle⟩; exact ⟨hv, by omega, by omega, hle⟩

/-- C07: without a maximum depth, every valid path is yielded after finitely many
levels, nothing else is, each once, by non-decreasing depth; and the generator
ends exactly if the schema has only finitely long valid paths. -/
theorem C07_unbounded_enumeration_exact (hd : AttrsDistinct kind) (s : S) :
    (∀ p, Valid kind s p ↔ ∃ n, p ∈ (generate kind s (-1) n).1) ∧
    (∀ n, (generate kind s (-1) n).1.Nodup) ∧
    (∀ n, (generate kind s (-1) n).1.Pairwise (fun p q => p.length ≤ q.length)) ∧
    ((∃ n, (generate kind s (-1) n).2 = true) ↔ ∃ b, ∀ p, Valid kind s p → p.length < b) := by
  have key := fun n => gen_spec kind hd s (-1) n 0 _ (isLevel_zero kind s)
  simp only [Int.ofNat_zero, Nat.zero_add, true_or, and_true, Nat.zero_le, true_and] at key
  refine ⟨?_, fun n => (key n).2.1, fun n => (key n).2.2.1, ?_⟩
  · intro p
    constructor
    · intro h; exact ⟨p.length + 1, ((key _).1 p).2 ⟨h, by omega⟩⟩
    · rintro ⟨n, h⟩; exact (((key n).1 p).1 h).1
  · constructor
    · rintro ⟨n, h⟩
      refine ⟨n, fun p hv => ?_⟩
      refine Classical.byContradiction fun hlt => ((key n).2.2.2.1 h) ?_
      refine ⟨p.take n, ?_, by simp; omega⟩
      apply valid_prefix kind (q := p.drop n)
      rwa [List.take_append_drop]
    · rintro ⟨b, hb⟩
      refine ⟨b, (key b).2.2.2.2 ?_⟩
      rintro ⟨p, hv, hl⟩
      have := hb p hv
      omega

end

/-! ### Concrete cases -/

/-- ASCII identifiers and a toy base64: hexadecimal-like doubling that keeps the
laws. -/
def exampleText : Text where
  isIdent s := match s with
    | [] => false
    | c :: r => (c.isAlpha || c == '_') && r.all fun d => d.isAlphanum || d == '_'
  enc s := s.flatMap fun c => if c = '"' then ['b', 'q'] else ['a', c]
  dec := decAux
where
  decAux : List Char → Option (List Char)
    | [] => some []
    | 'b' :: 'q' :: r => (decAux r).map ('"' :: ·)
    | 'a' :: c :: r => if c = '"' then none else (decAux r).map (c :: ·)
    | _ => none

theorem exampleText_laws : TextLaws exampleText where
  ident_ne_nil := by
    intro s h hs
    subst hs
    simp [exampleText] at h
  ident_chars := by
    intro s h c hc
    have key : ∀ d : Char, (d.isAlphanum || d == '_') = true → d ≠ '.' ∧ d ≠ '[' ∧ d ≠ '(' := by
      intro d hd
      refine ⟨?_, ?_, ?_⟩ <;> rintro rfl <;> revert hd <;> decide
    cases s with
    | nil => cases hc
    | cons x r =>
      simp only [exampleText, Bool.and_eq_true, List.all_eq_true] at h
      rcases List.mem_cons.1 hc with rfl | hc
      · apply key
        have := h.1
        simp only [Char.isAlphanum, Bool.or_eq_true] at this ⊢
        rcases this with h | h
        · exact .inl (.inl h)
        · exact .inr h
      · exact key c (h.2 c hc)
  dec_enc := by
    intro s
    show exampleText.decAux (exampleText.enc s) = some s
    induction s with
    | nil => simp [exampleText, exampleText.decAux]
    | cons c s ih =>
      simp only [exampleText, List.flatMap_cons] at ih ⊢
      by_cases h : c = '"'
      · subst h; simp [exampleText.decAux, ih]
      · simp [h, exampleText.decAux, ih]
  enc_chars := by
    intro s c hc
    simp only [exampleText, List.mem_flatMap] at hc
    obtain ⟨d, _, hd⟩ := hc
    by_cases h : d = '"'
    · subst h; simp at hd; rcases hd with rfl | rfl <;> decide
    · simp [h] at hd; rcases hd with rfl | rfl
      · decide
      · exact h

/-- A path with an attribute called `get_keys` and one that needs quoting. -/
example : parse exampleText (toStr exampleText
    [.getAttr ['g', 'e', 't', '_', 'k', 'e', 'y', 's'], .dictGetKeys, .listExplode,
     .getAttr ['a', '.', 'b', '"', '['], .getAttr []]) =
    .ok [.getAttr ['g', 'e', 't', '_', 'k', 'e', 'y', 's'], .dictGetKeys, .listExplode,
     .getAttr ['a', '.', 'b', '"', '['], .getAttr []] := by decide

example : parse exampleText ['.', 'x', '(', ')'] = .valueError := by decide

/-- A recursive schema: 0 = entity with a list `xs` of itself and an int `n`. -/
def exampleKind : Nat → Kind Nat
  | 0 => .entity [(['n'], 2), (['x', 's'], 1)]
  | 1 => .list 0
  | _ => .leaf

example : AttrsDistinct exampleKind := by
  intro s attrs h
  match s with
  | 0 => simp [exampleKind] at h; subst h; decide
  | 1 => simp [exampleKind] at h
  | n + 2 => simp [exampleKind] at h

example : (generate exampleKind 0 3 4) =
    ([[], [.getAttr ['n']], [.getAttr ['x', 's']],
      [.getAttr ['x', 's'], .listExplode],
      [.getAttr ['x', 's'], .listExplode, .getAttr ['n']],
      [.getAttr ['x', 's'], .listExplode, .getAttr ['x', 's']]], true) := by decide

end Verif.Path
