import Verif.Path.Spec

/-! Helper lemmas for C05-C07. -/
namespace Verif.Path

theorem removePrefix_append (p s : List Char) : removePrefix p (p ++ s) = s := by
  have : p.isPrefixOf (p ++ s) = true := by
    rw [List.isPrefixOf_iff_prefix]; exact List.prefix_append p s
  simp [removePrefix, this]

theorem removePrefix_of_prefix {p s : List Char} (h : p <+: s) : s = p ++ removePrefix p s := by
  obtain ⟨r, rfl⟩ := h
  rw [removePrefix_append]

theorem getPrefix_prefix (before s : List Char) : getPrefix before s <+: s := by
  induction s with
  | nil => simp [getPrefix]
  | cons c s ih =>
    unfold getPrefix
    split
    · exact List.nil_prefix
    · exact List.cons_prefix_cons.2 ⟨rfl, ih⟩

theorem getPrefix_append {c0 : Char} {b' : List Char} {name rest : List Char} (h : c0 ∉ name) :
    getPrefix (c0 :: b') (name ++ rest) = name ++ getPrefix (c0 :: b') rest := by
  induction name with
  | nil => rfl
  | cons c name ih =>
    simp only [List.mem_cons, not_or] at h
    have hf : (c0 :: b').isPrefixOf (c :: (name ++ rest)) = false := by
      simp [List.isPrefixOf, h.1]
    rw [List.cons_append]
    simp only [getPrefix, hf, Bool.false_eq_true, if_false, List.cons_append]
    rw [ih h.2]

theorem getPrefix_singleton_not_mem (q : Char) (s : List Char) : q ∉ getPrefix [q] s := by
  induction s with
  | nil => simp [getPrefix]
  | cons c s ih =>
    unfold getPrefix
    split
    · simp
    · rename_i h
      simp only [List.isPrefixOf, Bool.and_true, beq_iff_eq] at h
      simp only [List.mem_cons, not_or]
      exact ⟨h, ih⟩

/-- A spelled path starts with a dot or an explode. -/
theorem Spells.start {t : Text} {p : List Action} {s : List Char} (h : Spells t p s) :
    s = [] ∨ (∃ r, s = '.' :: r) ∨ ∃ r, s = '[' :: ':' :: ']' :: r := by
  cases h with
  | nil => exact .inl rfl
  | cons h1 h2 =>
    right
    cases h1 with
    | keys => exact .inl ⟨_, rfl⟩
    | values => exact .inl ⟨_, rfl⟩
    | explode => exact .inr ⟨_, rfl⟩
    | dot _ => exact .inl ⟨_, rfl⟩
    | quoted _ _ _ => exact .inl ⟨_, rfl⟩

theorem no_clash {P name rest : List Char} (hP : '(' ∈ P) (h1 : '.' ∉ P) (h2 : '[' ∉ P)
    (hn : ∀ c ∈ name, c ≠ '(') (hr : rest = [] ∨ (∃ r, rest = '.' :: r) ∨
      ∃ r, rest = '[' :: ':' :: ']' :: r) : ¬ P <+: name ++ rest := by
  induction name generalizing P with
  | nil =>
    intro h
    cases P with
    | nil => simp at hP
    | cons d P =>
      simp only [List.mem_cons, not_or] at h1 h2
      rcases hr with rfl | ⟨r, rfl⟩ | ⟨r, rfl⟩
      · simp at h
      · exact h1.1 (List.cons_prefix_cons.1 h).1.symm
      · exact h2.1 (List.cons_prefix_cons.1 h).1.symm
  | cons c name ih =>
    intro h
    cases P with
    | nil => simp at hP
    | cons d P =>
      obtain ⟨rfl, h'⟩ := List.cons_prefix_cons.1 h
      simp only [List.mem_cons, not_or] at h1 h2 hP
      have hd : d ≠ '(' := hn d (by simp)
      refine ih ?_ h1.2 h2.2 (fun c hc => hn c (by simp [hc])) h'
      rcases hP with hP | hP
      · exact absurd hP.symm hd
      · exact hP

theorem not_prefix {p s : List Char} (h : ¬ p <+: s) : p.isPrefixOf s = false := by
  cases hb : p.isPrefixOf s with
  | false => rfl
  | true => exact absurd (List.isPrefixOf_iff_prefix.1 hb) h

theorem is_prefix (p s : List Char) : p.isPrefixOf (p ++ s) = true := by
  rw [List.isPrefixOf_iff_prefix]; exact List.prefix_append p s

/-- The parser recognises the first spelling of a concatenation of spellings. -/
theorem parseOne_complete {t : Text} (ht : TextLaws t) {a : Action} {w : List Char}
    (hw : Spelling t a w) {p : List Action} {rest : List Char} (hr : Spells t p rest) :
    parseOne t (w ++ rest) = .ok a rest := by
  cases hw with
  | keys =>
    have h : parseKeys (sGetKeys ++ rest) = .ok .dictGetKeys rest := by
      simp [parseKeys, is_prefix, removePrefix_append]
    have e : ['.', 'g', 'e', 't', '_', 'k', 'e', 'y', 's', '(', ')'] ++ rest =
        sGetKeys ++ rest := rfl
    rw [e]
    simp only [parseOne, h]
  | values =>
    have h0 : parseKeys (sGetValues ++ rest) = .notApplicable := by
      simp [parseKeys, sGetKeys, sGetValues, List.isPrefixOf]
    have h : parseValues (sGetValues ++ rest) = .ok .dictGetValues rest := by
      simp [parseValues, is_prefix, removePrefix_append]
    have e : ['.', 'g', 'e', 't', '_', 'v', 'a', 'l', 'u', 'e', 's', '(', ')'] ++ rest =
        sGetValues ++ rest := rfl
    rw [e]
    simp only [parseOne, h0, h]
  | explode =>
    have h0 : parseKeys (sExplode ++ rest) = .notApplicable := by
      simp [parseKeys, sGetKeys, sExplode, List.isPrefixOf]
    have h1 : parseValues (sExplode ++ rest) = .notApplicable := by
      simp [parseValues, sGetValues, sExplode, List.isPrefixOf]
    have h : parseExplode (sExplode ++ rest) = .ok .listExplode rest := by
      simp [parseExplode, is_prefix, removePrefix_append]
    have e : ['[', ':', ']'] ++ rest = sExplode ++ rest := rfl
    rw [e]
    simp only [parseOne, h0, h1, h]
  | @dot name hid =>
    have hch := ht.ident_chars name hid
    have hpar : ∀ c ∈ name, c ≠ '(' := fun c hc => (hch c hc).2.2
    have hdot : '.' ∉ name := fun hm => (hch _ hm).1 rfl
    have hbr : '[' ∉ name := fun hm => (hch _ hm).2.1 rfl
    have hs := hr.start
    have key : ∀ P : List Char, '(' ∈ P → '.' ∉ P → '[' ∉ P →
        ('.' :: P).isPrefixOf (('.' :: name) ++ rest) = false := by
      intro P hp1 hp2 hp3
      apply not_prefix
      intro hpre
      rw [List.cons_append] at hpre
      exact no_clash hp1 hp2 hp3 hpar hs (List.cons_prefix_cons.1 hpre).2
    have h0 : parseKeys (('.' :: name) ++ rest) = .notApplicable := by
      have := key ['g', 'e', 't', '_', 'k', 'e', 'y', 's', '(', ')'] (by decide) (by decide)
        (by decide)
      simp only [parseKeys, sGetKeys, this, Bool.false_eq_true, if_false]
    have h1 : parseValues (('.' :: name) ++ rest) = .notApplicable := by
      have := key ['g', 'e', 't', '_', 'v', 'a', 'l', 'u', 'e', 's', '(', ')'] (by decide)
        (by decide) (by decide)
      simp only [parseValues, sGetValues, this, Bool.false_eq_true, if_false]
    have h2 : parseExplode (('.' :: name) ++ rest) = .notApplicable := by
      simp [parseExplode, sExplode, List.isPrefixOf]
    have h3 : parseGetAttr t (('.' :: name) ++ rest) = .ok (.getAttr name) rest := by
      have hg := key ['g', 'e', 't', '_', 'a', 't', 't', 'r', '('] (by decide) (by decide)
        (by decide)
      have hname : (if (getPrefix sExplode (name ++ rest)).length <
          (getPrefix ['.'] (name ++ rest)).length then getPrefix sExplode (name ++ rest)
          else getPrefix ['.'] (name ++ rest)) = name := by
        rw [sExplode, getPrefix_append hbr, getPrefix_append hdot]
        rcases hs with rfl | ⟨r, rfl⟩ | ⟨r, rfl⟩
        · simp [getPrefix]
        · have e1 : getPrefix ['.'] ('.' :: r) = [] := by simp [getPrefix, List.isPrefixOf]
          rw [e1]
          have : ¬ (name ++ getPrefix ['[', ':', ']'] ('.' :: r)).length <
              (name ++ ([] : List Char)).length := by simp only [List.length_append]; simp
          rw [if_neg this]; simp
        · have e1 : getPrefix ['[', ':', ']'] ('[' :: ':' :: ']' :: r) = [] := by
            simp [getPrefix, List.isPrefixOf]
          have e2 : getPrefix ['.'] ('[' :: ':' :: ']' :: r) =
              '[' :: getPrefix ['.'] (':' :: ']' :: r) := by
            simp [getPrefix, List.isPrefixOf]
          rw [e1, e2]
          simp
      have hne := ht.ident_ne_nil name hid
      unfold parseGetAttr
      simp only [sGetAttr, hg, Bool.false_eq_true, if_false]
      show (let upToExplode := getPrefix sExplode (name ++ rest)
            let upToDot := getPrefix ['.'] (name ++ rest)
            let name' := if upToExplode.length < upToDot.length then upToExplode else upToDot
            if name' = [] then Parsed.failed
            else if t.isIdent name' then
              .ok (.getAttr name') (removePrefix ('.' :: name') (('.' :: name) ++ rest))
            else .failed) = _
      simp only [hname, hne, if_false, hid, if_true, removePrefix_append]
    simp only [parseOne, h0, h1, h2, h3]
  | @quoted name b q hq hb hdec =>
    have e : (['.', 'g', 'e', 't', '_', 'a', 't', 't', 'r', '(', q] ++ b ++ [q, ')']) ++ rest =
        sGetAttr ++ (q :: (b ++ ([q, ')'] ++ rest))) := by
      simp [sGetAttr]
    have h0 : parseKeys (sGetAttr ++ (q :: (b ++ ([q, ')'] ++ rest)))) = .notApplicable := by
      simp [parseKeys, sGetKeys, sGetAttr, List.isPrefixOf]
    have h1 : parseValues (sGetAttr ++ (q :: (b ++ ([q, ')'] ++ rest)))) = .notApplicable := by
      simp [parseValues, sGetValues, sGetAttr, List.isPrefixOf]
    have h2 : parseExplode (sGetAttr ++ (q :: (b ++ ([q, ')'] ++ rest)))) = .notApplicable := by
      simp [parseExplode, sExplode, sGetAttr, List.isPrefixOf]
    have hpre : getPrefix [q] (b ++ ([q, ')'] ++ rest)) = b := by
      rw [getPrefix_append hb]
      simp [getPrefix, List.isPrefixOf]
    have h3 : parseGetAttr t (sGetAttr ++ (q :: (b ++ ([q, ')'] ++ rest)))) =
        .ok (.getAttr name) rest := by
      unfold parseGetAttr
      simp only [is_prefix, if_true, removePrefix_append, hq, hpre, hdec]
    rw [e]
    simp only [parseOne, h0, h1, h2, h3]

theorem parsed_match {r r' : Parsed} {a : Action} {rest : List Char}
    (h : (match r with | .notApplicable => r' | x => x) = .ok a rest) :
    r = .ok a rest ∨ (r = .notApplicable ∧ r' = .ok a rest) := by
  cases r with
  | notApplicable => exact .inr ⟨rfl, h⟩
  | failed => cases h
  | ok a' r0 => exact .inl h

theorem parseGetAttr_sound {t : Text} {s rest : List Char} {a : Action}
    (h : parseGetAttr t s = .ok a rest) : ∃ w, Spelling t a w ∧ s = w ++ rest := by
  unfold parseGetAttr at h
  split at h
  · rename_i hp
    have hs := removePrefix_of_prefix (List.isPrefixOf_iff_prefix.1 hp)
    split at h
    · cases h
    · rename_i q r hqr
      rw [hqr] at hs
      split at h
      · rename_i hq
        simp only at h
        split at h
        · cases h
        · rename_i name hdec
          have hr := removePrefix_of_prefix (getPrefix_prefix [q] r)
          split at h
          · rename_i hp2
            have hr2 := removePrefix_of_prefix (List.isPrefixOf_iff_prefix.1 hp2)
            cases h
            refine ⟨_, .quoted hq (getPrefix_singleton_not_mem q r) hdec, ?_⟩
            rw [hs]
            rw [hr2] at hr
            conv => lhs; rw [hr]
            simp [sGetAttr]
          · cases h
      · cases h
  · split at h
    · rename_i w _
      simp only at h
      generalize hn : (if (getPrefix sExplode w).length < (getPrefix ['.'] w).length
        then getPrefix sExplode w else getPrefix ['.'] w) = name at h
      have hpre : name <+: w := by
        rw [← hn]; split
        · exact getPrefix_prefix _ _
        · exact getPrefix_prefix _ _
      split at h
      · cases h
      · split at h
        · rename_i hid
          cases h
          refine ⟨_, .dot hid, ?_⟩
          exact removePrefix_of_prefix (List.cons_prefix_cons.2 ⟨rfl, hpre⟩)
        · cases h
    · cases h

theorem parseOne_sound {t : Text} {s rest : List Char} {a : Action}
    (h : parseOne t s = .ok a rest) : ∃ w, Spelling t a w ∧ s = w ++ rest := by
  unfold parseOne at h
  rcases parsed_match h with h | ⟨_, h⟩
  · unfold parseKeys at h
    split at h
    · rename_i hp
      cases h
      exact ⟨_, .keys, removePrefix_of_prefix (List.isPrefixOf_iff_prefix.1 hp)⟩
    · cases h
  · rcases parsed_match h with h | ⟨_, h⟩
    · unfold parseValues at h
      split at h
      · rename_i hp
        cases h
        exact ⟨_, .values, removePrefix_of_prefix (List.isPrefixOf_iff_prefix.1 hp)⟩
      · cases h
    · rcases parsed_match h with h | ⟨_, h⟩
      · unfold parseExplode at h
        split at h
        · rename_i hp
          cases h
          exact ⟨_, .explode, removePrefix_of_prefix (List.isPrefixOf_iff_prefix.1 hp)⟩
        · cases h
      · rcases parsed_match h with h | ⟨_, h⟩
        · exact parseGetAttr_sound h
        · cases h

theorem Spelling.length_pos {t : Text} {a : Action} {w : List Char} (h : Spelling t a w) :
    0 < w.length := by
  cases h <;> simp

theorem parseLoop_complete {t : Text} (ht : TextLaws t) {p : List Action} {s : List Char}
    (h : Spells t p s) : ∀ n acc, s.length ≤ n → parseLoop t n s acc = .ok (acc ++ p) := by
  induction h with
  | nil => intro n acc _; cases n <;> simp [parseLoop]
  | @cons a p w s' h1 h2 ih =>
    intro n acc hn
    have hpos := h1.length_pos
    cases n with
    | zero => simp at hn; simp [hn.1] at hpos
    | succ n =>
      have hone := parseOne_complete ht h1 h2
      cases hw : w ++ s' with
      | nil => simp at hw; simp [hw.1] at hpos
      | cons c s0 =>
        rw [hw] at hone
        simp only [parseLoop, hone]
        rw [ih n (acc ++ [a]) (by simp at hn; omega)]
        simp

theorem parseLoop_sound {t : Text} (n : Nat) (s : List Char) (acc : List Action)
    (p : List Action) (h : parseLoop t n s acc = .ok p) : ∃ p', p = acc ++ p' ∧ Spells t p' s := by
  induction n generalizing s acc with
  | zero =>
    cases s with
    | nil => simp [parseLoop] at h; exact ⟨[], by simp [h], .nil⟩
    | cons c s => simp [parseLoop] at h
  | succ n ih =>
    cases s with
    | nil => simp [parseLoop] at h; exact ⟨[], by simp [h], .nil⟩
    | cons c s =>
      simp only [parseLoop] at h
      split at h
      · rename_i a rest hone
        obtain ⟨w, hw, hs⟩ := parseOne_sound hone
        obtain ⟨p', hp', hsp⟩ := ih rest _ h
        exact ⟨a :: p', by simp [hp'], hs ▸ .cons hw hsp⟩
      · cases h

theorem parseLoop_terminates {t : Text} (n : Nat) (s : List Char) (acc : List Action)
    (hn : s.length ≤ n) : parseLoop t n s acc ≠ .stillRunning := by
  induction n generalizing s acc with
  | zero =>
    cases s with
    | nil => simp [parseLoop]
    | cons c s => simp at hn
  | succ n ih =>
    cases s with
    | nil => simp [parseLoop]
    | cons c s =>
      simp only [parseLoop]
      split
      · rename_i a rest hone
        obtain ⟨w, hw, hs⟩ := parseOne_sound hone
        have hpos := hw.length_pos
        have hl := congrArg List.length hs
        simp only [List.length_append, List.length_cons] at hl hn
        exact ih rest _ (by omega)
      · simp

/-! ### Enumeration -/

section
variable {S : Type} (kind : S → Kind S)

theorem mem_children (hd : AttrsDistinct kind) (s s' : S) (a : Action) :
    (a, s') ∈ children kind s ↔ subschema kind s a = some s' := by
  unfold children
  cases hk : kind s with
  | leaf => cases a <;> simp [subschema, hk]
  | list i => cases a <;> simp [subschema, hk, eq_comm]
  | dict k v => cases a <;> simp [subschema, hk, eq_comm]
  | entity attrs =>
    have hn := hd s attrs hk
    cases a with
    | dictGetKeys => simp [subschema, hk]
    | dictGetValues => simp [subschema, hk]
    | listExplode => simp [subschema, hk]
    | getAttr name =>
      simp only [subschema, hk]
      have key : ∀ l : List (List Char × S), (l.map (·.1)).Nodup →
          ((Action.getAttr name, s') ∈ (l.map fun p => (Action.getAttr p.1, p.2)) ↔
            (l.find? fun p => p.1 = name).map (·.2) = some s') := by
        intro l
        induction l with
        | nil => simp
        | cons q l ih =>
          intro hn
          simp only [List.map_cons, List.nodup_cons] at hn
          by_cases hq : q.1 = name
          · subst hq
            simp only [List.map_cons, List.mem_cons, Prod.mk.injEq, Action.getAttr.injEq, true_and,
              decide_true, List.find?_cons_of_pos, Option.map_some, Option.some.injEq]
            constructor
            · rintro (h | h)
              · exact h.symm
              · simp only [List.mem_map, Prod.mk.injEq, Action.getAttr.injEq] at h
                obtain ⟨x, hx, h1, _⟩ := h
                exact absurd (List.mem_map.2 ⟨x, hx, h1⟩) hn.1
            · exact fun h => .inl h.symm
          · rw [List.find?_cons_of_neg (by simpa using hq)]
            rw [← ih hn.2]
            simp only [List.map_cons, List.mem_cons, Prod.mk.injEq, Action.getAttr.injEq]
            constructor
            · rintro (⟨h, _⟩ | h)
              · exact absurd h.symm hq
              · exact h
            · exact .inr
      exact key attrs hn

theorem children_nodup (hd : AttrsDistinct kind) (s : S) :
    ((children kind s).map (·.1)).Nodup := by
  unfold children
  cases hk : kind s with
  | leaf => simp
  | list i => simp
  | dict k v => simp
  | entity attrs =>
    have hn := hd s attrs hk
    simp only [List.map_map]
    have : (attrs.map ((fun x : Action × S => x.1) ∘ fun p => (Action.getAttr p.1, p.2))) =
        (attrs.map (·.1)).map Action.getAttr := by simp [List.map_map]
    rw [this]
    have inj : ∀ l : List (List Char), l.Nodup → (l.map Action.getAttr).Nodup := by
      intro l
      induction l with
      | nil => simp
      | cons x l ih =>
        intro h
        simp only [List.nodup_cons] at h
        simp only [List.map_cons, List.nodup_cons]
        refine ⟨?_, ih h.2⟩
        intro hm
        obtain ⟨y, hy, hxy⟩ := List.mem_map.1 hm
        cases hxy
        exact h.1 hy
    exact inj _ hn

/-- Valid walks: the path and the schema it ends in. -/
inductive Walk : S → List Action → S → Prop
  | nil {s} : Walk s [] s
  | snoc {s s' s'' p a} : Walk s p s' → subschema kind s' a = some s'' → Walk s (p ++ [a]) s''

theorem Walk.cons {kind : S → Kind S} {s s' s'' : S} {a : Action} {p : List Action}
    (h : subschema kind s a = some s') (w : Walk kind s' p s'') : Walk kind s (a :: p) s'' := by
  induction w with
  | nil => exact .snoc (p := []) .nil h
  | snoc w h2 ih => exact .snoc (p := a :: _) ih h2

theorem valid_of_walk {kind : S → Kind S} {s s' : S} {p : List Action} (w : Walk kind s p s') :
    ∀ q, Valid kind s' q → Valid kind s (p ++ q) := by
  induction w with
  | nil => intro q h; exact h
  | snoc w h2 ih =>
    intro q h
    rw [List.append_assoc]
    exact ih _ (.cons h2 h)

theorem walk_iff_valid {s : S} {p : List Action} : (∃ s', Walk kind s p s') ↔ Valid kind s p := by
  constructor
  · rintro ⟨s', w⟩
    simpa using valid_of_walk w [] .nil
  · intro h
    induction h with
    | nil => exact ⟨_, .nil⟩
    | cons h1 _ ih => obtain ⟨s', w⟩ := ih; exact ⟨s', .cons h1 w⟩

theorem walk_functional {kind : S → Kind S} {s s1 s2 : S} {p : List Action}
    (h1 : Walk kind s p s1) (h2 : Walk kind s p s2) : s1 = s2 := by
  induction h1 generalizing s2 with
  | nil =>
    generalize hp : ([] : List Action) = p at h2
    cases h2 with
    | nil => rfl
    | snoc => simp at hp
  | @snoc s' s'' p a w hs ih =>
    generalize hp : p ++ [a] = q at h2
    cases h2 with
    | nil => simp at hp
    | @snoc t' _ p' a' w' hs' =>
      have := List.append_inj' hp rfl
      obtain ⟨rfl, h⟩ := this
      cases h
      have := ih w'
      subst this
      rw [hs] at hs'
      exact Option.some.inj hs'

/-- The level of depth `d`: exactly the valid walks of that length, each once. -/
structure IsLevel (s : S) (d : Nat) (level : List (List Action × S)) : Prop where
  mem : ∀ p s', (p, s') ∈ level ↔ Walk kind s p s' ∧ p.length = d
  nodup : (level.map (·.1)).Nodup

theorem isLevel_zero (s : S) : IsLevel kind s 0 [([], s)] := by
  refine ⟨?_, by simp⟩
  intro p s'
  simp only [List.mem_singleton, Prod.mk.injEq, List.length_eq_zero_iff]
  constructor
  · rintro ⟨rfl, rfl⟩; exact ⟨.nil, rfl⟩
  · rintro ⟨w, rfl⟩; exact ⟨rfl, (walk_functional w .nil)⟩

def nextLevel (level : List (List Action × S)) : List (List Action × S) :=
  level.flatMap fun x => (children kind x.2).map fun c => (x.1 ++ [c.1], c.2)

theorem isLevel_succ (hd : AttrsDistinct kind) {s : S} {d : Nat} {level : List (List Action × S)}
    (h : IsLevel kind s d level) : IsLevel kind s (d + 1) (nextLevel kind level) := by
  refine ⟨?_, ?_⟩
  · intro p s'
    simp only [nextLevel, List.mem_flatMap, List.mem_map, Prod.mk.injEq]
    constructor
    · rintro ⟨⟨p0, s0⟩, hx, ⟨a, s1⟩, hc, rfl, rfl⟩
      obtain ⟨w, hl⟩ := (h.mem _ _).1 hx
      exact ⟨.snoc w ((mem_children kind hd _ _ _).1 hc), by simp [hl]⟩
    · rintro ⟨w, hl⟩
      cases w with
      | nil => simp at hl
      | @snoc t' _ p0 a w hs =>
        simp at hl
        exact ⟨(p0, t'), (h.mem _ _).2 ⟨w, hl⟩, (a, s'), (mem_children kind hd _ _ _).2 hs, rfl, rfl⟩
  · have hn := h.nodup
    have gen : ∀ l : List (List Action × S), (l.map (·.1)).Nodup →
        ((nextLevel kind l).map (·.1)).Nodup := by
      intro l
      induction l with
      | nil => simp [nextLevel]
      | cons x l ih =>
        intro hn
        simp only [List.map_cons, List.nodup_cons] at hn
        simp only [nextLevel, List.flatMap_cons, List.map_append] at ih ⊢
        rw [List.nodup_append]
        refine ⟨?_, ih hn.2, ?_⟩
        · have hc := children_nodup kind hd x.2
          simp only [List.map_map]
          have key : ∀ cs : List (Action × S), (cs.map (·.1)).Nodup →
              (cs.map ((fun y : List Action × S => y.1) ∘ fun c => (x.1 ++ [c.1], c.2))).Nodup := by
            intro cs
            induction cs with
            | nil => simp
            | cons c cs ih' =>
              intro hcs
              simp only [List.map_cons, List.nodup_cons] at hcs
              simp only [List.map_cons, List.nodup_cons, Function.comp]
              refine ⟨?_, ih' hcs.2⟩
              intro hm
              obtain ⟨y, hy, hxy⟩ := List.mem_map.1 hm
              simp at hxy
              exact hcs.1 (List.mem_map.2 ⟨y, hy, hxy⟩)
          exact key _ hc
        · intro p hp q hq hpq
          subst hpq
          simp only [List.map_map, List.mem_map, Function.comp, List.mem_flatMap] at hp hq
          obtain ⟨c, _, rfl⟩ := hp
          obtain ⟨y, ⟨z, hz, c', _, rfl⟩, hpy⟩ := hq
          have := List.append_inj' hpy rfl
          exact hn.1 (List.mem_map.2 ⟨z, hz, this.1⟩)
    exact gen level hn

end

end Verif.Path
