import Verif.SchemaHelper.Spec
import Verif.Path.Lemmas
import Verif.Base62.Theorems

/-! Lemmas on names, steps and places. -/

namespace Verif.SchemaHelper

open Verif.Path

/-! ### Encoded ids -/

theorem char_ofNat_toNat {m : Nat} (hm : m < 256) : (Char.ofNat m).toNat = m := by
  have hv : m.isValidChar := Or.inl (by omega)
  unfold Char.ofNat
  rw [dif_pos hv]
  rfl

theorem char_ofNat_inj {m n : Nat} (hm : m < 256) (hn : n < 256) (h : Char.ofNat m = Char.ofNat n) :
    m = n := by
  rw [← char_ofNat_toNat hm, h, char_ofNat_toNat hn]

theorem encodeId_length (id : Id) : (encodeId id).length = 22 := by
  unfold encodeId
  rw [List.length_map, (Verif.Base62.C30_positional id).1]

theorem encodeId_inj {id id' : Id} (h : encodeId id = encodeId id') : id = id' := by
  unfold encodeId at h
  have h1 : Verif.Base62.base62Repr id = Verif.Base62.base62Repr id' := by
    have : Function.Injective fun c : UInt8 => Char.ofNat c.toNat := by
      intro c d hcd
      exact UInt8.toNat_inj.1 (char_ofNat_inj (UInt8.toNat_lt c) (UInt8.toNat_lt d) hcd)
    exact List.map_inj_right this |>.1 h
  rw [← Verif.Base62.C30_round_trip id, h1, Verif.Base62.C30_round_trip]

theorem digits_plain :
    (List.range 62).all (fun k => (Char.ofNat (Verif.Base62.digitChar k).toNat).isAlphanum) = true := by
  decide +kernel

theorem digit_plain {k : Nat} (hk : k < 62) :
    (Char.ofNat (Verif.Base62.digitChar k).toNat).isAlphanum = true :=
  List.all_eq_true.1 digits_plain k (List.mem_range.2 hk)

theorem encodeId_chars (id : Id) : ∀ c ∈ encodeId id, c.isAlphanum = true := by
  intro c hc
  unfold encodeId at hc
  obtain ⟨u, hu, rfl⟩ := List.mem_map.1 hc
  obtain ⟨i, hi, rfl⟩ := List.mem_iff_getElem.1 hu
  have hp := Verif.Base62.C30_positional id
  have := hp.2 i (by rw [hp.1] at hi; exact hi)
  rw [List.getElem?_eq_getElem hi] at this
  rw [Option.some.inj this]
  exact digit_plain (Nat.mod_lt _ (by omega))

/-! ### Names of places -/

theorem dtype_str_inj {d d' : Dtype} (h : d.str = d'.str) : d = d' := by
  revert h
  cases d <;> cases d' <;> first | (intro _; rfl) | decide

theorem dtype_str_plain (d : Dtype) : ':' ∉ d.str := by cases d <;> decide

theorem append_colon_inj {u v s t : List Char} (hs : ':' ∉ s) (ht : ':' ∉ t)
    (h : u ++ ':' :: s = v ++ ':' :: t) : u = v ∧ s = t := by
  rcases List.append_eq_append_iff.1 h with ⟨w, h1, h2⟩ | ⟨w, h1, h2⟩
  · cases w with
    | nil => simp at h1 h2; exact ⟨h1.symm, h2⟩
    | cons c w =>
      simp only [List.cons_append, List.cons.injEq] at h2
      exact absurd (by rw [h2.2]; simp) hs
  · cases w with
    | nil => simp at h1 h2; exact ⟨h1, h2.symm⟩
    | cons c w =>
      simp only [List.cons_append, List.cons.injEq] at h2
      exact absurd (by rw [h2.2]; simp) ht

/-- The operations differ. -/
theorem operation_inj {t : Text} (ht : TextLaws t) {a a' : Action}
    (h : subschemaOperation t a = subschemaOperation t a') : a = a' := by
  have paren : ∀ n, t.isIdent n = true → '(' ∉ n := fun n hn hm => (ht.ident_chars n hn _ hm).2.2 rfl
  have fixed : ∀ n (s : List Char), '(' ∈ s → s.take 6 ≠ ['g', 'e', 't', '_', 'a', 't'] →
      subschemaOperation t (.getAttr n) ≠ '.' :: s := by
    intro n s h1 h2 h
    simp only [subschemaOperation, Action.toStr] at h
    split at h
    · rename_i hn
      simp only [List.cons.injEq, true_and] at h
      subst h
      exact paren _ hn h1
    · simp only [sGetAttr, List.cons_append, List.cons.injEq, true_and] at h
      subst h
      simp at h2
  cases a with
  | dictGetKeys =>
    cases a' with
    | dictGetKeys => rfl
    | dictGetValues => exact absurd h (by simp only [subschemaOperation]; decide)
    | listExplode => exact absurd h (by simp only [subschemaOperation]; decide)
    | getAttr n => exact absurd h.symm (fixed n
        ['g', 'e', 't', '_', 'k', 'e', 'y', '_', 's', 'c', 'h', 'e', 'm', 'a', '(', ')'] (by decide) (by decide))
  | dictGetValues =>
    cases a' with
    | dictGetKeys => exact absurd h (by simp only [subschemaOperation]; decide)
    | dictGetValues => rfl
    | listExplode => exact absurd h (by simp only [subschemaOperation]; decide)
    | getAttr n => exact absurd h.symm (fixed n
        ['g', 'e', 't', '_', 'v', 'a', 'l', 'u', 'e', '_', 's', 'c', 'h', 'e', 'm', 'a', '(', ')'] (by decide) (by decide))
  | listExplode =>
    cases a' with
    | dictGetKeys => exact absurd h (by simp only [subschemaOperation]; decide)
    | dictGetValues => exact absurd h (by simp only [subschemaOperation]; decide)
    | listExplode => rfl
    | getAttr n => exact absurd h.symm (fixed n
        ['g', 'e', 't', '_', 'i', 't', 'e', 'm', '_', 's', 'c', 'h', 'e', 'm', 'a', '(', ')'] (by decide) (by decide))
  | getAttr n =>
    cases a' with
    | dictGetKeys => exact absurd h (fixed n
        ['g', 'e', 't', '_', 'k', 'e', 'y', '_', 's', 'c', 'h', 'e', 'm', 'a', '(', ')'] (by decide) (by decide))
    | dictGetValues => exact absurd h (fixed n
        ['g', 'e', 't', '_', 'v', 'a', 'l', 'u', 'e', '_', 's', 'c', 'h', 'e', 'm', 'a', '(', ')'] (by decide) (by decide))
    | listExplode => exact absurd h (fixed n
        ['g', 'e', 't', '_', 'i', 't', 'e', 'm', '_', 's', 'c', 'h', 'e', 'm', 'a', '(', ')'] (by decide) (by decide))
    | getAttr m =>
      simp only [subschemaOperation, Action.toStr] at h
      by_cases hn : t.isIdent n = true <;> by_cases hm : t.isIdent m = true
      · rw [if_pos hn, if_pos hm] at h
        simp only [List.cons.injEq, true_and] at h
        rw [h]
      · rw [if_pos hn, if_neg hm] at h
        simp only [sGetAttr, List.cons_append, List.cons.injEq, true_and] at h
        exact absurd (by rw [h]; simp) (paren n hn)
      · rw [if_neg hn, if_pos hm] at h
        simp only [sGetAttr, List.cons_append, List.cons.injEq, true_and] at h
        exact absurd (by rw [← h]; simp) (paren m hm)
      · rw [if_neg hn, if_neg hm] at h
        have h1 := List.append_inj_left' h rfl
        have h2 := List.append_cancel_left h1
        have h3 := ht.dec_enc n
        rw [h2, ht.dec_enc m] at h3
        rw [Option.some.inj h3]

theorem operation_dot (t : Text) (a : Action) : ∃ s, subschemaOperation t a = '.' :: s := by
  cases a with
  | getAttr n =>
    simp only [subschemaOperation, Action.toStr]
    split
    · exact ⟨_, rfl⟩
    · exact ⟨_, rfl⟩
  | _ => exact ⟨_, rfl⟩

/-- The name of a place. -/
def nodeName (t : Text) : Node → Name
  | .struct id => encodeId id
  | .root d => ['.', ':'] ++ d.str
  | .leaf id a d => encodeId id ++ subschemaOperation t a ++ ':' :: d.str

theorem dot_not_id (id : Id) : '.' ∉ encodeId id := fun h => absurd (encodeId_chars id _ h) (by decide)
theorem colon_not_id (id : Id) : ':' ∉ encodeId id := fun h => absurd (encodeId_chars id _ h) (by decide)
theorem score_not_id (id : Id) : '_' ∉ encodeId id := fun h => absurd (encodeId_chars id _ h) (by decide)

theorem encodeId_ne_nil (id : Id) : encodeId id ≠ [] := by
  intro h; have := encodeId_length id; rw [h] at this; cases this

theorem nodeName_inj {t : Text} (ht : TextLaws t) {m n : Node} (h : nodeName t m = nodeName t n) :
    m = n := by
  have hcolon : ∀ id (u s : List Char), encodeId id ≠ u ++ ':' :: s := fun id u s he =>
    colon_not_id id (by rw [he]; simp)
  have hdot : ∀ id (s u : List Char), '.' :: s ≠ encodeId id ++ u := by
    intro id s u he
    have hne := encodeId_ne_nil id
    cases hc : encodeId id with
    | nil => exact hne hc
    | cons c l =>
      rw [hc] at he
      simp only [List.cons_append, List.cons.injEq] at he
      exact dot_not_id id (by rw [hc, ← he.1]; simp)
  cases m with
  | struct id =>
    cases n with
    | struct id' => simp only [nodeName] at h; rw [encodeId_inj h]
    | root d => exact absurd h (hcolon id ['.'] d.str)
    | leaf id' a d => exact absurd h (hcolon id _ d.str)
  | root d =>
    cases n with
    | struct id' => exact absurd h.symm (hcolon id' ['.'] d.str)
    | root d' =>
      simp only [nodeName, List.cons_append, List.nil_append, List.cons.injEq, true_and] at h
      rw [dtype_str_inj h]
    | leaf id' a d' =>
      simp only [nodeName, List.append_assoc] at h
      exact absurd h (hdot id' _ _)
  | leaf id a d =>
    cases n with
    | struct id' => exact absurd h.symm (hcolon id' _ d.str)
    | root d' =>
      simp only [nodeName, List.append_assoc] at h
      exact absurd h.symm (hdot id _ _)
    | leaf id' a' d' =>
      simp only [nodeName] at h
      obtain ⟨h1, h2⟩ := append_colon_inj (dtype_str_plain d) (dtype_str_plain d') h
      obtain ⟨h3, h4⟩ := List.append_inj h1 (by rw [encodeId_length, encodeId_length])
      rw [dtype_str_inj h2, encodeId_inj h3, operation_inj ht h4]

theorem marker_not_name (id : Id) : noParentMarker ≠ encodeId id := by
  intro h
  have : '_' ∈ encodeId id := by rw [← h]; decide
  exact score_not_id id this

/-! ### Steps -/

section
variable {b : Store}

theorem mem_find {attrs : List (Name × Item)} (hd : (attrs.map (·.1)).Nodup) (n : Name) (i : Item) :
    (attrs.find? fun p => p.1 = n).map (·.2) = some i ↔ (n, i) ∈ attrs := by
  induction attrs with
  | nil => simp
  | cons p l ih =>
    rw [List.map_cons, List.nodup_cons] at hd
    rw [List.find?_cons]
    by_cases hp : p.1 = n
    · simp only [hp, decide_true, Option.map_some, Option.some.injEq, List.mem_cons]
      constructor
      · rintro rfl; left; rw [← hp]
      · rintro (h | h)
        · rw [← h]
        · exact absurd (hp ▸ List.mem_map_of_mem (f := (·.1)) h) hd.1
    · simp only [hp, decide_false, List.mem_cons]
      rw [ih hd.2]
      constructor
      · exact .inr
      · rintro (h | h)
        · exact absurd (by rw [← h]) hp
        · exact h

theorem subschema_iff (hb : AttrsOnce b) (i : Item) (a : Action) (j : Item) :
    subschema (kindOf b) i a = some j ↔ Step b i a j := by
  cases i with
  | dtype d =>
    constructor
    · intro h; cases a <;> simp [subschema, kindOf] at h
    · intro h; cases h
  | struct id =>
    cases hk : (b.get id).kind with
    | list item =>
      constructor
      · intro h
        cases a <;> simp [subschema, kindOf, hk] at h
        subst h; exact .item hk
      · intro h
        cases h <;> rename_i h1
        · rw [hk] at h1; cases h1; simp [subschema, kindOf, hk]
        · rw [hk] at h1; cases h1
        · rw [hk] at h1; cases h1
        · rename_i h0; rw [hk] at h0; cases h0
    | dict k v =>
      constructor
      · intro h
        cases a <;> simp [subschema, kindOf, hk] at h
        · subst h; exact .key hk
        · subst h; exact .value hk
      · intro h
        cases h <;> rename_i h1
        · rw [hk] at h1; cases h1
        · rw [hk] at h1; cases h1; simp [subschema, kindOf, hk]
        · rw [hk] at h1; cases h1; simp [subschema, kindOf, hk]
        · rename_i h0; rw [hk] at h0; cases h0
    | entity attrs =>
      constructor
      · intro h
        cases a with
        | getAttr n =>
          simp only [subschema, kindOf, hk] at h
          exact .attr hk ((mem_find (hb id attrs hk) n j).1 h)
        | _ => simp [subschema, kindOf, hk] at h
      · intro h
        cases h <;> rename_i h1
        · rw [hk] at h1; cases h1
        · rw [hk] at h1; cases h1
        · rw [hk] at h1; cases h1
        · rename_i h0
          rw [hk] at h0; cases h0
          simp only [subschema, kindOf, hk]
          exact (mem_find (hb id attrs hk) _ j).2 h1

theorem Step.functional (hb : AttrsOnce b) {i j k : Item} {a : Action} (h1 : Step b i a j)
    (h2 : Step b i a k) : j = k := by
  have e1 := (subschema_iff hb i a j).2 h1
  have e2 := (subschema_iff hb i a k).2 h2
  rw [e1] at e2; exact Option.some.inj e2

theorem Step.isStruct {i j : Item} {a : Action} (h : Step b i a j) : ∃ id, i = .struct id := by
  cases h <;> exact ⟨_, rfl⟩

theorem mem_expand (i : Item) (w : Work) :
    w ∈ expandOneStep b i ↔ ∃ a, w = ⟨some i, some a, w.child⟩ ∧ Step b i a w.child := by
  cases i with
  | dtype d =>
    constructor
    · intro h; simp [expandOneStep, kindOf] at h
    · rintro ⟨a, _, h⟩; cases h
  | struct id =>
    cases hk : (b.get id).kind with
    | list item =>
      constructor
      · intro h
        simp only [expandOneStep, kindOf, hk, List.mem_singleton] at h
        subst h; exact ⟨_, rfl, .item hk⟩
      · rintro ⟨a, he, h⟩
        generalize w.child = c at he h
        subst he
        cases h <;> rename_i h1
        · rw [hk] at h1; cases h1; simp [expandOneStep, kindOf, hk]
        · rw [hk] at h1; cases h1
        · rw [hk] at h1; cases h1
        · rename_i h0; rw [hk] at h0; cases h0
    | dict k v =>
      constructor
      · intro h
        simp only [expandOneStep, kindOf, hk, List.mem_cons, List.not_mem_nil, or_false] at h
        rcases h with rfl | rfl
        · exact ⟨_, rfl, .key hk⟩
        · exact ⟨_, rfl, .value hk⟩
      · rintro ⟨a, he, h⟩
        generalize w.child = c at he h
        subst he
        cases h <;> rename_i h1
        · rw [hk] at h1; cases h1
        · rw [hk] at h1; cases h1; simp [expandOneStep, kindOf, hk]
        · rw [hk] at h1; cases h1; simp [expandOneStep, kindOf, hk]
        · rename_i h0; rw [hk] at h0; cases h0
    | entity attrs =>
      constructor
      · intro h
        simp only [expandOneStep, kindOf, hk, List.mem_map] at h
        obtain ⟨p, hp, rfl⟩ := h
        exact ⟨_, rfl, .attr hk hp⟩
      · rintro ⟨a, he, h⟩
        generalize w.child = c at he h
        subst he
        cases h <;> rename_i h1
        · rw [hk] at h1; cases h1
        · rw [hk] at h1; cases h1
        · rw [hk] at h1; cases h1
        · rename_i h0
          rw [hk] at h0; cases h0
          simp only [expandOneStep, kindOf, hk, List.mem_map]
          exact ⟨_, h1, rfl⟩

theorem Reaches.snoc {i j k : Item} {p : List Action} {a : Action} (h : Reaches b i p j)
    (hs : Step b j a k) : Reaches b i (p ++ [a]) k := by
  induction h with
  | nil => exact .cons hs .nil
  | cons h1 _ ih => exact .cons h1 (ih hs)

theorem Reaches.append {i j k : Item} {p q : List Action} (h : Reaches b i p j)
    (h2 : Reaches b j q k) : Reaches b i (p ++ q) k := by
  induction h with
  | nil => exact h2
  | cons h1 _ ih => exact .cons h1 (ih h2)

theorem Reaches.split {i k : Item} {p q : List Action} (h : Reaches b i (p ++ q) k) :
    ∃ j, Reaches b i p j ∧ Reaches b j q k := by
  induction p generalizing i with
  | nil => exact ⟨i, .nil, h⟩
  | cons a p ih =>
    cases h with
    | cons h1 h2 =>
      obtain ⟨j, h3, h4⟩ := ih h2
      exact ⟨j, .cons h1 h3, h4⟩

theorem Reaches.snoc_inv {i k : Item} {p : List Action} {a : Action} (h : Reaches b i (p ++ [a]) k) :
    ∃ j, Reaches b i p j ∧ Step b j a k := by
  obtain ⟨j, h1, h2⟩ := h.split
  cases h2 with
  | cons h3 h4 => cases h4; exact ⟨j, h1, h3⟩

theorem Reaches.functional (hb : AttrsOnce b) {i j k : Item} {p : List Action} (h1 : Reaches b i p j)
    (h2 : Reaches b i p k) : j = k := by
  induction h1 with
  | nil => cases h2; rfl
  | cons h3 _ ih =>
    cases h2 with
    | cons h5 h6 => exact ih ((h3.functional hb h5) ▸ h6)

theorem Reaches.leaf_nil {d : Dtype} {k : Item} {p : List Action} (h : Reaches b (.dtype d) p k) :
    p = [] ∧ k = .dtype d := by
  cases h with
  | nil => exact ⟨rfl, rfl⟩
  | cons h1 _ => cases h1

/-! ### Places -/

/-- The item at a place. -/
def Node.item : Node → Item
  | .struct id => .struct id
  | .root d => .dtype d
  | .leaf _ _ d => .dtype d

theorem NodeAt.reaches {s : Item} {p : List Action} {n : Node} (h : NodeAt b s p n) :
    Reaches b s p n.item := by
  cases h with
  | struct h => exact h
  | root h => subst h; exact .nil
  | leaf h1 h2 => exact h1.snoc h2

theorem Reaches.nodeAt {s i : Item} {p : List Action} (h : Reaches b s p i) :
    ∃ n, NodeAt b s p n ∧ n.item = i := by
  cases i with
  | struct id => exact ⟨_, .struct h, rfl⟩
  | dtype d =>
    rcases List.eq_nil_or_concat p with rfl | ⟨q, a, rfl⟩
    · cases h; exact ⟨_, .root rfl, rfl⟩
    · rw [List.concat_eq_append] at *
      obtain ⟨j, h1, h2⟩ := h.snoc_inv
      obtain ⟨id, rfl⟩ := h2.isStruct
      exact ⟨_, .leaf h1 h2, rfl⟩

theorem NodeAt.functional (hb : AttrsOnce b) {s : Item} {p : List Action} {m n : Node}
    (h1 : NodeAt b s p m) (h2 : NodeAt b s p n) : m = n := by
  have e := h1.reaches.functional hb h2.reaches
  cases h1 with
  | struct h1 =>
    cases h2 with
    | struct h2 => cases e; rfl
    | root h2 => cases e
    | leaf h2 h3 => cases e
  | root h1 =>
    generalize hp : ([] : List Action) = p at h2
    cases h2 with
    | struct h2 => cases e
    | root h2 => cases e; rfl
    | leaf h2 h3 => simp at hp
  | @leaf p id a d h1 h3 =>
    generalize hp : p ++ [a] = q at h2
    cases h2 with
    | struct h2 => cases e
    | root h2 => simp at hp
    | leaf h2 h4 =>
      obtain ⟨rfl, h5⟩ := List.append_inj' hp rfl
      cases h5
      cases h1.functional hb h2
      cases h3.functional hb h4
      rfl

/-- A place is not opaque. -/
def Node.Ok : Node → Prop
  | .struct _ => True
  | .root d => d ≠ .object ∧ d ≠ .schema
  | .leaf _ _ d => d ≠ .object ∧ d ≠ .schema

theorem dtype_allowed (d : Dtype) :
    (d.isPrimitive || d == .itemid || d == .none) = true ↔ d ≠ .object ∧ d ≠ .schema := by
  cases d <;> decide

theorem getSchemaNodeName_struct (t : Text) (p : Option Item) (a : Option Action) (id : Id) :
    getSchemaNodeName t p a (.struct id) = .ok (nodeName t (.struct id)) := rfl

theorem getSchemaNodeName_root (t : Text) (d : Dtype) (hd : d ≠ .object ∧ d ≠ .schema) :
    getSchemaNodeName t .none .none (.dtype d) = .ok (nodeName t (.root d)) := by
  simp only [getSchemaNodeName, (dtype_allowed d).2 hd, if_true]
  rfl

theorem getSchemaNodeName_leaf (t : Text) (id : Id) (a : Action) (d : Dtype)
    (hd : d ≠ .object ∧ d ≠ .schema) :
    getSchemaNodeName t (some (.struct id)) (some a) (.dtype d) = .ok (nodeName t (.leaf id a d)) := by
  simp only [getSchemaNodeName, (dtype_allowed d).2 hd, if_true]
  rfl

theorem getSchemaNodeName_opaque (t : Text) (p : Option Item) (a : Option Action) (d : Dtype)
    (hd : ¬ (d ≠ .object ∧ d ≠ .schema)) :
    getSchemaNodeName t p a (.dtype d) = .error .valueError := by
  have : (d.isPrimitive || d == .itemid || d == .none) = false := by
    rw [Bool.eq_false_iff]; exact fun h => hd ((dtype_allowed d).1 h)
  simp only [getSchemaNodeName, this, Bool.false_eq_true, if_false]

theorem followPath_append (p : List Action) (a : Action) (par : Option Item) (act : Option Action)
    (c : Item) {x : Option Item × Option Action × Item} (h : followPath b par act c p = .ok x) :
    followPath b par act c (p ++ [a]) = (match subschema (kindOf b) x.2.2 a with
      | .none => .error .valueError
      | some c' => .ok (some x.2.2, some a, c')) := by
  induction p generalizing par act c with
  | nil =>
    cases h
    simp only [List.nil_append, followPath]
    all_goals (cases subschema (kindOf b) c a <;> rfl)
  | cons a' p ih =>
    simp only [List.cons_append, followPath] at h ⊢
    cases hs : subschema (kindOf b) c a' with
    | none => rw [hs] at h; cases h
    | some c' => rw [hs] at h; exact ih _ _ _ h

theorem followPath_reaches (hb : AttrsOnce b) {c i : Item} {p : List Action} (h : Reaches b c p i)
    (par : Option Item) (act : Option Action) :
    ∃ x y, followPath b par act c p = .ok (x, y, i) := by
  induction h generalizing par act with
  | nil => exact ⟨_, _, rfl⟩
  | cons h1 _ ih =>
    simp only [followPath, (subschema_iff hb _ _ _).2 h1]
    exact ih _ _

theorem followPath_error (hb : AttrsOnce b) {c : Item} {p : List Action}
    (h : ¬ ∃ i, Reaches b c p i) (par : Option Item) (act : Option Action) :
    followPath b par act c p = .error .valueError := by
  induction p generalizing c par act with
  | nil => exact absurd ⟨c, .nil⟩ h
  | cons a p ih =>
    simp only [followPath]
    cases hs : subschema (kindOf b) c a with
    | none => rfl
    | some c' =>
      exact ih (fun ⟨i, hi⟩ => h ⟨i, .cons ((subschema_iff hb _ _ _).1 hs) hi⟩) _ _

/-- The name of the place to which a path leads. -/
theorem nameForPath_ok (hb : AttrsOnce b) (t : Text) {s : Item} {p : List Action} {n : Node}
    (h : NodeAt b s p n) (hn : n.Ok) : nodeNameForPath t b s p = .ok (nodeName t n) := by
  cases h with
  | struct h =>
    obtain ⟨x, y, e⟩ := followPath_reaches hb h .none .none
    simp only [nodeNameForPath, e, getSchemaNodeName_struct]
  | root h =>
    subst h
    simp only [nodeNameForPath, followPath, getSchemaNodeName_root t _ hn]
  | @leaf p id a d h1 h2 =>
    obtain ⟨x, y, e⟩ := followPath_reaches hb h1 .none .none
    have e2 := followPath_append p a _ _ _ e
    simp only [(subschema_iff hb _ _ _).2 h2] at e2
    simp only [nodeNameForPath, e2, getSchemaNodeName_leaf t _ _ _ hn]

theorem nameForPath_opaque (hb : AttrsOnce b) (t : Text) {s : Item} {p : List Action} {n : Node}
    (h : NodeAt b s p n) (hn : ¬ n.Ok) : nodeNameForPath t b s p = .error .valueError := by
  cases h with
  | struct h => exact absurd trivial hn
  | root h =>
    subst h
    simp only [nodeNameForPath, followPath, getSchemaNodeName_opaque t _ _ _ hn]
  | @leaf p id a d h1 h2 =>
    obtain ⟨x, y, e⟩ := followPath_reaches hb h1 .none .none
    have e2 := followPath_append p a _ _ _ e
    simp only [(subschema_iff hb _ _ _).2 h2] at e2
    simp only [nodeNameForPath, e2, getSchemaNodeName_opaque t _ _ _ hn]

theorem nameForPath_invalid (hb : AttrsOnce b) (t : Text) {s : Item} {p : List Action}
    (h : ¬ ∃ i, Reaches b s p i) : nodeNameForPath t b s p = .error .valueError := by
  simp only [nodeNameForPath, followPath_error hb h]

end

end Verif.SchemaHelper
