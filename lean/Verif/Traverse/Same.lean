import Verif.Traverse.Sound
import Verif.Uuid.UuidTheorems

/-! Data with the same content has the same values. -/

namespace Verif.Traverse

open Verif.ObjectId
open Verif.Uuid

/-- Two items with their schemas have the same content, in two bags. The ids of items and of
schemas do not count, and neither does the order of the attributes. The order of the items of a
dict does not count if the values of its keys have different fingerprints. -/
inductive Same {S : Type} (H : HashFn S) (seed : Bytes) (b b' : Bag) : Pair → Pair → Prop where
  | leaf {y t t' : Item} : (∀ o, y ≠ .object o) → Same H seed b b' (y, t) (y, t')
  | itemId {o : ObjectId} : Same H seed b b' (.object o, .dtype 10) (.object o, .dtype 10)
  | objectLeft {x T : ObjectId} {q : Pair} : b.attr x (named "__schema__") = .object T →
      Same H seed b b' (.object x, .object T) q → Same H seed b b' (.object x, .dtype 11) q
  | objectRight {x T : ObjectId} {p : Pair} : b'.attr x (named "__schema__") = .object T →
      Same H seed b b' p (.object x, .object T) → Same H seed b b' p (.object x, .dtype 11)
  | noFollow {x x' T T' : ObjectId} : T.isNoFollowSchema = true → T'.isNoFollowSchema = true →
      Same H seed b b' (.object x, .object T) (.object x', .object T')
  | list {x x' T T' : ObjectId} {t t' : Item} :
      T.isNoFollowSchema = false → T'.isNoFollowSchema = false →
      ListSchema b T t → ListSchema b' T' t' → (b.list x).length = (b'.list x').length →
      (∀ (i : Nat) y y', (b.list x)[i]? = some y → (b'.list x')[i]? = some y' →
        Same H seed b b' (y, t) (y', t')) →
      Same H seed b b' (.object x, .object T) (.object x', .object T')
  | dict {x x' T T' : ObjectId} {k k' t t' : Item} {items : List (Item × Item)} :
      T.isNoFollowSchema = false → T'.isNoFollowSchema = false →
      DictSchema b T k t → DictSchema b' T' k' t' →
      items.Perm (b'.dict x') → (b.dict x).length = items.length →
      (items = b'.dict x' ∨ ∀ (i j : Nat) y z v w, i ≠ j → (b.dict x)[i]? = some y →
        (b.dict x)[j]? = some z → Value H seed b (y.1, k) v → Value H seed b (z.1, k) w →
        stableFingerprint H v ≠ stableFingerprint H w) →
      (∀ (i : Nat) y y', (b.dict x)[i]? = some y → items[i]? = some y' →
        Same H seed b b' (y.1, k) (y'.1, k')) →
      (∀ (i : Nat) y y', (b.dict x)[i]? = some y → items[i]? = some y' →
        Same H seed b b' (y.2, t) (y'.2, t')) →
      Same H seed b b' (.object x, .object T) (.object x', .object T')
  | entity {x x' T T' : ObjectId} :
      T.isNoFollowSchema = false → T'.isNoFollowSchema = false →
      PlainSchema b T → PlainSchema b' T' →
      (∀ n, (∃ p, EntityAttr b x T n p) ↔ ∃ p, EntityAttr b' x' T' n p) →
      (∀ n p p', EntityAttr b x T n p → EntityAttr b' x' T' n p' → (IsSelf x p ↔ IsSelf x' p')) →
      (∀ n p p', EntityAttr b x T n p → EntityAttr b' x' T' n p' → ¬ IsSelf x p →
        Same H seed b b' p p') →
      Same H seed b b' (.object x, .object T) (.object x', .object T')
  | noFollowSchema {x x' : ObjectId} : x.isNoFollowSchema = true → x'.isNoFollowSchema = true →
      Same H seed b b' (.object x, .dtype 12) (.object x', .dtype 12)
  | schema {x x' : ObjectId} : x.isNoFollowSchema = false → x'.isNoFollowSchema = false →
      (∀ n, (∃ p, SchemaAttr b x n p) ↔ ∃ p, SchemaAttr b' x' n p) →
      (∀ n p p', SchemaAttr b x n p → SchemaAttr b' x' n p' → (IsSelf x p ↔ IsSelf x' p')) →
      (∀ n p p', SchemaAttr b x n p → SchemaAttr b' x' n p' → ¬ IsSelf x p →
        Same H seed b b' p p') →
      Same H seed b b' (.object x, .dtype 12) (.object x', .dtype 12)

section
variable {S : Type} {H : HashFn S} {seed : Bytes} {b b' : Bag}

theorem Value.leaf_inv {y t v : Item} (hy : ∀ o, y ≠ .object o) (h : Value H seed b (y, t) v) :
    v = y := by
  cases h with
  | leaf _ => rfl
  | itemId => exact absurd rfl (hy _)
  | object _ _ => exact absurd rfl (hy _)
  | noFollow _ => exact absurd rfl (hy _)
  | list _ _ _ _ => exact absurd rfl (hy _)
  | dict _ _ _ _ _ => exact absurd rfl (hy _)
  | entity _ _ _ _ _ => exact absurd rfl (hy _)
  | noFollowSchema _ => exact absurd rfl (hy _)
  | schema _ _ _ _ => exact absurd rfl (hy _)

theorem Value.itemId_inv {o : ObjectId} {v : Item}
    (h : Value H seed b (.object o, .dtype 10) v) : v = .object o := by
  cases h with
  | leaf h => exact absurd rfl (h _)
  | itemId => rfl

theorem Value.object_inv {x T : ObjectId} {v : Item}
    (ht : b.attr x (named "__schema__") = .object T)
    (h : Value H seed b (.object x, .dtype 11) v) : Value H seed b (.object x, .object T) v := by
  cases h with
  | leaf h => exact absurd rfl (h _)
  | object h1 h2 => rw [ht] at h1; cases h1; exact h2

theorem Value.noFollow_inv {x T : ObjectId} {v : Item} (ht : T.isNoFollowSchema = true)
    (h : Value H seed b (.object x, .object T) v) :
    v = .object (uuidFromFields H seed [] .default) := by
  cases h with
  | leaf h => exact absurd rfl (h _)
  | noFollow _ => rfl
  | list h _ _ _ => rw [ht] at h; cases h
  | dict h _ _ _ _ => rw [ht] at h; cases h
  | entity h _ _ _ _ => rw [ht] at h; cases h

theorem Value.list_inv {x T : ObjectId} {t v : Item} (ht : T.isNoFollowSchema = false)
    (hl : ListSchema b T t) (h : Value H seed b (.object x, .object T) v) :
    ∃ vals, v = .object (listUuid H seed vals []) ∧ vals.length = (b.list x).length ∧
      ∀ (i : Nat) y v, (b.list x)[i]? = some y → vals[i]? = some v → Value H seed b (y, t) v := by
  cases h with
  | leaf h => exact absurd rfl (h _)
  | noFollow h => rw [ht] at h; cases h
  | list _ h1 h2 h3 =>
    have := listSchema_unique hl h1
    subst this
    exact ⟨_, rfl, h2, h3⟩
  | dict _ h1 _ _ _ => exact (list_not_dict hl h1).elim
  | entity _ h1 _ _ _ => exact (list_not_plain hl h1).elim

theorem Value.dict_inv {x T : ObjectId} {k t v : Item} (ht : T.isNoFollowSchema = false)
    (hl : DictSchema b T k t) (h : Value H seed b (.object x, .object T) v) :
    ∃ vals : List (Item × Item), v = .object (dictUuid H seed vals []) ∧
      vals.length = (b.dict x).length ∧
      (∀ (i : Nat) y v, (b.dict x)[i]? = some y → vals[i]? = some v →
        Value H seed b (y.1, k) v.1) ∧
      (∀ (i : Nat) y v, (b.dict x)[i]? = some y → vals[i]? = some v →
        Value H seed b (y.2, t) v.2) := by
  cases h with
  | leaf h => exact absurd rfl (h _)
  | noFollow h => rw [ht] at h; cases h
  | list _ h1 _ _ => exact (list_not_dict h1 hl).elim
  | dict _ h1 h2 h3 h4 =>
    obtain ⟨rfl, rfl⟩ := dictSchema_unique hl h1
    exact ⟨_, rfl, h2, h3, h4⟩
  | entity _ h1 _ _ _ => exact (dict_not_plain hl h1).elim

theorem Value.entity_inv {x T : ObjectId} {v : Item} (ht : T.isNoFollowSchema = false)
    (hl : PlainSchema b T) (h : Value H seed b (.object x, .object T) v) :
    ∃ (vals : Name → Item) (fields : List (Name × Item)),
      v = .object (uuidFromFields H seed fields .default) ∧
      (∀ n p, EntityAttr b x T n p → IsSelf x p → vals n = selfText) ∧
      (∀ n p, EntityAttr b x T n p → ¬ IsSelf x p → Value H seed b p (vals n)) ∧
      FieldsOf (EntityAttr b x T) vals fields := by
  cases h with
  | leaf h => exact absurd rfl (h _)
  | noFollow h => rw [ht] at h; cases h
  | list _ h1 _ _ => exact (list_not_plain h1 hl).elim
  | dict _ h1 _ _ _ => exact (dict_not_plain h1 hl).elim
  | entity _ _ h2 h3 h4 => exact ⟨_, _, rfl, h2, h3, h4⟩

theorem Value.noFollowSchema_inv {x : ObjectId} {v : Item} (ht : x.isNoFollowSchema = true)
    (h : Value H seed b (.object x, .dtype 12) v) : v = .object (schemaUuid H seed []) := by
  cases h with
  | leaf h => exact absurd rfl (h _)
  | noFollowSchema _ => rfl
  | schema h _ _ _ => rw [ht] at h; cases h

theorem Value.schema_inv {x : ObjectId} {v : Item} (ht : x.isNoFollowSchema = false)
    (h : Value H seed b (.object x, .dtype 12) v) :
    ∃ (vals : Name → Item) (fields : List (Name × Item)),
      v = .object (schemaUuid H seed fields) ∧
      (∀ n p, SchemaAttr b x n p → IsSelf x p → vals n = selfText) ∧
      (∀ n p, SchemaAttr b x n p → ¬ IsSelf x p → Value H seed b p (vals n)) ∧
      FieldsOf (SchemaAttr b x) vals fields := by
  cases h with
  | leaf h => exact absurd rfl (h _)
  | noFollowSchema h => rw [ht] at h; cases h
  | schema _ h2 h3 h4 => exact ⟨_, _, rfl, h2, h3, h4⟩

/-- Fields with the same names and values are the same up to their order. -/
theorem fields_perm {at_ at' : Name → Pair → Prop} {vals vals' : Name → Item}
    {fs fs' : List (Name × Item)} (h : FieldsOf at_ vals fs) (h' : FieldsOf at' vals' fs')
    (hn : ∀ n, (∃ p, at_ n p) ↔ ∃ p, at' n p)
    (hv : ∀ n p p', at_ n p → at' n p' → vals n = vals' n) : fs.Perm fs' := by
  have hnd : ∀ {l : List (Name × Item)}, (l.map (·.1)).Nodup → l.Nodup := by
    intro l hl
    exact List.Pairwise.of_map (·.1) (fun a b h e => h (by rw [e])) hl
  rw [List.perm_ext_iff_of_nodup (hnd h.1) (hnd h'.1)]
  rintro ⟨n, v⟩
  rw [h.2, h'.2]
  constructor
  · rintro ⟨rfl, p, hp⟩
    obtain ⟨p', hp'⟩ := (hn n).mp ⟨p, hp⟩
    exact ⟨hv n p p' hp hp', p', hp'⟩
  · rintro ⟨rfl, p', hp'⟩
    obtain ⟨p, hp⟩ := (hn n).mpr ⟨p', hp'⟩
    exact ⟨(hv n p p' hp hp').symm, p, hp⟩

/-- The values of a list in the order of a permutation. -/
theorem perm_vals {α β : Type} {R : α → β → Prop} : ∀ {l l' : List α} {vals : List β},
    l.Perm l' → vals.length = l'.length →
    (∀ (i : Nat) y v, l'[i]? = some y → vals[i]? = some v → R y v) →
    ∃ ws : List β, ws.Perm vals ∧ ws.length = l.length ∧
      ∀ (i : Nat) y v, l[i]? = some y → ws[i]? = some v → R y v := by
  intro l l' vals hp
  induction hp generalizing vals with
  | nil => intro h1 h2; exact ⟨vals, .refl _, h1, h2⟩
  | cons a _ ih =>
    intro h1 h2
    match vals, h1 with
    | v :: vals, h1 =>
      obtain ⟨ws, c1, c2, c3⟩ := ih (vals := vals) (by simpa using h1)
        (fun i y w hy hw => h2 (i + 1) y w (by simpa using hy) (by simpa using hw))
      refine ⟨v :: ws, c1.cons v, by simp [c2], ?_⟩
      intro i y w hy hw
      cases i with
      | zero => exact h2 0 y w (by simpa using hy) (by simpa using hw)
      | succ i => exact c3 i y w (by simpa using hy) (by simpa using hw)
  | swap a c l =>
    intro h1 h2
    match vals, h1 with
    | v :: w :: vals, h1 =>
      refine ⟨w :: v :: vals, .swap _ _ _, by simpa using h1, ?_⟩
      intro i y z hy hz
      match i with
      | 0 => exact h2 1 y z (by simpa using hy) (by simpa using hz)
      | 1 => exact h2 0 y z (by simpa using hy) (by simpa using hz)
      | i + 2 => exact h2 (i + 2) y z (by simpa using hy) (by simpa using hz)
  | trans _ _ ih1 ih2 =>
    intro h1 h2
    obtain ⟨ws, c1, c2, c3⟩ := ih2 h1 h2
    obtain ⟨us, d1, d2, d3⟩ := ih1 c2 c3
    exact ⟨us, d1.trans c1, d2, d3⟩

/-- The same content gives the same value. -/
theorem Same.value {p p' : Pair} (h : Same H seed b b' p p') : ∀ {v v' : Item},
    Value H seed b p v → Value H seed b' p' v' → v = v' := by
  induction h with
  | leaf hy =>
    intro v v' h h'
    rw [h.leaf_inv hy, h'.leaf_inv hy]
  | itemId =>
    intro v v' h h'
    rw [h.itemId_inv, h'.itemId_inv]
  | objectLeft ht _ ih => intro v v' h h'; exact ih (h.object_inv ht) h'
  | objectRight ht _ ih => intro v v' h h'; exact ih h (h'.object_inv ht)
  | noFollow h1 h2 => intro v v' h h'; rw [h.noFollow_inv h1, h'.noFollow_inv h2]
  | list h1 h2 h3 h4 h5 _ ih =>
    intro v v' h h'
    obtain ⟨vals, rfl, c1, c2⟩ := h.list_inv h1 h3
    obtain ⟨vals', rfl, d1, d2⟩ := h'.list_inv h2 h4
    have : vals = vals' := by
      apply List.ext_getElem (by omega)
      intro i hi hi'
      exact ih i _ _ (List.getElem?_eq_getElem (by omega)) (List.getElem?_eq_getElem (by omega))
        (c2 i _ _ (List.getElem?_eq_getElem (by omega)) (List.getElem?_eq_getElem hi))
        (d2 i _ _ (List.getElem?_eq_getElem (by omega)) (List.getElem?_eq_getElem hi'))
    rw [this]
  | @dict x x' T T' k k' t t' items h1 h2 h3 h4 h5 h6 h7 _ _ ih1 ih2 =>
    intro v v' h h'
    obtain ⟨vals, rfl, c1, c2, c3⟩ := h.dict_inv h1 h3
    obtain ⟨vals', rfl, d1, d2, d3⟩ := h'.dict_inv h2 h4
    have key : ∀ ws : List (Item × Item), ws.length = items.length →
        (∀ (i : Nat) y v, items[i]? = some y → ws[i]? = some v →
          Value H seed b' (y.1, k') v.1 ∧ Value H seed b' (y.2, t') v.2) → vals = ws := by
      intro ws e1 e2
      apply List.ext_getElem (by omega)
      intro i hi hi'
      have g := e2 i _ _ (List.getElem?_eq_getElem (by omega)) (List.getElem?_eq_getElem hi')
      have a1 := ih1 i _ _ (List.getElem?_eq_getElem (by omega)) (List.getElem?_eq_getElem (by omega))
        (c2 i _ _ (List.getElem?_eq_getElem (by omega)) (List.getElem?_eq_getElem hi)) g.1
      have a2 := ih2 i _ _ (List.getElem?_eq_getElem (by omega)) (List.getElem?_eq_getElem (by omega))
        (c3 i _ _ (List.getElem?_eq_getElem (by omega)) (List.getElem?_eq_getElem hi)) g.2
      exact Prod.ext a1 a2
    have hboth : ∀ (i : Nat) y v, (b'.dict x')[i]? = some y → vals'[i]? = some v →
        Value H seed b' (y.1, k') v.1 ∧ Value H seed b' (y.2, t') v.2 :=
      fun i y v hy hv => ⟨d2 i y v hy hv, d3 i y v hy hv⟩
    rcases h7 with rfl | h7
    · rw [key vals' d1 hboth]
    · obtain ⟨ws, e1, e2, e3⟩ := perm_vals h5 d1 hboth
      have := key ws e2 e3
      subst this
      rw [C35_dict_order H e1]
      rw [List.Nodup, List.pairwise_iff_getElem]
      intro i j hi hj hij
      simp only [List.length_map] at hi hj
      simp only [List.getElem_map]
      exact h7 i j _ _ _ _ (by omega) (List.getElem?_eq_getElem (by omega))
        (List.getElem?_eq_getElem (by omega))
        (c2 i _ _ (List.getElem?_eq_getElem (by omega)) (List.getElem?_eq_getElem hi))
        (c2 j _ _ (List.getElem?_eq_getElem (by omega)) (List.getElem?_eq_getElem hj))
  | @entity x x' T T' h1 h2 h3 h4 h5 h6 _ ih =>
    intro v v' h h'
    obtain ⟨vals, fs, rfl, c1, c2, c3⟩ := h.entity_inv h1 h3
    obtain ⟨vals', fs', rfl, d1, d2, d3⟩ := h'.entity_inv h2 h4
    have := fields_perm c3 d3 h5 (fun n p p' hp hp' => by
      by_cases hs : IsSelf x p
      · rw [c1 n p hp hs, d1 n p' hp' ((h6 n p p' hp hp').mp hs)]
      · exact ih n p p' hp hp' hs (c2 n p hp hs)
          (d2 n p' hp' (fun h => hs ((h6 n p p' hp hp').mpr h))))
    rw [(C35_field_order H this c3.1 seed .default [] []).1]
  | noFollowSchema h1 h2 =>
    intro v v' h h'; rw [h.noFollowSchema_inv h1, h'.noFollowSchema_inv h2]
  | @schema x x' h1 h2 h5 h6 _ ih =>
    intro v v' h h'
    obtain ⟨vals, fs, rfl, c1, c2, c3⟩ := h.schema_inv h1
    obtain ⟨vals', fs', rfl, d1, d2, d3⟩ := h'.schema_inv h2
    have := fields_perm c3 d3 h5 (fun n p p' hp hp' => by
      by_cases hs : IsSelf x p
      · rw [c1 n p hp hs, d1 n p' hp' ((h6 n p p' hp hp').mp hs)]
      · exact ih n p p' hp hp' hs (c2 n p hp hs)
          (d2 n p' hp' (fun h => hs ((h6 n p p' hp hp').mpr h))))
    rw [(C35_field_order H this c3.1 seed .default [] []).2.1]

/-- What has a value has the same content as itself. -/
theorem Value.same (hb : b.Ok) {p : Pair} {v : Item} (h : Value H seed b p v) :
    Same H seed b b p p := by
  have hattr : ∀ {x T : ObjectId} {n : Name} {p p' : Pair}, EntityAttr b x T n p →
      EntityAttr b x T n p' → p = p' := by
    rintro x T n p p' ⟨t, h1, _, rfl⟩ ⟨t', h2, _, rfl⟩
    rw [attr_unique hb h1 h2]
  have hschema : ∀ {x : ObjectId} {n : Name} {p p' : Pair}, SchemaAttr b x n p →
      SchemaAttr b x n p' → p = p' := by
    rintro x n p p' ⟨y, k, h1, h3, rfl⟩ ⟨y', k', h2, h4, rfl⟩
    rw [attr_unique hb h1 h2, ← (attrKind_iff _ _).mp h3, ← (attrKind_iff _ _).mp h4]
  induction h with
  | leaf h => exact .leaf h
  | itemId => exact .itemId
  | object h _ ih => exact .objectLeft h (.objectRight h ih)
  | noFollow h => exact .noFollow h h
  | list h1 h2 h3 _ ih =>
    refine .list h1 h1 h2 h2 rfl ?_
    intro i y y' hy hy'
    rw [hy] at hy'
    cases hy'
    have hi := (List.getElem?_eq_some_iff.mp hy).1
    exact ih i y _ hy (List.getElem?_eq_getElem (by omega))
  | dict h1 h2 h3 _ _ ih1 ih2 =>
    refine .dict h1 h1 h2 h2 (.refl _) rfl (.inl rfl) ?_ ?_
    · intro i y y' hy hy'
      rw [hy] at hy'
      cases hy'
      have hi := (List.getElem?_eq_some_iff.mp hy).1
      exact ih1 i y _ hy (List.getElem?_eq_getElem (by omega))
    · intro i y y' hy hy'
      rw [hy] at hy'
      cases hy'
      have hi := (List.getElem?_eq_some_iff.mp hy).1
      exact ih2 i y _ hy (List.getElem?_eq_getElem (by omega))
  | entity h1 h2 h3 _ h5 ih =>
    refine .entity h1 h1 h2 h2 (fun _ => Iff.rfl) ?_ ?_
    · intro n p p' hp hp'
      rw [hattr hp hp']
    · intro n p p' hp hp' hs
      have := hattr hp hp'
      subst this
      exact ih n p hp hs
  | noFollowSchema h => exact .noFollowSchema h h
  | schema h1 h3 _ h5 ih =>
    refine .schema h1 h1 (fun _ => Iff.rfl) ?_ ?_
    · intro n p p' hp hp'
      rw [hschema hp hp']
    · intro n p p' hp hp' hs
      have := hschema hp hp'
      subst this
      exact ih n p hp hs

/-- Values are unique. -/
theorem Value.unique (hb : b.Ok) {p : Pair} {v v' : Item} (h : Value H seed b p v)
    (h' : Value H seed b p v') : v = v' := (h.same hb).value h h'

end

end Verif.Traverse
