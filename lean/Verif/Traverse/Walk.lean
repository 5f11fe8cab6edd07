import Verif.Traverse.Spec

/-! What the search puts on its stack is what the specification says. -/

namespace Verif.Traverse

open Verif.ObjectId
open Verif.Uuid

theorem named_schema : named "__schema__" = schemaAttrName := by decide
theorem named_items : named "__items__" = itemsName := by decide
theorem named_keys : named "__keys__" = keysName := by decide
theorem named_values : named "__values__" = valuesName := by decide
theorem named_name : named "__schema_name__" = nameName := by decide
theorem named_metadata : named "__schema_metadata__" = metadataName := by decide

theorem primitive_iff (t : Item) : Primitive t ↔ isPrimitiveSchema t = true := by
  constructor
  · rintro ⟨n, rfl, hn⟩
    have : n.val ≤ 8 := hn
    simp [isPrimitiveSchema]; omega
  · intro h
    cases t <;> simp [isPrimitiveSchema] at h
    rename_i n
    exact ⟨n, rfl, by show n.val ≤ 8; omega⟩

theorem aboutSchema_iff (n : Name) : AboutSchema n ↔ isSpecial n = true := by
  simp [AboutSchema, isSpecial, named_name, named_metadata]

theorem holdsId_iff (x : Item) : holdsId x = true ↔ ∃ o, x = .object o := by
  cases x <;> simp [holdsId]

theorem lookup_some_mem {n : Name} {v : Item} :
    ∀ {l : List (Name × Item)}, lookup n l = some v → (n, v) ∈ l
  | [], h => by simp [lookup] at h
  | (m, u) :: l, h => by
    unfold lookup at h
    by_cases hm : m = n
    · rw [if_pos hm] at h
      simp at h
      subst hm; subst h; simp
    · rw [if_neg hm] at h
      exact List.mem_cons_of_mem _ (lookup_some_mem h)

theorem lookup_of_mem {n : Name} {v : Item} :
    ∀ {l : List (Name × Item)}, (l.map (·.1)).Nodup → (n, v) ∈ l → lookup n l = some v
  | [], _, h => by simp at h
  | (m, u) :: l, hd, h => by
    simp only [List.map_cons, List.nodup_cons] at hd
    unfold lookup
    rcases List.mem_cons.mp h with h | h
    · cases h; simp
    · have : m ≠ n := by
        rintro rfl
        exact hd.1 (List.mem_map.mpr ⟨(m, v), h, rfl⟩)
      rw [if_neg this]
      exact lookup_of_mem hd.2 h

theorem toSchemaId_ok {s : Item} {o : ObjectId} (h : toSchemaId s = .ok o) :
    s = .object o ∧ o.isSchema = true := by
  cases s <;> simp [toSchemaId] at h
  split at h <;> simp_all

theorem getSchemaAttr_ok {b : Bag} {S : ObjectId} {n : Name} {t : Item}
    (h : getSchemaAttr b (.object S) n = .ok t) : (n, t) ∈ b.schemaAttrs S := by
  unfold getSchemaAttr at h
  split at h
  · rename_i h2; cases h2
  · split at h
    · cases h
    · rename_i o ho
      have := (toSchemaId_ok ho).1
      cases this
      split at h
      · cases h
      · rename_i v hv
        cases h
        exact lookup_some_mem hv

theorem presentSchemaAttrs_ok {b : Bag} {S : ObjectId} {ns : List Name}
    (h : presentSchemaAttrs b (.object S) = .ok ns) : ns = (b.schemaAttrs S).map (·.1) := by
  unfold presentSchemaAttrs at h
  split at h
  · rename_i h2; cases h2
  · split at h
    · cases h
    · rename_i o ho
      have := (toSchemaId_ok ho).1
      cases this
      cases h
      rfl

theorem attrs_one {b : Bag} {S : ObjectId} {t : Item} {n : Name}
    (h1 : (b.schemaAttrs S).length = 1) (h2 : (n, t) ∈ b.schemaAttrs S) :
    b.schemaAttrs S = [(n, t)] := by
  match hl : b.schemaAttrs S with
  | [] => rw [hl] at h1; simp at h1
  | [x] => rw [hl] at h2; simp at h2; rw [h2]
  | _ :: _ :: _ => rw [hl] at h1; simp at h1

theorem attrs_two {l : List (Name × Item)} {k v : Item} {n m : Name} (hnm : n ≠ m)
    (h1 : l.length = 2) (h2 : (n, k) ∈ l) (h3 : (m, v) ∈ l) :
    l = [(n, k), (m, v)] ∨ l = [(m, v), (n, k)] := by
  match l with
  | [] => simp at h1
  | [x] => simp at h1
  | [x, y] =>
    simp only [List.mem_cons, List.not_mem_nil, or_false] at h2 h3
    rcases h2 with rfl | rfl <;> rcases h3 with h3 | h3
    · cases h3; exact absurd rfl hnm
    · left; rw [h3]
    · right; rw [h3]
    · cases h3; exact absurd rfl hnm
  | _ :: _ :: _ :: _ => simp at h1

/-- The four ways in which the transitions of an entity are made. -/
theorem entityTransitions_ok {b : Bag} {x : Item} {S : ObjectId} {rs : Bool} {t : Transitions}
    (h : entityTransitions b x (.object S) rs = .ok t) :
    (S.isNoFollowSchema = true ∧ t = .none) ∨
    (S.isNoFollowSchema = false ∧ ∃ it l, t = .list it l ∧ ListSchema b S it ∧
      explodeList b x = .ok l) ∨
    (S.isNoFollowSchema = false ∧ ∃ kt vt l, t = .dict kt vt l ∧ DictSchema b S kt vt ∧
      dictItems b x = .ok l) ∨
    (S.isNoFollowSchema = false ∧ PlainSchema b S ∧
      (((rs = true → ∀ n ∈ (b.schemaAttrs S).map (·.1), isSpecial n = true) ∧
          (rs = false → b.schemaAttrs S = []) ∧ t = .none) ∨
        t = .entity (if rs then ((b.schemaAttrs S).map (·.1)).filter (fun n => !isSpecial n)
          else (b.schemaAttrs S).map (·.1)))) := by
  unfold entityTransitions at h
  simp only at h
  by_cases hnf : S.isNoFollowSchema = true
  · rw [if_pos hnf] at h; cases h; exact .inl ⟨hnf, rfl⟩
  rw [if_neg hnf] at h
  have hnf' : S.isNoFollowSchema = false := by simpa using hnf
  split at h
  · cases h
  rename_i names hn
  have hnames := presentSchemaAttrs_ok hn
  subst hnames
  by_cases he : (b.schemaAttrs S).map (·.1) = []
  · rw [if_pos he] at h
    cases h
    right; right; right
    have he' : b.schemaAttrs S = [] := by simpa using he
    refine ⟨hnf', ?_, .inl ⟨?_, fun _ => he', rfl⟩⟩
    · intro u; rw [he']; simp
    · intro _; rw [he']; simp
  rw [if_neg he] at h
  by_cases hi : itemsName ∈ (b.schemaAttrs S).map (·.1)
  · rw [if_pos hi] at h
    by_cases hl : ((b.schemaAttrs S).map (·.1)).length ≠ 1
    · rw [if_pos hl] at h; cases h
    · rw [if_neg hl] at h
      simp only [List.length_map, ne_eq, Decidable.not_not] at hl
      unfold listTransitions at h
      split at h
      · cases h
      rename_i it hit
      split at h
      · cases h
      rename_i l hle
      cases h
      right; left
      refine ⟨hnf', it, l, rfl, ?_, hle⟩
      unfold ListSchema
      rw [named_items]
      exact attrs_one hl (getSchemaAttr_ok hit)
  rw [if_neg hi] at h
  by_cases hd : keysName ∈ (b.schemaAttrs S).map (·.1) ∨ valuesName ∈ (b.schemaAttrs S).map (·.1)
  · rw [if_pos hd] at h
    split at h
    · cases h
    rename_i hc
    simp only [List.length_map, ne_eq, not_or, Decidable.not_not] at hc
    unfold dictTransitions at h
    split at h
    · cases h
    rename_i kt hkt
    split at h
    · cases h
    rename_i vt hvt
    split at h
    · cases h
    rename_i l hle
    cases h
    right; right; left
    refine ⟨hnf', kt, vt, l, rfl, ?_, hle⟩
    unfold DictSchema
    rw [named_keys, named_values]
    exact attrs_two (by decide) hc.1 (getSchemaAttr_ok hkt) (getSchemaAttr_ok hvt)
  rw [if_neg hd] at h
  right; right; right
  have hplain : PlainSchema b S := by
    intro u
    rw [named_items, named_keys, named_values]
    simp only [not_or] at hd
    exact ⟨fun hm => hi (List.mem_map.mpr ⟨_, hm, rfl⟩),
      fun hm => hd.1 (List.mem_map.mpr ⟨_, hm, rfl⟩),
      fun hm => hd.2 (List.mem_map.mpr ⟨_, hm, rfl⟩)⟩
  refine ⟨hnf', hplain, ?_⟩
  cases rs with
  | false => simp at h; right; simp [← h]
  | true =>
    simp only [Bool.not_true, Bool.false_or, decide_eq_true_eq] at h
    by_cases h0 : (((b.schemaAttrs S).map (·.1)).filter isSpecial).length = 0
    · rw [if_pos h0] at h
      cases h
      right
      simp only [if_true]
      congr 1
      rw [eq_comm, List.filter_eq_self]
      intro n hn
      have h00 : ((b.schemaAttrs S).map (·.1)).filter isSpecial = [] :=
        List.length_eq_zero_iff.mp h0
      have := List.filter_eq_nil_iff.mp h00 n hn
      simpa using this
    · rw [if_neg h0] at h
      by_cases h1 : (((b.schemaAttrs S).map (·.1)).filter isSpecial).length =
          ((b.schemaAttrs S).map (·.1)).length
      · rw [if_pos h1] at h
        cases h
        left
        refine ⟨?_, by simp, rfl⟩
        intro _
        exact List.length_filter_eq_length_iff.mp h1
      · rw [if_neg h1] at h
        cases h
        right; simp

theorem getObjectSchema_ok {b : Bag} {x : ObjectId} {e : Item}
    (h : getObjectSchema b (.object x) = .ok e) :
    b.attr x (named "__schema__") = e ∧ e ≠ .missing := by
  unfold getObjectSchema at h
  simp only [getAttr] at h
  split at h
  · rename_i hc
    cases h
    rw [named_schema]
    refine ⟨rfl, ?_⟩
    rcases hc with hc | hc
    · exact hc
    · cases hc
  · cases h

theorem own_object {b : Bag} {x : ObjectId} {e : Item}
    (h : getObjectSchema b (.object x) = .ok e) : Own b x kObject e :=
  .object (getObjectSchema_ok h).1 (getObjectSchema_ok h).2

theorem Own.unique {b : Bag} {x : ObjectId} {s e e' : Item} (h : Own b x s e) (h' : Own b x s e') :
    e = e' := by
  cases h with
  | object h1 _ =>
    cases h' with
    | object h2 _ => rw [← h1, ← h2]
    | other h2 => exact absurd rfl h2
  | other h1 =>
    cases h' with
    | object _ _ => exact absurd rfl h1
    | other _ => rfl

/-! ### The calls for the references of an item -/

theorem mem_listCalls (t : Item) (c : Key × Pair) :
    ∀ (l : List Item) (k : Nat), c ∈ listCalls t k l ↔
      ∃ i y, l[i]? = some (.object y) ∧ c = (.listItem (k + i), (.object y, t))
  | [], k => by simp [listCalls]
  | x :: l, k => by
    unfold listCalls
    rw [List.mem_append, mem_listCalls t c l (k + 1)]
    constructor
    · rintro (h | ⟨i, y, h1, h2⟩)
      · cases x <;> simp [holdsId] at h
        rename_i o; exact ⟨0, o, by simp, by simpa using h⟩
      · exact ⟨i + 1, y, by simpa using h1, by rw [h2]; simp; omega⟩
    · rintro ⟨i, y, h1, h2⟩
      cases i with
      | zero =>
        simp at h1
        subst h1
        left; simp [holdsId, h2]
      | succ i =>
        right
        exact ⟨i, y, by simpa using h1, by rw [h2]; simp; omega⟩

theorem mem_dictKeyCalls (t : Item) (c : Key × Pair) :
    ∀ (l : List (Item × Item)) (k : Nat), c ∈ dictKeyCalls t k l ↔
      ∃ i y z, l[i]? = some (.object y, z) ∧ c = (.dictKey (k + i) (.object y), (.object y, t))
  | [], k => by simp [dictKeyCalls]
  | (x, x') :: l, k => by
    unfold dictKeyCalls
    rw [List.mem_append, mem_dictKeyCalls t c l (k + 1)]
    constructor
    · rintro (h | ⟨i, y, z, h1, h2⟩)
      · cases x <;> simp [holdsId] at h
        rename_i o; exact ⟨0, o, x', by simp, by simpa using h⟩
      · exact ⟨i + 1, y, z, by simpa using h1, by rw [h2]; simp; omega⟩
    · rintro ⟨i, y, z, h1, h2⟩
      cases i with
      | zero =>
        simp at h1
        obtain ⟨rfl, rfl⟩ := h1
        left; simp [holdsId, h2]
      | succ i =>
        right
        exact ⟨i, y, z, by simpa using h1, by rw [h2]; simp; omega⟩

theorem mem_dictValueCalls (t : Item) (c : Key × Pair) :
    ∀ (l : List (Item × Item)) (k : Nat), c ∈ dictValueCalls t k l ↔
      ∃ i y z, l[i]? = some (z, .object y) ∧ c = (.dictValue (k + i) z, (.object y, t))
  | [], k => by simp [dictValueCalls]
  | (x', x) :: l, k => by
    unfold dictValueCalls
    rw [List.mem_append, mem_dictValueCalls t c l (k + 1)]
    constructor
    · rintro (h | ⟨i, y, z, h1, h2⟩)
      · cases x <;> simp [holdsId] at h
        rename_i o; exact ⟨0, o, x', by simp, by simpa using h⟩
      · exact ⟨i + 1, y, z, by simpa using h1, by rw [h2]; simp; omega⟩
    · rintro ⟨i, y, z, h1, h2⟩
      cases i with
      | zero =>
        simp at h1
        obtain ⟨rfl, rfl⟩ := h1
        left; simp [holdsId, h2]
      | succ i =>
        right
        exact ⟨i, y, z, by simpa using h1, by rw [h2]; simp; omega⟩

theorem mem_attrCalls {b : Bag} {x : ObjectId} {S : ObjectId} :
    ∀ {names : List Name} {l : List (Key × Pair)},
      attrCalls b (.object x) (.object S) names = .ok l → ∀ c, c ∈ l ↔
        ∃ n t y, n ∈ names ∧ isSpecial n = false ∧
          attributeTransition b (.object x) (.object S) n = .ok (.object y, t) ∧
          c = (.attr n, (.object y, t))
  | [], l, h, c => by cases h; simp
  | n :: rest, l, h, c => by
    unfold attrCalls at h
    by_cases hs : isSpecial n = true
    · rw [if_pos hs] at h
      rw [mem_attrCalls h c]
      constructor
      · rintro ⟨m, t, y, h1, h2⟩; exact ⟨m, t, y, List.mem_cons_of_mem _ h1, h2⟩
      · rintro ⟨m, t, y, h1, h2⟩
        rcases List.mem_cons.mp h1 with rfl | h1
        · rw [hs] at h2; simp at h2
        · exact ⟨m, t, y, h1, h2⟩
    · rw [if_neg hs] at h
      split at h
      · cases h
      rename_i p hp
      split at h
      · cases h
      rename_i l' hl'
      cases h
      rw [List.mem_append, mem_attrCalls hl' c]
      obtain ⟨y, t⟩ := p
      constructor
      · rintro (h1 | ⟨m, t, y, h1, h2⟩)
        · cases y <;> simp [holdsId] at h1
          rename_i y
          exact ⟨n, t, y, by simp, by simpa using hs, hp, h1⟩
        · exact ⟨m, t, y, List.mem_cons_of_mem _ h1, h2⟩
      · rintro ⟨m, u, z, h1, h2, h3, h4⟩
        rcases List.mem_cons.mp h1 with rfl | h1
        · rw [hp] at h3
          cases h3
          left; simp [holdsId, h4]
        · exact .inr ⟨m, u, z, h1, h2, h3, h4⟩

theorem mem_schemaAttrCalls {b : Bag} {x : Item} :
    ∀ {names : List Name} {l : List (Key × Pair)},
      schemaAttrCalls b x names = .ok l → ∀ c, c ∈ l ↔
        ∃ n y k, n ∈ names ∧ (holdsId y = true ∨ holdsDType y = true) ∧
          schemaAttributeTransition b x n = .ok (y, k) ∧ c = (.schemaAttr n, (y, k))
  | [], l, h, c => by cases h; simp
  | n :: rest, l, h, c => by
    unfold schemaAttrCalls at h
    split at h
    · cases h
    rename_i p hp
    split at h
    · cases h
    rename_i l' hl'
    cases h
    rw [List.mem_append, mem_schemaAttrCalls hl' c]
    obtain ⟨y, t⟩ := p
    constructor
    · rintro (h1 | ⟨m, t, y, h1, h2⟩)
      · by_cases hc : (holdsId y || holdsDType y) = true
        · rw [if_pos hc] at h1
          simp at h1 hc
          exact ⟨n, y, t, by simp, hc, hp, h1⟩
        · rw [if_neg hc] at h1; simp at h1
      · exact ⟨m, t, y, List.mem_cons_of_mem _ h1, h2⟩
    · rintro ⟨m, u, z, h1, h2, h3, h4⟩
      rcases List.mem_cons.mp h1 with rfl | h1
      · rw [hp] at h3
        cases h3
        left
        rw [if_pos (by simpa using h2)]
        simp [h4]
      · exact .inr ⟨m, u, z, h1, h2, h3, h4⟩

theorem attrKind_iff (n : Name) (k : Item) : AttrKind n k ↔ schemaOfSchemaAttr n = k := by
  unfold schemaOfSchemaAttr
  constructor
  · intro h
    cases h with
    | name => rw [if_pos named_name]; rfl
    | metadata =>
      rw [if_neg (by rw [named_metadata]; decide), if_pos named_metadata]; rfl
    | schema h =>
      simp only [AboutSchema, named_name, named_metadata, not_or] at h
      rw [if_neg h.1, if_neg h.2]; rfl
  · intro h
    by_cases h1 : n = nameName
    · rw [if_pos h1] at h; subst h; rw [h1, ← named_name]; exact .name
    · rw [if_neg h1] at h
      by_cases h2 : n = metadataName
      · rw [if_pos h2] at h; subst h; rw [h2, ← named_metadata]; exact .metadata
      · rw [if_neg h2] at h; subst h
        exact .schema (by simp [AboutSchema, named_name, named_metadata, h1, h2])

theorem getSchemaAttr_of_mem {b : Bag} (hb : b.Ok) {S : ObjectId} (hS : S.isSchema = true)
    {n : Name} {t : Item} (h : (n, t) ∈ b.schemaAttrs S) :
    getSchemaAttr b (.object S) n = .ok t := by
  simp [getSchemaAttr, toSchemaId, hS, lookup_of_mem (hb S) h]

theorem presentSchemaAttrs_isSchema {b : Bag} {S : ObjectId} {ns : List Name}
    (h : presentSchemaAttrs b (.object S) = .ok ns) : S.isSchema = true := by
  unfold presentSchemaAttrs at h
  split at h
  · rename_i h2; cases h2
  · split at h
    · cases h
    · rename_i o ho
      have := toSchemaId_ok ho
      cases this.1
      exact this.2

theorem entityTransitions_isSchema {b : Bag} {x : Item} {S : ObjectId} {rs : Bool}
    {t : Transitions} (h : entityTransitions b x (.object S) rs = .ok t)
    (hnf : S.isNoFollowSchema = false) : S.isSchema = true := by
  unfold entityTransitions at h
  simp only [hnf, Bool.false_eq_true, if_false] at h
  split at h
  · cases h
  · rename_i hn; exact presentSchemaAttrs_isSchema hn

theorem explodeList_ok {b : Bag} {x : ObjectId} {l : List Item}
    (h : explodeList b (.object x) = .ok l) : l = b.list x := by
  simp only [explodeList] at h
  split at h
  · cases h; rfl
  · cases h

theorem dictItems_ok {b : Bag} {x : ObjectId} {l : List (Item × Item)}
    (h : dictItems b (.object x) = .ok l) : l = b.dict x := by
  simp only [dictItems] at h
  split at h
  · cases h; rfl
  · cases h

theorem listSchema_unique {b : Bag} {S : ObjectId} {t u : Item} (h : ListSchema b S t)
    (h' : ListSchema b S u) : t = u := by
  unfold ListSchema at h h'
  rw [h] at h'
  simpa using h'

theorem dictSchema_unique {b : Bag} {S : ObjectId} {k v k' v' : Item} (h : DictSchema b S k v)
    (h' : DictSchema b S k' v') : k = k' ∧ v = v' := by
  have hne : named "__keys__" ≠ named "__values__" := by rw [named_keys, named_values]; decide
  unfold DictSchema at h h'
  rcases h with h | h <;> rcases h' with h' | h' <;> rw [h] at h' <;> simp at h'
  · exact h'
  · exact absurd h'.1.1 hne
  · exact absurd h'.1.1.symm hne
  · exact ⟨h'.2, h'.1⟩

theorem list_not_dict {b : Bag} {S : ObjectId} {t k v : Item} (h : ListSchema b S t)
    (h' : DictSchema b S k v) : False := by
  unfold ListSchema at h
  unfold DictSchema at h'
  rw [h] at h'
  simp at h'

theorem list_not_plain {b : Bag} {S : ObjectId} {t : Item} (h : ListSchema b S t)
    (h' : PlainSchema b S) : False := by
  apply (h' t).1
  rw [h]; simp

theorem dict_not_plain {b : Bag} {S : ObjectId} {k v : Item} (h : DictSchema b S k v)
    (h' : PlainSchema b S) : False := by
  apply (h' k).2.1
  rcases h with h | h <;> rw [h] <;> simp

theorem schemaTransitions_ok {b : Bag} {x : ObjectId} {t : Transitions}
    (h : schemaTransitions b (.object x) = .ok t) :
    (x.isNoFollowSchema = true ∧ t = .none) ∨
    (x.isNoFollowSchema = false ∧ x.isSchema = true ∧
      ((b.schemaAttrs x = [] ∧ t = .none) ∨ t = .schema ((b.schemaAttrs x).map (·.1)))) := by
  unfold schemaTransitions at h
  simp only at h
  by_cases hnf : x.isNoFollowSchema = true
  · rw [if_pos hnf] at h; cases h; exact .inl ⟨hnf, rfl⟩
  rw [if_neg hnf] at h
  split at h
  · cases h
  rename_i names hn
  have := presentSchemaAttrs_ok hn
  subst this
  right
  refine ⟨by simpa using hnf, presentSchemaAttrs_isSchema hn, ?_⟩
  split at h
  · rename_i he; cases h; exact .inl ⟨by simpa using he, rfl⟩
  · cases h; exact .inr rfl

/-- The function is called for the references of the specification (and for dtypes). -/
theorem mem_forEachObject {b : Bag} (hb : b.Ok) {x : ObjectId} {e : Item} {t : Transitions}
    {cs : List (Key × Pair)} (ht : getTransitions b (.object x) e false = .ok t)
    (hc : forEachObject b (.object x) e t = .ok cs)
    (hobj : e = kObject → getObjectSchema b (.object x) = .ok kObject) (k : Key) (q : Pair) :
    ((k, q) ∈ cs ∧ holdsId q.1 = true) ↔ (Ref b x e k q ∧ k ≠ .schema) := by
  unfold getTransitions at ht
  cases e with
  | object S =>
    simp only [holdsId, if_true] at ht
    simp only [forEachObject, kObject, reduceCtorEq, if_false] at hc
    have hS := entityTransitions_isSchema ht
    rcases entityTransitions_ok ht with ⟨h1, rfl⟩ | ⟨h1, it, l, rfl, h2, h3⟩ |
        ⟨h1, kt, vt, l, rfl, h2, h3⟩ | ⟨h1, h2, h3⟩
    · simp at hc
      subst hc
      constructor
      · simp
      · rintro ⟨hr, hk⟩
        cases hr <;> simp_all
    · have := explodeList_ok h3
      subst this
      simp at hc
      subst hc
      constructor
      · rintro ⟨hm, _⟩
        by_cases hp : isPrimitiveSchema it = true
        · rw [if_pos hp] at hm; simp at hm
        · rw [if_neg hp, mem_listCalls] at hm
          obtain ⟨i, y, h4, h5⟩ := hm
          cases h5
          rw [← primitive_iff] at hp
          exact ⟨by simpa using .listItem h1 h2 hp h4, by simp⟩
      · rintro ⟨hr, hk⟩
        cases hr with
        | schema => exact absurd rfl hk
        | @listItem _ y t i h4 h5 h6 h7 =>
          have := listSchema_unique h2 h5
          subst this
          rw [primitive_iff] at h6
          rw [if_neg h6, mem_listCalls]
          exact ⟨⟨i, y, h7, by simp⟩, rfl⟩
        | dictKey _ h5 _ _ => exact (list_not_dict h2 h5).elim
        | dictValue _ h5 _ _ => exact (list_not_dict h2 h5).elim
        | attr _ h5 _ _ _ => exact (list_not_plain h2 h5).elim
    · have := dictItems_ok h3
      subst this
      simp at hc
      subst hc
      constructor
      · rintro ⟨hm, _⟩
        rw [List.mem_append] at hm
        rcases hm with hm | hm
        · by_cases hp : isPrimitiveSchema kt = true
          · rw [if_pos hp] at hm; simp at hm
          · rw [if_neg hp, mem_dictKeyCalls] at hm
            obtain ⟨i, y, z, h4, h5⟩ := hm
            cases h5
            rw [← primitive_iff] at hp
            exact ⟨by simpa using .dictKey h1 h2 hp h4, by simp⟩
        · by_cases hp : isPrimitiveSchema vt = true
          · rw [if_pos hp] at hm; simp at hm
          · rw [if_neg hp, mem_dictValueCalls] at hm
            obtain ⟨i, y, z, h4, h5⟩ := hm
            cases h5
            rw [← primitive_iff] at hp
            exact ⟨by simpa using .dictValue h1 h2 hp h4, by simp⟩
      · rintro ⟨hr, hk⟩
        cases hr with
        | schema => exact absurd rfl hk
        | listItem _ h5 _ _ => exact (list_not_dict h5 h2).elim
        | @dictKey _ y _ _ z i h4 h5 h6 h7 =>
          obtain ⟨rfl, rfl⟩ := dictSchema_unique h2 h5
          rw [primitive_iff] at h6
          rw [if_neg h6, List.mem_append, mem_dictKeyCalls]
          exact ⟨.inl ⟨i, y, z, h7, by simp⟩, rfl⟩
        | @dictValue _ y _ _ z i h4 h5 h6 h7 =>
          obtain ⟨rfl, rfl⟩ := dictSchema_unique h2 h5
          rw [primitive_iff] at h6
          rw [if_neg h6, List.mem_append, mem_dictValueCalls]
          exact ⟨.inr ⟨i, y, z, h7, by simp⟩, rfl⟩
        | attr _ h5 _ _ _ => exact (dict_not_plain h2 h5).elim
    · rcases h3 with ⟨_, h3, rfl⟩ | rfl
      · simp at hc
        subst hc
        have h3 := h3 rfl
        constructor
        · simp
        · rintro ⟨hr, hk⟩
          cases hr with
          | schema => exact absurd rfl hk
          | listItem _ h5 _ _ => exact (list_not_plain h5 h2).elim
          | dictKey _ h5 _ _ => exact (dict_not_plain h5 h2).elim
          | dictValue _ h5 _ _ => exact (dict_not_plain h5 h2).elim
          | attr _ _ h6 _ _ => rw [h3] at h6; simp at h6
      · simp only [Bool.false_eq_true, if_false] at hc
        rw [mem_attrCalls hc]
        constructor
        · rintro ⟨⟨n, u, y, h4, h5, h6, h7⟩, _⟩
          cases h7
          unfold attributeTransition at h6
          simp only [getAttr] at h6
          split at h6
          · cases h6
          rename_i u' hu'
          simp only [Except.ok.injEq, Prod.mk.injEq] at h6
          obtain ⟨h6, rfl⟩ := h6
          refine ⟨.attr h1 h2 (getSchemaAttr_ok hu') ?_ h6, by simp⟩
          rw [aboutSchema_iff]; simp [h5]
        · rintro ⟨hr, hk⟩
          cases hr with
          | schema => exact absurd rfl hk
          | listItem _ h5 _ _ => exact (list_not_plain h5 h2).elim
          | dictKey _ h5 _ _ => exact (dict_not_plain h5 h2).elim
          | dictValue _ h5 _ _ => exact (dict_not_plain h5 h2).elim
          | @attr _ y n u _ _ h6 h7 h8 =>
            rw [aboutSchema_iff] at h7
            refine ⟨⟨n, u, y, List.mem_map.mpr ⟨_, h6, rfl⟩, by simpa using h7, ?_, rfl⟩, rfl⟩
            simp [attributeTransition, getAttr, h8, getSchemaAttr_of_mem hb (hS h1) h6]
  | dtype n =>
    simp only [holdsId, holdsDType, if_true, Bool.false_eq_true, if_false] at ht
    by_cases hO : (Item.dtype n) = kObject
    · rw [if_pos hO] at ht
      cases ht
      simp only [forEachObject] at hc
      rw [if_pos hO] at hc
      rw [hobj hO] at hc
      cases hc
      constructor
      · simp [kObject, holdsId]
      · rintro ⟨hr, hk⟩
        cases hr
        exact absurd hO (by decide)
    · rw [if_neg hO] at ht
      by_cases hS : (Item.dtype n) = kSchema
      · rw [if_pos hS] at ht
        simp only [forEachObject, if_neg hO] at hc
        rcases schemaTransitions_ok ht with ⟨h1, rfl⟩ | ⟨h1, h2, ⟨h3, rfl⟩ | rfl⟩
        · cases hc
          constructor
          · simp
          · rintro ⟨hr, hk⟩
            cases hr with
            | schemaAttr h4 _ _ => rw [h1] at h4; cases h4
        · cases hc
          constructor
          · simp
          · rintro ⟨hr, hk⟩
            cases hr with
            | schemaAttr _ h5 _ => rw [h3] at h5; simp at h5
        · simp only at hc
          rw [mem_schemaAttrCalls hc]
          constructor
          · rintro ⟨⟨m, y, j, h4, h5, h6, h7⟩, h8⟩
            cases h7
            obtain ⟨o, rfl⟩ := (holdsId_iff y).mp h8
            unfold schemaAttributeTransition at h6
            split at h6
            · cases h6
            rename_i u hu
            simp only [Except.ok.injEq, Prod.mk.injEq] at h6
            obtain ⟨rfl, h6⟩ := h6
            rw [hS]
            exact ⟨.schemaAttr h1 (getSchemaAttr_ok hu) ((attrKind_iff _ _).mpr h6), by simp⟩
          · rintro ⟨hr, hk⟩
            cases hr with
            | @schemaAttr y m j _ h5 h6 =>
              refine ⟨⟨m, .object y, j, List.mem_map.mpr ⟨_, h5, rfl⟩, .inl rfl, ?_, rfl⟩, rfl⟩
              simp [schemaAttributeTransition, getSchemaAttr_of_mem hb h2 h5,
                (attrKind_iff _ _).mp h6]
      · rw [if_neg hS] at ht
        cases ht
        simp only [forEachObject, if_neg hO] at hc
        cases hc
        constructor
        · simp
        · rintro ⟨hr, hk⟩
          cases hr
          exact absurd rfl hS
  | _ => simp [holdsId, holdsDType] at ht

end Verif.Traverse
