import Verif.Traverse.UuidSpec

/-! What one visit of `deep_uuid` does. -/

namespace Verif.Traverse

open Verif.ObjectId
open Verif.Uuid

/-- The value the visitor returns for an item, given the uuids known so far. -/
def got (tr : List (ObjectId × Item)) (p : Pair) : Item :=
  match p.1 with
  | .object o => if p.2 = kItemId then p.1 else (findTracked o tr).getD p.1
  | y => y

/-- The id is asked for although its uuid is not known. -/
def Unknown (tr : List (ObjectId × Item)) (o : ObjectId) (p : Pair) : Prop :=
  p.1 = .object o ∧ p.2 ≠ kItemId ∧ findTracked o tr = none

/-- The values of some items were asked for. -/
structure Asked (t t' : Track) (ps : Pair → Prop) : Prop where
  tracked : t'.tracked = t.tracked
  untracked : ∀ o, o ∈ t'.untracked ↔ o ∈ t.untracked ∨ ∃ p, ps p ∧ Unknown t.tracked o p
  valid : ∀ p, ps p → ∀ o, p.1 = .object o → ¬ Primitive p.2

theorem Asked.nil {t : Track} {ps : Pair → Prop} (h : ∀ p, ¬ ps p) : Asked t t ps :=
  ⟨rfl, fun o => ⟨.inl, fun h1 => h1.elim id (fun ⟨p, h2, _⟩ => absurd h2 (h p))⟩,
    fun p hp => absurd hp (h p)⟩

theorem Asked.cons {t t1 t2 : Track} {p : Pair} {ps qs : Pair → Prop}
    (h1 : Asked t t1 (· = p)) (h2 : Asked t1 t2 ps) (hq : ∀ q, qs q ↔ q = p ∨ ps q) :
    Asked t t2 qs := by
  refine ⟨by rw [h2.tracked, h1.tracked], ?_, ?_⟩
  · intro o
    rw [h2.untracked, h1.untracked, h1.tracked]
    constructor
    · rintro ((h | ⟨q, rfl, h⟩) | ⟨q, h, h'⟩)
      · exact .inl h
      · exact .inr ⟨q, (hq q).mpr (.inl rfl), h⟩
      · exact .inr ⟨q, (hq q).mpr (.inr h), h'⟩
    · rintro (h | ⟨q, h, h'⟩)
      · exact .inl (.inl h)
      · rcases (hq q).mp h with h | h
        · exact .inl (.inr ⟨q, h, h'⟩)
        · exact .inr ⟨q, h, h'⟩
  · intro q hqq
    rcases (hq q).mp hqq with h | h
    · exact h1.valid q h
    · exact h2.valid q h

theorem validatePrimitive_ok {p : Pair} {o : ObjectId} (ho : p.1 = .object o) :
    validatePrimitive p ≠ .ok () := by
  unfold validatePrimitive
  rw [ho]
  simp [typeOf]

section
variable {S : Type} {H : HashFn S} {seed : Bytes}

theorem getValue_ok {t t' : Track} {p : Pair} {v : Item}
    (h : getValue (uuidVisitor H seed) t p = .ok (v, t')) :
    v = got t.tracked p ∧ Asked t t' (· = p) := by
  obtain ⟨y, s⟩ := p
  unfold getValue at h
  split at h
  · cases h
  rename_i u hu
  have hvalid : ∀ p : Pair, p = (y, s) → ∀ o, p.1 = .object o → ¬ Primitive p.2 := by
    rintro p rfl o ho hp
    rw [primitive_iff] at hp
    simp only at hp
    rw [if_pos hp] at hu
    exact validatePrimitive_ok ho hu
  simp only [uuidVisitor] at h
  unfold uuidGetValue at h
  split at h
  · rename_i y o
    by_cases hi : s = kItemId
    · rw [if_pos hi] at h
      cases h
      refine ⟨by simp [got, hi], rfl, ?_, hvalid⟩
      intro o'
      constructor
      · exact .inl
      · rintro (h | ⟨p, rfl, _, h2, _⟩)
        · exact h
        · exact absurd hi h2
    · rw [if_neg hi] at h
      split at h
      · rename_i hf
        cases h
        refine ⟨by simp [got, hi, hf], rfl, ?_, hvalid⟩
        intro o'
        simp only [List.mem_cons]
        constructor
        · rintro (rfl | h)
          · exact .inr ⟨_, rfl, rfl, hi, hf⟩
          · exact .inl h
        · rintro (h | ⟨p, rfl, h1, _, _⟩)
          · exact .inr h
          · simp at h1; exact .inl h1.symm
      · rename_i u' hf
        cases h
        refine ⟨by simp [got, hi, hf], rfl, ?_, hvalid⟩
        intro o'
        constructor
        · exact .inl
        · rintro (h | ⟨p, rfl, h1, _, h3⟩)
          · exact h
          · simp at h1; subst h1; rw [hf] at h3; cases h3
  · rename_i hne
    cases h
    refine ⟨?_, rfl, ?_, hvalid⟩
    · unfold got
      split
      · rename_i o ho; exact absurd ho (hne o)
      · rfl
    · intro o'
      constructor
      · exact .inl
      · rintro (h | ⟨p, rfl, h1, _⟩)
        · exact h
        · exact absurd h1 (hne o')

theorem listValues_ok {tt : Item} : ∀ {l : List Item} {t t' : Track} {ys : List Item},
    listValues (uuidVisitor H seed) tt t l = .ok (ys, t') →
      ys = l.map (fun y => got t.tracked (y, tt)) ∧ Asked t t' (fun p => ∃ y ∈ l, p = (y, tt))
  | [], t, t', ys, h => by
    cases h
    exact ⟨rfl, .nil (by simp)⟩
  | y :: l, t, t', ys, h => by
    unfold listValues at h
    split at h
    · cases h
    rename_i v t1 h1
    split at h
    · cases h
    rename_i vs t2 h2
    cases h
    obtain ⟨a1, a2⟩ := getValue_ok h1
    obtain ⟨c1, c2⟩ := listValues_ok h2
    refine ⟨by rw [List.map_cons, a1, c1, a2.tracked], a2.cons c2 ?_⟩
    intro q
    simp

theorem dictValues_ok {kt vt : Item} : ∀ {l : List (Item × Item)} {t t' : Track}
    {ys : List (Item × Item)}, dictValues (uuidVisitor H seed) kt vt t l = .ok (ys, t') →
      ys = l.map (fun y => (got t.tracked (y.1, kt), got t.tracked (y.2, vt))) ∧
        Asked t t' (fun p => ∃ y ∈ l, p = (y.1, kt) ∨ p = (y.2, vt))
  | [], t, t', ys, h => by
    cases h
    exact ⟨rfl, .nil (by simp)⟩
  | (k, y) :: l, t, t', ys, h => by
    unfold dictValues at h
    split at h
    · cases h
    rename_i k' t1 h1
    split at h
    · cases h
    rename_i v t2 h2
    split at h
    · cases h
    rename_i vs t3 h3
    cases h
    obtain ⟨a1, a2⟩ := getValue_ok h1
    obtain ⟨d1, d2⟩ := getValue_ok h2
    obtain ⟨c1, c2⟩ := dictValues_ok h3
    refine ⟨by rw [List.map_cons, a1, d1, c1, d2.tracked, a2.tracked], ?_⟩
    refine a2.cons (ps := fun q => q = (y, vt) ∨ ∃ y ∈ l, q = (y.1, kt) ∨ q = (y.2, vt))
      (d2.cons c2 (by simp)) ?_
    intro q
    simp only [List.mem_cons]
    constructor
    · rintro ⟨z, rfl | hz, h⟩
      · rcases h with h | h
        · exact .inl h
        · exact .inr (.inl h)
      · exact .inr (.inr ⟨z, hz, h⟩)
    · rintro (h | h | ⟨z, hz, h⟩)
      · exact ⟨(k, y), .inl rfl, .inl h⟩
      · exact ⟨(k, y), .inl rfl, .inr h⟩
      · exact ⟨z, .inr hz, h⟩

theorem attrValues_ok {tr : Name → Except Err Pair} : ∀ {l : List Name} {t t' : Track}
    {ys : List (Name × Item)}, attrValues (uuidVisitor H seed) tr t l = .ok (ys, t') →
      ∃ pf : Name → Pair, (∀ n ∈ l, tr n = .ok (pf n)) ∧
        ys = l.map (fun n => (n, got t.tracked (pf n))) ∧
        Asked t t' (fun p => ∃ n ∈ l, p = pf n)
  | l, t, t', ys, h => by
    refine ⟨fun n => match tr n with | .ok p => p | .error _ => (.missing, .missing), ?_⟩
    induction l generalizing t t' ys with
    | nil =>
      cases h
      exact ⟨by simp, rfl, .nil (by simp)⟩
    | cons n l ih =>
      unfold attrValues at h
      split at h
      · cases h
      rename_i p hp
      split at h
      · cases h
      rename_i v t1 h1
      split at h
      · cases h
      rename_i vs t2 h2
      cases h
      obtain ⟨a1, a2⟩ := getValue_ok h1
      obtain ⟨c0, c1, c2⟩ := ih _ _ _ h2
      refine ⟨?_, ?_, ?_⟩
      · intro m hm
        rcases List.mem_cons.mp hm with rfl | hm
        · simp [hp]
        · exact c0 m hm
      · rw [List.map_cons, a1, c1, a2.tracked]
        simp [hp]
      · refine a2.cons c2 ?_
        intro q
        simp [hp]

theorem isUntracked_iff (t : Track) (y : Item) :
    isUntracked t y = true ↔ ∃ o, y = .object o ∧ o ∈ t.untracked := by
  cases y <;> simp [isUntracked]

theorem replaceSelf_ok {t : Track} {x : Item} : ∀ {fs gs : List (Name × Item)},
    replaceSelf t x fs = some gs →
      gs = fs.map (fun f => (f.1, if isUntracked t f.2 then selfReference else f.2)) ∧
        ∀ f ∈ fs, isUntracked t f.2 = true → f.2 = x
  | [], gs, h => by simp [replaceSelf] at h; subst h; simp
  | (n, y) :: fs, gs, h => by
    unfold replaceSelf at h
    by_cases hu : isUntracked t y = true
    · rw [if_pos hu] at h
      by_cases hx : y = x
      · rw [if_pos hx] at h
        obtain ⟨g, hg, rfl⟩ := Option.map_eq_some_iff.mp h
        obtain ⟨h1, h2⟩ := replaceSelf_ok hg
        refine ⟨by simp [h1, hu], ?_⟩
        intro f hf hfu
        rcases List.mem_cons.mp hf with rfl | hf
        · exact hx
        · exact h2 f hf hfu
      · rw [if_neg hx] at h; cases h
    · rw [if_neg hu] at h
      obtain ⟨g, hg, rfl⟩ := Option.map_eq_some_iff.mp h
      obtain ⟨h1, h2⟩ := replaceSelf_ok hg
      refine ⟨by simp [h1, hu], ?_⟩
      intro f hf hfu
      rcases List.mem_cons.mp hf with rfl | hf
      · exact absurd hfu hu
      · exact h2 f hf hfu

theorem replaceSelf_none {t : Track} {x : Item} : ∀ {fs : List (Name × Item)},
    replaceSelf t x fs = none → ∃ f ∈ fs, isUntracked t f.2 = true ∧ f.2 ≠ x
  | [], h => by simp [replaceSelf] at h
  | (n, y) :: fs, h => by
    unfold replaceSelf at h
    by_cases hu : isUntracked t y = true
    · rw [if_pos hu] at h
      by_cases hx : y = x
      · rw [if_pos hx] at h
        obtain ⟨f, hf, h2⟩ := replaceSelf_none (Option.map_eq_none_iff.mp h)
        exact ⟨f, List.mem_cons_of_mem _ hf, h2⟩
      · exact ⟨(n, y), by simp, hu, hx⟩
    · rw [if_neg hu] at h
      obtain ⟨f, hf, h2⟩ := replaceSelf_none (Option.map_eq_none_iff.mp h)
      exact ⟨f, List.mem_cons_of_mem _ hf, h2⟩

theorem selfText_eq : selfText = selfReference := by
  unfold selfText selfReference
  congr 1

/-- The pairs whose values are asked for when an item with the own schema `T` is visited. -/
inductive Part (b : Bag) (x : ObjectId) : Item → Pair → Prop where
  | listItem {T : ObjectId} {t y : Item} : T.isNoFollowSchema = false → ListSchema b T t →
      y ∈ b.list x → Part b x (.object T) (y, t)
  | dictKey {T : ObjectId} {k t : Item} {y : Item × Item} : T.isNoFollowSchema = false →
      DictSchema b T k t → y ∈ b.dict x → Part b x (.object T) (y.1, k)
  | dictValue {T : ObjectId} {k t : Item} {y : Item × Item} : T.isNoFollowSchema = false →
      DictSchema b T k t → y ∈ b.dict x → Part b x (.object T) (y.2, t)
  | attr {T : ObjectId} {n : Name} {p : Pair} : T.isNoFollowSchema = false → PlainSchema b T →
      EntityAttr b x T n p → Part b x (.object T) p
  | schemaAttr {n : Name} {p : Pair} : x.isNoFollowSchema = false → SchemaAttr b x n p →
      Part b x (.dtype 12) p

theorem Part.ref {b : Bag} {x o : ObjectId} {e t : Item} (h : Part b x e (.object o, t))
    (hp : ¬ Primitive t) : ∃ k, k ≠ .schema ∧ Ref b x e k (.object o, t) := by
  generalize hq : ((Item.object o, t) : Pair) = q at h
  cases h with
  | listItem h1 h2 h3 =>
    cases hq
    obtain ⟨i, hi⟩ := List.getElem?_of_mem h3
    exact ⟨_, by simp, .listItem h1 h2 hp hi⟩
  | dictKey h1 h2 h3 =>
    rename_i y
    obtain ⟨i, hi⟩ := List.getElem?_of_mem h3
    obtain ⟨y1, y2⟩ := y
    cases hq
    exact ⟨_, by simp, .dictKey h1 h2 hp hi⟩
  | dictValue h1 h2 h3 =>
    rename_i y
    obtain ⟨i, hi⟩ := List.getElem?_of_mem h3
    obtain ⟨y1, y2⟩ := y
    cases hq
    exact ⟨_, by simp, .dictValue h1 h2 hp hi⟩
  | attr h1 h2 h3 =>
    subst hq
    obtain ⟨u, h4, h5, h6⟩ := h3
    simp only [Prod.mk.injEq] at h6
    obtain ⟨h6, rfl⟩ := h6
    exact ⟨_, by simp, .attr h1 h2 h4 h5 h6.symm⟩
  | schemaAttr h1 h2 =>
    subst hq
    obtain ⟨y, k, h4, h5, h6⟩ := h2
    simp only [Prod.mk.injEq] at h6
    obtain ⟨rfl, rfl⟩ := h6
    exact ⟨_, by simp, .schemaAttr h1 h4 h5⟩

/-- The names of the fields of an entity. -/
theorem entity_names {b : Bag} (hb : b.Ok) {T : ObjectId} :
    (((b.schemaAttrs T).map (·.1)).filter (fun n => !isSpecial n)).Nodup ∧
    ∀ n, n ∈ ((b.schemaAttrs T).map (·.1)).filter (fun n => !isSpecial n) ↔
      ∃ t, (n, t) ∈ b.schemaAttrs T ∧ ¬ AboutSchema n := by
  refine ⟨(hb T).filter _, ?_⟩
  intro n
  simp only [List.mem_filter, List.mem_map, aboutSchema_iff]
  constructor
  · rintro ⟨⟨⟨m, t⟩, h1, rfl⟩, h2⟩
    exact ⟨t, h1, by simpa using h2⟩
  · rintro ⟨t, h1, h2⟩
    exact ⟨⟨_, h1, rfl⟩, by simpa using h2⟩

theorem attr_unique {b : Bag} (hb : b.Ok) {T : ObjectId} {n : Name} {t u : Item}
    (h : (n, t) ∈ b.schemaAttrs T) (h' : (n, u) ∈ b.schemaAttrs T) : t = u := by
  have h1 := lookup_of_mem (hb T) h
  have h2 := lookup_of_mem (hb T) h'
  rw [h1] at h2
  simpa using h2

/-- What the visitor does for the four kinds of data: it takes values from `t`, and then stores
the uuid. -/
inductive Visited (H : HashFn S) (seed : Bytes) (b : Bag) (x T : ObjectId) (t t1 : Track) :
    ObjectId → Prop where
  | noFollow : T.isNoFollowSchema = true →
      Visited H seed b x T t t1 (uuidFromFields H seed [] .default)
  | list {tt : Item} : T.isNoFollowSchema = false → ListSchema b T tt →
      (∀ y ∈ b.list x, isUntracked t1 (got t.tracked (y, tt)) = false) →
      Visited H seed b x T t t1
        (listUuid H seed ((b.list x).map (fun y => got t.tracked (y, tt))) [])
  | dict {kt vt : Item} : T.isNoFollowSchema = false → DictSchema b T kt vt →
      (∀ y ∈ b.dict x, isUntracked t1 (got t.tracked (y.1, kt)) = false) →
      (∀ y ∈ b.dict x, isUntracked t1 (got t.tracked (y.2, vt)) = false) →
      Visited H seed b x T t t1
        (dictUuid H seed ((b.dict x).map
          (fun y => (got t.tracked (y.1, kt), got t.tracked (y.2, vt)))) [])
  | entity {pf : Name → Pair} {names : List Name} : T.isNoFollowSchema = false → PlainSchema b T →
      names.Nodup → (∀ n p, EntityAttr b x T n p ↔ n ∈ names ∧ p = pf n) →
      (∀ n ∈ names, isUntracked t1 (got t.tracked (pf n)) = true →
        got t.tracked (pf n) = .object x) →
      Visited H seed b x T t t1 (uuidFromFields H seed (names.map (fun n =>
        (n, if isUntracked t1 (got t.tracked (pf n)) then selfReference
          else got t.tracked (pf n)))) .default)

theorem visitEntity_ok {b : Bag} (hb : b.Ok) {x T : ObjectId} {io : Bool} {t t' : Track}
    (h : visitEntity (uuidVisitor H seed) b t (.object x) (.object T) io = .ok t') :
    ∃ t1 u, Asked t t1 (Part b x (.object T)) ∧ Visited H seed b x T t t1 u ∧
      t' = setTracked t1 (.object x) u := by
  unfold visitEntity at h
  split at h
  · cases h
  · -- list
    rename_i tt l htr
    unfold getTransitions at htr
    simp only [holdsId, if_true] at htr
    split at h
    · cases h
    rename_i ys t1 hv
    obtain ⟨a1, a2⟩ := listValues_ok hv
    rcases entityTransitions_ok htr with ⟨_, h2⟩ | ⟨h1, it, l', h2, h3, h4⟩ |
        ⟨_, _, _, _, h2, _⟩ | ⟨_, _, ⟨_, _, h2⟩ | h2⟩
    · cases h2
    · cases h2
      have := explodeList_ok h4
      subst this
      simp only [uuidVisitor, uuidVisitList] at h
      split at h
      · cases h
      rename_i hany
      cases h
      refine ⟨t1, _, ⟨a2.tracked, ?_, ?_⟩, ?_, by rw [a1]⟩
      · intro o
        rw [a2.untracked]
        constructor
        · rintro (h | ⟨p, ⟨y, hy, rfl⟩, h6⟩)
          · exact .inl h
          · exact .inr ⟨_, .listItem h1 h3 hy, h6⟩
        · rintro (h | ⟨p, hp, h6⟩)
          · exact .inl h
          · right
            cases hp with
            | listItem _ h7 h8 => rw [listSchema_unique h7 h3] at *; exact ⟨_, ⟨_, h8, rfl⟩, h6⟩
            | dictKey _ h7 _ => exact (list_not_dict h3 h7).elim
            | dictValue _ h7 _ => exact (list_not_dict h3 h7).elim
            | attr _ h7 _ => exact (list_not_plain h3 h7).elim
      · intro p hp o ho
        cases hp with
        | listItem _ h7 h8 =>
          rw [listSchema_unique h7 h3] at *
          exact a2.valid _ ⟨_, h8, rfl⟩ o ho
        | dictKey _ h7 _ => exact (list_not_dict h3 h7).elim
        | dictValue _ h7 _ => exact (list_not_dict h3 h7).elim
        | attr _ h7 _ => exact (list_not_plain h3 h7).elim
      · refine .list h1 h3 ?_
        intro y hy
        rw [a1] at hany
        simp only [List.any_map, List.any_eq_true, not_exists, not_and] at hany
        simpa using hany y hy
    · cases h2
    · cases h2
    · cases h2
  · -- dict
    rename_i kt vt l htr
    unfold getTransitions at htr
    simp only [holdsId, if_true] at htr
    split at h
    · cases h
    rename_i ys t1 hv
    obtain ⟨a1, a2⟩ := dictValues_ok hv
    rcases entityTransitions_ok htr with ⟨_, h2⟩ | ⟨_, _, _, h2, _⟩ |
        ⟨h1, kt', vt', l', h2, h3, h4⟩ | ⟨_, _, ⟨_, _, h2⟩ | h2⟩
    · cases h2
    · cases h2
    · cases h2
      have := dictItems_ok h4
      subst this
      simp only [uuidVisitor, uuidVisitDict] at h
      split at h
      · cases h
      rename_i hany
      split at h
      · cases h
      rename_i hany'
      cases h
      refine ⟨t1, _, ⟨a2.tracked, ?_, ?_⟩, ?_, by rw [a1]⟩
      · intro o
        rw [a2.untracked]
        constructor
        · rintro (h | ⟨p, ⟨y, hy, rfl | rfl⟩, h6⟩)
          · exact .inl h
          · exact .inr ⟨_, .dictKey h1 h3 hy, h6⟩
          · exact .inr ⟨_, .dictValue h1 h3 hy, h6⟩
        · rintro (h | ⟨p, hp, h6⟩)
          · exact .inl h
          · right
            cases hp with
            | listItem _ h7 _ => exact (list_not_dict h7 h3).elim
            | dictKey _ h7 h8 =>
              obtain ⟨rfl, rfl⟩ := dictSchema_unique h7 h3
              exact ⟨_, ⟨_, h8, .inl rfl⟩, h6⟩
            | dictValue _ h7 h8 =>
              obtain ⟨rfl, rfl⟩ := dictSchema_unique h7 h3
              exact ⟨_, ⟨_, h8, .inr rfl⟩, h6⟩
            | attr _ h7 _ => exact (dict_not_plain h3 h7).elim
      · intro p hp o ho
        cases hp with
        | listItem _ h7 _ => exact (list_not_dict h7 h3).elim
        | dictKey _ h7 h8 =>
          obtain ⟨rfl, rfl⟩ := dictSchema_unique h7 h3
          exact a2.valid _ ⟨_, h8, .inl rfl⟩ o ho
        | dictValue _ h7 h8 =>
          obtain ⟨rfl, rfl⟩ := dictSchema_unique h7 h3
          exact a2.valid _ ⟨_, h8, .inr rfl⟩ o ho
        | attr _ h7 _ => exact (dict_not_plain h3 h7).elim
      · rw [a1] at hany hany'
        simp only [List.map_map, List.any_map, List.any_eq_true, not_exists, not_and] at hany hany'
        refine .dict h1 h3 ?_ ?_
        · intro y hy; simpa using hany y hy
        · intro y hy; simpa using hany' y hy
    · cases h2
    · cases h2
  · -- nothing
    rename_i htr
    unfold getTransitions at htr
    simp only [holdsId, if_true] at htr
    simp only [uuidVisitor, uuidVisitObject, replaceSelf] at h
    cases h
    refine ⟨t, _, ?_, ?_, rfl⟩
    · apply Asked.nil
      intro p hp
      rcases entityTransitions_ok htr with ⟨h1, _⟩ | ⟨_, _, _, h2, _⟩ | ⟨_, _, _, _, h2, _⟩ |
          ⟨h1, h3, ⟨h4, _, _⟩ | h2⟩
      · cases hp <;> simp_all
      · cases h2
      · cases h2
      · cases hp with
        | listItem _ h7 _ => exact (list_not_plain h7 h3).elim
        | dictKey _ h7 _ => exact (dict_not_plain h7 h3).elim
        | dictValue _ h7 _ => exact (dict_not_plain h7 h3).elim
        | attr _ _ h8 =>
          obtain ⟨u, h5, h6, _⟩ := h8
          exact h6 ((aboutSchema_iff _).mpr (h4 rfl _ (List.mem_map.mpr ⟨_, h5, rfl⟩)))
      · cases h2
    · rcases entityTransitions_ok htr with ⟨h1, _⟩ | ⟨_, _, _, h2, _⟩ | ⟨_, _, _, _, h2, _⟩ |
          ⟨h1, h3, ⟨h4, _, _⟩ | h2⟩
      · exact .noFollow h1
      · cases h2
      · cases h2
      · refine .entity (pf := fun _ => (.missing, .missing)) (names := []) h1 h3 (by simp) ?_
          (by simp)
        intro n p
        constructor
        · rintro ⟨u, h5, h6, _⟩
          exact absurd ((aboutSchema_iff _).mpr (h4 rfl _ (List.mem_map.mpr ⟨_, h5, rfl⟩))) h6
        · simp
      · cases h2
  · -- attributes
    rename_i names htr
    unfold getTransitions at htr
    simp only [holdsId, if_true] at htr
    split at h
    · cases h
    rename_i ys t1 hv
    obtain ⟨pf, a0, a1, a2⟩ := attrValues_ok hv
    rcases entityTransitions_ok htr with ⟨_, h2⟩ | ⟨_, _, _, h2, _⟩ | ⟨_, _, _, _, h2, _⟩ |
        ⟨h1, h3, ⟨_, _, h2⟩ | h2⟩
    · cases h2
    · cases h2
    · cases h2
    · cases h2
    · simp only [if_true] at h2
      injection h2 with h2
      subst h2
      obtain ⟨e1, e2⟩ := entity_names hb (T := T)
      simp only [uuidVisitor, uuidVisitObject] at h
      split at h
      · cases h
      rename_i gs hgs
      cases h
      obtain ⟨g1, g2⟩ := replaceSelf_ok hgs
      have hattr : ∀ n p, EntityAttr b x T n p ↔
          n ∈ ((b.schemaAttrs T).map (·.1)).filter (fun n => !isSpecial n) ∧ p = pf n := by
        intro n p
        rw [e2]
        constructor
        · rintro ⟨u, h5, h6, rfl⟩
          refine ⟨⟨u, h5, h6⟩, ?_⟩
          have := a0 n ((e2 n).mpr ⟨u, h5, h6⟩)
          unfold attributeTransition at this
          simp only [getAttr] at this
          split at this
          · cases this
          rename_i u' hu'
          have := attr_unique hb h5 (getSchemaAttr_ok hu')
          subst this
          simp_all
        · rintro ⟨⟨u, h5, h6⟩, rfl⟩
          refine ⟨u, h5, h6, ?_⟩
          have := a0 n ((e2 n).mpr ⟨u, h5, h6⟩)
          unfold attributeTransition at this
          simp only [getAttr] at this
          split at this
          · cases this
          rename_i u' hu'
          have := attr_unique hb h5 (getSchemaAttr_ok hu')
          subst this
          simp_all
      refine ⟨t1, _, ⟨a2.tracked, ?_, ?_⟩, .entity h1 h3 e1 hattr ?_, ?_⟩
      · intro o
        rw [a2.untracked]
        constructor
        · rintro (h | ⟨p, ⟨n, hn, rfl⟩, h6⟩)
          · exact .inl h
          · exact .inr ⟨_, .attr h1 h3 ((hattr n _).mpr ⟨hn, rfl⟩), h6⟩
        · rintro (h | ⟨p, hp, h6⟩)
          · exact .inl h
          · right
            cases hp with
            | listItem _ h7 _ => exact (list_not_plain h7 h3).elim
            | dictKey _ h7 _ => exact (dict_not_plain h7 h3).elim
            | dictValue _ h7 _ => exact (dict_not_plain h7 h3).elim
            | attr _ _ h8 =>
              obtain ⟨h9, h10⟩ := (hattr _ _).mp h8
              exact ⟨p, ⟨_, h9, h10⟩, h6⟩
      · intro p hp
        cases hp with
        | listItem _ h7 _ => exact (list_not_plain h7 h3).elim
        | dictKey _ h7 _ => exact (dict_not_plain h7 h3).elim
        | dictValue _ h7 _ => exact (dict_not_plain h7 h3).elim
        | attr _ _ h8 =>
          obtain ⟨h9, h10⟩ := (hattr _ _).mp h8
          exact a2.valid p ⟨_, h9, h10⟩
      · intro n hn hu
        exact g2 (n, got t.tracked (pf n)) (by rw [a1]; exact List.mem_map.mpr ⟨n, hn, rfl⟩) hu
      · rw [g1, a1, List.map_map]
        rfl
  · -- a schema is no entity
    rename_i names htr
    unfold getTransitions at htr
    simp only [holdsId, if_true] at htr
    rcases entityTransitions_ok htr with ⟨_, h2⟩ | ⟨_, _, _, h2, _⟩ | ⟨_, _, _, _, h2, _⟩ |
        ⟨h1, h3, ⟨_, _, h2⟩ | h2⟩ <;> cases h2

/-- What the visitor does for a schema. -/
inductive SchemaVisited (H : HashFn S) (seed : Bytes) (b : Bag) (x : ObjectId) (t t1 : Track) :
    Track → Prop where
  | noFollow : x.isNoFollowSchema = true →
      SchemaVisited H seed b x t t1 (setTracked t1 (.object x) (schemaUuid H seed []))
  | unknown {n : Name} {p : Pair} : SchemaAttr b x n p →
      isUntracked t1 (got t.tracked p) = true → got t.tracked p ≠ .object x →
      SchemaVisited H seed b x t t1 { t1 with untracked := x :: t1.untracked }
  | schema {pf : Name → Pair} {names : List Name} : x.isNoFollowSchema = false →
      names.Nodup → (∀ n p, SchemaAttr b x n p ↔ n ∈ names ∧ p = pf n) →
      (∀ n ∈ names, isUntracked t1 (got t.tracked (pf n)) = true →
        got t.tracked (pf n) = .object x) →
      SchemaVisited H seed b x t t1 (setTracked t1 (.object x)
        (schemaUuid H seed (names.map (fun n =>
          (n, if isUntracked t1 (got t.tracked (pf n)) then selfReference
            else got t.tracked (pf n))))))

theorem visitSchemaItem_ok {b : Bag} (hb : b.Ok) {x : ObjectId} {t t' : Track}
    (h : visitSchemaItem (uuidVisitor H seed) b t (.object x) kSchema = .ok t') :
    ∃ t1, Asked t t1 (Part b x (.dtype 12)) ∧ SchemaVisited H seed b x t t1 t' := by
  unfold visitSchemaItem at h
  simp only [holdsId, Bool.not_true, Bool.false_eq_true, if_false] at h
  split at h
  · cases h
  · rename_i names htr
    unfold getTransitions at htr
    simp only [holdsId, kSchema, holdsDType, if_true, kObject, Bool.false_eq_true, if_false] at htr
    rw [if_neg (by decide)] at htr
    split at h
    · cases h
    rename_i ys t1 hv
    obtain ⟨pf, a0, a1, a2⟩ := attrValues_ok hv
    rcases schemaTransitions_ok htr with ⟨_, h2⟩ | ⟨h1, hs, ⟨_, h2⟩ | h2⟩
    · cases h2
    · cases h2
    cases h2
    have hattr : ∀ n p, SchemaAttr b x n p ↔ n ∈ (b.schemaAttrs x).map (·.1) ∧ p = pf n := by
      intro n p
      constructor
      · rintro ⟨y, k, h5, h6, rfl⟩
        have hn : n ∈ (b.schemaAttrs x).map (·.1) := List.mem_map.mpr ⟨_, h5, rfl⟩
        refine ⟨hn, ?_⟩
        have := a0 n hn
        unfold schemaAttributeTransition at this
        rw [getSchemaAttr_of_mem hb hs h5, (attrKind_iff n k).mp h6] at this
        simpa using this
      · rintro ⟨hn, rfl⟩
        obtain ⟨⟨m, y⟩, h5, rfl⟩ := List.mem_map.mp hn
        have := a0 m hn
        unfold schemaAttributeTransition at this
        rw [getSchemaAttr_of_mem hb hs h5] at this
        exact ⟨y, _, h5, (attrKind_iff m _).mpr rfl, by simpa using this.symm⟩
    have hasked : Asked t t1 (Part b x (.dtype 12)) := by
      refine ⟨a2.tracked, ?_, ?_⟩
      · intro o
        rw [a2.untracked]
        constructor
        · rintro (h | ⟨p, ⟨n, hn, rfl⟩, h6⟩)
          · exact .inl h
          · exact .inr ⟨_, .schemaAttr h1 ((hattr n _).mpr ⟨hn, rfl⟩), h6⟩
        · rintro (h | ⟨p, hp, h6⟩)
          · exact .inl h
          · right
            cases hp with
            | schemaAttr _ h8 =>
              obtain ⟨h9, h10⟩ := (hattr _ _).mp h8
              exact ⟨p, ⟨_, h9, h10⟩, h6⟩
      · intro p hp
        cases hp with
        | schemaAttr _ h8 =>
          obtain ⟨h9, h10⟩ := (hattr _ _).mp h8
          exact a2.valid p ⟨_, h9, h10⟩
    refine ⟨t1, hasked, ?_⟩
    simp only [uuidVisitor, uuidVisitSchema] at h
    split at h
    · rename_i hnone
      cases h
      obtain ⟨f, hf, h6, h7⟩ := replaceSelf_none hnone
      rw [a1] at hf
      obtain ⟨n, hn, rfl⟩ := List.mem_map.mp hf
      exact .unknown ((hattr n _).mpr ⟨hn, rfl⟩) h6 h7
    rename_i gs hgs
    cases h
    obtain ⟨g1, g2⟩ := replaceSelf_ok hgs
    rw [g1, a1, List.map_map]
    refine .schema h1 (hb x) hattr ?_
    intro n hn hu
    exact g2 (n, got t.tracked (pf n)) (by rw [a1]; exact List.mem_map.mpr ⟨n, hn, rfl⟩) hu
  · rename_i tr hne htr
    unfold getTransitions at htr
    simp only [holdsId, kSchema, holdsDType, if_true, kObject, Bool.false_eq_true, if_false] at htr
    rw [if_neg (by decide)] at htr
    simp only [uuidVisitor, uuidVisitSchema, replaceSelf] at h
    cases h
    rcases schemaTransitions_ok htr with ⟨h1, rfl⟩ | ⟨h1, hs, ⟨h3, rfl⟩ | h2⟩
    · refine ⟨t, .nil ?_, .noFollow h1⟩
      intro p hp
      cases hp with
      | schemaAttr h5 _ => rw [h1] at h5; cases h5
    · have hno : ∀ n p, ¬ SchemaAttr b x n p := by
        rintro n p ⟨y, k, h5, _⟩
        rw [h3] at h5; simp at h5
      refine ⟨t, .nil ?_, ?_⟩
      · intro p hp
        cases hp with
        | schemaAttr _ h6 => exact hno _ _ h6
      · refine .schema (pf := fun _ => (.missing, .missing)) (names := []) h1 (by simp) ?_ (by simp)
        intro n p
        simp [hno]
    · exact absurd h2 (hne _)

end

end Verif.Traverse
