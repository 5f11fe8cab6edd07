import Verif.Traverse.Sound
import Verif.Traverse.Stop

/-! `deep_uuid` succeeds for well-typed data without cycles. -/

namespace Verif.Traverse

open Verif.ObjectId
open Verif.Uuid

/-- The dtype of a value that is not an id. -/
inductive IsOf : Item → Fin 14 → Prop where
  | int64 {v} : IsOf (.int64 v) 0
  | int32 {v} : IsOf (.int32 v) 1
  | float32 {v} : IsOf (.float32 v) 2
  | float64 {v} : IsOf (.float64 v) 3
  | bool {v} : IsOf (.bool v) 4
  | unit : IsOf .unit 5
  | bytes {v} : IsOf (.bytes v) 6
  | text {v} : IsOf (.text v) 7
  | expr {v} : IsOf (.expr v) 8

/-- A value can be used with a schema: for a primitive schema it has that type or is missing. -/
def Fits (p : Pair) : Prop := Primitive p.2 → p.1 = .missing ∨ ∃ n, p.2 = .dtype n ∧ IsOf p.1 n

/-- An item can be used with its own schema. -/
inductive Typed (b : Bag) (x : ObjectId) : Item → Prop where
  | itemId : Typed b x (.dtype 10)
  | noFollow {T : ObjectId} : T.isNoFollowSchema = true → Typed b x (.object T)
  | list {T : ObjectId} {t : Item} : T.isNoFollowSchema = false → T.isSchema = true →
      ListSchema b T t → x.isList = true → (∀ y ∈ b.list x, Fits (y, t)) → Typed b x (.object T)
  | dict {T : ObjectId} {k t : Item} : T.isNoFollowSchema = false → T.isSchema = true →
      DictSchema b T k t → x.isDict = true → (∀ y ∈ b.dict x, Fits (y.1, k)) →
      (∀ y ∈ b.dict x, Fits (y.2, t)) → Typed b x (.object T)
  | entity {T : ObjectId} : T.isNoFollowSchema = false → T.isSchema = true → PlainSchema b T →
      (∀ n p, EntityAttr b x T n p → Fits p) → Typed b x (.object T)
  | noFollowSchema : x.isNoFollowSchema = true → Typed b x (.dtype 12)
  | schema : x.isNoFollowSchema = false → x.isSchema = true →
      (∀ n p, SchemaAttr b x n p → Fits p) → Typed b x (.dtype 12)

/-- All data that can be reached is well-typed. -/
structure WellTyped (b : Bag) (ds : List Item) (s : Item) : Prop where
  items : ∀ y ∈ ds, Fits (y, s)
  typed : ∀ x s', Reachable b ds s (.object x, s') → ∃ e, Own b x s' e ∧ Typed b x e ∧
    (s' = .dtype 11 → ∃ T, e = .object T)

/-- The only cycles are attributes of an item, or of a schema, that refer to the item itself. -/
def OnlySelfCycles (b : Bag) (ds : List Item) (s : Item) : Prop :=
  ∀ p q, Reachable b ds s p → Edge b everything p q → Reach (Edge b everything) q p →
    q.1 = p.1 ∧ ∀ x e, p.1 = .object x → Own b x p.2 e → ∀ T, e = .object T → PlainSchema b T

theorem isOf_iff (y : Item) (n : Fin 14) : IsOf y n ↔ typeOf y = some n := by
  constructor
  · intro h; cases h <;> rfl
  · intro h
    cases y <;> simp [typeOf] at h <;> subst h <;> constructor

theorem fits_ok {p : Pair} (h : Fits p) :
    (if isPrimitiveSchema p.2 then validatePrimitive p else .ok ()) = .ok () := by
  by_cases hp : isPrimitiveSchema p.2 = true
  · rw [if_pos hp]
    unfold validatePrimitive
    rcases h ((primitive_iff _).mpr hp) with h | ⟨n, h1, h2⟩
    · rw [if_pos h]
    · split
      · rfl
      · rw [if_pos]
        rw [(isOf_iff _ _).mp h2, h1]
        rfl
  · rw [if_neg hp]

section
variable {b : Bag}

theorem presentSchemaAttrs_isOk {T : ObjectId} (h : T.isSchema = true) :
    presentSchemaAttrs b (.object T) = .ok ((b.schemaAttrs T).map (·.1)) := by
  simp [presentSchemaAttrs, toSchemaId, h]

theorem plain_names {T : ObjectId} (h : PlainSchema b T) :
    itemsName ∉ (b.schemaAttrs T).map (·.1) ∧ keysName ∉ (b.schemaAttrs T).map (·.1) ∧
      valuesName ∉ (b.schemaAttrs T).map (·.1) := by
  refine ⟨?_, ?_, ?_⟩ <;> intro hm <;> obtain ⟨⟨n, t⟩, h1, h2⟩ := List.mem_map.mp hm <;>
    simp only at h2 <;> subst h2
  · exact (h t).1 (by rw [named_items]; exact h1)
  · exact (h t).2.1 (by rw [named_keys]; exact h1)
  · exact (h t).2.2 (by rw [named_values]; exact h1)

/-- The transitions of well-typed data. -/
theorem typed_transitions (hb : b.Ok) {x T : ObjectId} (h : Typed b x (.object T)) (rs : Bool) :
    getTransitions b (.object x) (.object T) rs = .ok .none ∨
    (∃ t, T.isNoFollowSchema = false ∧ ListSchema b T t ∧ (∀ y ∈ b.list x, Fits (y, t)) ∧
      getTransitions b (.object x) (.object T) rs = .ok (.list t (b.list x))) ∨
    (∃ k t, T.isNoFollowSchema = false ∧ DictSchema b T k t ∧ (∀ y ∈ b.dict x, Fits (y.1, k)) ∧
      (∀ y ∈ b.dict x, Fits (y.2, t)) ∧
      getTransitions b (.object x) (.object T) rs = .ok (.dict k t (b.dict x))) ∨
    (∃ names, T.isNoFollowSchema = false ∧ T.isSchema = true ∧ PlainSchema b T ∧
      (∀ n p, EntityAttr b x T n p → Fits p) ∧
      (∀ n ∈ names, ∃ t, (n, t) ∈ b.schemaAttrs T ∧ (rs = true → isSpecial n = false)) ∧
      getTransitions b (.object x) (.object T) rs = .ok (.entity names)) := by
  unfold getTransitions
  simp only [holdsId, if_true]
  unfold entityTransitions
  cases h with
  | noFollow h => simp [h]
  | @list _ t h1 h2 h3 h4 h5 =>
    refine .inr (.inl ⟨t, h1, h3, h5, ?_⟩)
    have hn : (b.schemaAttrs T).map (·.1) = [itemsName] := by rw [h3, named_items]; rfl
    have hg : getSchemaAttr b (.object T) itemsName = .ok t :=
      getSchemaAttr_of_mem hb h2 (by rw [h3, named_items]; simp)
    simp [h1, presentSchemaAttrs_isOk h2, hn, listTransitions, hg, explodeList, h4]
  | @dict _ k t h1 h2 h3 h4 h5 h6 =>
    refine .inr (.inr (.inl ⟨k, t, h1, h3, h5, h6, ?_⟩))
    have hgk : getSchemaAttr b (.object T) keysName = .ok k :=
      getSchemaAttr_of_mem hb h2 (by rcases h3 with h | h <;> rw [h, named_keys] <;> simp)
    have hgv : getSchemaAttr b (.object T) valuesName = .ok t :=
      getSchemaAttr_of_mem hb h2 (by rcases h3 with h | h <;> rw [h, named_values] <;> simp)
    have hd : dictTransitions b (.object x) (.object T) = .ok (.dict k t (b.dict x)) := by
      simp [dictTransitions, hgk, hgv, dictItems, h4]
    have e1 : itemsName ≠ keysName := by decide
    have e2 : itemsName ≠ valuesName := by decide
    have e3 : keysName ≠ valuesName := by decide
    rcases h3 with h | h
    · have hn : (b.schemaAttrs T).map (·.1) = [keysName, valuesName] := by
        rw [h, named_keys, named_values]; rfl
      simp [h1, presentSchemaAttrs_isOk h2, hn, e1, e2, hd]
    · have hn : (b.schemaAttrs T).map (·.1) = [valuesName, keysName] := by
        rw [h, named_keys, named_values]; rfl
      simp [h1, presentSchemaAttrs_isOk h2, hn, e1, e2, hd]
  | entity h1 h2 h3 h4 =>
    simp only [h1, presentSchemaAttrs_isOk h2, Bool.false_eq_true, if_false]
    obtain ⟨c1, c2, c3⟩ := plain_names h3
    have hmem : ∀ n ∈ (b.schemaAttrs T).map (·.1), ∃ t, (n, t) ∈ b.schemaAttrs T := by
      intro n hn
      obtain ⟨⟨m, t⟩, h5, rfl⟩ := List.mem_map.mp hn
      exact ⟨t, h5⟩
    by_cases e0 : (b.schemaAttrs T).map (·.1) = []
    · rw [if_pos e0]; exact .inl rfl
    rw [if_neg e0, if_neg c1, if_neg (by simp only [not_or]; exact ⟨c2, c3⟩)]
    by_cases e1 : (!rs || decide ((((b.schemaAttrs T).map (·.1)).filter isSpecial).length = 0)) = true
    · rw [if_pos e1]
      refine .inr (.inr (.inr ⟨_, trivial, h2, h3, h4, ?_, rfl⟩))
      intro n hn
      obtain ⟨t, ht⟩ := hmem n hn
      refine ⟨t, ht, ?_⟩
      rintro rfl
      have : (((b.schemaAttrs T).map (·.1)).filter isSpecial) = [] := by
        apply List.length_eq_zero_iff.mp; simpa using e1
      have := List.filter_eq_nil_iff.mp this n hn
      simpa using this
    rw [if_neg e1]
    split
    · exact .inl rfl
    · refine .inr (.inr (.inr ⟨_, trivial, h2, h3, h4, ?_, rfl⟩))
      intro n hn
      obtain ⟨h5, h6⟩ := List.mem_filter.mp hn
      obtain ⟨t, ht⟩ := hmem n h5
      exact ⟨t, ht, fun _ => by simpa using h6⟩

/-- The transitions of a well-typed schema. -/
theorem typed_schema {x : ObjectId} (h : Typed b x kSchema) (rs : Bool) :
    getTransitions b (.object x) kSchema rs = .ok .none ∨
    (x.isNoFollowSchema = false ∧ x.isSchema = true ∧ (∀ n p, SchemaAttr b x n p → Fits p) ∧
      getTransitions b (.object x) kSchema rs = .ok (.schema ((b.schemaAttrs x).map (·.1)))) := by
  unfold getTransitions
  simp only [holdsId, kSchema, holdsDType, kObject, Bool.false_eq_true, if_false, if_true]
  rw [if_neg (by decide)]
  unfold schemaTransitions
  cases h with
  | noFollowSchema h => simp [h]
  | schema h1 h2 h3 =>
    simp only [h1, presentSchemaAttrs_isOk h2, Bool.false_eq_true, if_false]
    split
    · exact .inl rfl
    · exact .inr ⟨trivial, h2, h3, rfl⟩

theorem attributeTransition_isOk (hb : b.Ok) {x T : ObjectId} (hT : T.isSchema = true) {n : Name}
    {t : Item} (h : (n, t) ∈ b.schemaAttrs T) :
    attributeTransition b (.object x) (.object T) n = .ok (b.attr x n, t) := by
  simp [attributeTransition, getAttr, getSchemaAttr_of_mem hb hT h]

theorem schemaTransition_isOk (hb : b.Ok) {x : ObjectId} (hT : x.isSchema = true) {n : Name}
    {t : Item} (h : (n, t) ∈ b.schemaAttrs x) :
    schemaAttributeTransition b (.object x) n = .ok (t, schemaOfSchemaAttr n) := by
  simp [schemaAttributeTransition, getSchemaAttr_of_mem hb hT h]

theorem attrCalls_isOk (hb : b.Ok) {x T : ObjectId} (hT : T.isSchema = true)
    (hf : ∀ n p, EntityAttr b x T n p → Fits p) : ∀ {names : List Name},
    (∀ n ∈ names, ∃ t, (n, t) ∈ b.schemaAttrs T) →
    ∃ l, attrCalls b (.object x) (.object T) names = .ok l ∧ ∀ c ∈ l, Fits c.2
  | [], _ => ⟨[], rfl, by simp⟩
  | n :: names, h => by
    obtain ⟨l, hl, hc⟩ := attrCalls_isOk hb hT hf (names := names)
      (fun m hm => h m (List.mem_cons_of_mem _ hm))
    unfold attrCalls
    by_cases hs : isSpecial n = true
    · rw [if_pos hs]; exact ⟨l, hl, hc⟩
    rw [if_neg hs]
    obtain ⟨t, ht⟩ := h n List.mem_cons_self
    rw [attributeTransition_isOk hb hT ht, hl]
    refine ⟨_, rfl, ?_⟩
    intro c hm
    rcases List.mem_append.mp hm with hm | hm
    · split at hm
      · simp at hm
        subst hm
        exact hf n _ ⟨t, ht, by rw [aboutSchema_iff]; exact hs, rfl⟩
      · simp at hm
    · exact hc c hm

theorem schemaAttrCalls_isOk (hb : b.Ok) {x : ObjectId} (hT : x.isSchema = true)
    (hf : ∀ n p, SchemaAttr b x n p → Fits p) : ∀ {names : List Name},
    (∀ n ∈ names, ∃ t, (n, t) ∈ b.schemaAttrs x) →
    ∃ l, schemaAttrCalls b (.object x) names = .ok l ∧ ∀ c ∈ l, Fits c.2
  | [], _ => ⟨[], rfl, by simp⟩
  | n :: names, h => by
    obtain ⟨l, hl, hc⟩ := schemaAttrCalls_isOk hb hT hf (names := names)
      (fun m hm => h m (List.mem_cons_of_mem _ hm))
    unfold schemaAttrCalls
    obtain ⟨t, ht⟩ := h n List.mem_cons_self
    rw [schemaTransition_isOk hb hT ht, hl]
    refine ⟨_, rfl, ?_⟩
    intro c hm
    rcases List.mem_append.mp hm with hm | hm
    · split at hm
      · simp at hm
        subst hm
        exact hf n _ ⟨t, _, ht, (attrKind_iff _ _).mpr rfl, rfl⟩
      · simp at hm
    · exact hc c hm

theorem getObjectSchema_isOk {x T : ObjectId} (h : Own b x kObject (.object T)) :
    getObjectSchema b (.object x) = .ok (.object T) := by
  cases h with
  | object h1 h2 =>
    rw [named_schema] at h1
    simp [getObjectSchema, getAttr, h1]

/-- The calls for well-typed data are for well-typed data. -/
theorem typed_calls (hb : b.Ok) {x : ObjectId} {e : Item} (h : Typed b x e) :
    ∃ t cs, getTransitions b (.object x) e false = .ok t ∧
      forEachObject b (.object x) e t = .ok cs ∧ ∀ c ∈ cs, Fits c.2 := by
  have hkey : ∀ T : ObjectId, e = .object T → ∃ t cs,
      getTransitions b (.object x) e false = .ok t ∧
        forEachObject b (.object x) e t = .ok cs ∧ ∀ c ∈ cs, Fits c.2 := by
    rintro T rfl
    have hne : (Item.object T) ≠ kObject := by simp [kObject]
    rcases typed_transitions hb h false with h1 | ⟨t, _, h2, h3, h1⟩ | ⟨k, t, _, h2, h3, h4, h1⟩ |
      ⟨names, _, h2, h3, h4, h5, h1⟩
    · exact ⟨_, [], h1, by simp [forEachObject, hne], by simp⟩
    · refine ⟨_, _, h1, by simp only [forEachObject, if_neg hne]; exact rfl, ?_⟩
      intro c hc
      split at hc
      · simp at hc
      · obtain ⟨i, y, h5, rfl⟩ := (mem_listCalls _ _ _ _).mp hc
        exact h3 _ (List.mem_of_getElem? h5)
    · refine ⟨_, _, h1, by simp only [forEachObject, if_neg hne]; exact rfl, ?_⟩
      intro c hc
      rcases List.mem_append.mp hc with hc | hc
      · split at hc
        · simp at hc
        · obtain ⟨i, y, z, h5, rfl⟩ := (mem_dictKeyCalls _ _ _ _).mp hc
          exact h3 _ (List.mem_of_getElem? h5)
      · split at hc
        · simp at hc
        · obtain ⟨i, y, z, h5, rfl⟩ := (mem_dictValueCalls _ _ _ _).mp hc
          exact h4 _ (List.mem_of_getElem? h5)
    · obtain ⟨l, hl, hc⟩ := attrCalls_isOk hb h2 h4
        (fun n hn => let ⟨t, ht, _⟩ := h5 n hn; ⟨t, ht⟩)
      exact ⟨_, l, h1, by simp only [forEachObject, if_neg hne]; exact hl, hc⟩
  have hsch : e = kSchema → ∃ t cs,
      getTransitions b (.object x) e false = .ok t ∧
        forEachObject b (.object x) e t = .ok cs ∧ ∀ c ∈ cs, Fits c.2 := by
    rintro rfl
    have hne : kSchema ≠ kObject := by decide
    rcases typed_schema h false with h1 | ⟨_, h2, h3, h1⟩
    · exact ⟨_, [], h1, by simp [forEachObject, hne], by simp⟩
    · obtain ⟨l, hl, hc⟩ := schemaAttrCalls_isOk hb h2 h3 (names := (b.schemaAttrs x).map (·.1))
        (fun n hn => by
          obtain ⟨⟨m, t⟩, h5, rfl⟩ := List.mem_map.mp hn
          exact ⟨t, h5⟩)
      exact ⟨_, l, h1, by simp only [forEachObject, if_neg hne]; exact hl, hc⟩
  cases h with
  | itemId => exact ⟨.none, [], by rfl, by rfl, by simp⟩
  | noFollow h => exact hkey _ rfl
  | list _ _ _ _ _ => exact hkey _ rfl
  | dict _ _ _ _ _ _ => exact hkey _ rfl
  | entity _ _ _ _ => exact hkey _ rfl
  | noFollowSchema _ => exact hsch rfl
  | schema _ _ _ => exact hsch rfl

section
variable {V : Type} {w : Visitor V}

/-- A visitor that never fails in the search. -/
def NeverFails (w : Visitor V) : Prop := ∀ v src k p, ∃ r, w.previsit v src k p = .ok r

theorem previsit_isOk (hw : NeverFails w) (d : Dfs V) (src : Pair) (k : Option Key) {p : Pair}
    (h : Fits p) : ∃ d', previsit w d src k p = .ok d' := by
  unfold previsit
  rw [fits_ok h]
  obtain ⟨⟨r, v⟩, hr⟩ := hw d.v src k p
  simp only [hr]
  split <;> exact ⟨_, rfl⟩

theorem previsitAll_isOk (hw : NeverFails w) (src : Pair) : ∀ {cs : List (Key × Pair)} (d : Dfs V),
    (∀ c ∈ cs, Fits c.2) → ∃ d', previsitAll w src d cs = .ok d'
  | [], d, _ => ⟨d, rfl⟩
  | (k, p) :: cs, d, h => by
    unfold previsitAll
    obtain ⟨d1, h1⟩ := previsit_isOk hw d src (some k) (h _ List.mem_cons_self)
    rw [h1]
    exact previsitAll_isOk hw src d1 (fun c hc => h c (List.mem_cons_of_mem _ hc))

theorem expand_isOk (hb : b.Ok) (hw : NeverFails w) (d : Dfs V) {x : ObjectId} {e : Item}
    (h : Typed b x e) : ∃ d', expand w b d (.object x) e = .ok d' := by
  unfold expand
  rw [if_pos (by simp [kSchema])]
  obtain ⟨d1, h1⟩ := previsit_isOk hw d (.object x, e) (some .schema) (p := (e, kSchema))
    (fun hp => by rw [primitive_iff] at hp; cases hp)
  obtain ⟨t, cs, h2, h3, h4⟩ := typed_calls hb h
  rw [h1]
  simp only [h2, h3]
  exact previsitAll_isOk hw _ d1 h4

theorem dfsStep_isOk (hb : b.Ok) (hw : NeverFails w) {ds : List Item} {s : Item}
    (hwt : WellTyped b ds s) {d : Dfs V} (hg : Good b everything (Root everything ds s) d) :
    ∃ d', dfsStep w b d = .ok d' := by
  unfold dfsStep
  split
  · exact ⟨_, rfl⟩
  rename_i p rest hst
  split
  · exact ⟨_, rfl⟩
  obtain ⟨x, hx⟩ := hg.ids p (by rw [hst]; simp)
  obtain ⟨px, ps⟩ := p
  simp only at hx
  subst hx
  obtain ⟨e, h1, h2, h3⟩ := hwt.typed x ps (hg.inv.sound _ (.inl (by rw [hst]; simp)))
  simp only
  by_cases hO : ps = kObject
  · rw [if_pos hO]
    obtain ⟨T, rfl⟩ := h3 hO
    rw [getObjectSchema_isOk (hO ▸ h1)]
    simp only
    obtain ⟨⟨r, v⟩, hr⟩ := hw d.v (.object x, kObject) (some .objectSchema) (.object x, .object T)
    rw [hr]
    simp only
    split
    · exact ⟨_, rfl⟩
    · obtain ⟨d1, hd1⟩ := expand_isOk hb hw
        (Dfs.mk rest ((rest.length, ((.object x, ps) : Pair)) :: d.onStack) ((.object x, ps) :: d.used) d.order v) h2
      rw [hd1]
      exact ⟨_, rfl⟩
  · rw [if_neg hO]
    have := Own.unique h1 (.other hO)
    subst this
    obtain ⟨d1, hd1⟩ := expand_isOk hb hw
        (Dfs.mk rest ((rest.length, ((.object x, e) : Pair)) :: d.onStack) ((.object x, e) :: d.used) d.order d.v) h2
    rw [hd1]
    exact ⟨_, rfl⟩

theorem dfs_isOk (hb : b.Ok) (hw : NeverFails w) (hd : Decides w everything) {ds : List Item}
    {s : Item} (hwt : WellTyped b ds s) : ∀ (n : Nat) {d : Dfs V} {r : Except Err (Dfs V)},
    Good b everything (Root everything ds s) d → dfs w b n d = some r → ∃ d', r = .ok d'
  | 0, d, r, _, h => by
    unfold dfs at h
    split at h
    · cases h; exact ⟨_, rfl⟩
    · cases h
  | n + 1, d, r, hg, h => by
    unfold dfs at h
    split at h
    · cases h; exact ⟨_, rfl⟩
    obtain ⟨d1, h1⟩ := dfsStep_isOk hb hw hwt hg
    rw [h1] at h
    exact dfs_isOk hb hw hd hwt n (step_good hb hd (fun _ _ _ => rfl) hg h1) h

theorem init_isOk (hw : NeverFails w) {ds : List Item} {s : Item} (h : ∀ y ∈ ds, Fits (y, s))
    (v : V) : ∃ d, initDfs w v ds s = .ok d := by
  unfold initDfs
  obtain ⟨d1, h1⟩ := previsit_isOk hw ⟨[], [], [], [], v⟩ (.missing, .missing) none
    (p := (s, kSchema)) (fun hp => by rw [primitive_iff] at hp; cases hp)
  rw [h1]
  refine previsitAll_isOk hw _ d1 ?_
  rintro ⟨k, q⟩ hc
  obtain ⟨i, y, h2, _, rfl⟩ := (mem_rootCalls s k q ds 0).mp hc
  exact h y (List.mem_of_getElem? h2)

end

section
variable {S : Type} {H : HashFn S} {seed : Bytes}

theorem getValue_isOk (t : Track) {p : Pair} (h : Fits p) :
    ∃ r, getValue (uuidVisitor H seed) t p = .ok r := by
  unfold getValue
  rw [fits_ok h]
  simp only [uuidVisitor, uuidGetValue]
  split
  · split
    · exact ⟨_, rfl⟩
    · split <;> exact ⟨_, rfl⟩
  · exact ⟨_, rfl⟩

theorem listValues_isOk {tt : Item} : ∀ {l : List Item} (t : Track), (∀ y ∈ l, Fits (y, tt)) →
    ∃ r, listValues (uuidVisitor H seed) tt t l = .ok r
  | [], t, _ => ⟨_, rfl⟩
  | y :: l, t, h => by
    unfold listValues
    obtain ⟨⟨v, t1⟩, h1⟩ := getValue_isOk (H := H) (seed := seed) t (h y List.mem_cons_self)
    obtain ⟨⟨vs, t2⟩, h2⟩ := listValues_isOk (tt := tt) (l := l) t1
      (fun z hz => h z (List.mem_cons_of_mem _ hz))
    rw [h1]
    simp only [h2]
    exact ⟨_, rfl⟩

theorem dictValues_isOk {kt vt : Item} : ∀ {l : List (Item × Item)} (t : Track),
    (∀ y ∈ l, Fits (y.1, kt)) → (∀ y ∈ l, Fits (y.2, vt)) →
    ∃ r, dictValues (uuidVisitor H seed) kt vt t l = .ok r
  | [], t, _, _ => ⟨_, rfl⟩
  | (k, y) :: l, t, h, h' => by
    unfold dictValues
    obtain ⟨⟨v, t1⟩, h1⟩ := getValue_isOk (H := H) (seed := seed) t (h _ List.mem_cons_self)
    obtain ⟨⟨v', t1'⟩, h1'⟩ := getValue_isOk (H := H) (seed := seed) t1 (h' _ List.mem_cons_self)
    obtain ⟨⟨vs, t2⟩, h2⟩ := dictValues_isOk (kt := kt) (vt := vt) (l := l) t1'
      (fun z hz => h z (List.mem_cons_of_mem _ hz)) (fun z hz => h' z (List.mem_cons_of_mem _ hz))
    simp only at h1 h1'
    rw [h1]
    simp only [h1', h2]
    exact ⟨_, rfl⟩

theorem attrValues_isOk {tr : Name → Except Err Pair} : ∀ {l : List Name} (t : Track),
    (∀ n ∈ l, ∃ p, tr n = .ok p ∧ Fits p) →
    ∃ r, attrValues (uuidVisitor H seed) tr t l = .ok r
  | [], t, _ => ⟨_, rfl⟩
  | n :: l, t, h => by
    unfold attrValues
    obtain ⟨p, hp, hf⟩ := h n List.mem_cons_self
    obtain ⟨⟨v, t1⟩, h1⟩ := getValue_isOk (H := H) (seed := seed) t hf
    obtain ⟨⟨vs, t2⟩, h2⟩ := attrValues_isOk (tr := tr) (l := l) t1
      (fun z hz => h z (List.mem_cons_of_mem _ hz))
    rw [hp]
    simp only [h1, h2]
    exact ⟨_, rfl⟩

/-- The visit of data succeeds if everything it asks for is known, or is the item itself. -/
theorem visitEntity_isOk (hb : b.Ok) {x T : ObjectId} (h : Typed b x (.object T)) {t : Track}
    (io : Bool) (h0 : t.untracked = []) (hu : ∀ q o, Part b x (.object T) q → ¬ Primitive q.2 →
      Unknown t.tracked o q → o = x ∧ PlainSchema b T) :
    ∃ t', visitEntity (uuidVisitor H seed) b t (.object x) (.object T) io = .ok t' := by
  have hall : ∀ {t1 : Track} {ps : Pair → Prop}, Asked t t1 ps → (∀ p, ps p → Part b x (.object T) p) →
      ∀ y, isUntracked t1 y = true → y = .object x ∧ PlainSchema b T := by
    intro t1 ps hask hps y hy
    obtain ⟨o, rfl, ho⟩ := (isUntracked_iff _ _).mp hy
    rcases (hask.untracked o).mp ho with h | ⟨p, hp, h'⟩
    · rw [h0] at h; cases h
    · obtain ⟨rfl, h3⟩ := hu p o (hps p hp) (hask.valid p hp o h'.1) h'
      exact ⟨rfl, h3⟩
  unfold visitEntity
  rcases typed_transitions hb h true with h1 | ⟨tt, hn, h2, h3, h1⟩ | ⟨k, tt, hn, h2, h3, h4, h1⟩ |
      ⟨names, hn, h2, h3, h4, h5, h1⟩
  · rw [h1]
    simp only [uuidVisitor, uuidVisitObject, replaceSelf]
    exact ⟨_, rfl⟩
  · obtain ⟨⟨ys, t1⟩, hv⟩ := listValues_isOk (H := H) (seed := seed) t h3
    obtain ⟨rfl, hask⟩ := listValues_ok hv
    rw [h1]
    simp only [hv]
    simp only [uuidVisitor, uuidVisitList]
    rw [if_neg]
    · exact ⟨_, rfl⟩
    · intro hany
      obtain ⟨y, _, h7⟩ := List.any_eq_true.mp hany
      refine list_not_plain h2 (hall hask ?_ y h7).2
      rintro p ⟨y, hy, rfl⟩
      exact .listItem hn h2 hy
  · obtain ⟨⟨ys, t1⟩, hv⟩ := dictValues_isOk (H := H) (seed := seed) t h3 h4
    obtain ⟨rfl, hask⟩ := dictValues_ok hv
    have hps : ∀ p, (∃ y ∈ b.dict x, p = (y.1, k) ∨ p = (y.2, tt)) → Part b x (.object T) p := by
      rintro p ⟨y, hy, rfl | rfl⟩
      · exact .dictKey hn h2 hy
      · exact .dictValue hn h2 hy
    rw [h1]
    simp only [hv]
    simp only [uuidVisitor, uuidVisitDict]
    rw [if_neg, if_neg]
    · exact ⟨_, rfl⟩
    · intro hany
      obtain ⟨y, _, h7⟩ := List.any_eq_true.mp hany
      exact dict_not_plain h2 (hall hask hps y h7).2
    · intro hany
      obtain ⟨y, _, h7⟩ := List.any_eq_true.mp hany
      exact dict_not_plain h2 (hall hask hps y h7).2
  · have htr : ∀ n ∈ names, ∃ p, attributeTransition b (.object x) (.object T) n = .ok p ∧
        EntityAttr b x T n p := by
      intro n hm
      obtain ⟨tt, c1, c2⟩ := h5 n hm
      exact ⟨_, attributeTransition_isOk hb h2 c1, tt, c1,
        by rw [aboutSchema_iff]; simp [c2 rfl], rfl⟩
    obtain ⟨⟨ys, t1⟩, hv⟩ := attrValues_isOk (H := H) (seed := seed) (l := names)
      (tr := attributeTransition b (.object x) (.object T)) t (fun n hm => by
        obtain ⟨p, c1, c2⟩ := htr n hm
        exact ⟨p, c1, h4 n p c2⟩)
    rw [h1]
    simp only [hv]
    simp only [uuidVisitor, uuidVisitObject]
    match hr : replaceSelf t1 (.object x) ys with
    | some fs => exact ⟨_, rfl⟩
    | none =>
      exfalso
      obtain ⟨pf, c1, rfl, hask⟩ := attrValues_ok hv
      obtain ⟨f, hf, h6, h7⟩ := replaceSelf_none hr
      refine h7 (hall hask ?_ f.2 h6).1
      rintro p ⟨n, hm, rfl⟩
      obtain ⟨p', d1, d2⟩ := htr n hm
      rw [c1 n hm] at d1
      cases d1
      exact .attr hn h3 d2

/-- The same for schemas, and their uuid is stored. -/
theorem visitSchemaItem_isOk (hb : b.Ok) {x : ObjectId} (h : Typed b x kSchema) {t : Track}
    (h0 : t.untracked = []) (hu : ∀ q o, Part b x kSchema q → ¬ Primitive q.2 →
      Unknown t.tracked o q → o = x) :
    ∃ t1 u, Asked t t1 (Part b x kSchema) ∧
      visitSchemaItem (uuidVisitor H seed) b t (.object x) kSchema =
        .ok (setTracked t1 (.object x) u) := by
  have hex : ∃ t', visitSchemaItem (uuidVisitor H seed) b t (.object x) kSchema = .ok t' := by
    unfold visitSchemaItem
    simp only [holdsId, Bool.not_true, Bool.false_eq_true, if_false]
    rcases typed_schema h true with h1 | ⟨_, h2, h3, h1⟩
    · rw [h1]
      simp only [uuidVisitor, uuidVisitSchema]
      split <;> exact ⟨_, rfl⟩
    · obtain ⟨⟨ys, t1⟩, hv⟩ := attrValues_isOk (H := H) (seed := seed)
        (l := (b.schemaAttrs x).map (·.1))
        (tr := schemaAttributeTransition b (.object x)) t (fun n hm => by
          obtain ⟨⟨m, tt⟩, c1, rfl⟩ := List.mem_map.mp hm
          exact ⟨_, schemaTransition_isOk hb h2 c1, h3 m _ ⟨tt, _, c1,
            (attrKind_iff _ _).mpr rfl, rfl⟩⟩)
      rw [h1]
      simp only [hv]
      simp only [uuidVisitor, uuidVisitSchema]
      split <;> exact ⟨_, rfl⟩
  obtain ⟨t', ht'⟩ := hex
  obtain ⟨t1, hask, hvis⟩ := visitSchemaItem_ok hb ht'
  cases hvis with
  | noFollow _ => exact ⟨t1, _, hask, ht'⟩
  | schema _ _ _ _ => exact ⟨t1, _, hask, ht'⟩
  | unknown _ h2 h3 =>
    exfalso
    obtain ⟨o, h4, h5⟩ := (isUntracked_iff _ _).mp h2
    rcases (hask.untracked o).mp h5 with h | ⟨q, hq, h'⟩
    · rw [h0] at h; cases h
    · rw [h4, hu q o hq (hask.valid q hq o h'.1) h'] at h3
      exact h3 rfl

/-- Everything visited so far has a uuid. -/
structure AllKnown (l : List Pair) (t : Track) : Prop where
  tracked : ∀ x s', (Item.object x, s') ∈ l → s' ≠ kItemId → findTracked x t.tracked ≠ none
  none : t.untracked = []

theorem AllKnown.store {l : List Pair} {x u : ObjectId} {s1 : Item} {t t1 : Track}
    {ps : Pair → Prop} (h : AllKnown l t) (hask : Asked t t1 ps)
    (hself : ∀ o q, ps q → ¬ Primitive q.2 → Unknown t.tracked o q → o = x) :
    AllKnown (l ++ [(.object x, s1)]) (setTracked t1 (.object x) u) := by
  refine ⟨?_, ?_⟩
  · intro y s' hm hs
    simp only [setTracked, findTracked_emplace, hask.tracked]
    by_cases hy : y = x
    · simp [hy]
    · rw [if_neg hy]
      rcases List.mem_append.mp hm with hm | hm
      · exact h.tracked y s' hm hs
      · simp at hm; exact absurd hm.1 hy
  · simp only [setTracked, List.filter_eq_nil_iff, decide_eq_true_eq]
    intro o ho hne
    rcases (hask.untracked o).mp ho with h' | ⟨q, hq, h'⟩
    · rw [h.none] at h'; cases h'
    · exact hne (hself o q hq (hask.valid q hq o h'.1) h')

theorem visitOne_isOk {ds : List Item} {s : Item} (hb : b.Ok) (hwt : WellTyped b ds s)
    (hc : OnlySelfCycles b ds s) {order l r : List Pair} {p : Pair} {t : Track}
    (ho : OrderOk b ds s order) (hl : order = l ++ p :: r) (hk : AllKnown l t) :
    ∃ t', visitOne (uuidVisitor H seed) b t p = .ok t' ∧ AllKnown (l ++ [p]) t' := by
  have hmem : p ∈ order := by rw [hl]; simp
  obtain ⟨x, e0, hx, he0⟩ := ho.owned p hmem
  obtain ⟨px, s1⟩ := p
  simp only at hx he0
  subst hx
  have hreach := (ho.mem _).mp hmem
  obtain ⟨e, he, hty, hobj⟩ := hwt.typed x s1 hreach
  clear he0 e0
  -- what is not known is the item itself
  have hself : ∀ o q, Part b x e q → ¬ Primitive q.2 → Unknown t.tracked o q →
      o = x ∧ ∀ T, e = .object T → PlainSchema b T := by
    rintro o ⟨y, tt⟩ hq hp ⟨h1, h2, h3⟩
    simp only at h1 h2 hp
    subst h1
    obtain ⟨k, _, href⟩ := hq.ref hp
    have hedge : Edge b everything (.object x, s1) (.object o, tt) := ⟨x, e, k, rfl, he, href, rfl⟩
    rcases ho.before l _ r hl _ hedge with h4 | h4
    · exact absurd h3 (hk.tracked o tt h4 h2)
    · obtain ⟨h5, h6⟩ := hc _ _ hreach hedge h4
      cases h5
      exact ⟨rfl, h6 _ e rfl he⟩
  have hentity : ∀ T io, e = .object T → ∃ t',
      visitEntity (uuidVisitor H seed) b t (.object x) (.object T) io = .ok t' ∧
        AllKnown (l ++ [(.object x, s1)]) t' := by
    rintro T io rfl
    obtain ⟨t', ht'⟩ := visitEntity_isOk (H := H) (seed := seed) hb hty io hk.none
      (fun q o hq hp hu => ⟨(hself o q hq hp hu).1, (hself o q hq hp hu).2 T rfl⟩)
    obtain ⟨t1, u, a1, _, rfl⟩ := visitEntity_ok hb ht'
    exact ⟨_, ht', hk.store a1 (fun o q hq hp hu => (hself o q hq hp hu).1)⟩
  unfold visitOne
  simp only
  by_cases h1 : holdsId s1 = true
  · rw [if_pos h1]
    obtain ⟨T, rfl⟩ := (holdsId_iff _).mp h1
    have := Own.unique he (.other (by simp))
    subst this
    exact hentity T false rfl
  rw [if_neg h1]
  by_cases h2 : s1 = kObject
  · rw [if_pos h2]
    obtain ⟨T, rfl⟩ := hobj h2
    unfold visitObjectItem
    simp only [holdsId, Bool.not_true, Bool.false_eq_true, if_false]
    rw [getObjectSchema_isOk (h2 ▸ he)]
    exact hentity T true rfl
  rw [if_neg h2]
  by_cases h3 : s1 = kSchema
  · rw [if_pos h3]
    subst h3
    have := Own.unique he (.other (by decide))
    subst this
    obtain ⟨t1, u, a1, a2⟩ := visitSchemaItem_isOk (H := H) (seed := seed) hb hty hk.none
      (fun q o hq hp hu => (hself o q hq hp hu).1)
    exact ⟨_, a2, hk.store a1 (fun o q hq hp hu => (hself o q hq hp hu).1)⟩
  · rw [if_neg h3]
    refine ⟨t, rfl, ?_, hk.none⟩
    intro y s' hm hs
    rcases List.mem_append.mp hm with hm | hm
    · exact hk.tracked y s' hm hs
    · simp at hm
      obtain ⟨rfl, rfl⟩ := hm
      exfalso
      have := Own.unique he (.other h2)
      subst this
      cases hty with
      | itemId => exact hs rfl
      | noFollow _ => exact h1 rfl
      | list _ _ _ _ _ => exact h1 rfl
      | dict _ _ _ _ _ _ => exact h1 rfl
      | entity _ _ _ _ => exact h1 rfl
      | noFollowSchema _ => exact h3 rfl
      | schema _ _ _ => exact h3 rfl

theorem visitInPostOrder_isOk {ds : List Item} {s : Item} (hb : b.Ok) (hwt : WellTyped b ds s)
    (hc : OnlySelfCycles b ds s) {order : List Pair} (ho : OrderOk b ds s order) :
    ∀ (r l : List Pair) {t : Track}, order = l ++ r → AllKnown l t →
      ∃ t', visitInPostOrder (uuidVisitor H seed) b t r = .ok t' ∧ AllKnown order t'
  | [], l, t, hl, hk => ⟨t, rfl, by rw [hl, List.append_nil]; exact hk⟩
  | p :: r, l, t, hl, hk => by
    obtain ⟨t1, h1, h2⟩ := visitOne_isOk (H := H) (seed := seed) hb hwt hc ho hl hk
    unfold visitInPostOrder
    rw [h1]
    exact visitInPostOrder_isOk hb hwt hc ho r (l ++ [p]) (by rw [hl]; simp) h2

theorem uuidResults_isOk {t : Track} {seeded : Bytes → BitVec 128 → BitVec 128} {s : Item} :
    ∀ {ds : List Item}, (∀ o, .object o ∈ ds → s ≠ kItemId → findTracked o t.tracked ≠ none) →
      ∃ us, uuidResults H seed seeded t s ds = .ok us
  | [], _ => ⟨[], rfl⟩
  | x :: ds, h => by
    obtain ⟨us, hus⟩ := uuidResults_isOk (t := t) (seeded := seeded) (s := s) (ds := ds)
      (fun o ho => h o (List.mem_cons_of_mem _ ho))
    have hx : ∃ u, uuidGetValueSafe t x s = .ok u := by
      unfold uuidGetValueSafe
      split
      · rename_i o
        split
        · exact ⟨_, rfl⟩
        · rename_i hs
          split
          · rename_i hf; exact absurd hf (h o List.mem_cons_self hs)
          · exact ⟨_, rfl⟩
      · exact ⟨_, rfl⟩
    obtain ⟨u, hu⟩ := hx
    unfold uuidResults
    rw [hu]
    simp only [hus]
    exact ⟨_, rfl⟩

theorem neverFails_uuid : NeverFails (uuidVisitor H seed) := fun _ _ _ _ => ⟨_, rfl⟩

/-- Success. -/
theorem deepUuid_isOk {ds : List Item} {s sd : Item} (hb : b.Ok) (hwt : WellTyped b ds s)
    (hc : OnlySelfCycles b ds s) {U : List Pair} (hU : ∀ p, Reachable b ds s p → p ∈ U)
    (hseed : seedOf sd = .ok seed) (seeded : Bytes → BitVec 128 → BitVec 128) :
    ∃ fuel us, ∀ n, fuel ≤ n → deepUuid H seeded b n sd ds s = some (.ok us) := by
  have hd := decides_uuid H seed
  obtain ⟨d, hi⟩ := init_isOk (neverFails_uuid (H := H) (seed := seed)) hwt.items ⟨[], []⟩
  have hg := init_good (b := b) hd hi
  obtain ⟨fuel, r, hr⟩ := dfs_stops hb hd (fun _ _ _ => rfl) (U := U)
    (fun r p h1 h2 => hU p ⟨r, h1, h2⟩) _ _ d hg (Nat.le_refl _) (Nat.le_refl _)
  obtain ⟨d', rfl⟩ := dfs_isOk hb neverFails_uuid hd hwt fuel hg hr
  obtain ⟨h1, h2, h3⟩ := search_order hb hd (fun _ _ _ => rfl) hi hr
  have h4 := search_owned hb hd (fun _ _ _ => rfl) hi hr
  have ho : OrderOk b ds s d'.order := ⟨h1, h2, h3, h4⟩
  have hv : d'.v = ⟨[], []⟩ := by
    rw [dfs_state (keeps_uuid H seed) _ hr, init_state (keeps_uuid H seed) hi]
  obtain ⟨t, ht, hk⟩ := visitInPostOrder_isOk (H := H) (seed := seed) hb hwt hc ho d'.order []
    (t := ⟨[], []⟩) rfl ⟨by simp, rfl⟩
  obtain ⟨us, hus⟩ := uuidResults_isOk (H := H) (seed := seed) (t := t) (seeded := seeded) (s := s)
    (ds := ds) (fun o hm hs => by
      obtain ⟨i, hi⟩ := List.getElem?_of_mem hm
      exact hk.tracked o s ((ho.mem _).mpr ⟨_, .inr ⟨i, o, hi, rfl, rfl⟩, .refl⟩) hs)
  refine ⟨fuel, us, ?_⟩
  intro n hn
  simp [deepUuid, hseed, traverseSlice, hi, dfs_more hn hr, hv, ht, hus]

end

end

end Verif.Traverse
