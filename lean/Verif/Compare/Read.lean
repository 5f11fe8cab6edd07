import Verif.Compare.Keys
import Verif.Traverse.Total

/-! When the parts of an item can be read. -/

namespace Verif.Compare

open Verif.ObjectId
open Verif.Uuid
open Verif.Traverse (Bag Name Pair named ListSchema DictSchema PlainSchema AboutSchema AttrKind Own
  Transitions getTransitions getObjectSchema holdsId holdsDType kObject kSchema kItemId)

/-- All transitions of an item are read without error. -/
def Reads (b : Bag) (x e : Item) : Prop :=
  ∃ t, getTransitions b x e true = .ok t ∧ ∀ k ∈ transitionKeys t, ∃ q, transitionByKey b x e t k = .ok q


section
variable {b : Bag}

theorem items_cases {x : Item} {l : List Item} (h : Traverse.explodeList b x = .ok l) :
    x = .missing ∨ ∃ o, x = .object o ∧ o.isList = true := by
  cases x with
  | missing => exact .inl rfl
  | object o =>
    refine .inr ⟨o, rfl, ?_⟩
    simp only [Traverse.explodeList] at h
    split at h
    · assumption
    · cases h
  | _ => cases h

theorem dict_cases {x : Item} {l : List (Item × Item)} (h : Traverse.dictItems b x = .ok l) :
    x = .missing ∨ ∃ o, x = .object o ∧ o.isDict = true := by
  cases x with
  | missing => exact .inl rfl
  | object o =>
    refine .inr ⟨o, rfl, ?_⟩
    simp only [Traverse.dictItems] at h
    split at h
    · assumption
    · cases h
  | _ => cases h

theorem readable_of_reads {x e : Item} (h : Reads b x e) : Readable b x e := by
  obtain ⟨t, ht, hk⟩ := h
  rcases getTransitions_cases ht with ⟨S, rfl, h⟩ | ⟨S, rfl, rfl, h⟩ | ⟨rfl, h1, h2⟩
  · by_cases hnf : S.isNoFollowSchema = true
    · exact .noFollow hnf
    have hnf' : S.isNoFollowSchema = false := by simpa using hnf
    have hS : S.isSchema = true := Traverse.entityTransitions_isSchema h hnf'
    rcases Traverse.entityTransitions_ok h with ⟨h1, rfl⟩ | ⟨_, it, l, rfl, hl, hx⟩ |
      ⟨_, kt, vt, l, rfl, hl, hx⟩ | ⟨_, hp, ⟨h3, _, rfl⟩ | rfl⟩
    · exact absurd h1 hnf
    · exact .list hS hl (items_cases hx)
    · exact .dict hS hl (dict_cases hx)
    · refine .noAttrs hS ?_
      intro n t hm
      rw [Traverse.aboutSchema_iff]
      exact h3 rfl n (List.mem_map.mpr ⟨_, hm, rfl⟩)
    · by_cases hall : ∀ n t, (n, t) ∈ b.schemaAttrs S → AboutSchema n
      · exact .noAttrs hS hall
      · simp only [Classical.not_forall] at hall
        obtain ⟨n, u, h4, h5⟩ := hall
        rw [Traverse.aboutSchema_iff] at h5
        obtain ⟨q, hq⟩ := hk { type := .attr, value := .text n } (by
          simp only [transitionKeys, if_true]
          exact List.mem_map.mpr ⟨n, List.mem_filter.mpr
            ⟨List.mem_map.mpr ⟨_, h4, rfl⟩, by simpa using h5⟩, rfl⟩)
        refine .entity hS hp ?_
        simp only [transitionByKey, Traverse.attributeTransition] at hq
        cases x with
        | missing => exact .inl rfl
        | object o => exact .inr ⟨o, rfl⟩
        | _ => cases hq
  · rcases Traverse.schemaTransitions_ok h with ⟨h1, rfl⟩ | ⟨hnf, hS, _⟩
    · exact .noFollowId rfl h1
    · exact .schema rfl hS
  · unfold getTransitions at ht
    cases e with
    | object o => exact absurd rfl (h1 o)
    | dtype n =>
      by_cases hn : n = 12
      · subst hn
        exact .noId (h2 rfl)
      · exact .dtype hn
    | _ => cases ht

theorem getAttr_isOk {x : Item} (h : x = .missing ∨ ∃ o, x = .object o) (n : Name) :
    Traverse.getAttr b x n = .ok (attrOf b x n) := by
  rcases h with rfl | ⟨o, rfl⟩ <;> rfl

theorem explodeList_isOk {x : Item} (h : x = .missing ∨ ∃ o, x = .object o ∧ o.isList = true) :
    Traverse.explodeList b x = .ok (itemsOf b x) := by
  rcases h with rfl | ⟨o, rfl, h⟩
  · rfl
  · simp [Traverse.explodeList, h, itemsOf]

theorem dictItems_isOk {x : Item} (h : x = .missing ∨ ∃ o, x = .object o ∧ o.isDict = true) :
    Traverse.dictItems b x = .ok (dictOf b x) := by
  rcases h with rfl | ⟨o, rfl, h⟩
  · rfl
  · simp [Traverse.dictItems, h, dictOf]

theorem reads_none {x e : Item} (h : getTransitions b x e true = .ok .none) : Reads b x e :=
  ⟨.none, h, by simp [transitionKeys]⟩

theorem reads_list {x e t : Item} {l : List Item} (h : getTransitions b x e true = .ok (.list t l)) :
    Reads b x e := by
  refine ⟨_, h, ?_⟩
  intro k hk
  simp only [transitionKeys] at hk
  split at hk
  · simp at hk; subst hk; exact ⟨_, rfl⟩
  · obtain ⟨j, _, _, rfl⟩ := (mem_listKeys _ _ _).mp hk
    exact ⟨_, rfl⟩

theorem reads_dict {x e kt vt : Item} {l : List (Item × Item)}
    (h : getTransitions b x e true = .ok (.dict kt vt l)) : Reads b x e := by
  refine ⟨_, h, ?_⟩
  intro k hk
  simp only [transitionKeys] at hk
  split at hk
  · simp at hk; rcases hk with rfl | rfl <;> exact ⟨_, rfl⟩
  · obtain ⟨j, y, _, rfl | rfl⟩ := (mem_dictKeys _ _ _).mp hk <;> exact ⟨_, rfl⟩

theorem plain_transitions {x : Item} {S : ObjectId} (hnf : S.isNoFollowSchema = false)
    (hS : S.isSchema = true) (hp : PlainSchema b S) : getTransitions b x (.object S) true =
      if (((b.schemaAttrs S).map (·.1)).filter (fun n => !Traverse.isSpecial n)) = [] then .ok .none
      else .ok (.entity (((b.schemaAttrs S).map (·.1)).filter (fun n => !Traverse.isSpecial n))) := by
  obtain ⟨c1, c2, c3⟩ := Traverse.plain_names hp
  unfold getTransitions
  simp only [holdsId, if_true]
  unfold Traverse.entityTransitions
  simp only [hnf, Traverse.presentSchemaAttrs_isOk hS, Bool.false_eq_true, if_false]
  generalize (b.schemaAttrs S).map (·.1) = names at c1 c2 c3 ⊢
  by_cases e0 : names = []
  · simp [e0]
  rw [if_neg e0, if_neg c1, if_neg (by simp only [not_or]; exact ⟨c2, c3⟩)]
  by_cases e1 : (names.filter Traverse.isSpecial).length = 0
  · have h0 : names.filter (fun n => !Traverse.isSpecial n) = names := by
      rw [List.filter_eq_self]
      intro n hn
      have := List.filter_eq_nil_iff.mp (List.length_eq_zero_iff.mp e1) n hn
      simpa using this
    rw [if_pos (by simpa using e1), h0, if_neg e0]
  · rw [if_neg (by simpa using e1)]
    by_cases e2 : (names.filter Traverse.isSpecial).length = names.length
    · rw [if_pos e2, if_pos]
      rw [List.filter_eq_nil_iff]
      intro n hn
      have := List.length_filter_eq_length_iff.mp e2 n hn
      simp [this]
    · rw [if_neg e2, if_neg]
      intro h0
      apply e2
      rw [List.length_filter_eq_length_iff]
      intro n hn
      have := List.filter_eq_nil_iff.mp h0 n hn
      simpa using this

theorem reads_of_readable (hb : BagOk b) {x e : Item} (h : Readable b x e) : Reads b x e := by
  cases h with
  | @dtype n hn =>
    refine reads_none ?_
    unfold getTransitions
    rw [if_neg (by simp [holdsId]), if_pos (by rfl)]
    by_cases h11 : Item.dtype n = kObject
    · rw [if_pos h11]
    · rw [if_neg h11, if_neg (by simpa [kSchema] using hn)]
  | noId h =>
    refine reads_none ?_
    simp only [getTransitions, holdsId, holdsDType, kObject, kSchema, Bool.false_eq_true, if_false,
      if_true]
    rw [if_neg (by decide)]
    cases x with
    | object o => exact absurd rfl (h o)
    | _ => rfl
  | @noFollowId o h1 h2 =>
    subst h1
    refine reads_none ?_
    simp only [getTransitions, holdsId, holdsDType, kObject, kSchema, Bool.false_eq_true, if_false,
      if_true]
    rw [if_neg (by decide)]
    simp [Traverse.schemaTransitions, h2]
  | @schema o h1 h2 =>
    subst h1
    have hg : getTransitions b (.object o) (.dtype 12) true =
        Traverse.schemaTransitions b (.object o) := by
      simp only [getTransitions, holdsId, holdsDType, kObject, kSchema, Bool.false_eq_true, if_false,
        if_true]
      rw [if_neg (by decide)]
    by_cases hnf : o.isNoFollowSchema = true
    · exact reads_none (by rw [hg]; simp [Traverse.schemaTransitions, hnf])
    have hnf' : o.isNoFollowSchema = false := by simpa using hnf
    by_cases he : (b.schemaAttrs o).map (·.1) = []
    · refine reads_none ?_
      rw [hg]
      simp only [Traverse.schemaTransitions, hnf', Traverse.presentSchemaAttrs_isOk h2,
        Bool.false_eq_true, if_false]
      rw [if_pos he]
    · refine ⟨.schema ((b.schemaAttrs o).map (·.1)), ?_, ?_⟩
      · rw [hg]
        simp only [Traverse.schemaTransitions, hnf', Traverse.presentSchemaAttrs_isOk h2,
          Bool.false_eq_true, if_false]
        rw [if_neg he]
      · intro k hk
        simp only [transitionKeys, List.mem_map] at hk
        obtain ⟨n, ⟨⟨m, t⟩, hm, rfl⟩, rfl⟩ := hk
        exact ⟨_, Traverse.schemaTransition_isOk hb.attrs h2 hm⟩
  | @noFollow S h =>
    refine reads_none ?_
    simp [getTransitions, holdsId, Traverse.entityTransitions, h]
  | @list S t h1 h2 h3 =>
    by_cases hnf : S.isNoFollowSchema = true
    · exact reads_none (by simp [getTransitions, holdsId, Traverse.entityTransitions, hnf])
    have hnf' : S.isNoFollowSchema = false := by simpa using hnf
    have hn : (b.schemaAttrs S).map (·.1) = [Traverse.itemsName] := by
      rw [h2, Traverse.named_items]; rfl
    have hg : Traverse.getSchemaAttr b (.object S) Traverse.itemsName = .ok t :=
      Traverse.getSchemaAttr_of_mem hb.attrs h1 (by rw [h2, Traverse.named_items]; simp)
    refine reads_list (t := t) (l := itemsOf b x) ?_
    simp [getTransitions, holdsId, Traverse.entityTransitions, hnf',
      Traverse.presentSchemaAttrs_isOk h1, hn, Traverse.listTransitions, hg, explodeList_isOk h3]
  | @dict S kt vt h1 h2 h3 =>
    by_cases hnf : S.isNoFollowSchema = true
    · exact reads_none (by simp [getTransitions, holdsId, Traverse.entityTransitions, hnf])
    have hnf' : S.isNoFollowSchema = false := by simpa using hnf
    have hgk : Traverse.getSchemaAttr b (.object S) Traverse.keysName = .ok kt :=
      Traverse.getSchemaAttr_of_mem hb.attrs h1
        (by rcases h2 with h | h <;> rw [h, Traverse.named_keys] <;> simp)
    have hgv : Traverse.getSchemaAttr b (.object S) Traverse.valuesName = .ok vt :=
      Traverse.getSchemaAttr_of_mem hb.attrs h1
        (by rcases h2 with h | h <;> rw [h, Traverse.named_values] <;> simp)
    have hd : Traverse.dictTransitions b x (.object S) = .ok (.dict kt vt (dictOf b x)) := by
      simp [Traverse.dictTransitions, hgk, hgv, dictItems_isOk h3]
    have e1 : Traverse.itemsName ≠ Traverse.keysName := by decide
    have e2 : Traverse.itemsName ≠ Traverse.valuesName := by decide
    have e3 : Traverse.keysName ≠ Traverse.valuesName := by decide
    refine reads_dict (kt := kt) (vt := vt) (l := dictOf b x) ?_
    rcases h2 with h | h
    · have hn : (b.schemaAttrs S).map (·.1) = [Traverse.keysName, Traverse.valuesName] := by
        rw [h, Traverse.named_keys, Traverse.named_values]; rfl
      simp [getTransitions, holdsId, Traverse.entityTransitions, hnf',
        Traverse.presentSchemaAttrs_isOk h1, hn, e1, e2, hd]
    · have hn : (b.schemaAttrs S).map (·.1) = [Traverse.valuesName, Traverse.keysName] := by
        rw [h, Traverse.named_keys, Traverse.named_values]; rfl
      simp [getTransitions, holdsId, Traverse.entityTransitions, hnf',
        Traverse.presentSchemaAttrs_isOk h1, hn, e1, e2, hd]
  | @entity S h1 h2 h3 =>
    by_cases hnf : S.isNoFollowSchema = true
    · exact reads_none (by simp [getTransitions, holdsId, Traverse.entityTransitions, hnf])
    have hnf' : S.isNoFollowSchema = false := by simpa using hnf
    have ht := plain_transitions (x := x) hnf' h1 h2
    split at ht
    · exact reads_none ht
    · refine ⟨_, ht, ?_⟩
      intro k hk
      simp only [transitionKeys, List.mem_map, List.mem_filter] at hk
      obtain ⟨n, ⟨⟨⟨m, t⟩, hm, rfl⟩, _⟩, rfl⟩ := hk
      refine ⟨(attrOf b x m, t), ?_⟩
      simp only [transitionByKey, TKey.name, Traverse.attributeTransition, getAttr_isOk h3,
        Traverse.getSchemaAttr_of_mem hb.attrs h1 hm]
  | @noAttrs S h1 h2 =>
    by_cases hnf : S.isNoFollowSchema = true
    · exact reads_none (by simp [getTransitions, holdsId, Traverse.entityTransitions, hnf])
    have hnf' : S.isNoFollowSchema = false := by simpa using hnf
    have hp : PlainSchema b S := by
      intro t
      refine ⟨?_, ?_, ?_⟩ <;>
      · intro h
        have := (Traverse.aboutSchema_iff _).mp (h2 _ _ h)
        revert this
        decide
    refine reads_none ?_
    rw [plain_transitions hnf' h1 hp, if_pos]
    rw [List.filter_eq_nil_iff]
    intro n hn
    obtain ⟨⟨m, t⟩, hm, rfl⟩ := List.mem_map.mp hn
    have := (Traverse.aboutSchema_iff _).mp (h2 _ _ hm)
    simp [this]

theorem ownSchema_isOk {p : Pair} {e : Item} (h : OwnSchema b p e) : ownSchema b p = .ok (p.1, e) := by
  unfold ownSchema
  cases h with
  | @object o s e h =>
    cases h with
    | object h1 h2 =>
      rw [Traverse.named_schema] at h1
      rw [if_pos ⟨rfl, rfl⟩]
      simp [getObjectSchema, Traverse.getAttr, h1, h2]
    | other h1 => rw [if_neg (fun h => h1 h.1)]
  | @other x s h =>
    rw [if_neg]
    intro h'
    obtain ⟨o, ho⟩ := (Traverse.holdsId_iff _).mp h'.2
    exact h o ho

/-- An item can be read: everything is read without error. -/
theorem canRead_iff (hb : BagOk b) (p : Pair) : CanRead b p ↔
    ∃ q, ownSchema b p = .ok q ∧ Reads b q.1 q.2 := by
  constructor
  · rintro ⟨e, h1, h2⟩
    exact ⟨_, ownSchema_isOk h1, reads_of_readable hb h2⟩
  · rintro ⟨q, h1, h2⟩
    obtain ⟨h3, h4⟩ := ownSchema_ok h1
    exact ⟨_, h4, h3 ▸ readable_of_reads h2⟩

end

end Verif.Compare
