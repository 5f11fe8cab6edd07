import Verif.Compare.Spec
import Verif.Traverse.Walk

/-!
The keys of the transitions of an item are the names of its parts.
-/

namespace Verif.Compare

open Verif.ObjectId
open Verif.Uuid
open Verif.Traverse (Bag Name Pair named ListSchema DictSchema PlainSchema AboutSchema AttrKind Own
  Transitions getTransitions getObjectSchema holdsId holdsDType kObject kSchema kItemId)

theorem mem_listKeys (k : TKey) : ∀ (l : List Item) (i : Nat),
    k ∈ listKeys i l ↔ ∃ j, i ≤ j ∧ j < i + l.length ∧ k = { type := .listItem, index := j }
  | [], i => by simp [listKeys]; intro j; omega
  | x :: l, i => by
    simp only [listKeys, List.mem_cons, mem_listKeys k l, List.length_cons]
    constructor
    · rintro (rfl | ⟨j, h1, h2, rfl⟩)
      · exact ⟨i, Nat.le_refl _, by omega, rfl⟩
      · exact ⟨j, by omega, by omega, rfl⟩
    · rintro ⟨j, h1, h2, rfl⟩
      by_cases h : j = i
      · subst h; exact .inl rfl
      · exact .inr ⟨j, by omega, by omega, rfl⟩

theorem mem_dictKeys (k : TKey) : ∀ (l : List (Item × Item)) (i : Nat),
    k ∈ dictKeys i l ↔ ∃ j x, l[j]? = some x ∧
      (k = { type := .dictKey, index := i + j, value := x.1 } ∨
        k = { type := .dictValue, index := i + j, value := x.1 })
  | [], i => by simp [dictKeys]
  | y :: l, i => by
    simp only [dictKeys, List.mem_cons, mem_dictKeys k l]
    constructor
    · rintro (rfl | rfl | ⟨j, x, h1, h2⟩)
      · exact ⟨0, y, rfl, .inl rfl⟩
      · exact ⟨0, y, rfl, .inr rfl⟩
      · refine ⟨j + 1, x, h1, ?_⟩
        rw [show i + (j + 1) = i + 1 + j by omega]; exact h2
    · rintro ⟨j, x, h1, h2⟩
      cases j with
      | zero => cases h1; rcases h2 with h2 | h2 <;> simp [h2]
      | succ j =>
        refine .inr (.inr ⟨j, x, h1, ?_⟩)
        rw [show i + 1 + j = i + (j + 1) by omega]; exact h2

theorem listKeys_nodup : ∀ (l : List Item) (i : Nat), ((listKeys i l).map labelOf).Nodup
  | [], _ => by simp [listKeys]
  | x :: l, i => by
    simp only [listKeys, List.map_cons, List.nodup_cons]
    refine ⟨?_, listKeys_nodup l _⟩
    simp only [List.mem_map, mem_listKeys, not_exists, not_and]
    rintro k ⟨j, h1, h2, rfl⟩ h
    simp [labelOf] at h
    omega

theorem dictKeys_nodup : ∀ (l : List (Item × Item)) (i : Nat), (l.map (·.1)).Nodup →
    ((dictKeys i l).map labelOf).Nodup
  | [], _, _ => by simp [dictKeys]
  | x :: l, i, h => by
    simp only [List.map_cons, List.nodup_cons, List.mem_map, not_exists, not_and] at h
    have key : ∀ k ∈ dictKeys (i + 1) l, labelOf k ≠ .key x.1 ∧ labelOf k ≠ .value x.1 := by
      intro k hk
      obtain ⟨j, y, h1, h2⟩ := (mem_dictKeys k l _).mp hk
      have := h.1 y (List.mem_of_getElem? h1)
      rcases h2 with rfl | rfl <;> simp [labelOf, this]
    simp only [dictKeys, List.map_cons, List.nodup_cons, List.mem_cons, List.mem_map, not_or,
      not_exists, not_and]
    refine ⟨⟨by simp [labelOf], fun k hk => (key k hk).1⟩, fun k hk => (key k hk).2,
      dictKeys_nodup l _ h.2⟩

theorem explodeList_items {b : Bag} {x : Item} {l : List Item}
    (h : Traverse.explodeList b x = .ok l) : l = itemsOf b x := by
  cases x with
  | object o => exact Traverse.explodeList_ok h
  | missing => cases h; rfl
  | _ => cases h

theorem dictItems_dict {b : Bag} {x : Item} {l : List (Item × Item)}
    (h : Traverse.dictItems b x = .ok l) : l = dictOf b x := by
  cases x with
  | object o => exact Traverse.dictItems_ok h
  | missing => cases h; rfl
  | _ => cases h

theorem getAttr_attr {b : Bag} {x v : Item} {n : Name} (h : Traverse.getAttr b x n = .ok v) :
    v = attrOf b x n := by
  cases x with
  | object o => cases h; rfl
  | missing => cases h; rfl
  | _ => cases h

theorem attributeTransition_ok {b : Bag} {x : Item} {S : ObjectId} {n : Name} {q : Pair}
    (h : Traverse.attributeTransition b x (.object S) n = .ok q) :
    ∃ t, (n, t) ∈ b.schemaAttrs S ∧ q = (attrOf b x n, t) := by
  unfold Traverse.attributeTransition at h
  split at h
  · cases h
  rename_i v hv
  split at h
  · cases h
  rename_i t ht
  cases h
  exact ⟨t, Traverse.getSchemaAttr_ok ht, by rw [getAttr_attr hv]⟩

theorem schemaAttributeTransition_ok {b : Bag} {S : ObjectId} {n : Name} {q : Pair}
    (h : Traverse.schemaAttributeTransition b (.object S) n = .ok q) :
    ∃ y k, (n, y) ∈ b.schemaAttrs S ∧ AttrKind n k ∧ q = (y, k) := by
  unfold Traverse.schemaAttributeTransition at h
  split at h
  · cases h
  rename_i t ht
  cases h
  exact ⟨t, _, Traverse.getSchemaAttr_ok ht, (Traverse.attrKind_iff n _).mpr rfl, rfl⟩

/-- What `GetTransitions` returns. -/
theorem getTransitions_cases {b : Bag} {x e : Item} {t : Transitions}
    (h : getTransitions b x e true = .ok t) :
    (∃ S, e = .object S ∧ Traverse.entityTransitions b x (.object S) true = .ok t) ∨
    (∃ S, x = .object S ∧ e = kSchema ∧ Traverse.schemaTransitions b (.object S) = .ok t) ∨
    (t = .none ∧ (∀ S, e ≠ .object S) ∧ (e = kSchema → ∀ S, x ≠ .object S)) := by
  unfold getTransitions at h
  by_cases h1 : holdsId e = true
  · rw [if_pos h1] at h
    obtain ⟨S, rfl⟩ := (Traverse.holdsId_iff e).mp h1
    exact .inl ⟨S, rfl, h⟩
  have h1' : ∀ S, e ≠ .object S := fun S hS => h1 ((Traverse.holdsId_iff e).mpr ⟨S, hS⟩)
  rw [if_neg h1] at h
  right
  split at h
  · split at h
    · cases h
      rename_i h2
      exact .inr ⟨rfl, h1', by rw [h2]; intro h; cases h⟩
    · split at h
      · rename_i h2
        by_cases hx : ∃ S, x = .object S
        · obtain ⟨S, rfl⟩ := hx
          exact .inl ⟨S, rfl, h2, h⟩
        · have hx' : ∀ S, x ≠ .object S := fun S hS => hx ⟨S, hS⟩
          refine .inr ⟨?_, h1', fun _ => hx'⟩
          cases x with
          | object o => exact absurd rfl (hx' o)
          | _ => cases h; rfl
      · cases h
        rename_i h2
        exact .inr ⟨rfl, h1', fun h => absurd h h2⟩
  · cases h

theorem part_of_key {b : Bag} {x e : Item} {t : Transitions} (ht : getTransitions b x e true = .ok t)
    {k : TKey} (hk : k ∈ transitionKeys t) {q : Pair} (hq : transitionByKey b x e t k = .ok q) :
    Part b x e (labelOf k) q := by
  rcases getTransitions_cases ht with ⟨S, rfl, h⟩ | ⟨S, rfl, rfl, h⟩ | ⟨rfl, _, _⟩
  · rcases Traverse.entityTransitions_ok h with ⟨_, rfl⟩ | ⟨hnf, it, l, rfl, hl, hx⟩ |
      ⟨hnf, kt, vt, l, rfl, hl, hx⟩ | ⟨hnf, hp, ⟨_, _, rfl⟩ | rfl⟩
    · simp [transitionKeys] at hk
    · have := explodeList_items hx
      subst this
      simp only [transitionKeys] at hk
      split at hk
      · rename_i he
        simp at hk
        subst hk
        cases hq
        exact .noItems hnf hl he
      · obtain ⟨j, h1, h2, rfl⟩ := (mem_listKeys _ _ _).mp hk
        cases hq
        refine .item hnf hl ?_
        rw [List.getD_eq_getElem?_getD, List.getElem?_eq_getElem (by simpa using h2)]
        rfl
    · have := dictItems_dict hx
      subst this
      simp only [transitionKeys] at hk
      split at hk
      · rename_i he
        simp at hk
        rcases hk with rfl | rfl
        · cases hq
          exact .noKeys hnf hl he
        · cases hq
          exact .noValues hnf hl he
      · obtain ⟨j, y, h1, h2⟩ := (mem_dictKeys _ _ _).mp hk
        rw [Nat.zero_add] at h2
        rcases h2 with rfl | rfl
        · cases hq
          exact .key (v := y.2) hnf hl (List.mem_of_getElem? h1)
        · simp only [transitionByKey, List.getD_eq_getElem?_getD, h1] at hq
          cases hq
          exact .value hnf hl (List.mem_of_getElem? h1)
    · simp [transitionKeys] at hk
    · simp only [transitionKeys, if_true, List.mem_map, List.mem_filter] at hk
      obtain ⟨n, ⟨_, h2⟩, rfl⟩ := hk
      simp only [transitionByKey, TKey.name] at hq
      obtain ⟨u, h3, rfl⟩ := attributeTransition_ok hq
      refine .attr hnf hp h3 ?_
      rw [Traverse.aboutSchema_iff]
      simpa [TKey.name] using h2
  · rcases Traverse.schemaTransitions_ok h with ⟨_, rfl⟩ | ⟨hnf, hS, ⟨_, rfl⟩ | rfl⟩
    · simp [transitionKeys] at hk
    · simp [transitionKeys] at hk
    · simp only [transitionKeys, List.mem_map] at hk
      obtain ⟨n, _, rfl⟩ := hk
      simp only [transitionByKey, TKey.name] at hq
      obtain ⟨y, k, h3, h4, rfl⟩ := schemaAttributeTransition_ok hq
      exact .schemaAttr rfl hnf h3 h4
  · simp [transitionKeys] at hk

theorem key_of_part {b : Bag} {x e : Item} {t : Transitions} (ht : getTransitions b x e true = .ok t)
    {n : Label} {q : Pair} (hp : Part b x e n q) : ∃ k ∈ transitionKeys t, labelOf k = n := by
  rcases getTransitions_cases ht with ⟨S, rfl, h⟩ | ⟨S, rfl, rfl, h⟩ | ⟨rfl, h1, h2⟩
  · rcases Traverse.entityTransitions_ok h with ⟨hnf, rfl⟩ | ⟨hnf, it, l, rfl, hl, hx⟩ |
      ⟨hnf, kt, vt, l, rfl, hl, hx⟩ | ⟨hnf, hp', ht'⟩
    · cases hp <;> simp_all
    · have := explodeList_items hx
      subst this
      cases hp with
      | @item _ _ _ i _ _ h3 =>
        have hne : itemsOf b x ≠ [] := by intro h; rw [h] at h3; simp at h3
        refine ⟨{ type := .listItem, index := i }, ?_, rfl⟩
        simp only [transitionKeys, if_neg hne]
        exact (mem_listKeys _ _ _).mpr ⟨i, Nat.zero_le _, by
          rw [Nat.zero_add]; exact (List.getElem?_eq_some_iff.mp h3).1, rfl⟩
      | noItems _ _ h3 => exact ⟨{ type := .listNoItems }, by simp [transitionKeys, h3], rfl⟩
      | key _ h3 _ => exact (Traverse.list_not_dict hl h3).elim
      | value _ h3 _ => exact (Traverse.list_not_dict hl h3).elim
      | noKeys _ h3 _ => exact (Traverse.list_not_dict hl h3).elim
      | noValues _ h3 _ => exact (Traverse.list_not_dict hl h3).elim
      | attr _ h3 _ _ => exact (Traverse.list_not_plain hl h3).elim
    · have := dictItems_dict hx
      subst this
      have hmem : ∀ k v, (k, v) ∈ dictOf b x → ∃ j : Nat, (dictOf b x)[j]? = some (k, v) := by
        intro k v h
        obtain ⟨j, hj, h⟩ := List.mem_iff_getElem.mp h
        exact ⟨j, by rw [List.getElem?_eq_getElem hj, h]⟩
      cases hp with
      | item _ h3 _ => exact (Traverse.list_not_dict h3 hl).elim
      | noItems _ h3 _ => exact (Traverse.list_not_dict h3 hl).elim
      | @key _ _ _ k v _ _ h3 =>
        have hne : dictOf b x ≠ [] := by intro h; rw [h] at h3; simp at h3
        obtain ⟨j, hj⟩ := hmem _ _ h3
        refine ⟨{ type := .dictKey, index := j, value := k }, ?_, rfl⟩
        simp only [transitionKeys, if_neg hne]
        exact (mem_dictKeys _ _ _).mpr ⟨j, _, hj, .inl (by simp)⟩
      | @value _ _ _ k v _ _ h3 =>
        have hne : dictOf b x ≠ [] := by intro h; rw [h] at h3; simp at h3
        obtain ⟨j, hj⟩ := hmem _ _ h3
        refine ⟨{ type := .dictValue, index := j, value := k }, ?_, rfl⟩
        simp only [transitionKeys, if_neg hne]
        exact (mem_dictKeys _ _ _).mpr ⟨j, _, hj, .inr (by simp)⟩
      | noKeys _ _ h3 => exact ⟨{ type := .dictNoKeys }, by simp [transitionKeys, h3], rfl⟩
      | noValues _ _ h3 => exact ⟨{ type := .dictNoValues }, by simp [transitionKeys, h3], rfl⟩
      | attr _ h3 _ _ => exact (Traverse.dict_not_plain hl h3).elim
    · cases hp with
      | item _ h3 _ => exact (Traverse.list_not_plain h3 hp').elim
      | noItems _ h3 _ => exact (Traverse.list_not_plain h3 hp').elim
      | key _ h3 _ => exact (Traverse.dict_not_plain h3 hp').elim
      | value _ h3 _ => exact (Traverse.dict_not_plain h3 hp').elim
      | noKeys _ h3 _ => exact (Traverse.dict_not_plain h3 hp').elim
      | noValues _ h3 _ => exact (Traverse.dict_not_plain h3 hp').elim
      | @attr _ n u _ _ h3 h4 =>
        rw [Traverse.aboutSchema_iff] at h4
        have hm : n ∈ (b.schemaAttrs S).map (·.1) := List.mem_map.mpr ⟨_, h3, rfl⟩
        rcases ht' with ⟨h5, _, _⟩ | rfl
        · exact absurd (h5 rfl n hm) h4
        · refine ⟨{ type := .attr, value := .text n }, ?_, rfl⟩
          simp only [transitionKeys, if_true]
          exact List.mem_map.mpr ⟨n, List.mem_filter.mpr ⟨hm, by simpa using h4⟩, rfl⟩
  · cases hp with
    | @schemaAttr S' n y k h1 h2 h3 h4 =>
      cases h1
      rcases Traverse.schemaTransitions_ok h with ⟨h5, rfl⟩ | ⟨hnf, hS, ⟨h5, rfl⟩ | rfl⟩
      · rw [h5] at h2; cases h2
      · rw [h5] at h3; simp at h3
      · exact ⟨{ type := .schemaAttr, value := .text n }, List.mem_map.mpr
          ⟨n, List.mem_map.mpr ⟨_, h3, rfl⟩, rfl⟩, rfl⟩
  · cases hp with
    | schemaAttr h3 _ _ _ => exact absurd h3 (h2 rfl _)
    | _ => exact absurd rfl (h1 _)

theorem names_nodup {l : List Name} (h : l.Nodup) (f : Name → Label)
    (hf : ∀ a b, f a = f b → a = b) : (l.map f).Nodup := by
  induction l with
  | nil => simp
  | cons x l ih =>
    simp only [List.nodup_cons] at h
    simp only [List.map_cons, List.nodup_cons, List.mem_map, not_exists, not_and]
    refine ⟨fun y hy he => h.1 ?_, ih h.2⟩
    rw [← hf _ _ he]; exact hy

theorem keys_nodup {b : Bag} (hb : BagOk b) {x e : Item} {t : Transitions}
    (ht : getTransitions b x e true = .ok t) : ((transitionKeys t).map labelOf).Nodup := by
  have hdict : ((dictOf b x).map (·.1)).Nodup := by
    cases x with
    | object o => exact hb.dicts o
    | _ => simp [dictOf]
  rcases getTransitions_cases ht with ⟨S, rfl, h⟩ | ⟨S, rfl, rfl, h⟩ | ⟨rfl, h1, h2⟩
  · rcases Traverse.entityTransitions_ok h with ⟨hnf, rfl⟩ | ⟨hnf, it, l, rfl, hl, hx⟩ |
      ⟨hnf, kt, vt, l, rfl, hl, hx⟩ | ⟨hnf, hp', ⟨_, _, rfl⟩ | rfl⟩
    · simp [transitionKeys]
    · simp only [transitionKeys]
      split
      · simp
      · exact listKeys_nodup _ _
    · have := dictItems_dict hx
      subst this
      simp only [transitionKeys]
      split
      · simp [labelOf]
      · exact dictKeys_nodup _ _ hdict
    · simp [transitionKeys]
    · simp only [transitionKeys, if_true, List.map_map]
      exact names_nodup ((hb.attrs S).filter _) _ (by intro a b; simp [labelOf, TKey.name])
  · rcases Traverse.schemaTransitions_ok h with ⟨_, rfl⟩ | ⟨hnf, hS, ⟨_, rfl⟩ | rfl⟩
    · simp [transitionKeys]
    · simp [transitionKeys]
    · simp only [transitionKeys]
      rw [List.map_map]
      exact names_nodup (hb.attrs S) _ (by intro a b h; simpa [labelOf, TKey.name] using h)
  · simp [transitionKeys]

theorem mem_unique {α β : Type} {l : List (α × β)} (h : (l.map (·.1)).Nodup) {k : α} {v v' : β}
    (h1 : (k, v) ∈ l) (h2 : (k, v') ∈ l) : v = v' := by
  induction l with
  | nil => simp at h1
  | cons x l ih =>
    simp only [List.map_cons, List.nodup_cons, List.mem_map, not_exists, not_and] at h
    rcases List.mem_cons.mp h1 with h3 | h3 <;> rcases List.mem_cons.mp h2 with h4 | h4
    · rw [← h3] at h4; cases h4; rfl
    · subst h3; exact absurd rfl (h.1 (k, v') h4)
    · subst h4; exact absurd rfl (h.1 (k, v) h3)
    · exact ih h.2 h3 h4

theorem Part.unique {b : Bag} (hb : BagOk b) {x e : Item} {n : Label} {q q' : Pair}
    (h : Part b x e n q) (h' : Part b x e n q') : q = q' := by
  have hdict : ((dictOf b x).map (·.1)).Nodup := by
    cases x with
    | object o => exact hb.dicts o
    | _ => simp [dictOf]
  cases h with
  | item _ h1 h2 =>
    cases h' with
    | item _ h3 h4 => rw [h2] at h4; cases h4; rw [Traverse.listSchema_unique h1 h3]
  | noItems _ h1 _ =>
    cases h' with
    | noItems _ h3 _ => rw [Traverse.listSchema_unique h1 h3]
  | key _ h1 _ =>
    cases h' with
    | key _ h3 _ => rw [(Traverse.dictSchema_unique h1 h3).1]
  | value _ h1 h2 =>
    cases h' with
    | value _ h3 h4 => rw [(Traverse.dictSchema_unique h1 h3).2, mem_unique hdict h2 h4]
  | noKeys _ h1 _ =>
    cases h' with
    | noKeys _ h3 _ => rw [(Traverse.dictSchema_unique h1 h3).1]
  | noValues _ h1 _ =>
    cases h' with
    | noValues _ h3 _ => rw [(Traverse.dictSchema_unique h1 h3).2]
  | attr _ _ h1 _ =>
    cases h' with
    | attr _ _ h2 _ => rw [mem_unique (hb.attrs _) h1 h2]
  | schemaAttr h0 _ h1 h2 =>
    cases h' with
    | schemaAttr h0' _ h3 h4 =>
      rw [h0] at h0'; cases h0'
      rw [mem_unique (hb.attrs _) h1 h3]
      rw [Traverse.attrKind_iff] at h2 h4
      rw [← h2, ← h4]

theorem OwnSchema.unique {b : Bag} {p : Pair} {e e' : Item} (h : OwnSchema b p e)
    (h' : OwnSchema b p e') : e = e' := by
  cases h with
  | object h1 =>
    cases h' with
    | object h2 => exact h1.unique h2
    | other h2 => exact absurd rfl (h2 _)
  | other h1 =>
    cases h' with
    | object h2 => exact absurd rfl (h1 _)
    | other _ => rfl

theorem ownSchema_ok {b : Bag} {p q : Pair} (h : ownSchema b p = .ok q) :
    q.1 = p.1 ∧ OwnSchema b p q.2 := by
  unfold ownSchema at h
  obtain ⟨x, s⟩ := p
  split at h
  · rename_i hc
    simp only at hc
    obtain ⟨o, rfl⟩ := (Traverse.holdsId_iff x).mp hc.2
    split at h
    · cases h
    · rename_i e he
      cases h
      refine ⟨rfl, .object ?_⟩
      rw [hc.1]
      exact Traverse.own_object he
  · rename_i hc
    cases h
    refine ⟨rfl, ?_⟩
    simp only at hc
    by_cases hx : ∃ o, x = .object o
    · obtain ⟨o, rfl⟩ := hx
      exact .object (.other (fun h => hc ⟨h, rfl⟩))
    · exact .other (fun o h => hx ⟨o, h⟩)

theorem Has.unique {b : Bag} (hb : BagOk b) {p q q' : Pair} {n : Label} (h : Has b p n q)
    (h' : Has b p n q') : q = q' := by
  obtain ⟨e, h1, h2⟩ := h
  obtain ⟨e', h3, h4⟩ := h'
  cases h1.unique h3
  exact h2.unique hb h4

end Verif.Compare
