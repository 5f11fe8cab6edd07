import Verif.Traverse.Same
import Verif.Traverse.Total
import Verif.Uuid.InputTheorems

/-!
C71, C72 and C73: the walk over the data of a bag, and `kd.deep_uuid`.
-/

namespace Verif.Traverse

open Verif.ObjectId
open Verif.Uuid

/-! ### C71 -/

section
variable {V : Type} {w : Visitor V} {want : Pair → Option Key → Pair → Bool} {b : Bag}

/-- A traversal that succeeds visits, one after the other, exactly the items that can be reached
through the references the visitor wants, each of them once. What an item refers to is visited
before the item, unless it leads back to the item. -/
theorem C71_visits (hb : b.Ok) (hw : Decides w want)
    (hobj : ∀ src q, want src (some .objectSchema) q = true) {v v' : V} {ds : List Item} {s : Item}
    {n : Nat} (h : traverseSlice w b n v ds s = some (.ok v')) :
    ∃ v0 order, visitInPostOrder w b v0 order = .ok v' ∧ order.Nodup ∧
      (∀ p, p ∈ order ↔ ∃ r, Root want ds s r ∧ Reach (Edge b want) r p) ∧
      ∀ l p r, order = l ++ p :: r → ∀ q, Edge b want p q →
        q ∈ l ∨ Reach (Edge b want) q p := by
  unfold traverseSlice at h
  split at h
  · cases h
  rename_i d hd
  split at h
  · cases h
  · cases h
  rename_i d' hd'
  simp only [Option.some.injEq] at h
  exact ⟨d'.v, d'.order, h, search_order hb hw (fun _ _ _ => hobj _ _) hd hd'⟩

/-- A traversal ends, whatever the references look like, if only finitely many items can be
reached; and more time does not change its result. -/
theorem C71_ends (hb : b.Ok) (hw : Decides w want)
    (hobj : ∀ src q, want src (some .objectSchema) q = true) {ds : List Item} {s : Item}
    {U : List Pair} (hU : ∀ r p, Root want ds s r → Reach (Edge b want) r p → p ∈ U) (v : V) :
    ∃ fuel r, ∀ n, fuel ≤ n → traverseSlice w b n v ds s = some r :=
  traverse_stops hb hw (fun _ _ _ => hobj _ _) hU v

/-- The walk over well-typed data fails only when a visit fails. -/
theorem C71_only_visits_fail (hb : b.Ok) (hw : Decides w everything) (hn : NeverFails w)
    {ds : List Item} {s : Item} (hwt : WellTyped b ds s) {v : V} {n : Nat} {e : Err}
    (h : traverseSlice w b n v ds s = some (.error e)) :
    ∃ v0 order, visitInPostOrder w b v0 order = .error e ∧
      ∀ p ∈ order, Reachable b ds s p := by
  unfold traverseSlice at h
  obtain ⟨d, hd⟩ := init_isOk hn hwt.items v
  rw [hd] at h
  simp only at h
  have hg := init_good (b := b) hw hd
  split at h
  · cases h
  · rename_i e' he
    obtain ⟨d', hd'⟩ := dfs_isOk hb hn hw hwt n hg he
    cases hd'
  rename_i d' hd'
  simp only [Option.some.injEq] at h
  refine ⟨d'.v, d'.order, h, ?_⟩
  intro p hp
  exact ((search_order hb hw (fun _ _ _ => rfl) hd hd').2.1 p).mp hp

end

/-! ### C72 -/

/-- The id that `deep_uuid` returns for an item that counts as a value: the value if it is an id
or if ITEMIDs were given, otherwise an id made from the value and the seed. -/
inductive Result {S : Type} (H : HashFn S) (seeded : Bytes → BitVec 128 → BitVec 128)
    (seed : Bytes) (s : Item) : Item → Item → Prop where
  | id {o : ObjectId} : Result H seeded seed s (.object o) (.object o)
  | itemId {v : Item} : s = .dtype 10 → Result H seeded seed s v v
  | unseeded {v : Item} : (∀ o, v ≠ .object o) → s ≠ .dtype 10 → seed = [] →
      Result H seeded seed s v (.object (createUuidObject (stableFingerprint H v) .default))
  | seeded {v : Item} : (∀ o, v ≠ .object o) → s ≠ .dtype 10 → seed ≠ [] →
      Result H seeded seed s v
        (.object (createUuidObject (seeded seed (stableFingerprint H v)) .default))

theorem wrapUuid_result {S : Type} (H : HashFn S) (seeded : Bytes → BitVec 128 → BitVec 128)
    (seed : Bytes) (s v : Item) : Result H seeded seed s v (wrapUuid H seed seeded s v) := by
  unfold wrapUuid
  by_cases h1 : ∃ o, v = .object o
  · obtain ⟨o, rfl⟩ := h1
    simp only [holdsId, Bool.not_true, Bool.false_and, Bool.false_eq_true, if_false]
    exact .id
  have hid : holdsId v = false := by
    match h : holdsId v with
    | false => rfl
    | true => exact absurd ((holdsId_iff v).mp h) h1
  have hv : ∀ o, v ≠ .object o := fun o h => h1 ⟨o, h⟩
  by_cases h2 : s = kItemId
  · subst h2
    simp only [hid, ne_eq, not_true_eq_false, decide_false, Bool.and_false, Bool.false_eq_true,
      if_false]
    exact .itemId rfl
  · rw [if_pos (by simp [hid, h2])]
    by_cases h3 : seed = []
    · rw [if_pos h3]; exact .unseeded hv h2 h3
    · rw [if_neg h3]; exact .seeded hv h2 h3

theorem Result.unique {S : Type} {H : HashFn S} {seeded : Bytes → BitVec 128 → BitVec 128}
    {seed : Bytes} {s s' v u u' : Item} (hs : s = .dtype 10 ↔ s' = .dtype 10)
    (h : Result H seeded seed s v u) (h' : Result H seeded seed s' v u') : u = u' := by
  cases h with
  | id =>
    cases h' with
    | id => rfl
    | itemId _ => rfl
    | unseeded h _ _ => exact absurd rfl (h _)
    | seeded h _ _ => exact absurd rfl (h _)
  | itemId h1 =>
    cases h' with
    | id => rfl
    | itemId _ => rfl
    | unseeded _ h _ => exact absurd (hs.mp h1) h
    | seeded _ h _ => exact absurd (hs.mp h1) h
  | unseeded h1 h2 h3 =>
    cases h' with
    | id => exact absurd rfl (h1 _)
    | itemId h => exact absurd (hs.mpr h) h2
    | unseeded _ _ _ => rfl
    | seeded _ _ h => exact absurd h3 h
  | seeded h1 h2 h3 =>
    cases h' with
    | id => exact absurd rfl (h1 _)
    | itemId h => exact absurd (hs.mpr h) h2
    | unseeded _ _ h => exact absurd h h3
    | seeded _ _ _ => rfl

/-- The seed is a string; a missing one is empty. -/
inductive IsSeed : Item → Bytes → Prop where
  | missing : IsSeed .missing []
  | text {s : Bytes} : IsSeed (.text s) s

theorem seedOf_ok {sd : Item} {seed : Bytes} : seedOf sd = .ok seed ↔ IsSeed sd seed := by
  constructor
  · intro h
    unfold seedOf at h
    split at h <;> cases h <;> constructor
  · intro h; cases h <;> rfl

section
variable {S : Type} {H : HashFn S} {seeded : Bytes → BitVec 128 → BitVec 128} {b : Bag}

/-- What `deep_uuid` returns is made from the value of every item: from the content of the item
and the seed. -/
theorem C72_deep_uuid (hb : b.Ok) {ds us : List Item} {s sd : Item} {n : Nat} {seed : Bytes}
    (hseed : IsSeed sd seed) (hco : Coherent b ds s) (hnc : NoClash H seed b ds s)
    (h : deepUuid H seeded b n sd ds s = some (.ok us)) :
    us.length = ds.length ∧ ∀ (i : Nat) x u, ds[i]? = some x → us[i]? = some u →
      ∃ v, Value H seed b (x, s) v ∧ Result H seeded seed s v u := by
  unfold deepUuid at h
  rw [seedOf_ok.mpr hseed] at h
  simp only at h
  split at h
  · cases h
  · cases h
  rename_i t ht
  simp only [Option.some.injEq] at h
  obtain ⟨h1, h2⟩ := uuidResults_ok h
  refine ⟨h1, ?_⟩
  intro i x u hx hu
  obtain ⟨v, h3, h4⟩ := h2 i x hx
  rw [hu] at h4
  cases h4
  refine ⟨v, ?_, wrapUuid_result _ _ _ _ _⟩
  by_cases hid : ∃ o, x = .object o
  · obtain ⟨o, rfl⟩ := hid
    simp only [uuidGetValueSafe] at h3
    by_cases hs : s = kItemId
    · subst hs
      simp only [if_true, Except.ok.injEq] at h3
      subst h3
      exact .itemId
    · rw [if_neg hs] at h3
      split at h3
      · cases h3
      · rename_i v' hf
        cases h3
        exact traverse_values hb hco hnc ht ⟨_, .inr ⟨i, o, hx, rfl, rfl⟩, .refl⟩ hs hf
  · have : v = x := by
      unfold uuidGetValueSafe at h3
      split at h3
      · exact absurd ⟨_, rfl⟩ hid
      · cases h3; rfl
    subst this
    exact .leaf (fun o h => hid ⟨o, h⟩)

/-- `deep_uuid` depends on the content of an item and on the seed only: two items with the same
content, in the same or in different bags, get the same id. -/
theorem C72_same_content {b' : Bag} (hb : b.Ok) (hb' : b'.Ok) {ds us ds' us' : List Item}
    {s s' sd : Item} {n n' : Nat} {seed : Bytes} (hseed : IsSeed sd seed)
    (hco : Coherent b ds s) (hco' : Coherent b' ds' s')
    (hnc : NoClash H seed b ds s) (hnc' : NoClash H seed b' ds' s')
    (h : deepUuid H seeded b n sd ds s = some (.ok us))
    (h' : deepUuid H seeded b' n' sd ds' s' = some (.ok us'))
    (hs : s = .dtype 10 ↔ s' = .dtype 10) {i j : Nat} {x x' u u' : Item}
    (hx : ds[i]? = some x) (hx' : ds'[j]? = some x') (hu : us[i]? = some u)
    (hu' : us'[j]? = some u') (hsame : Same H seed b b' (x, s) (x', s')) : u = u' := by
  obtain ⟨v, h1, h2⟩ := (C72_deep_uuid hb hseed hco hnc h).2 i x u hx hu
  obtain ⟨v', h3, h4⟩ := (C72_deep_uuid hb' hseed hco' hnc' h').2 j x' u' hx' hu'
  have := hsame.value h1 h3
  subst this
  exact Result.unique hs h2 h4

/-- An item has one value. -/
theorem C72_value_unique (hb : b.Ok) {seed : Bytes} {p : Pair} {v v' : Item}
    (h : Value H seed b p v) (h' : Value H seed b p v') : v = v' := h.unique hb h'

/-- A seed that is not a string is an error. -/
theorem C72_seed_type {sd : Item} (h : ∀ seed, ¬ IsSeed sd seed) (n : Nat) (ds : List Item)
    (s : Item) : deepUuid H seeded b n sd ds s = some (.error .seed) := by
  unfold deepUuid
  cases sd <;> first | rfl | exact absurd .missing (h _) | exact absurd .text (h _)

/-! ### C73 -/

/-- `deep_uuid` succeeds for well-typed data in which the only cycles are attributes that refer
to their own item. -/
theorem C73_succeeds (hb : b.Ok) {ds : List Item} {s sd : Item} {seed : Bytes}
    (hwt : WellTyped b ds s) (hc : OnlySelfCycles b ds s) {U : List Pair}
    (hU : ∀ p, Reachable b ds s p → p ∈ U) (hseed : IsSeed sd seed) :
    ∃ fuel us, ∀ n, fuel ≤ n → deepUuid H seeded b n sd ds s = some (.ok us) :=
  deepUuid_isOk hb hwt hc hU (seedOf_ok.mpr hseed) seeded

/-- The value of an item is made from the value of another one. An attribute that refers to its
own item does not need the value of the item. -/
inductive Needs (b : Bag) : Pair → Pair → Prop where
  | object {x T : ObjectId} : b.attr x (named "__schema__") = .object T →
      Needs b (.object x, .dtype 11) (.object x, .object T)
  | list {x T : ObjectId} {t y : Item} : T.isNoFollowSchema = false → ListSchema b T t →
      y ∈ b.list x → Needs b (.object x, .object T) (y, t)
  | dictKey {x T : ObjectId} {k t : Item} {y : Item × Item} : T.isNoFollowSchema = false →
      DictSchema b T k t → y ∈ b.dict x → Needs b (.object x, .object T) (y.1, k)
  | dictValue {x T : ObjectId} {k t : Item} {y : Item × Item} : T.isNoFollowSchema = false →
      DictSchema b T k t → y ∈ b.dict x → Needs b (.object x, .object T) (y.2, t)
  | attr {x T : ObjectId} {n : Name} {p : Pair} : T.isNoFollowSchema = false → PlainSchema b T →
      EntityAttr b x T n p → ¬ IsSelf x p → Needs b (.object x, .object T) p
  | schemaAttr {x : ObjectId} {n : Name} {p : Pair} : x.isNoFollowSchema = false →
      SchemaAttr b x n p → ¬ IsSelf x p → Needs b (.object x, .dtype 12) p

/-- What has a value needs finitely many others. -/
theorem Value.acc {seed : Bytes} {p : Pair} {v : Item} (h : Value H seed b p v) :
    Acc (fun q p => Needs b p q) p := by
  induction h with
  | leaf h =>
    constructor
    intro q hq
    cases hq <;> exact absurd rfl (h _)
  | itemId =>
    constructor
    intro q hq
    cases hq
  | object h _ ih =>
    constructor
    intro q hq
    cases hq with
    | object h' => rw [h] at h'; cases h'; exact ih
  | noFollow h =>
    constructor
    intro q hq
    cases hq with
    | list h' _ _ => rw [h] at h'; cases h'
    | dictKey h' _ _ => rw [h] at h'; cases h'
    | dictValue h' _ _ => rw [h] at h'; cases h'
    | attr h' _ _ _ => rw [h] at h'; cases h'
  | list _ h2 h3 _ ih =>
    constructor
    intro q hq
    cases hq with
    | list _ h5 h6 =>
      have := listSchema_unique h2 h5
      subst this
      obtain ⟨i, hi⟩ := List.getElem?_of_mem h6
      have hl := (List.getElem?_eq_some_iff.mp hi).1
      exact ih i _ _ hi (List.getElem?_eq_getElem (by omega))
    | dictKey _ h5 _ => exact (list_not_dict h2 h5).elim
    | dictValue _ h5 _ => exact (list_not_dict h2 h5).elim
    | attr _ h5 _ _ => exact (list_not_plain h2 h5).elim
  | dict _ h2 h3 _ _ ih1 ih2 =>
    constructor
    intro q hq
    cases hq with
    | list _ h5 h6 => exact (list_not_dict h5 h2).elim
    | dictKey _ h5 h6 =>
      obtain ⟨rfl, rfl⟩ := dictSchema_unique h2 h5
      obtain ⟨i, hi⟩ := List.getElem?_of_mem h6
      have hl := (List.getElem?_eq_some_iff.mp hi).1
      exact ih1 i _ _ hi (List.getElem?_eq_getElem (by omega))
    | dictValue _ h5 h6 =>
      obtain ⟨rfl, rfl⟩ := dictSchema_unique h2 h5
      obtain ⟨i, hi⟩ := List.getElem?_of_mem h6
      have hl := (List.getElem?_eq_some_iff.mp hi).1
      exact ih2 i _ _ hi (List.getElem?_eq_getElem (by omega))
    | attr _ h5 _ _ => exact (dict_not_plain h2 h5).elim
  | entity _ h2 _ _ _ ih =>
    constructor
    intro q hq
    cases hq with
    | list _ h5 _ => exact (list_not_plain h5 h2).elim
    | dictKey _ h5 _ => exact (dict_not_plain h5 h2).elim
    | dictValue _ h5 _ => exact (dict_not_plain h5 h2).elim
    | attr _ _ h6 h7 => exact ih _ _ h6 h7
  | noFollowSchema h =>
    constructor
    intro q hq
    cases hq with
    | schemaAttr h' _ _ => rw [h] at h'; cases h'
  | schema _ _ _ _ ih =>
    constructor
    intro q hq
    cases hq with
    | schemaAttr _ h6 h7 => exact ih _ _ h6 h7

theorem Reach.first {E : Pair → Pair → Prop} {p q : Pair} (h : Reach E p q) :
    p = q ∨ ∃ d, E p d ∧ Reach E d q := by
  induction h with
  | refl => exact .inl rfl
  | step _ h2 ih =>
    rcases ih with rfl | ⟨d, h3, h4⟩
    · exact .inr ⟨_, h2, .refl⟩
    · exact .inr ⟨d, h3, .step h4 h2⟩

theorem acc_no_cycle {E : Pair → Pair → Prop} {p : Pair} (h : Acc (fun q p => E p q) p) :
    ∀ q, E p q → Reach E q p → False := by
  induction h with
  | intro p _ ih =>
    intro q hq hr
    rcases hr.first with rfl | ⟨d, h1, h2⟩
    · exact ih q hq q hq .refl
    · exact ih q hq d h1 (.step h2 hq)

/-- `deep_uuid` does not succeed when the value of an item would be needed for itself: a list or
a dict that contains itself, or items that refer to each other. -/
theorem C73_cycle_fails (hb : b.Ok) {ds : List Item} {s sd : Item} {seed : Bytes}
    (hseed : IsSeed sd seed) (hco : Coherent b ds s) (hnc : NoClash H seed b ds s) {x : ObjectId}
    {s' : Item} {q : Pair} (hr : Reachable b ds s (.object x, s'))
    (hs : (∃ T, s' = .object T) ∨ s' = .dtype 11) (hq : Needs b (.object x, s') q)
    (hc : Reach (Needs b) q (.object x, s')) (n : Nat) (us : List Item) :
    deepUuid H seeded b n sd ds s ≠ some (.ok us) := by
  intro h
  unfold deepUuid at h
  rw [seedOf_ok.mpr hseed] at h
  simp only at h
  split at h
  · cases h
  · cases h
  rename_i t ht
  obtain ⟨u, hu⟩ := traverse_data hb hco hnc ht hr hs
  exact acc_no_cycle hu.acc q hq hc

end

theorem isUuid_object (fp : BitVec 128) (type : UuidType) :
    (createUuidObject fp type).isUuid = true := by
  cases type <;> simp [createUuidObject, createUuidObjectWithMetadata, uuidFlags, ObjectId.isUuid] <;>
    decide

theorem isUuid_schema (fp : BitVec 128) : (createUuidExplicitSchema fp).isUuid = true := by
  simp [createUuidExplicitSchema, createUuidObjectWithMetadata, ObjectId.isUuid]
  decide

/-- What an item counts as: itself, or a uuid. -/
theorem Value.kinds {S : Type} {H : HashFn S} {b : Bag} {seed : Bytes} {p : Pair} {v : Item}
    (h : Value H seed b p v) : (v = p.1 ∧ ((∀ o, p.1 ≠ .object o) ∨ p.2 = .dtype 10)) ∨
      ∃ u, v = .object u ∧ u.isUuid = true := by
  induction h with
  | leaf h => exact .inl ⟨rfl, .inl h⟩
  | itemId => exact .inl ⟨rfl, .inr rfl⟩
  | object _ _ ih =>
    rcases ih with ⟨_, h | h⟩ | h
    · exact absurd rfl (h _)
    · cases h
    · exact .inr h
  | noFollow _ => exact .inr ⟨_, rfl, isUuid_object _ _⟩
  | list _ _ _ _ _ => exact .inr ⟨_, rfl, isUuid_object _ _⟩
  | dict _ _ _ _ _ _ _ => exact .inr ⟨_, rfl, isUuid_object _ _⟩
  | entity _ _ _ _ _ _ => exact .inr ⟨_, rfl, isUuid_object _ _⟩
  | noFollowSchema _ => exact .inr ⟨_, rfl, isUuid_schema _⟩
  | schema _ _ _ _ _ => exact .inr ⟨_, rfl, isUuid_schema _⟩

/-- Nothing can be mistaken for a reference of an item to itself if the ids on cycles are not
uuids, and ITEMIDs are not used. -/
theorem C72_no_clash {S : Type} (H : HashFn S) (seed : Bytes) {b : Bag} {ds : List Item} {s : Item}
    (hu : ∀ x s', Reachable b ds s (.object x, s') → OnCycle b x → x.isUuid = false)
    (hi : ∀ x, ¬ Reachable b ds s (.object x, .dtype 10)) : NoClash H seed b ds s := by
  rintro x hc s' hr n ⟨y, t⟩ v hat hself hv rfl
  rcases hv.kinds with ⟨h1, h2⟩ | ⟨u, h1, h2⟩
  · simp only at h1 h2
    subst h1
    rcases h2 with h2 | h2
    · exact h2 x rfl
    · -- the ITEMID is reachable
      subst h2
      have hedge : ∃ p, Reachable b ds s p ∧ Edge b everything p (.object x, .dtype 10) := by
        rcases hat with ⟨T, h3, h4, h5, t, h6, h7, h8⟩ | ⟨rfl, _, y, k, h4, h5, h6⟩
        · simp only [Prod.mk.injEq] at h8
          obtain ⟨h8, rfl⟩ := h8
          exact ⟨_, hr, x, .object T, .attr n, rfl, h3, .attr h4 h5 h6 h7 h8.symm, rfl⟩
        · cases h6
          cases h5
      obtain ⟨p, ⟨r, h3, h4⟩, h5⟩ := hedge
      exact hi x ⟨r, h3, .step h4 h5⟩
  · cases h1
    rw [hu x s' hr hc] at h2
    cases h2

/-! ### Examples -/

/-- Ids for the examples: entities, a list, a dict and schemas. -/
def exEntity (n : Nat) : ObjectId := ⟨1, 0, 0, BitVec.ofNat 64 n⟩
def exList (n : Nat) : ObjectId := ⟨2, 0, kListFlag, BitVec.ofNat 64 n⟩
def exDict (n : Nat) : ObjectId := ⟨3, 0, kDictFlag, BitVec.ofNat 64 n⟩
def exSchema (n : Nat) : ObjectId := ⟨4, 0, kExplicitSchemaFlag, BitVec.ofNat 64 n⟩

/-- Names for the examples. -/
def exA : Name := chars ['a']
def exMe : Name := chars ['m', 'e']
def exKids : Name := chars ['k', 'i', 'd', 's']

/-- Two bags with the same content: an item with a number, a reference to itself and a list of
two items with numbers. The ids are `k`, `k + 1`, … -/
def exBag (k : Nat) : Bag where
  attr := fun o n =>
    if o = exEntity k then
      (if n = exA then .int32 7 else if n = exMe then .object (exEntity k)
        else if n = exKids then .object (exList k) else .missing)
    else if o = exEntity (k + 1) then (if n = exA then .int32 8 else .missing)
    else if o = exEntity (k + 2) then (if n = exA then .int32 9 else .missing)
    else .missing
  list := fun o => if o = exList k then [.object (exEntity (k + 1)), .object (exEntity (k + 2))] else []
  dict := fun _ => []
  schemaAttrs := fun o =>
    if o = exSchema k then
      [(exA, .dtype 1), (exMe, .object (exSchema k)), (exKids, .object (exSchema (k + 1)))]
    else if o = exSchema (k + 1) then [(itemsName, .object (exSchema (k + 2)))]
    else if o = exSchema (k + 2) then [(exA, .dtype 1)]
    else []

/-- A simple hash function for the examples. -/
def exHash : HashFn Nat where
  init := 1
  mix := fun data s => data.foldl (fun s x => (s * 1000003 + x.toNat + 7) % 2 ^ 128) (s * 31 + 5)
  finish := fun s => BitVec.ofNat 128 s

/-- The ids that `deep_uuid` returned. -/
def exIds (r : Option (Except Err (List Item))) : Option (List Item) :=
  match r with
  | some (.ok us) => some us
  | _ => none

/-- Example: the id of the item with the ids from 10 on is that with the ids from 20 on, and it
is made from the number, the placeholder and the uuid of the list. -/
example : exIds (deepUuid exHash (fun _ x => x) (exBag 10) 100 .missing [.object (exEntity 10)]
      (.object (exSchema 10))) =
    some [.object (uuidFromFields exHash [] [(exA, .int32 7), (exMe, selfReference),
      (exKids, .object (listUuid exHash [] [
        .object (uuidFromFields exHash [] [(exA, .int32 8)] .default),
        .object (uuidFromFields exHash [] [(exA, .int32 9)] .default)] []))] .default)] ∧
    exIds (deepUuid exHash (fun _ x => x) (exBag 20) 100 .missing [.object (exEntity 20)]
      (.object (exSchema 20))) =
    exIds (deepUuid exHash (fun _ x => x) (exBag 10) 100 .missing [.object (exEntity 10)]
      (.object (exSchema 10))) := by
  decide +kernel

/-! The hypotheses of the theorems hold for this bag. -/

/-- The order of a traversal, if it is over within 100 steps. -/
def exOrder (b : Bag) (ds : List Item) (s : Item) : Option (List Pair) :=
  match initDfs (uuidVisitor exHash []) ⟨[], []⟩ ds s with
  | .ok d => match dfs (uuidVisitor exHash []) b 100 d with
    | some (.ok d') => some d'.order
    | _ => none
  | _ => none

theorem exOrder_reachable {b : Bag} (hb : b.Ok) {ds : List Item} {s : Item} {l : List Pair}
    (h : exOrder b ds s = some l) (p : Pair) : Reachable b ds s p ↔ p ∈ l := by
  unfold exOrder at h
  split at h
  · rename_i d hd
    split at h
    · rename_i d' hd'
      cases h
      exact ((search_order hb (decides_uuid exHash []) (fun _ _ _ => rfl) hd hd').2.1 p).symm
    · cases h
  · cases h

/-- What a pair refers to. -/
def exNext (b : Bag) (p : Pair) : Option (List Pair) :=
  match getTransitions b p.1 p.2 false with
  | .ok t => match forEachObject b p.1 p.2 t with
    | .ok cs => some ((p.2, kSchema) :: cs.map (·.2))
    | _ => none
  | _ => none

theorem exNext_edge {b : Bag} (hb : b.Ok) {p q : Pair} {l : List Pair} (h : exNext b p = some l)
    (hp : p.2 ≠ kObject) (he : Edge b everything p q) : q ∈ l := by
  obtain ⟨px, ps⟩ := p
  obtain ⟨x, e, k, h1, h2, h3, _⟩ := he
  simp only at h1 h2 hp
  subst h1
  have := Own.unique h2 (.other hp)
  subst this
  unfold exNext at h
  simp only at h
  split at h
  · rename_i t ht
    split at h
    · rename_i cs hcs
      cases h
      by_cases hk : k = .schema
      · subst hk
        cases h3
        simp [kSchema]
      · have := ((mem_forEachObject hb ht hcs (fun h => absurd h hp) k q).mpr ⟨h3, hk⟩).1
        exact List.mem_cons_of_mem _ (List.mem_map.mpr ⟨_, this, rfl⟩)
    · cases h
  · cases h

/-- What can be reached in the example. -/
def exReach : List Pair :=
  [(.object (exSchema 12), .dtype 12), (.object (exEntity 12), .object (exSchema 12)),
   (.object (exEntity 11), .object (exSchema 12)), (.object (exSchema 11), .dtype 12),
   (.object (exList 10), .object (exSchema 11)), (.object (exSchema 10), .dtype 12),
   (.object (exEntity 10), .object (exSchema 10))]

theorem exBag_ok : (exBag 10).Ok := by
  intro S
  simp only [exBag]
  split
  · decide
  · split
    · decide
    · split <;> decide

theorem exBag_reachable (p : Pair) :
    Reachable (exBag 10) [.object (exEntity 10)] (.object (exSchema 10)) p ↔ p ∈ exReach :=
  exOrder_reachable exBag_ok (by decide +kernel) p

theorem exBag_coherent : Coherent (exBag 10) [.object (exEntity 10)] (.object (exSchema 10)) := by
  have h : ∀ p ∈ exReach, p.2 ≠ kObject ∧ ∀ q ∈ exReach, p.1 = q.1 → p.2 = q.2 := by
    decide +kernel
  refine ⟨?_, ?_⟩
  · intro x s1 s2 e1 e2 h1 h2 _ _ h3 h4
    rw [exBag_reachable] at h1 h2
    have e := (h _ h1).2 _ h2 rfl
    simp only at e
    subst e
    exact Own.unique h3 h4
  · intro x e h1
    rw [exBag_reachable] at h1
    exact absurd rfl (h _ h1).1

theorem exBag_noClash {S : Type} (H : HashFn S) (seed : Bytes) :
    NoClash H seed (exBag 10) [.object (exEntity 10)] (.object (exSchema 10)) := by
  apply C72_no_clash
  · intro x s' h _
    rw [exBag_reachable] at h
    have : ∀ p ∈ exReach, ∀ x, p.1 = .object x → x.isUuid = false := by
      intro p hp
      simp only [exReach, List.mem_cons, List.not_mem_nil, or_false] at hp
      rcases hp with rfl | rfl | rfl | rfl | rfl | rfl | rfl <;> (intro x hx; cases hx; decide)
    exact this _ h x rfl
  · intro x h
    rw [exBag_reachable] at h
    have : ∀ p ∈ exReach, p.2 ≠ .dtype 10 := by decide +kernel
    exact this _ h rfl

theorem exBag_cycles :
    OnlySelfCycles (exBag 10) [.object (exEntity 10)] (.object (exSchema 10)) := by
  have h : ∀ p ∈ exReach, p.2 ≠ kObject ∧ ∃ l, exNext (exBag 10) p = some l ∧ ∀ q ∈ l,
      holdsId q.1 = true → q ∈ exReach ∧ (q = p ∨ exReach.idxOf q < exReach.idxOf p) := by
    have : exReach.all (fun p => decide (p.2 ≠ kObject) && match exNext (exBag 10) p with
        | none => false
        | some l => l.all (fun q => !holdsId q.1 || (decide (q ∈ exReach) &&
          (decide (q = p) || decide (exReach.idxOf q < exReach.idxOf p))))) = true := by
      decide +kernel
    intro p hp
    have := List.all_eq_true.mp this p hp
    simp only [Bool.and_eq_true, decide_eq_true_eq] at this
    refine ⟨this.1, ?_⟩
    have h2 := this.2
    split at h2
    · cases h2
    · rename_i l hl
      refine ⟨l, hl, ?_⟩
      intro q hq hid
      have := List.all_eq_true.mp h2 q hq
      simpa [hid] using this
  have hstep : ∀ p q, p ∈ exReach → Edge (exBag 10) everything p q →
      q ∈ exReach ∧ (q = p ∨ exReach.idxOf q < exReach.idxOf p) := by
    intro p q hp he
    obtain ⟨h1, l, h2, h3⟩ := h p hp
    refine h3 q (exNext_edge exBag_ok h2 h1 he) ?_
    obtain ⟨_, _, _, _, _, hr, _⟩ := he
    rw [holdsId_iff]
    exact ref_id hr
  have hreach : ∀ p q, Reach (Edge (exBag 10) everything) p q → p ∈ exReach →
      q ∈ exReach ∧ exReach.idxOf q ≤ exReach.idxOf p := by
    intro p q hr hp
    induction hr with
    | refl => exact ⟨hp, Nat.le_refl _⟩
    | step _ h2 ih =>
      obtain ⟨h3, h4⟩ := hstep _ _ ih.1 h2
      refine ⟨h3, ?_⟩
      rcases h4 with rfl | h4
      · exact ih.2
      · omega
  intro p q hp he hr
  rw [exBag_reachable] at hp
  obtain ⟨h1, h2⟩ := hstep p q hp he
  rcases h2 with rfl | h2
  · refine ⟨rfl, ?_⟩
    rintro x e h3 h4 T rfl
    -- no list refers to itself
    simp only [exReach, List.mem_cons, List.not_mem_nil, or_false] at hp
    have hplain : ∀ S : ObjectId, S ≠ exSchema 11 → PlainSchema (exBag 10) S := by
      intro S hS t
      simp only [exBag]
      rw [if_neg hS, named_items, named_keys, named_values]
      split
      · simp [exA, exMe, exKids, itemsName, keysName, valuesName, chars]
      · split <;> simp [exA, itemsName, keysName, valuesName, chars]
    rcases hp with rfl | rfl | rfl | rfl | rfl | rfl | rfl <;> cases h4
    · exact hplain _ (by decide)
    · exact hplain _ (by decide)
    · exfalso
      obtain ⟨_, l, h5, h6⟩ := h _ (by simp [exReach] :
        ((Item.object (exList 10), Item.object (exSchema 11)) : Pair) ∈ exReach)
      have hm := exNext_edge exBag_ok h5 (by simp [kObject]) he
      have hl : exNext (exBag 10) (Item.object (exList 10), Item.object (exSchema 11)) =
          some [(.object (exSchema 11), .dtype 12), (.object (exEntity 11), .object (exSchema 12)),
            (.object (exEntity 12), .object (exSchema 12))] := by decide +kernel
      rw [hl] at h5
      cases h5
      revert hm
      decide
    · exact hplain _ (by decide)
  · have := (hreach q p hr h1).2
    omega

theorem exBag_typed : WellTyped (exBag 10) [.object (exEntity 10)] (.object (exSchema 10)) := by
  have hplain : ∀ S : ObjectId, S ≠ exSchema 11 → PlainSchema (exBag 10) S := by
    intro S hS t
    simp only [exBag]
    rw [if_neg hS, named_items, named_keys, named_values]
    split
    · simp [exA, exMe, exKids, itemsName, keysName, valuesName, chars]
    · split <;> simp [exA, itemsName, keysName, valuesName, chars]
  have hint : ∀ v, Fits (Item.int32 v, Item.dtype 1) := fun v _ => .inr ⟨1, rfl, .int32⟩
  have hid : ∀ (y : Item) (o : ObjectId), Fits (y, .object o) := by
    intro y o hp
    rw [primitive_iff] at hp
    cases hp
  have hschema : ∀ x : ObjectId, x.isNoFollowSchema = false → x.isSchema = true →
      nameName ∉ ((exBag 10).schemaAttrs x).map (·.1) → Typed (exBag 10) x (.dtype 12) := by
    intro x h1 h2 h3
    refine .schema h1 h2 ?_
    rintro n p ⟨y, k, h4, h5, rfl⟩ hp
    cases h5 with
    | name => exact absurd (List.mem_map.mpr ⟨_, h4, named_name⟩) h3
    | metadata => rw [primitive_iff] at hp; cases hp
    | schema _ => rw [primitive_iff] at hp; cases hp
  refine ⟨?_, ?_⟩
  · intro y hy hp
    rw [primitive_iff] at hp
    cases hp
  · intro x s' h
    rw [exBag_reachable] at h
    simp only [exReach, List.mem_cons, List.not_mem_nil, or_false, Prod.mk.injEq,
      Item.object.injEq] at h
    rcases h with ⟨rfl, rfl⟩ | ⟨rfl, rfl⟩ | ⟨rfl, rfl⟩ | ⟨rfl, rfl⟩ | ⟨rfl, rfl⟩ | ⟨rfl, rfl⟩ |
      ⟨rfl, rfl⟩
    · exact ⟨_, .other (by decide), hschema _ (by decide) (by decide) (by decide), by simp⟩
    · refine ⟨_, .other (by simp), .entity (by decide) (by decide) (hplain _ (by decide)) ?_, by simp⟩
      rintro n p ⟨t, h1, _, rfl⟩
      have hs : (exBag 10).schemaAttrs (exSchema 12) = [(exA, .dtype 1)] := by decide
      rw [hs] at h1
      simp at h1
      obtain ⟨rfl, rfl⟩ := h1
      exact hint 9
    · refine ⟨_, .other (by simp), .entity (by decide) (by decide) (hplain _ (by decide)) ?_, by simp⟩
      rintro n p ⟨t, h1, _, rfl⟩
      have hs : (exBag 10).schemaAttrs (exSchema 12) = [(exA, .dtype 1)] := by decide
      rw [hs] at h1
      simp at h1
      obtain ⟨rfl, rfl⟩ := h1
      exact hint 8
    · exact ⟨_, .other (by decide), hschema _ (by decide) (by decide) (by decide), by simp⟩
    · refine ⟨_, .other (by simp), .list (t := .object (exSchema 12)) (by decide) (by decide) ?_
        (by decide) ?_, by simp⟩
      · unfold ListSchema
        rw [named_items]
        decide
      · intro y _
        exact hid _ _
    · exact ⟨_, .other (by decide), hschema _ (by decide) (by decide) (by decide), by simp⟩
    · refine ⟨_, .other (by simp), .entity (by decide) (by decide) (hplain _ (by decide)) ?_, by simp⟩
      rintro n p ⟨t, h1, _, rfl⟩
      have hs : (exBag 10).schemaAttrs (exSchema 10) =
        [(exA, .dtype 1), (exMe, .object (exSchema 10)), (exKids, .object (exSchema 11))] := by decide
      rw [hs] at h1
      simp at h1
      rcases h1 with ⟨rfl, rfl⟩ | ⟨rfl, rfl⟩ | ⟨rfl, rfl⟩
      · exact hint 7
      · exact hid _ _
      · exact hid _ _

/-- Example: with every hash function and every seed `deep_uuid` succeeds for this item, and
returns an id made from its value. -/
example {S : Type} (H : HashFn S) (seeded : Bytes → BitVec 128 → BitVec 128) (seed : Bytes) :
    ∃ n us, deepUuid H seeded (exBag 10) n (.text seed) [.object (exEntity 10)]
        (.object (exSchema 10)) = some (.ok us) ∧
      ∀ u, us[0]? = some u → Value H seed (exBag 10) (.object (exEntity 10), .object (exSchema 10)) u := by
  obtain ⟨n, us, h⟩ := C73_succeeds (H := H) (seeded := seeded) exBag_ok exBag_typed exBag_cycles
    (fun p hp => (exBag_reachable p).mp hp) (.text (s := seed))
  refine ⟨n, us, h n (Nat.le_refl _), ?_⟩
  intro u hu
  obtain ⟨v, h1, h2⟩ := (C72_deep_uuid exBag_ok .text exBag_coherent (exBag_noClash H seed)
    (h n (Nat.le_refl _))).2 0 _ u rfl hu
  rcases h1.kinds with ⟨_, h3 | h3⟩ | ⟨o, rfl, _⟩
  · exact absurd rfl (h3 _)
  · cases h3
  · cases h2 with
    | id => exact h1
    | itemId h3 => cases h3
    | unseeded h3 _ _ => exact absurd rfl (h3 _)
    | seeded h3 _ _ => exact absurd rfl (h3 _)

/-- Two items that refer to each other. -/
def exPair : Bag where
  attr := fun o n =>
    if n = exA then
      (if o = exEntity 1 then .object (exEntity 2) else if o = exEntity 2 then .object (exEntity 1)
        else .missing)
    else .missing
  list := fun _ => []
  dict := fun _ => []
  schemaAttrs := fun o => if o = exSchema 1 then [(exA, .object (exSchema 1))] else []

/-- Example: they have no deep uuid, for any hash function. -/
example {S : Type} (H : HashFn S) (seeded : Bytes → BitVec 128 → BitVec 128) :
    deepUuid H seeded exPair 100 .missing [.object (exEntity 1)] (.object (exSchema 1)) =
      some (.error .cyclicObject) := rfl

/-- An item with a reference to itself and with its own id as an ITEMID. -/
def exClash (k : Nat) : Bag where
  attr := fun o n =>
    if o = exEntity k then (if n = exA ∨ n = exMe then .object (exEntity k) else .missing)
    else .missing
  list := fun _ => []
  dict := fun _ => []
  schemaAttrs := fun o => if o = exSchema 1 then [(exA, .dtype 10), (exMe, .object (exSchema 1))]
    else []

/-- The hypothesis that nothing clashes is needed: an ITEMID attribute of an item that refers to
itself counts as the placeholder when it is the id of the item. The ITEMIDs 1 and 2 are different
values, yet the items with them get the same id. -/
theorem C73_itemid_clash {S : Type} (H : HashFn S) (seeded : Bytes → BitVec 128 → BitVec 128) :
    deepUuid H seeded (exClash 1) 100 .missing [.object (exEntity 1)] (.object (exSchema 1)) =
      some (.ok [.object (uuidFromFields H [] [(exA, selfText), (exMe, selfText)] .default)]) ∧
    deepUuid H seeded (exClash 2) 100 .missing [.object (exEntity 2)] (.object (exSchema 1)) =
      some (.ok [.object (uuidFromFields H [] [(exA, selfText), (exMe, selfText)] .default)]) ∧
    Value H [] (exClash 1) (.object (exEntity 1), .object (exSchema 1)) (.object
      (uuidFromFields H [] [(exA, .object (exEntity 1)), (exMe, selfText)] .default)) := by
  rw [selfText_eq]
  refine ⟨rfl, rfl, ?_⟩
  have hs : (exClash 1).schemaAttrs (exSchema 1) =
      [(exA, .dtype 10), (exMe, .object (exSchema 1))] := by decide
  have hattr : ∀ n p, EntityAttr (exClash 1) (exEntity 1) (exSchema 1) n p ↔
      (n = exA ∧ p = (.object (exEntity 1), .dtype 10)) ∨
        (n = exMe ∧ p = (.object (exEntity 1), .object (exSchema 1))) := by
    intro n p
    unfold EntityAttr
    rw [hs]
    constructor
    · rintro ⟨t, h1, _, rfl⟩
      simp only [List.mem_cons, Prod.mk.injEq, List.not_mem_nil, or_false] at h1
      rcases h1 with ⟨rfl, rfl⟩ | ⟨rfl, rfl⟩
      · exact .inl ⟨rfl, by decide⟩
      · exact .inr ⟨rfl, by decide⟩
    · rintro (⟨rfl, rfl⟩ | ⟨rfl, rfl⟩)
      · exact ⟨.dtype 10, by simp, by rw [aboutSchema_iff]; decide, by decide⟩
      · exact ⟨.object (exSchema 1), by simp, by rw [aboutSchema_iff]; decide, by decide⟩
  refine .entity (vals := fun n => if n = exA then .object (exEntity 1) else selfReference)
    (by decide) ?_ ?_ ?_ ?_
  · intro t
    rw [hs, named_items, named_keys, named_values]
    simp [exA, exMe, itemsName, keysName, valuesName, chars]
  · intro n p h hself
    rcases (hattr n p).mp h with ⟨rfl, rfl⟩ | ⟨rfl, rfl⟩
    · exact absurd rfl hself.2
    · rw [selfText_eq]; decide
  · intro n p h hself
    rcases (hattr n p).mp h with ⟨rfl, rfl⟩ | ⟨rfl, rfl⟩
    · exact .itemId
    · exact absurd ⟨rfl, by simp⟩ hself
  · refine ⟨by decide, ?_⟩
    intro n v
    simp only [List.mem_cons, Prod.mk.injEq, List.not_mem_nil, or_false, hattr]
    constructor
    · rintro (⟨rfl, rfl⟩ | ⟨rfl, rfl⟩)
      · exact ⟨by decide, _, .inl ⟨rfl, rfl⟩⟩
      · exact ⟨by decide, _, .inr ⟨rfl, rfl⟩⟩
    · rintro ⟨rfl, p, ⟨rfl, _⟩ | ⟨rfl, _⟩⟩
      · exact .inl ⟨rfl, by decide⟩
      · exact .inr ⟨rfl, by decide⟩

/-- A dict with two keys of the same content. -/
def exKeys (v w : BitVec 32) : Bag where
  attr := fun o n => if n = exA ∧ (o = exEntity 1 ∨ o = exEntity 2) then .int32 5 else .missing
  list := fun _ => []
  dict := fun o => if o = exDict 1 then
    [(.object (exEntity 1), .int32 v), (.object (exEntity 2), .int32 w)] else []
  schemaAttrs := fun o =>
    if o = exSchema 1 then [(keysName, .object (exSchema 2)), (valuesName, .dtype 1)]
    else if o = exSchema 2 then [(exA, .dtype 1)] else []

/-- The order of the items of a dict counts when two of its keys have the same content: these
two dicts map keys of the same content to the numbers 1 and 2, in different orders. Their ids are
made from the items in the order in which the bag returns them, and what is given to the hash
function is different. -/
theorem C73_dict_with_equal_keys {S : Type} (H : HashFn S)
    (seeded : Bytes → BitVec 128 → BitVec 128)
    (hne : stableFingerprint H (.int32 1) ≠ stableFingerprint H (.int32 2)) :
    ∃ K : Item,
      deepUuid H seeded (exKeys 1 2) 100 .missing [.object (exDict 1)] (.object (exSchema 1)) =
        some (.ok [.object (dictUuid H [] [(K, .int32 1), (K, .int32 2)] [])]) ∧
      deepUuid H seeded (exKeys 2 1) 100 .missing [.object (exDict 1)] (.object (exSchema 1)) =
        some (.ok [.object (dictUuid H [] [(K, .int32 2), (K, .int32 1)] [])]) ∧
      ∀ fp, dictInputs [] [(stableFingerprint H K, stableFingerprint H (.int32 1)),
          (stableFingerprint H K, stableFingerprint H (.int32 2))] fp ≠
        dictInputs [] [(stableFingerprint H K, stableFingerprint H (.int32 2)),
          (stableFingerprint H K, stableFingerprint H (.int32 1))] fp := by
  refine ⟨.object (uuidFromFields H [] [(exA, .int32 5)] .default), rfl, rfl, ?_⟩
  intro fp h
  rw [record_dict, record_dict] at h
  have h := pairChunks_inj (List.append_cancel_left h)
  simp [sortBy, insertBy, keyLt] at h
  exact hne h.1

end Verif.Traverse
