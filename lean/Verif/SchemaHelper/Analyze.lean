import Verif.SchemaHelper.Names
import Verif.SchemaHelper.Closure

/-! Lemmas on `_analyze_schema`. -/

namespace Verif.SchemaHelper

open Verif.Path

/-! ### Facts -/

theorem Fact.functional {b : Store} (hb : AttrsOnce b) {id : Id} {k : Key} {v v' : Val}
    (h : Fact b id k v) (h' : Fact b id k v') : v = v' := by
  cases h with
  | name h => cases h' with | name h' => rw [h] at h'; cases h'; rfl
  | metadata h => cases h' with | metadata h' => rw [h] at h'; cases h'; rfl
  | items h => cases h' with | items h' => rw [h.functional hb h']
  | keys h => cases h' with | keys h' => rw [h.functional hb h']
  | values h => cases h' with | values h' => rw [h.functional hb h']
  | attr h => cases h' with | attr h' => rw [h.functional hb h']

/-- All entries of a bag are facts. -/
def AllFacts (b : Store) (bag : Bag) : Prop := ∀ k v, (k, v) ∈ bag → Fact b k.1 k.2 v

theorem lookup_iff_mem {b : Store} (hb : AttrsOnce b) {bag : Bag} (h : AllFacts b bag) (k : Id × Key)
    (v : Val) : bag.lookup k = some v ↔ (k, v) ∈ bag := by
  constructor
  · exact lookup_mem
  · intro hm
    cases hl : bag.lookup k with
    | none =>
      have := (lookup_isSome_iff bag k).2 (List.mem_map_of_mem (f := (·.1)) hm)
      rw [hl] at this; cases this
    | some v' =>
      rw [(h k v hm).functional hb (h k v' (lookup_mem hl))]

theorem mem_bagsUpdated (bags : List Bag) (x : (Id × Key) × Val) :
    x ∈ bagsUpdated bags ↔ ∃ bag ∈ bags, x ∈ bag := by
  unfold bagsUpdated
  have : ∀ (l : List Bag) (acc : Bag), x ∈ l.foldl (fun acc b => b ++ acc) acc ↔
      x ∈ acc ∨ ∃ bag ∈ l, x ∈ bag := by
    intro l
    induction l with
    | nil => intro acc; simp
    | cons c l ih =>
      intro acc
      rw [List.foldl_cons, ih, List.mem_append]
      simp only [List.mem_cons, exists_eq_or_imp]
      constructor
      · rintro ((h | h) | h)
        · exact .inr (.inl h)
        · exact .inl h
        · exact .inr (.inr h)
      · rintro (h | h | h)
        · exact .inl (.inr h)
        · exact .inl (.inl h)
        · exact .inr h
  rw [this]
  simp

/-- The entries of the bag of a stub. -/
def stubEntries (b : Store) : Item → Bag
  | .dtype _ => []
  | .struct id =>
    (match (b.get id).metadata with
      | .none => []
      | some m => [((id, .schemaMetadata), .metadata m)]) ++
    (match (b.get id).name with
      | .none => []
      | some n => [((id, .schemaName), .text n)])

theorem schemaStubBag_ok {b : Store} {i : Item} (h : metadataAllowed b i = true) :
    schemaStubBag b i = .ok (stubEntries b i) := by
  unfold schemaStubBag
  rw [if_pos h]
  cases i with
  | dtype d => rfl
  | struct id =>
    simp only [stubEntries]
    cases (b.get id).name <;> cases (b.get id).metadata <;> rfl

theorem schemaStubBag_error {b : Store} {i : Item} (h : ¬ metadataAllowed b i = true) :
    schemaStubBag b i = .error .valueError := by
  unfold schemaStubBag
  rw [if_neg h]

theorem mem_stubEntries (b : Store) (i : Item) (id : Id) (k : Key) (v : Val) :
    ((id, k), v) ∈ stubEntries b i ↔
      i = .struct id ∧ (k = .schemaName ∨ k = .schemaMetadata) ∧ Fact b id k v := by
  cases i with
  | dtype d => simp [stubEntries]
  | struct id' =>
    simp only [stubEntries, List.mem_append]
    constructor
    · rintro (h | h)
      · cases hm : (b.get id').metadata with
        | none => simp [hm] at h
        | some m =>
          simp only [hm, List.mem_singleton, Prod.mk.injEq] at h
          obtain ⟨⟨rfl, rfl⟩, rfl⟩ := h
          exact ⟨rfl, .inr rfl, .metadata hm⟩
      · cases hm : (b.get id').name with
        | none => simp [hm] at h
        | some m =>
          simp only [hm, List.mem_singleton, Prod.mk.injEq] at h
          obtain ⟨⟨rfl, rfl⟩, rfl⟩ := h
          exact ⟨rfl, .inl rfl, .name hm⟩
    · rintro ⟨h1, h2, h3⟩
      cases h1
      cases h3 with
      | name h => right; simp [h]
      | metadata h => left; simp [h]
      | _ => rcases h2 with h2 | h2 <;> cases h2

theorem keyOf_iff (a : Action) (k : Key) : KeyOf a k ↔ k = actionKey a := by
  constructor
  · intro h; cases h <;> rfl
  · rintro rfl; cases a
    · exact .keys
    · exact .values
    · exact .items
    · exact .attr

theorem fact_of_step {b : Store} {id : Id} {a : Action} {i : Item} (h : Step b (.struct id) a i) :
    Fact b id (actionKey a) (.item i) := by
  cases a with
  | dictGetKeys => exact .keys h
  | dictGetValues => exact .values h
  | listExplode => exact .items h
  | getAttr n => exact .attr h

theorem fact_item {b : Store} {id : Id} {k : Key} {i : Item} (h : Fact b id k (.item i)) :
    ∃ a, k = actionKey a ∧ Step b (.struct id) a i := by
  cases h with
  | items h => exact ⟨_, rfl, h⟩
  | keys h => exact ⟨_, rfl, h⟩
  | values h => exact ⟨_, rfl, h⟩
  | attr h => exact ⟨_, rfl, h⟩

theorem actionKey_inj {a a' : Action} (h : actionKey a = actionKey a') : a = a' := by
  cases a <;> cases a' <;> first | rfl | (simp only [actionKey] at h; cases h; done) | skip
  simp only [actionKey, Key.attr.injEq] at h
  rw [h]

/-! ### Entries of levels -/

section
variable (t : Text) (b : Store) (w0 : Work) (only : Bool)

/-- The place of an entry. -/
def placeOf (w : Work) : Node :=
  match w.child with
  | .struct id => .struct id
  | .dtype d =>
    match w.parent, w.action with
    | some (.struct id), some a => .leaf id a d
    | _, _ => .root d

/-- The name of the child. -/
def nm (w : Work) : Name := nodeName t (placeOf w)

/-- The name of the parent. -/
def pn (w : Work) : Name :=
  match w.parent with
  | some (.struct id) => encodeId id
  | _ => noParentMarker

/-- The parent and the action are both there, or both are not. -/
def WellFormed (w : Work) : Prop :=
  (w.parent = .none ∧ w.action = .none) ∨ ∃ id a, w.parent = some (.struct id) ∧ w.action = some a

/-- A step from a schema that can be reached. -/
structure EdgeWork (w : Work) (id : Id) (a : Action) : Prop where
  parent : w.parent = some (.struct id)
  action : w.action = some a
  step : Step b (.struct id) a w.child
  reach : ∃ p, Reaches b w0.child p (.struct id)

/-- The entries that occur in levels. -/
def IsWork (w : Work) : Prop := w = w0 ∨ ∃ id a, EdgeWork b w0 w id a

/-- The entry does not make the analysis fail. -/
def Good (w : Work) : Prop :=
  (placeOf w).Ok ∧ (only = false → metadataAllowed b w.child = true)

/-- The entries of the relationship bag. -/
def factsOf (w : Work) : Bag :=
  match w.parent, w.action with
  | some (.struct id), some a => ((id, actionKey a), .item w.child) :: stubEntries b w.child
  | _, _ => stubEntries b w.child

theorem placeOf_item (w : Work) : (placeOf w).item = w.child := by
  unfold placeOf
  cases h : w.child with
  | struct id => rfl
  | dtype d =>
    simp only
    split <;> rfl

variable {t b w0 only}

theorem EdgeWork.wf {w : Work} {id : Id} {a : Action} (h : EdgeWork b w0 w id a) : WellFormed w :=
  .inr ⟨id, a, h.parent, h.action⟩

theorem nm_item (ht : TextLaws t) {w w' : Work} (h : nm t w = nm t w') : w.child = w'.child := by
  rw [← placeOf_item w, ← placeOf_item w', nodeName_inj ht h]

theorem getName_ok {w : Work} (hw : WellFormed w) (hg : (placeOf w).Ok) :
    getSchemaNodeName t w.parent w.action w.child = .ok (nm t w) := by
  obtain ⟨par, act, child⟩ := w
  cases child with
  | struct id => rfl
  | dtype d =>
    rcases hw with ⟨h1, h2⟩ | ⟨id, a, h1, h2⟩
    · simp only at h1 h2; subst h1; subst h2
      exact getSchemaNodeName_root t d hg
    · simp only at h1 h2; subst h1; subst h2
      exact getSchemaNodeName_leaf t id a d hg

theorem getName_error {w : Work} (hg : ¬ (placeOf w).Ok) :
    getSchemaNodeName t w.parent w.action w.child = .error .valueError := by
  obtain ⟨par, act, child⟩ := w
  cases child with
  | struct id => exact absurd trivial hg
  | dtype d =>
    apply getSchemaNodeName_opaque
    intro hd
    apply hg
    unfold placeOf
    simp only
    split <;> exact hd

theorem parentNameOf_ok {w : Work} (hw : WellFormed w) : parentNameOf w = .ok (pn w) := by
  obtain ⟨par, act, child⟩ := w
  rcases hw with ⟨h1, _⟩ | ⟨id, a, h1, _⟩
  · simp only at h1; subst h1; rfl
  · simp only at h1; subst h1; rfl

/-- The first entry is the root, or only the graph is computed. -/
def Start (b : Store) (w0 : Work) (only : Bool) : Prop :=
  WellFormed w0 ∧ (only = false → w0.parent = .none)

theorem getBag_ok (hb : AttrsOnce b) (hw0 : Start b w0 false) {w : Work} (hw : IsWork b w0 w)
    (hm : metadataAllowed b w.child = true) :
    getSchemaBagOf b w.parent w.action w.child = .ok (factsOf b w) := by
  rcases hw with rfl | ⟨id, a, h⟩
  · rcases hw0.1 with ⟨h1, h2⟩ | ⟨id, a, h1, h2⟩
    · simp only [getSchemaBagOf, factsOf, h1, h2, schemaStubBag_ok hm]
    · rw [hw0.2 rfl] at h1; cases h1
  · simp only [getSchemaBagOf, factsOf, h.parent, h.action, subschemaBag,
      (subschema_iff hb _ _ _).2 h.step, schemaStubBag_ok hm]

theorem getBag_error (hb : AttrsOnce b) (hw0 : Start b w0 false) {w : Work} (hw : IsWork b w0 w)
    (hm : ¬ metadataAllowed b w.child = true) :
    getSchemaBagOf b w.parent w.action w.child = .error .valueError := by
  rcases hw with rfl | ⟨id, a, h⟩
  · rcases hw0.1 with ⟨h1, h2⟩ | ⟨id, a, h1, h2⟩
    · simp only [getSchemaBagOf, h1, h2, schemaStubBag_error hm]
    · rw [hw0.2 rfl] at h1; cases h1
  · simp only [getSchemaBagOf, h.parent, h.action, subschemaBag,
      (subschema_iff hb _ _ _).2 h.step, schemaStubBag_error hm]

theorem factsOf_facts (hw0 : Start b w0 false) {w : Work} (hw : IsWork b w0 w) :
    AllFacts b (factsOf b w) := by
  intro k v h
  have hs : (k, v) ∈ stubEntries b w.child → Fact b k.1 k.2 v := fun h =>
    ((mem_stubEntries b w.child k.1 k.2 v).1 h).2.2
  rcases hw with rfl | ⟨id, a, he⟩
  · rw [factsOf, hw0.2 rfl] at h
    exact hs h
  · simp only [factsOf, he.parent, he.action, List.mem_cons] at h
    rcases h with h | h
    · cases h; exact fact_of_step he.step
    · exact hs h

theorem WellFormed_of {w : Work} (hw0 : Start b w0 only) (hw : IsWork b w0 w) : WellFormed w := by
  rcases hw with rfl | ⟨id, a, h⟩
  · exact hw0.1
  · exact h.wf

/-! ### The invariant -/

/-- `schema_graph[x]` contains `y`. -/
abbrev GEdge (st : Artifacts) (x y : Name) : Prop := Edge ⟨st.graph, false⟩ x y

/-- The relationship bag of an entry holds what it should. -/
def BagDone (t : Text) (b : Store) (st : Artifacts) (w : Work) : Prop :=
  ∃ bag, st.bags.lookup (pn w, nm t w) = some bag ∧ ∀ x ∈ factsOf b w, x ∈ bag

variable (t b w0 only) in
structure Inv (isFirst : Bool) (st : Artifacts) (rest new : List Work) : Prop where
  graphNodup : (st.graph.map (·.1)).Nodup
  bagsNodup : (st.bags.map (·.1)).Nodup
  restOk : ∀ w ∈ rest, if isFirst = true then w = w0 else
    (∃ id a, EdgeWork b w0 w id a) ∧ (st.graph.lookup (pn w)).isSome = true
  newOk : ∀ w ∈ new, (∃ id a, EdgeWork b w0 w id a) ∧ (st.graph.lookup (pn w)).isSome = true
  known : ∀ n, (st.graph.lookup n).isSome = true → ∃ w, IsWork b w0 w ∧ nm t w = n
  good : ∀ w, IsWork b w0 w → (st.graph.lookup (nm t w)).isSome = true → Good b only w
  edges : ∀ x y, GEdge st x y → ∃ w id a, EdgeWork b w0 w id a ∧ pn w = x ∧ nm t w = y
  expanded : ∀ w, IsWork b w0 w → (st.graph.lookup (nm t w)).isSome = true →
    ∀ e ∈ expandOneStep b w.child, e ∈ rest ∨ e ∈ new ∨
      ((st.graph.lookup (nm t e)).isSome = true ∧ GEdge st (pn e) (nm t e) ∧
        (only = false → BagDone t b st e))
  first : isFirst = true → rest = [] ∨ (rest = [w0] ∧ st.graph = [])
  start : (isFirst = true ∧ rest = [w0]) ∨ ((st.graph.lookup (nm t w0)).isSome = true ∧
    (only = false → BagDone t b st w0))
  schemas : only = false → ∀ w, IsWork b w0 w →
    (st.graph.lookup (nm t w)).isSome = true → st.schemas.lookup (nm t w) = some w.child
  bagsKnown : ∀ k bag, st.bags.lookup k = some bag → ∃ w, IsWork b w0 w ∧ k = (pn w, nm t w)
  bagsSound : ∀ k bag, st.bags.lookup k = some bag → ∀ x ∈ bag,
    ∃ w, IsWork b w0 w ∧ k = (pn w, nm t w) ∧ x ∈ factsOf b w
  onlyBags : only = true → st.bags = []

/-- The number of schemas that have not been found. -/
def unfound (b : Store) (st : Artifacts) : Nat :=
  (b.filter fun e => (st.graph.lookup (encodeId e.1)).isNone).length

theorem filter_length_le {α : Type} (l : List α) (p q : α → Bool) (h : ∀ x ∈ l, p x = true → q x = true) :
    (l.filter p).length ≤ (l.filter q).length := by
  induction l with
  | nil => simp
  | cons x l ih =>
    have ih' := ih (fun y hy => h y (by simp [hy]))
    rw [List.filter_cons, List.filter_cons]
    by_cases hp : p x = true
    · rw [if_pos hp, if_pos (h x (by simp) hp)]; simp only [List.length_cons]; omega
    · rw [if_neg hp]
      split
      · simp only [List.length_cons]; omega
      · exact ih'

theorem filter_length_lt {α : Type} (l : List α) (p q : α → Bool) (h : ∀ x ∈ l, p x = true → q x = true)
    {y : α} (hy : y ∈ l) (h1 : p y = false) (h2 : q y = true) :
    (l.filter p).length < (l.filter q).length := by
  induction l with
  | nil => simp at hy
  | cons x l ih =>
    have hle := filter_length_le l p q (fun y hy => h y (by simp [hy]))
    rw [List.filter_cons, List.filter_cons]
    rcases List.mem_cons.1 hy with rfl | hy
    · rw [if_neg (by rw [h1]; simp), if_pos h2]; simp only [List.length_cons]; omega
    · have ih' := ih (fun y hy => h y (by simp [hy])) hy
      by_cases hp : p x = true
      · rw [if_pos hp, if_pos (h x (by simp) hp)]; simp only [List.length_cons]; omega
      · rw [if_neg hp]
        split
        · simp only [List.length_cons]; omega
        · exact ih'

/-- What `processOne` does with an entry that is good. -/
structure Made (t : Text) (b : Store) (only isFirst : Bool) (w : Work) (st st' : Artifacts)
    (new new' : List Work) : Prop where
  keys : ∀ n, (st'.graph.lookup n).isSome = true ↔
    (st.graph.lookup n).isSome = true ∨ n = nm t w
  nodup : (st'.graph.map (·.1)).Nodup
  edges : ∀ x y, GEdge st' x y ↔ GEdge st x y ∨ (isFirst = false ∧ x = pn w ∧ y = nm t w)
  bagsNodup : (st'.bags.map (·.1)).Nodup
  bagsOther : ∀ k, (only = true ∨ k ≠ (pn w, nm t w)) → st'.bags.lookup k = st.bags.lookup k
  bagsThis : only = false → ∃ bag, st'.bags.lookup (pn w, nm t w) = some bag ∧
    ∀ x, x ∈ bag ↔ x ∈ factsOf b w ∨ ∃ old, st.bags.lookup (pn w, nm t w) = some old ∧ x ∈ old
  newSeen : (st.graph.lookup (nm t w)).isSome = true → new' = new ∧ st'.schemas = st.schemas
  newUnseen : (st.graph.lookup (nm t w)).isSome = false → new' = new ++ expandOneStep b w.child ∧
    (only = false → st'.schemas = dictSet st.schemas (nm t w) w.child)
  onlyBags : only = true → st'.bags = st.bags

theorem addEdge_ok {g : List (Name × List Name)} {x y : Name} (h : (g.lookup x).isSome = true) :
    ∃ g', addEdge g x y = .ok g' ∧ (∀ n, (g'.lookup n).isSome = true ↔ (g.lookup n).isSome = true) ∧
      ((g.map (·.1)).Nodup → (g'.map (·.1)).Nodup) ∧
      ∀ u v, Edge ⟨g', false⟩ u v ↔ Edge ⟨g, false⟩ u v ∨ (u = x ∧ v = y) := by
  unfold addEdge
  cases hl : g.lookup x with
  | none => rw [hl] at h; cases h
  | some s =>
    refine ⟨_, rfl, ?_, set_keys_nodup _ _ _, ?_⟩
    · intro n
      rw [lookup_set]
      split
      · rename_i hn; subst hn; simp [hl]
      · rfl
    · intro u v
      unfold Edge
      simp only [lookup_set]
      by_cases hu : u = x
      · subst hu
        simp only [if_true, Option.some.injEq, hl, true_and]
        constructor
        · rintro ⟨ys, rfl, hv⟩
          rcases (mem_setAdd _ _ _).1 hv with hv | rfl
          · exact .inl ⟨s, rfl, hv⟩
          · exact .inr rfl
        · rintro (⟨ys, rfl, hv⟩ | rfl)
          · exact ⟨_, rfl, (mem_setAdd _ _ _).2 (.inl hv)⟩
          · exact ⟨_, rfl, (mem_setAdd _ _ _).2 (.inr rfl)⟩
      · simp only [hu, if_false, false_and, or_false]

theorem edge_setNew {g : List (Name × List Name)} {x : Name} (h : (g.lookup x).isSome = false)
    (u v : Name) : Edge ⟨dictSet g x [], false⟩ u v ↔ Edge ⟨g, false⟩ u v := by
  unfold Edge
  simp only [lookup_set]
  by_cases hu : u = x
  · subst hu
    have : g.lookup u = .none := by
      cases hl : g.lookup u with
      | none => rfl
      | some s => rw [hl] at h; cases h
    simp [this]
  · simp only [hu, if_false]

theorem addBag_ok (hb : AttrsOnce b) (hw0 : Start b w0 false) {w : Work} (hw : IsWork b w0 w)
    (hm : metadataAllowed b w.child = true) (x y : Name) (bags : List ((Name × Name) × Bag)) :
    ∃ bags', addBag b w x y bags = .ok bags' ∧
      ((bags.map (·.1)).Nodup → (bags'.map (·.1)).Nodup) ∧
      (∀ k, k ≠ (x, y) → bags'.lookup k = bags.lookup k) ∧
      ∃ bag, bags'.lookup (x, y) = some bag ∧
        ∀ e, e ∈ bag ↔ e ∈ factsOf b w ∨ ∃ old, bags.lookup (x, y) = some old ∧ e ∈ old := by
  unfold addBag
  rw [getBag_ok hb hw0 hw hm]
  refine ⟨_, rfl, set_keys_nodup _ _ _, fun k hk => lookup_set_ne _ _ _ hk, _, lookup_set_eq _ _ _, ?_⟩
  intro e
  cases hl : bags.lookup (x, y) with
  | none => simp
  | some old =>
    simp only [mem_bagsUpdated, List.mem_cons, List.not_mem_nil, or_false, exists_eq_or_imp,
      exists_eq_left, Option.some.injEq, exists_eq_left']

theorem processOne_ok (hb : AttrsOnce b) (hw0 : Start b w0 only) {isFirst : Bool} {w : Work}
    (hw : IsWork b w0 w) (hg : Good b only w) (st : Artifacts) (new : List Work)
    (hpar : isFirst = false → (st.graph.lookup (pn w)).isSome = true)
    (hn : (st.graph.map (·.1)).Nodup) (hbn : (st.bags.map (·.1)).Nodup) :
    ∃ st' new', processOne t b isFirst only (st, new) w = .ok (st', new') ∧
      Made t b only isFirst w st st' new new' := by
  have hwf := WellFormed_of hw0 hw
  obtain ⟨g, hgr, hgk, hgn, hge⟩ : ∃ g, (if isFirst then .ok st.graph else
      addEdge st.graph (pn w) (nm t w) : Except Err _) = .ok g ∧
      (∀ n, (g.lookup n).isSome = true ↔ (st.graph.lookup n).isSome = true) ∧
      ((st.graph.map (·.1)).Nodup → (g.map (·.1)).Nodup) ∧
      ∀ u v, Edge ⟨g, false⟩ u v ↔
        GEdge st u v ∨ (isFirst = false ∧ u = pn w ∧ v = nm t w) := by
    cases isFirst with
    | true => exact ⟨st.graph, rfl, fun _ => Iff.rfl, id, fun u v => by simp⟩
    | false =>
      obtain ⟨g, h1, h2, h3, h4⟩ := addEdge_ok (y := nm t w) (hpar rfl)
      exact ⟨g, by simpa using h1, h2, h3, fun u v => by rw [h4]; simp⟩
  obtain ⟨bags, hbr, hbk, hbo, hbt⟩ : ∃ bags, (if only then .ok st.bags else
      addBag b w (pn w) (nm t w) st.bags : Except Err _) = .ok bags ∧
      ((st.bags.map (·.1)).Nodup → (bags.map (·.1)).Nodup) ∧
      (∀ k, (only = true ∨ k ≠ (pn w, nm t w)) → bags.lookup k = st.bags.lookup k) ∧
      (only = false → ∃ bag, bags.lookup (pn w, nm t w) = some bag ∧ ∀ x, x ∈ bag ↔
        x ∈ factsOf b w ∨ ∃ old, st.bags.lookup (pn w, nm t w) = some old ∧ x ∈ old) := by
    cases only with
    | true => exact ⟨st.bags, rfl, id, fun k _ => rfl, fun h => by cases h⟩
    | false =>
      obtain ⟨bags, h1, h2, h3, h4⟩ := addBag_ok hb hw0 hw (hg.2 rfl) (pn w) (nm t w) st.bags
      refine ⟨bags, by simpa using h1, h2, ?_, fun _ => h4⟩
      rintro k (h | h)
      · cases h
      · exact h3 k h
  have hob : only = true → bags = st.bags := by
    intro h; subst h; simp only [if_true] at hbr; cases hbr; rfl
  unfold processOne
  simp only [getName_ok hwf hg.1, parentNameOf_ok hwf]
  rw [hgr]
  simp only
  rw [hbr]
  simp only
  by_cases hs : (g.lookup (nm t w)).isSome = true
  · rw [if_pos hs]
    have hs' := (hgk _).1 hs
    refine ⟨_, _, rfl, ?_⟩
    exact {
      keys := fun n => by
        rw [hgk]
        constructor
        · exact .inl
        · rintro (h | rfl)
          · exact h
          · exact hs'
      nodup := hgn hn
      edges := hge
      bagsNodup := hbk hbn
      bagsOther := hbo
      bagsThis := hbt
      newSeen := fun _ => ⟨rfl, rfl⟩
      newUnseen := fun h => by rw [hs'] at h; cases h
      onlyBags := hob }
  · rw [if_neg hs]
    have hs' : (g.lookup (nm t w)).isSome = false := Bool.eq_false_iff.2 hs
    refine ⟨_, _, rfl, ?_⟩
    exact {
      keys := fun n => by
        simp only [lookup_set]
        split
        · rename_i h; simp [h]
        · rename_i h; simp only [h, or_false]; exact hgk n
      nodup := set_keys_nodup _ _ _ (hgn hn)
      edges := fun x y => by rw [← hge]; exact edge_setNew hs' x y
      bagsNodup := hbk hbn
      bagsOther := hbo
      bagsThis := hbt
      newSeen := fun h => by rw [(hgk _).2 h] at hs'; cases hs'
      newUnseen := fun _ => ⟨rfl, fun h => by simp [h]⟩
      onlyBags := hob }

theorem processOne_error (hb : AttrsOnce b) (hw0 : Start b w0 only) {isFirst : Bool} {w : Work}
    (hw : IsWork b w0 w) (hg : ¬ Good b only w) (st : Artifacts) (new : List Work)
    (hpar : isFirst = false → (st.graph.lookup (pn w)).isSome = true) :
    processOne t b isFirst only (st, new) w = .error .valueError := by
  have hwf := WellFormed_of hw0 hw
  unfold processOne
  by_cases hp : (placeOf w).Ok
  · have ho : only = false := by
      cases only with
      | false => rfl
      | true => exact absurd ⟨hp, fun h => by cases h⟩ hg
    subst ho
    have hm : ¬ metadataAllowed b w.child = true := fun h => hg ⟨hp, fun _ => h⟩
    simp only [getName_ok hwf hp, parentNameOf_ok hwf, addBag,
      getBag_error hb hw0 hw hm]
    cases isFirst with
    | true => rfl
    | false =>
      obtain ⟨g, h1, _⟩ := addEdge_ok (y := nm t w) (hpar rfl)
      simp only [Bool.false_eq_true, if_false, h1]
  · simp only [getName_error hp]

/-- The next state satisfies the invariant. -/
theorem Inv.next (ht : TextLaws t) {isFirst : Bool} {w : Work} {st st' : Artifacts}
    {rest new new' : List Work} (h : Inv t b w0 only isFirst st (w :: rest) new)
    (hw : IsWork b w0 w) (hg : Good b only w) (m : Made t b only isFirst w st st' new new') :
    Inv t b w0 only isFirst st' rest new' := by
  have mono : ∀ n, (st.graph.lookup n).isSome = true → (st'.graph.lookup n).isSome = true :=
    fun n hn => (m.keys n).2 (.inl hn)
  have mbag : ∀ e, only = false → BagDone t b st e → BagDone t b st' e := by
    rintro e ho ⟨bag, h1, h2⟩
    by_cases he : (pn e, nm t e) = (pn w, nm t w)
    · obtain ⟨bag', h3, h4⟩ := m.bagsThis ho
      refine ⟨bag', by rw [he]; exact h3, fun x hx => (h4 x).2 (.inr ⟨bag, ?_, h2 x hx⟩)⟩
      rw [← he]; exact h1
    · exact ⟨bag, by rw [m.bagsOther _ (.inr he)]; exact h1, h2⟩
  have wbag : only = false → BagDone t b st' w := by
    intro ho
    obtain ⟨bag', h3, h4⟩ := m.bagsThis ho
    exact ⟨bag', h3, fun x hx => (h4 x).2 (.inl hx)⟩
  have medge : ∀ x y, GEdge st x y → GEdge st' x y := fun x y he => (m.edges x y).2 (.inl he)
  have wseen : (st'.graph.lookup (nm t w)).isSome = true := (m.keys _).2 (.inr rfl)
  have hnew : ∀ e ∈ new', e ∈ new ∨ ((st.graph.lookup (nm t w)).isSome = false ∧
      e ∈ expandOneStep b w.child) := by
    intro e he
    cases hs : (st.graph.lookup (nm t w)).isSome with
    | true => rw [(m.newSeen hs).1] at he; exact .inl he
    | false =>
      rw [(m.newUnseen hs).1] at he
      rcases List.mem_append.1 he with he | he
      · exact .inl he
      · exact .inr ⟨rfl, he⟩
  have hnew2 : ∀ e ∈ new, e ∈ new' := by
    intro e he
    cases hs : (st.graph.lookup (nm t w)).isSome with
    | true => rw [(m.newSeen hs).1]; exact he
    | false => rw [(m.newUnseen hs).1]; exact List.mem_append_left _ he
  have hwr := h.restOk w (by simp)
  have hreach : ∃ p, Reaches b w0.child p w.child := by
    rcases hw with rfl | ⟨id, a, he⟩
    · exact ⟨[], .nil⟩
    · obtain ⟨p, hp⟩ := he.reach
      exact ⟨_, hp.snoc he.step⟩
  exact {
    graphNodup := m.nodup
    bagsNodup := m.bagsNodup
    restOk := fun e he => by
      have := h.restOk e (by simp [he])
      by_cases hf : isFirst = true
      · rw [if_pos hf] at this ⊢; exact this
      · rw [if_neg hf] at this ⊢; exact ⟨this.1, mono _ this.2⟩
    newOk := fun e he => by
      rcases hnew e he with he | ⟨_, he⟩
      · exact ⟨(h.newOk e he).1, mono _ (h.newOk e he).2⟩
      · obtain ⟨a, h1, h2⟩ := (mem_expand w.child e).1 he
        obtain ⟨id, hid⟩ := h2.isStruct
        obtain ⟨p, hp⟩ := hreach
        rw [hid] at h1 h2 hp
        have ep : e.parent = some (.struct id) := by rw [h1]
        have ea : e.action = some a := by rw [h1]
        refine ⟨⟨id, a, ep, ea, h2, p, hp⟩, ?_⟩
        have : pn e = nm t w := by
          simp only [pn, ep, nm, placeOf, hid, nodeName]
        rw [this]; exact wseen
    known := fun n hn => by
      rcases (m.keys n).1 hn with hn | rfl
      · exact h.known n hn
      · exact ⟨w, hw, rfl⟩
    good := fun e he hn => by
      rcases (m.keys _).1 hn with hn | hn
      · exact h.good e he hn
      · have hpl := nodeName_inj ht hn
        refine ⟨by rw [hpl]; exact hg.1, fun ho => ?_⟩
        rw [nm_item ht hn]; exact hg.2 ho
    edges := fun x y he => by
      rcases (m.edges x y).1 he with he | ⟨hf, rfl, rfl⟩
      · exact h.edges x y he
      · rw [if_neg (by rw [hf]; simp)] at hwr
        obtain ⟨⟨id, a, hwe⟩, _⟩ := hwr
        exact ⟨w, id, a, hwe, rfl, rfl⟩
    expanded := fun u hu hn e he => by
      have old : isFirst = false → (e ∈ w :: rest ∨ e ∈ new ∨ ((st.graph.lookup (nm t e)).isSome = true ∧
          GEdge st (pn e) (nm t e) ∧ (only = false → BagDone t b st e))) →
          (e ∈ rest ∨ e ∈ new' ∨ ((st'.graph.lookup (nm t e)).isSome = true ∧
            GEdge st' (pn e) (nm t e) ∧ (only = false → BagDone t b st' e))) := by
        rintro hf (hc | hc | ⟨h1, h2, h3⟩)
        · rcases List.mem_cons.1 hc with rfl | hc
          · right; right
            exact ⟨wseen, (m.edges _ _).2 (.inr ⟨hf, rfl, rfl⟩), wbag⟩
          · exact .inl hc
        · exact .inr (.inl (hnew2 e hc))
        · exact .inr (.inr ⟨mono _ h1, medge _ _ h2, fun ho => mbag e ho (h3 ho)⟩)
      have hold : (st.graph.lookup (nm t u)).isSome = true → isFirst = false := by
        intro hs
        cases hf : isFirst with
        | false => rfl
        | true =>
          rcases h.first hf with h1 | ⟨_, h1⟩
          · cases h1
          · rw [h1] at hs; cases hs
      by_cases hs : (st.graph.lookup (nm t u)).isSome = true
      · exact old (hold hs) (h.expanded u hu hs e he)
      · rcases (m.keys _).1 hn with h1 | h1
        · exact absurd h1 hs
        · rw [h1] at hs
          rw [(m.newUnseen (Bool.eq_false_iff.2 hs)).1]
          rw [nm_item ht h1] at he
          exact .inr (.inl (List.mem_append_right _ he))
    first := fun hf => by
      rcases h.first hf with h1 | ⟨h1, _⟩
      · cases h1
      · simp only [List.cons.injEq] at h1; exact .inl h1.2
    start := by
      right
      by_cases hf : isFirst = true
      · rw [if_pos hf] at hwr; subst hwr
        exact ⟨wseen, wbag⟩
      · rcases h.start with ⟨h1, _⟩ | ⟨h1, h2⟩
        · exact absurd h1 hf
        · exact ⟨mono _ h1, fun ho => mbag _ ho (h2 ho)⟩
    schemas := fun ho e he hn => by
      cases hs : (st.graph.lookup (nm t w)).isSome with
      | true =>
        rw [(m.newSeen hs).2]
        rcases (m.keys _).1 hn with hn | hn
        · exact h.schemas ho e he hn
        · rw [nm_item ht hn, hn]
          exact h.schemas ho w hw hs
      | false =>
        rw [(m.newUnseen hs).2 ho, lookup_set]
        rcases (m.keys _).1 hn with hn | hn
        · rw [if_neg]
          · exact h.schemas ho e he hn
          · intro heq; rw [heq, hs] at hn; cases hn
        · rw [if_pos hn, nm_item ht hn]
    bagsKnown := fun k bag hk => by
      by_cases hc : only = true ∨ k ≠ (pn w, nm t w)
      · rw [m.bagsOther k hc] at hk; exact h.bagsKnown k bag hk
      · simp only [not_or, Classical.not_not] at hc
        exact ⟨w, hw, hc.2⟩
    bagsSound := fun k bag hk x hx => by
      by_cases hc : only = true ∨ k ≠ (pn w, nm t w)
      · rw [m.bagsOther k hc] at hk; exact h.bagsSound k bag hk x hx
      · simp only [not_or, Classical.not_not] at hc
        obtain ⟨bag', h3, h4⟩ := m.bagsThis (by simpa using hc.1)
        rw [hc.2, h3] at hk
        cases hk
        rcases (h4 x).1 hx with hx | ⟨old, h5, h6⟩
        · exact ⟨w, hw, hc.2, hx⟩
        · rw [← hc.2] at h5; exact h.bagsSound k old h5 x h6
    onlyBags := fun ho => by rw [m.onlyBags ho]; exact h.onlyBags ho }

/-! ### Levels -/

theorem expand_known {i : Item} (h : expandOneStep b i ≠ []) : ∃ id e, i = .struct id ∧ e ∈ b ∧ e.1 = id := by
  cases i with
  | dtype d => exact absurd rfl h
  | struct id =>
    cases hl : b.lookup id with
    | none =>
      refine absurd ?_ h
      simp [expandOneStep, kindOf, Store.get, hl]
    | some s => exact ⟨id, _, rfl, lookup_mem hl, rfl⟩

theorem unfound_made {isFirst : Bool} {w : Work} {st st' : Artifacts} {new new' : List Work}
    (m : Made t b only isFirst w st st' new new') :
    unfound b st' ≤ unfound b st ∧ (new' ≠ new → unfound b st' < unfound b st) := by
  have hle : ∀ e ∈ b, (st'.graph.lookup (encodeId e.1)).isNone = true →
      (st.graph.lookup (encodeId e.1)).isNone = true := by
    intro e _ h
    rw [Option.isNone_iff_eq_none] at h ⊢
    cases hl : st.graph.lookup (encodeId e.1) with
    | none => rfl
    | some s =>
      have := (m.keys (encodeId e.1)).2 (.inl (by rw [hl]; rfl))
      rw [h] at this; cases this
  refine ⟨filter_length_le _ _ _ hle, fun hne => ?_⟩
  cases hs : (st.graph.lookup (nm t w)).isSome with
  | true => exact absurd (m.newSeen hs).1 hne
  | false =>
    have hx : expandOneStep b w.child ≠ [] := by
      intro h
      apply hne
      rw [(m.newUnseen hs).1, h, List.append_nil]
    obtain ⟨id, e, hid, he, rfl⟩ := expand_known hx
    have hnm : nm t w = encodeId e.1 := by simp only [nm, placeOf, hid, nodeName]
    refine filter_length_lt _ _ _ hle he ?_ ?_
    · have := (m.keys (encodeId e.1)).2 (.inr hnm.symm)
      cases hl : st'.graph.lookup (encodeId e.1) with
      | none => rw [hl] at this; cases this
      | some s => rfl
    · rw [hnm] at hs
      cases hl : st.graph.lookup (encodeId e.1) with
      | none => rfl
      | some s => rw [hl] at hs; cases hs

theorem rest_isWork {isFirst : Bool} {w : Work} {st : Artifacts} {rest new : List Work}
    (h : Inv t b w0 only isFirst st (w :: rest) new) : IsWork b w0 w ∧
      (isFirst = false → (st.graph.lookup (pn w)).isSome = true) := by
  have := h.restOk w (by simp)
  by_cases hf : isFirst = true
  · rw [if_pos hf] at this
    exact ⟨.inl this, fun h => by rw [hf] at h; cases h⟩
  · rw [if_neg hf] at this
    exact ⟨.inr this.1, fun _ => this.2⟩

theorem processLevel_spec (ht : TextLaws t) (hb : AttrsOnce b) (hw0 : Start b w0 only) {isFirst : Bool}
    (level : List Work) (st : Artifacts) (new : List Work)
    (h : Inv t b w0 only isFirst st level new) :
    (∃ st' new', processLevel t b isFirst only level (st, new) = .ok (st', new') ∧
      Inv t b w0 only isFirst st' [] new' ∧ unfound b st' ≤ unfound b st ∧
      (new' ≠ new → unfound b st' < unfound b st)) ∨
    (processLevel t b isFirst only level (st, new) = .error .valueError ∧
      ∃ w, IsWork b w0 w ∧ ¬ Good b only w) := by
  induction level generalizing st new with
  | nil => exact .inl ⟨st, new, rfl, h, Nat.le_refl _, fun h => absurd rfl h⟩
  | cons w ws ih =>
    obtain ⟨hw, hpar⟩ := rest_isWork h
    by_cases hg : Good b only w
    · obtain ⟨st1, new1, e1, m⟩ := processOne_ok hb hw0 hw hg st new hpar h.graphNodup h.bagsNodup (t := t)
      have u1 := unfound_made m
      simp only [processLevel, e1]
      rcases ih st1 new1 (h.next ht hw hg m) with ⟨st2, new2, e2, i2, u2, u3⟩ | he
      · refine .inl ⟨st2, new2, e2, i2, by omega, fun hne => ?_⟩
        by_cases h1 : new1 = new
        · have := u3 (by rw [h1]; exact hne)
          omega
        · have := u1.2 h1
          omega
      · exact .inr he
    · simp only [processLevel, processOne_error hb hw0 hw hg st new hpar]
      exact .inr ⟨trivial, w, hw, hg⟩

theorem Inv.nextLevel {isFirst : Bool} {st : Artifacts} {new : List Work}
    (h : Inv t b w0 only isFirst st [] new) : Inv t b w0 only false st new [] := by
  exact { h with
    restOk := fun w hw => by rw [if_neg (by simp)]; exact h.newOk w hw
    newOk := fun w hw => by simp at hw
    expanded := fun u hu hn e he => by
      rcases h.expanded u hu hn e he with h1 | h1 | h1
      · simp at h1
      · exact .inl h1
      · exact .inr (.inr h1)
    first := fun hf => by cases hf
    start := by
      rcases h.start with ⟨_, h1⟩ | h1
      · cases h1
      · exact .inr h1 }

theorem analyzeLoop_spec (ht : TextLaws t) (hb : AttrsOnce b) (hw0 : Start b w0 only) (n : Nat)
    (isFirst : Bool) (level : List Work) (st : Artifacts)
    (h : Inv t b w0 only isFirst st level []) (hn : level = [] ∨ unfound b st < n) :
    (∃ st', analyzeLoop t b only n isFirst level st = .ok (some st') ∧
      ∃ f, Inv t b w0 only f st' [] []) ∨
    (analyzeLoop t b only n isFirst level st = .error .valueError ∧
      ∃ w, IsWork b w0 w ∧ ¬ Good b only w) := by
  induction n generalizing isFirst level st with
  | zero =>
    cases level with
    | nil => exact .inl ⟨st, rfl, isFirst, h⟩
    | cons w ws =>
      rcases hn with hn | hn
      · cases hn
      · omega
  | succ n ih =>
    cases level with
    | nil => exact .inl ⟨st, rfl, isFirst, h⟩
    | cons w ws =>
      have hn' : unfound b st < n + 1 := by
        rcases hn with hn | hn
        · cases hn
        · exact hn
      rcases processLevel_spec ht hb hw0 (w :: ws) st [] h with ⟨st1, new1, e1, i1, _, u1⟩ | ⟨e1, hx⟩
      · simp only [analyzeLoop, e1]
        refine ih false new1 st1 i1.nextLevel ?_
        by_cases hnil : new1 = []
        · exact .inl hnil
        · right
          have := u1 hnil
          omega
      · simp only [analyzeLoop, e1]
        exact .inr ⟨trivial, hx⟩

theorem inv_start : Inv t b w0 only true {} [w0] [] where
  graphNodup := by simp
  bagsNodup := by simp
  restOk := fun w hw => by rw [if_pos rfl]; simpa using hw
  newOk := fun w hw => by simp at hw
  known := fun n hn => by cases hn
  good := fun w _ hn => by cases hn
  edges := fun x y ⟨_, h, _⟩ => by cases h
  expanded := fun w _ hn => by cases hn
  first := fun _ => .inr ⟨rfl, rfl⟩
  start := .inl ⟨rfl, rfl⟩
  schemas := fun _ w _ hn => by cases hn
  bagsKnown := fun k bag h => by cases h
  bagsSound := fun k bag h => by cases h
  onlyBags := fun _ => rfl

/-- What `_analyze_schema` computes. -/
structure Analyzed (t : Text) (b : Store) (w0 : Work) (only : Bool) (st : Artifacts) : Prop where
  graphNodup : (st.graph.map (·.1)).Nodup
  keys : ∀ n, (st.graph.lookup n).isSome = true ↔ ∃ w, IsWork b w0 w ∧ nm t w = n
  good : ∀ w, IsWork b w0 w → Good b only w
  edges : ∀ x y, GEdge st x y ↔ ∃ w id a, EdgeWork b w0 w id a ∧ pn w = x ∧ nm t w = y
  schemas : only = false → ∀ w, IsWork b w0 w → st.schemas.lookup (nm t w) = some w.child
  bagsNodup : (st.bags.map (·.1)).Nodup
  bagsKnown : ∀ k bag, st.bags.lookup k = some bag → ∃ w, IsWork b w0 w ∧ k = (pn w, nm t w)
  bagsSound : ∀ k bag, st.bags.lookup k = some bag → ∀ x ∈ bag,
    ∃ w, IsWork b w0 w ∧ k = (pn w, nm t w) ∧ x ∈ factsOf b w
  bags : only = false → ∀ w, IsWork b w0 w → BagDone t b st w

theorem Inv.analyzed {f : Bool} {st : Artifacts} (h : Inv t b w0 only f st [] []) :
    Analyzed t b w0 only st := by
  have hstart : (st.graph.lookup (nm t w0)).isSome = true ∧ (only = false → BagDone t b st w0) := by
    rcases h.start with ⟨_, h1⟩ | h1
    · cases h1
    · exact h1
  have hex : ∀ w, IsWork b w0 w → (st.graph.lookup (nm t w)).isSome = true →
      ∀ e ∈ expandOneStep b w.child, (st.graph.lookup (nm t e)).isSome = true ∧
        GEdge st (pn e) (nm t e) ∧ (only = false → BagDone t b st e) := by
    intro w hw hn e he
    rcases h.expanded w hw hn e he with h1 | h1 | h1
    · simp at h1
    · simp at h1
    · exact h1
  have hreach : ∀ i j p, Reaches b i p j → ∀ w, IsWork b w0 w → w.child = i →
      (st.graph.lookup (nm t w)).isSome = true →
      ∃ w', IsWork b w0 w' ∧ w'.child = j ∧ (st.graph.lookup (nm t w')).isSome = true := by
    intro i j p hr
    induction hr with
    | nil => intro w hw hc hn; exact ⟨w, hw, hc, hn⟩
    | @cons s a s' p s'' hs _ ih =>
      intro w hw hc hn
      obtain ⟨id, rfl⟩ := hs.isStruct
      have he : (⟨some (.struct id), some a, s'⟩ : Work) ∈ expandOneStep b w.child := by
        rw [hc]; exact (mem_expand _ _).2 ⟨a, rfl, hs⟩
      refine ih ⟨some (.struct id), some a, s'⟩ ?_ rfl (hex w hw hn _ he).1
      refine .inr ⟨id, a, rfl, rfl, hs, ?_⟩
      rcases hw with rfl | ⟨id', a', hw⟩
      · exact ⟨[], by rw [hc]; exact .nil⟩
      · obtain ⟨q, hq⟩ := hw.reach
        exact ⟨q ++ [a'], by rw [← hc]; exact hq.snoc hw.step⟩
  have hedge : ∀ w id a, EdgeWork b w0 w id a → (st.graph.lookup (nm t w)).isSome = true ∧
        GEdge st (pn w) (nm t w) ∧ (only = false → BagDone t b st w) := by
    intro w id a hw
    obtain ⟨p, hp⟩ := hw.reach
    obtain ⟨u, hu, hc, hn⟩ := hreach _ _ p hp w0 (.inl rfl) rfl hstart.1
    refine hex u hu hn w ?_
    rw [hc]
    refine (mem_expand _ _).2 ⟨a, ?_, hw.step⟩
    rw [← hw.parent, ← hw.action]
  have hall : ∀ w, IsWork b w0 w → (st.graph.lookup (nm t w)).isSome = true := by
    rintro w (rfl | ⟨id, a, hw⟩)
    · exact hstart.1
    · exact (hedge w id a hw).1
  exact {
    graphNodup := h.graphNodup
    keys := fun n => ⟨h.known n, by rintro ⟨w, hw, rfl⟩; exact hall w hw⟩
    good := fun w hw => h.good w hw (hall w hw)
    edges := fun x y => ⟨h.edges x y, by
      rintro ⟨w, id, a, hw, rfl, rfl⟩; exact (hedge w id a hw).2.1⟩
    schemas := fun ho w hw => h.schemas ho w hw (hall w hw)
    bagsNodup := h.bagsNodup
    bagsKnown := h.bagsKnown
    bagsSound := h.bagsSound
    bags := fun ho w hw => by
      rcases hw with rfl | ⟨id, a, hw⟩
      · exact hstart.2 ho
      · exact (hedge w id a hw).2.2 ho }

/-- `_analyze_schema` ends, with the artifacts if all is good and `ValueError` otherwise. -/
theorem analyzeSchema_spec (ht : TextLaws t) (hb : AttrsOnce b) (hw0 : Start b w0 only) :
    ((∀ w, IsWork b w0 w → Good b only w) ∧
      ∃ st, analyzeSchema t b (levelBound b) w0 only = .ok (some st) ∧ Analyzed t b w0 only st) ∨
    (analyzeSchema t b (levelBound b) w0 only = .error .valueError ∧
      ∃ w, IsWork b w0 w ∧ ¬ Good b only w) := by
  have hlt : unfound b {} < levelBound b := by
    have : unfound b {} ≤ b.length := List.length_filter_le _ _
    unfold levelBound; omega
  rcases analyzeLoop_spec ht hb hw0 (levelBound b) true [w0] {} inv_start (.inr hlt) with
    ⟨st, e, f, hi⟩ | he
  · exact .inl ⟨hi.analyzed.good, st, e, hi.analyzed⟩
  · exact .inr he

end

end Verif.SchemaHelper
