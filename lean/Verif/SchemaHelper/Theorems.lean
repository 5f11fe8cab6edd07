import Verif.SchemaHelper.Helpers
import Verif.Path.Theorems

/-! C17, C18, C50, C51: schema helper.

`AttrsOnce b` says that an attribute of a schema has one value; `TextLaws t` are the assumptions
about Python's `str.isidentifier` and base64 of `Verif/Path/Spec.lean`. -/

namespace Verif.SchemaHelper

open Verif.Path

/-! ### C17: schema nodes -/

section
open scoped Classical
variable {t : Text} {b : Store} {s : Item} {h : Helper}

/-- The analysis of a schema always ends, and it is accepted exactly if no subschema is `OBJECT`
or `SCHEMA` and all metadata is primitive. -/
theorem C17_construct (ht : TextLaws t) (hb : AttrsOnce b) (s : Item) :
    if NoOpaque b s ∧ PlainMetadata b s then ∃ h, Helper.make t b s = .ok (some h)
    else Helper.make t b s = .error .valueError := by
  rcases make_spec ht hb s with ⟨h1, h2, h, e, _⟩ | ⟨h1, e⟩
  · rw [if_pos ⟨h1, h2⟩]; exact ⟨h, e⟩
  · rw [if_neg h1]; exact e

/-- A path has a name exactly if it leads to a subschema; there is no other error. -/
theorem C17_path (ht : TextLaws t) (hb : AttrsOnce b) (hm : Helper.make t b s = .ok (some h))
    (p : List Action) :
    if ∃ i, Reaches b s p i then (∃ n, h.nameForPath p = .ok n) ∧ h.exists_ p = .ok true
    else h.nameForPath p = .error .valueError ∧ h.exists_ p = .ok false ∧
      h.schemaAtPath p = .error .valueError := by
  have B := make_built ht hb hm
  by_cases hp : ∃ i, Reaches b s p i
  · rw [if_pos hp]
    obtain ⟨i, hi⟩ := hp
    exact ⟨B.reaches_name hi, B.exists_true ⟨i, hi⟩⟩
  · rw [if_neg hp]
    refine ⟨B.name_error p hp, B.exists_false hp, ?_⟩
    simp only [Helper.schemaAtPath, B.name_error p hp, bind, Except.bind]

/-- The subschema at a path, and at the name of a path, is the one the path leads to. -/
theorem C17_subschema (ht : TextLaws t) (hb : AttrsOnce b) (hm : Helper.make t b s = .ok (some h))
    {p : List Action} {i : Item} (hp : Reaches b s p i) {n : Name} (hn : h.nameForPath p = .ok n) :
    h.subschemaAt n = .ok i ∧ h.schemaAtPath p = .ok i := by
  have B := make_built ht hb hm
  have e : h.subschemaAt n = .ok i := by
    simp only [Helper.subschemaAt, B.check_ok ⟨p, hn⟩, B.schemas_ok hn hp, bind, Except.bind]
  refine ⟨e, ?_⟩
  simp only [Helper.schemaAtPath, hn, bind, Except.bind]
  exact e

/-- The node names are the names of the paths. -/
theorem C17_all_names (ht : TextLaws t) (hb : AttrsOnce b) (hm : Helper.make t b s = .ok (some h))
    (n : Name) :
    (n ∈ h.allNames ↔ ∃ p, h.nameForPath p = .ok n) ∧
    (h.isValid n = true ↔ ∃ p, h.nameForPath p = .ok n) ∧ h.allNames.Nodup := by
  have B := make_built ht hb hm
  refine ⟨?_, B.valid_iff n, B.done.graphNodup⟩
  rw [← B.valid_iff]
  exact (lookup_isSome_iff h.graph n).symm

theorem leaf_iff (B : Built t b s h) {p : List Action} {n : Name} (hp : h.nameForPath p = .ok n) :
    h.isLeaf n = .ok (decide (¬ ∃ a i, Reaches b s (p ++ [a]) i)) ∧
    (n ∈ h.leafNames ↔ ¬ ∃ a i, Reaches b s (p ++ [a]) i) ∧
    (n ∈ h.nonLeafNames ↔ ∃ a i, Reaches b s (p ++ [a]) i) := by
  obtain ⟨ys, h1, h2⟩ := B.children n ⟨p, hp⟩
  have hl : h.graph.lookup n = some ys := by
    unfold Relation.get at h1
    cases hg : h.graph.lookup n with
    | none => simp [hg] at h1
    | some zs => simp [hg] at h1; rw [h1]
  have hne : (∃ y, y ∈ ys) ↔ ∃ a i, Reaches b s (p ++ [a]) i := by
    constructor
    · rintro ⟨y, hy⟩
      obtain ⟨q, a, g1, g2⟩ := (B.gedge_iff n y).1 ((h2 y).1 hy)
      obtain ⟨i, hi⟩ := B.name_reaches (B.glue hp g1 g2)
      exact ⟨a, i, hi⟩
    · rintro ⟨a, i, hi⟩
      obtain ⟨y, hy⟩ := B.reaches_name hi
      exact ⟨y, (h2 y).2 ((B.gedge_iff n y).2 ⟨p, a, hp, hy⟩)⟩
  have hnil : ys = [] ↔ ¬ ∃ a i, Reaches b s (p ++ [a]) i := by
    rw [← hne, List.eq_nil_iff_forall_not_mem]
    simp
  have hmem : ∀ c : List Name → Bool, n ∈ (h.graph.filter fun e => c e.2).map (·.1) ↔ c ys = true := by
    intro c
    rw [List.mem_map]
    constructor
    · rintro ⟨⟨x, zs⟩, hm, rfl⟩
      rw [List.mem_filter] at hm
      have := mem_lookup B.done.graphNodup hm.1
      simp only at this
      rw [hl] at this
      rw [Option.some.inj this]
      exact hm.2
    · intro hc
      exact ⟨(n, ys), List.mem_filter.2 ⟨lookup_mem hl, hc⟩, rfl⟩
  refine ⟨?_, ?_, ?_⟩
  · simp only [Helper.isLeaf, B.check_ok ⟨p, hp⟩, h1, bind, Except.bind, pure, Except.pure,
      Except.ok.injEq]
    rw [Bool.eq_iff_iff, beq_iff_eq, decide_eq_true_iff, ← hnil, List.length_eq_zero_iff]
  · rw [← hnil]
    unfold Helper.leafNames
    rw [hmem List.isEmpty, List.isEmpty_iff]
  · have : (∃ a i, Reaches b s (p ++ [a]) i) ↔ ys ≠ [] := by rw [Ne, hnil]; simp
    rw [this]
    unfold Helper.nonLeafNames
    rw [hmem fun l => !l.isEmpty]
    simp [List.isEmpty_iff]

/-- The leaves are the names of the paths that cannot be continued, the others the non-leaves. -/
theorem C17_leaves (ht : TextLaws t) (hb : AttrsOnce b) (hm : Helper.make t b s = .ok (some h)) :
    (∀ n, n ∈ h.leafNames ↔ ∃ p, h.nameForPath p = .ok n ∧ ¬ ∃ a i, Reaches b s (p ++ [a]) i) ∧
    (∀ n, n ∈ h.nonLeafNames ↔ ∃ p, h.nameForPath p = .ok n ∧ ∃ a i, Reaches b s (p ++ [a]) i) ∧
    (∀ p n, h.nameForPath p = .ok n →
      h.isLeaf n = .ok (decide (¬ ∃ a i, Reaches b s (p ++ [a]) i)) ∧
      h.isNonLeaf n = .ok (decide (∃ a i, Reaches b s (p ++ [a]) i))) := by
  have B := make_built ht hb hm
  have hin : ∀ (c : List Name → Bool) n, n ∈ (h.graph.filter fun e => c e.2).map (·.1) →
      ∃ p, h.nameForPath p = .ok n := by
    intro c n hn
    rw [← B.valid_iff]
    refine (lookup_isSome_iff h.graph n).2 ?_
    obtain ⟨e, h1, rfl⟩ := List.mem_map.1 hn
    exact List.mem_map_of_mem (List.mem_filter.1 h1).1
  refine ⟨?_, ?_, ?_⟩
  · intro n
    constructor
    · intro hn
      obtain ⟨p, hp⟩ := hin List.isEmpty n hn
      exact ⟨p, hp, (leaf_iff B hp).2.1.1 hn⟩
    · rintro ⟨p, hp, hl⟩
      exact (leaf_iff B hp).2.1.2 hl
  · intro n
    constructor
    · intro hn
      obtain ⟨p, hp⟩ := hin (fun l => !l.isEmpty) n hn
      exact ⟨p, hp, (leaf_iff B hp).2.2.1 hn⟩
    · rintro ⟨p, hp, hl⟩
      exact (leaf_iff B hp).2.2.2 hl
  · intro p n hp
    refine ⟨(leaf_iff B hp).1, ?_⟩
    simp only [Helper.isNonLeaf, (leaf_iff B hp).1, bind, Except.bind, pure, Except.pure,
      decide_not, Bool.not_not]

/-- The children of the place at a path are the places one action further. -/
theorem C17_children (ht : TextLaws t) (hb : AttrsOnce b) (hm : Helper.make t b s = .ok (some h))
    {p : List Action} {n : Name} (hp : h.nameForPath p = .ok n) :
    ∃ ns, h.childNames n = .ok ns ∧ ∀ m, m ∈ ns ↔ ∃ a, h.nameForPath (p ++ [a]) = .ok m := by
  have B := make_built ht hb hm
  obtain ⟨ys, h1, h2⟩ := B.children n ⟨p, hp⟩
  refine ⟨ys, ?_, ?_⟩
  · simp only [Helper.childNames, B.check_ok ⟨p, hp⟩, bind, Except.bind]
    exact h1
  · intro m
    rw [h2, B.gedge_iff]
    constructor
    · rintro ⟨q, a, g1, g2⟩; exact ⟨a, B.glue hp g1 g2⟩
    · rintro ⟨a, g⟩; exact ⟨p, a, hp, g⟩

/-- The parents of a place are the places one action before it on any path. -/
theorem C17_parents (ht : TextLaws t) (hb : AttrsOnce b) (hm : Helper.make t b s = .ok (some h))
    {p : List Action} {n : Name} (hp : h.nameForPath p = .ok n) :
    ∃ ns, h.parentNames n = .ok ns ∧
      ∀ m, m ∈ ns ↔ ∃ q a, h.nameForPath q = .ok m ∧ h.nameForPath (q ++ [a]) = .ok n := by
  have B := make_built ht hb hm
  obtain ⟨ys, h1, h2⟩ := get_total (r := h.parents) (x := n) (.inl (by rw [B.parents]; rfl))
  refine ⟨ys, ?_, ?_⟩
  · simp only [Helper.parentNames, B.check_ok ⟨p, hp⟩, bind, Except.bind]
    exact h1
  · intro m
    rw [h2, B.pedge_iff, B.gedge_iff]

/-- The descendants are the places at continuations of paths to the given places. The loop ends
whatever order `set.pop` takes the names in, also if the schema is recursive. -/
theorem C17_descendants (ht : TextLaws t) (hb : AttrsOnce b)
    (hm : Helper.make t b s = .ok (some h)) (pick : List Name → Nat) {ns : List Name}
    (hn : ∀ n ∈ ns, ∃ p, h.nameForPath p = .ok n) :
    ∃ R, h.descendants pick ns = .ok (some R) ∧ R.Nodup ∧ ∀ m, m ∈ R ↔
      ∃ n ∈ ns, ∃ p r, r ≠ [] ∧ h.nameForPath p = .ok n ∧ h.nameForPath (p ++ r) = .ok m := by
  have B := make_built ht hb hm
  obtain ⟨R, h1, h2, h3⟩ := B.descendants_ok pick hn
  exact ⟨R, h1, h2, fun m => by simp only [h3, B.gplus_iff]⟩

/-- The ancestors are the places on the way to the given places. -/
theorem C17_ancestors (ht : TextLaws t) (hb : AttrsOnce b)
    (hm : Helper.make t b s = .ok (some h)) (pick : List Name → Nat) {ns : List Name}
    (hn : ∀ n ∈ ns, ∃ p, h.nameForPath p = .ok n) :
    ∃ R, h.ancestors pick ns = .ok (some R) ∧ R.Nodup ∧ ∀ m, m ∈ R ↔
      ∃ n ∈ ns, ∃ p r, r ≠ [] ∧ h.nameForPath p = .ok m ∧ h.nameForPath (p ++ r) = .ok n := by
  have B := make_built ht hb hm
  obtain ⟨R, h1, h2, h3⟩ := B.ancestors_ok pick hn
  exact ⟨R, h1, h2, fun m => by simp only [h3, B.gplus_iff]⟩

/-- A name that is not the name of any path is rejected. -/
theorem C17_invalid_name (ht : TextLaws t) (hb : AttrsOnce b)
    (hm : Helper.make t b s = .ok (some h)) (pick : List Name → Nat) {n : Name}
    (hn : ¬ ∃ p, h.nameForPath p = .ok n) :
    h.parentNames n = .error .valueError ∧ h.childNames n = .error .valueError ∧
    h.isLeaf n = .error .valueError ∧ h.isNonLeaf n = .error .valueError ∧
    h.subschemaAt n = .error .valueError ∧
    (∀ ns, n ∈ ns → h.ancestors pick ns = .error .valueError ∧
      h.descendants pick ns = .error .valueError ∧ h.schemaBag ns = .error .valueError) ∧
    (∀ m, h.relationshipBag m n = .error .valueError ∧ h.relationshipBag n m = .error .valueError) ∧
    (∀ attr vb value, h.affected n attr vb value = .error .valueError) := by
  have B := make_built ht hb hm
  have hc := B.check_error hn
  refine ⟨?_, ?_, ?_, ?_, ?_, ?_, ?_, ?_⟩
  · simp only [Helper.parentNames, hc, bind, Except.bind]
  · simp only [Helper.childNames, hc, bind, Except.bind]
  · simp only [Helper.isLeaf, hc, bind, Except.bind]
  · simp only [Helper.isNonLeaf, Helper.isLeaf, hc, bind, Except.bind]
  · simp only [Helper.subschemaAt, hc, bind, Except.bind]
  · intro ns hns
    have hca := B.checkAll_error ⟨n, hns, hn⟩
    refine ⟨?_, ?_, ?_⟩
    · simp only [Helper.ancestors, hca, bind, Except.bind]
    · simp only [Helper.descendants, hca, bind, Except.bind]
    · simp only [Helper.schemaBag, hca, bind, Except.bind]
  · intro m
    refine ⟨?_, ?_⟩
    · by_cases hmv : ∃ p, h.nameForPath p = .ok m
      · simp only [Helper.relationshipBag, B.check_ok hmv, hc, bind, Except.bind]
      · simp only [Helper.relationshipBag, B.check_error hmv, bind, Except.bind]
    · simp only [Helper.relationshipBag, hc, bind, Except.bind]
  · intro attr vb value
    simp only [Helper.affected, Helper.subschemaAt, hc, bind, Except.bind]

/-- The nodes needed for a request are those on a path that ends at a requested place or, for
requests with descendants, below one. -/
theorem C17_needed (ht : TextLaws t) (hb : AttrsOnce b) (hm : Helper.make t b s = .ok (some h))
    (pick : List Name → Nat) {populate withDescendants : List (List Action)}
    (hp : ∀ p ∈ populate, ∃ i, Reaches b s p i) (hd : ∀ p ∈ withDescendants, ∃ i, Reaches b s p i) :
    ∃ R, h.neededTo pick populate withDescendants = .ok (some R) ∧ R.Nodup ∧
      (∀ n ∈ R, ∃ q, h.nameForPath q = .ok n) ∧
      ∀ q n, h.nameForPath q = .ok n → (n ∈ R ↔ Needed b s populate withDescendants q) := by
  have B := make_built ht hb hm
  obtain ⟨R, h1, h2, h3⟩ := B.needed_ok pick hp hd
  refine ⟨R, h1, h2, ?_, ?_⟩
  · intro n hn
    obtain ⟨q, _, _, hq, _⟩ := (h3 n).1 hn
    exact ⟨q, hq⟩
  · intro q n hq
    rw [h3]
    constructor
    · rintro ⟨q', r, m, g1, g2, g3⟩
      have g4 := B.glue hq g1 g2
      obtain ⟨i, hi⟩ := B.name_reaches g4
      refine ⟨r, i, hi, ?_⟩
      rcases g3 with ⟨p, hpm, g5⟩ | ⟨p, hpm, r', g5⟩
      · exact .inl ⟨p, hpm, (B.same_iff _ _).2 ⟨m, g4, g5⟩⟩
      · obtain ⟨i', hi'⟩ := B.name_reaches g5
        exact .inr ⟨p, hpm, r', i', hi', (B.same_iff _ _).2 ⟨m, g4, g5⟩⟩
    · rintro ⟨r, i, hi, g⟩
      rcases g with ⟨p, hpm, g⟩ | ⟨p, hpm, r', i', hi', g⟩
      · obtain ⟨m, g1, g2⟩ := (B.same_iff _ _).1 g
        exact ⟨q, r, m, hq, g1, .inl ⟨p, hpm, g2⟩⟩
      · obtain ⟨m, g1, g2⟩ := (B.same_iff _ _).1 g
        exact ⟨q, r, m, hq, g1, .inr ⟨p, hpm, r', g2⟩⟩

/-- A request with a path that leads nowhere is rejected. -/
theorem C17_needed_invalid (ht : TextLaws t) (hb : AttrsOnce b)
    (hm : Helper.make t b s = .ok (some h)) (pick : List Name → Nat)
    {populate withDescendants : List (List Action)}
    (hp : ∃ p ∈ populate ++ withDescendants, ¬ ∃ i, Reaches b s p i) :
    h.neededTo pick populate withDescendants = .error .valueError := by
  have B := make_built ht hb hm
  by_cases h1 : ∃ p ∈ populate, ¬ ∃ i, Reaches b s p i
  · simp only [Helper.neededTo, B.checkPaths_error h1, bind, Except.bind]
  · have h2 : ∀ p ∈ populate, ∃ i, Reaches b s p i := fun p hpm =>
      Classical.byContradiction fun hn => h1 ⟨p, hpm, hn⟩
    have h3 : ∃ p ∈ withDescendants, ¬ ∃ i, Reaches b s p i := by
      obtain ⟨p, hpm, hn⟩ := hp
      rcases List.mem_append.1 hpm with hpm | hpm
      · exact absurd (h2 p hpm) hn
      · exact ⟨p, hpm, hn⟩
    simp only [Helper.neededTo, B.checkPaths_ok h2, B.checkPaths_error h3, bind, Except.bind]

/-- What is needed for a request is also needed for a larger one. -/
theorem C17_needed_monotone (ht : TextLaws t) (hb : AttrsOnce b)
    (hm : Helper.make t b s = .ok (some h)) (pick pick' : List Name → Nat)
    {ps ds ps' ds' : List (List Action)} (h1 : ∀ p ∈ ps, p ∈ ps' ∨ p ∈ ds') (h2 : ∀ p ∈ ds, p ∈ ds')
    {R R' : List Name} (hR : h.neededTo pick ps ds = .ok (some R))
    (hR' : h.neededTo pick' ps' ds' = .ok (some R')) : ∀ n ∈ R, n ∈ R' := by
  have valid : ∀ (pick : List Name → Nat) ps ds R, h.neededTo pick ps ds = .ok (some R) →
      (∀ p ∈ ps, ∃ i, Reaches b s p i) ∧ ∀ p ∈ ds, ∃ i, Reaches b s p i := by
    intro pick ps ds R hR
    have : ∀ p ∈ ps ++ ds, ∃ i, Reaches b s p i := fun p hpm => Classical.byContradiction fun hn => by
      rw [C17_needed_invalid ht hb hm pick ⟨p, hpm, hn⟩] at hR; cases hR
    exact ⟨fun p hpm => this p (List.mem_append.2 (.inl hpm)), fun p hpm => this p (List.mem_append.2 (.inr hpm))⟩
  obtain ⟨v1, v2⟩ := valid pick ps ds R hR
  obtain ⟨v3, v4⟩ := valid pick' ps' ds' R' hR'
  obtain ⟨Q, e1, _, e2, e3⟩ := C17_needed ht hb hm pick v1 v2
  obtain ⟨Q', f1, _, _, f3⟩ := C17_needed ht hb hm pick' v3 v4
  rw [hR] at e1; rw [hR'] at f1
  have hQ : R = Q := Option.some.inj (Except.ok.inj e1)
  have hQ' : R' = Q' := Option.some.inj (Except.ok.inj f1)
  subst hQ; subst hQ'
  intro n hn
  obtain ⟨q, hq⟩ := e2 n hn
  obtain ⟨r, i, hi, hg⟩ := (e3 q n hq).1 hn
  refine (f3 q n hq).2 ⟨r, i, hi, ?_⟩
  rcases hg with ⟨p, hpm, hs⟩ | ⟨p, hpm, hs⟩
  · rcases h1 p hpm with hpm' | hpm'
    · exact .inl ⟨p, hpm', hs⟩
    · obtain ⟨j, hj⟩ := v1 p hpm
      exact .inr ⟨p, hpm', [], j, by rw [List.append_nil]; exact hj, by rw [List.append_nil]; exact hs⟩
  · exact .inr ⟨p, h2 p hpm, hs⟩

/-! ### C18: names -/

/-- Two paths have the same name exactly if they lead to the same place, also if the paths
belong to different schemas or to different versions of a schema. -/
theorem C18_names_identify (ht : TextLaws t) (hb : AttrsOnce b) {b' : Store} {s' : Item}
    (hb' : AttrsOnce b') {p q : List Action} {x y : Name} (hx : nodeNameForPath t b s p = .ok x)
    (hy : nodeNameForPath t b' s' q = .ok y) :
    x = y ↔ ∃ n, NodeAt b s p n ∧ NodeAt b' s' q n := by
  have place : ∀ {b : Store} {s : Item} (_ : AttrsOnce b) {p : List Action} {x : Name},
      nodeNameForPath t b s p = .ok x → ∃ n, NodeAt b s p n ∧ nodeName t n = x := by
    intro b s hb p x hx
    by_cases hr : ∃ i, Reaches b s p i
    · obtain ⟨i, hi⟩ := hr
      obtain ⟨n, hn, _⟩ := hi.nodeAt
      by_cases ho : n.Ok
      · rw [nameForPath_ok hb t hn ho] at hx
        exact ⟨n, hn, Except.ok.inj hx⟩
      · rw [nameForPath_opaque hb t hn ho] at hx; cases hx
    · rw [nameForPath_invalid hb t hr] at hx; cases hx
  obtain ⟨m, h1, h2⟩ := place hb hx
  obtain ⟨n, h3, h4⟩ := place hb' hy
  constructor
  · intro e
    have : m = n := nodeName_inj ht (by rw [h2, h4, e])
    subst this
    exact ⟨m, h1, h3⟩
  · rintro ⟨k, h5, h6⟩
    rw [← h2, ← h4, h1.functional hb h5, h3.functional hb' h6]

/-- A path has a name exactly if it leads to a schema other than `OBJECT` and `SCHEMA`. -/
theorem C18_named (hb : AttrsOnce b) (t : Text) (s : Item) (p : List Action) :
    if ∃ i, Reaches b s p i ∧ i ≠ .dtype .object ∧ i ≠ .dtype .schema then
      ∃ x, nodeNameForPath t b s p = .ok x
    else nodeNameForPath t b s p = .error .valueError := by
  have hok : ∀ n : Node, n.Ok ↔ n.item ≠ .dtype .object ∧ n.item ≠ .dtype .schema := by
    intro n; cases n <;> simp [Node.Ok, Node.item]
  by_cases hp : ∃ i, Reaches b s p i ∧ i ≠ .dtype .object ∧ i ≠ .dtype .schema
  · rw [if_pos hp]
    obtain ⟨i, hi, ho⟩ := hp
    obtain ⟨n, hn, rfl⟩ := hi.nodeAt
    exact ⟨_, nameForPath_ok hb t hn ((hok n).2 ho)⟩
  · rw [if_neg hp]
    by_cases hr : ∃ i, Reaches b s p i
    · obtain ⟨i, hi⟩ := hr
      obtain ⟨n, hn, rfl⟩ := hi.nodeAt
      exact nameForPath_opaque hb t hn fun ho => hp ⟨_, hi, (hok n).1 ho⟩
    · exact nameForPath_invalid hb t hr

/-- The kind of a place can be told from its name: the name of a schema with an item id has
neither a `.` nor a `:`, the others have both. -/
theorem C18_shape (hb : AttrsOnce b) {p : List Action} {i : Item} (hp : Reaches b s p i) {x : Name}
    (hx : nodeNameForPath t b s p = .ok x) :
    ((∃ id, i = .struct id) → '.' ∉ x ∧ ':' ∉ x ∧ x.length = 22) ∧
    ((∃ d, i = .dtype d) → '.' ∈ x ∧ ':' ∈ x) := by
  obtain ⟨n, hn, rfl⟩ := hp.nodeAt
  have hxn : x = nodeName t n := by
    by_cases ho : n.Ok
    · rw [nameForPath_ok hb t hn ho] at hx; exact (Except.ok.inj hx).symm
    · rw [nameForPath_opaque hb t hn ho] at hx; cases hx
  subst hxn
  cases n with
  | struct id =>
    refine ⟨fun _ => ⟨dot_not_id id, colon_not_id id, encodeId_length id⟩, ?_⟩
    rintro ⟨d, e⟩; cases e
  | root d =>
    refine ⟨?_, fun _ => ⟨by simp [nodeName], by simp [nodeName]⟩⟩
    rintro ⟨id, e⟩; cases e
  | leaf id a d =>
    obtain ⟨u, hu⟩ := operation_dot t a
    refine ⟨?_, fun _ => ⟨by simp [nodeName, hu], by simp [nodeName]⟩⟩
    rintro ⟨id, e⟩; cases e

/-! ### C50: schema bags -/

/-- The schema bag of a set of nodes says what the schema says about the schemas of these nodes,
leaving out the subschemas that do not belong to the set. -/
theorem C50_schema_bag (ht : TextLaws t) (hb : AttrsOnce b) (hm : Helper.make t b s = .ok (some h))
    {names : List Name} (hn : ∀ n ∈ names, ∃ p, h.nameForPath p = .ok n) :
    ∃ bag, h.schemaBag names = .ok bag ∧ ∀ id k v, Says bag id k v ↔
      Fact b id k v ∧ ∃ p, Reaches b s p (.struct id) ∧ (∃ n ∈ names, h.nameForPath p = .ok n) ∧
        ∀ a, KeyOf a k → ∃ n ∈ names, h.nameForPath (p ++ [a]) = .ok n :=
  (make_built ht hb hm).schemaBag_ok hn

/-- In the schema bag, a path of the schema leads to the same subschema if all nodes on it belong
to the set, and other paths lead nowhere. -/
theorem C50_paths (ht : TextLaws t) (hb : AttrsOnce b) (hm : Helper.make t b s = .ok (some h))
    {names : List Name} {bag : Bag} (hbag : h.schemaBag names = .ok bag) (p : List Action) (hp : p ≠ [])
    (i : Item) : BagReaches bag s p i ↔
      Reaches b s p i ∧ ∀ q, q <+: p → ∃ n ∈ names, h.nameForPath q = .ok n := by
  have B := make_built ht hb hm
  have hn : ∀ n ∈ names, ∃ p, h.nameForPath p = .ok n := fun n hnm =>
    Classical.byContradiction fun hv => by
      have := ((C17_invalid_name ht hb hm (fun _ => 0) hv).2.2.2.2.2.1 names hnm).2.2
      rw [hbag] at this; cases this
  obtain ⟨bag', e, hsays⟩ := B.schemaBag_ok hn
  have : bag = bag' := Except.ok.inj (hbag.symm.trans e)
  subst this
  have main : ∀ (p p0 : List Action) (j : Item), Reaches b s p0 j → p ≠ [] →
      (BagReaches bag j p i ↔ Reaches b j p i ∧
        ∀ q, q <+: p → ∃ n ∈ names, h.nameForPath (p0 ++ q) = .ok n) := by
    intro p
    induction p with
    | nil => intro _ _ _ h0; exact absurd rfl h0
    | cons a p ih =>
      intro p0 j hj _
      constructor
      · intro hbr
        cases hbr with
        | @cons id _ k s' _ _ hk hsay hrest =>
          obtain ⟨hf, p1, g1, g2, g3⟩ := (hsays id k (.item s')).1 hsay
          have hka := (keyOf_iff a k).1 hk
          obtain ⟨a', ha', hst⟩ := fact_item hf
          rw [hka] at ha'
          have := actionKey_inj ha'
          subst this
          have l0 : ∃ n ∈ names, h.nameForPath p0 = .ok n := by
            have := B.loaded_glue (names := names) (r := []) hj g1 (by rw [List.append_nil]; exact g2)
            rwa [List.append_nil] at this
          have l1 := B.loaded_glue hj g1 (g3 a hk)
          by_cases hpn : p = []
          · subst hpn
            cases hrest
            refine ⟨.cons hst .nil, fun q hq => ?_⟩
            cases q with
            | nil => rw [List.append_nil]; exact l0
            | cons c q =>
              have := List.cons_prefix_cons.1 hq
              obtain ⟨rfl, h2⟩ := this
              rw [List.prefix_nil.1 h2]; exact l1
          · obtain ⟨g4, g5⟩ := (ih (p0 ++ [a]) s' (hj.snoc hst) hpn).1 hrest
            refine ⟨.cons hst g4, fun q hq => ?_⟩
            cases q with
            | nil => rw [List.append_nil]; exact l0
            | cons c q =>
              obtain ⟨rfl, h2⟩ := List.cons_prefix_cons.1 hq
              have := g5 q h2
              rwa [List.append_assoc] at this
      · rintro ⟨hr, hq⟩
        cases hr with
        | @cons _ _ s' _ _ hst hrest =>
          obtain ⟨id, rfl⟩ := hst.isStruct
          have hk := (keyOf_iff a _).2 rfl
          have hsay : Says bag id (actionKey a) (.item s') := by
            refine (hsays _ _ _).2 ⟨fact_of_step hst, p0, hj, ?_, ?_⟩
            · have := hq [] (List.nil_prefix)
              rwa [List.append_nil] at this
            · intro a' ha'
              rw [← actionKey_inj ((keyOf_iff a' _).1 ha')]
              exact hq [a] (List.cons_prefix_cons.2 ⟨rfl, List.nil_prefix⟩)
          refine .cons hk hsay ?_
          by_cases hpn : p = []
          · subst hpn; cases hrest; exact .nil
          · refine (ih (p0 ++ [a]) s' (hj.snoc hst) hpn).2 ⟨hrest, fun q hq' => ?_⟩
            rw [List.append_assoc]
            exact hq (a :: q) (List.cons_prefix_cons.2 ⟨rfl, hq'⟩)
  have := main p [] s .nil hp
  simp only [List.nil_append] at this
  exact this

/-- The schema bag of the nodes needed for a request is enough to follow the requested paths, and
all continuations if the descendants are requested. -/
theorem C50_request (ht : TextLaws t) (hb : AttrsOnce b) (hm : Helper.make t b s = .ok (some h))
    (pick : List Name → Nat) {ps ds : List (List Action)} {R : List Name}
    (hR : h.neededTo pick ps ds = .ok (some R)) :
    ∃ bag, h.schemaBag R = .ok bag ∧
      (∀ p ∈ ps, ∀ i, BagReaches bag s p i ↔ Reaches b s p i) ∧
      (∀ p ∈ ds, ∀ r i, BagReaches bag s (p ++ r) i ↔ Reaches b s (p ++ r) i) := by
  have B := make_built ht hb hm
  have valid : ∀ p ∈ ps ++ ds, ∃ i, Reaches b s p i := fun p hpm => Classical.byContradiction fun hn => by
    rw [C17_needed_invalid ht hb hm pick ⟨p, hpm, hn⟩] at hR; cases hR
  have vp : ∀ p ∈ ps, ∃ i, Reaches b s p i := fun p hpm => valid p (List.mem_append.2 (.inl hpm))
  have vd : ∀ p ∈ ds, ∃ i, Reaches b s p i := fun p hpm => valid p (List.mem_append.2 (.inr hpm))
  obtain ⟨Q, e1, _, e2, e3⟩ := C17_needed ht hb hm pick vp vd
  have hQ : R = Q := Option.some.inj (Except.ok.inj (hR.symm.trans e1))
  subst hQ
  obtain ⟨bag, hbag, _⟩ := B.schemaBag_ok e2
  have key : ∀ p i, Reaches b s p i → (∀ q, q <+: p → Needed b s ps ds q) → BagReaches bag s p i := by
    intro p i hi hq
    by_cases hp : p = []
    · subst hp; cases hi; exact .nil
    · refine (C50_paths ht hb hm hbag p hp i).2 ⟨hi, fun q hpre => ?_⟩
      obtain ⟨r, hr⟩ := hpre
      rw [← hr] at hi
      obtain ⟨j, hj, _⟩ := hi.split
      obtain ⟨n, hn⟩ := B.reaches_name hj
      exact ⟨n, (e3 q n hn).2 (hq q ⟨r, hr⟩), hn⟩
  have back : ∀ p i, BagReaches bag s p i → Reaches b s p i := by
    intro p i hi
    by_cases hp : p = []
    · subst hp; cases hi; exact .nil
    · exact ((C50_paths ht hb hm hbag p hp i).1 hi).1
  have same : ∀ p i, Reaches b s p i → SamePlace b s p p := by
    intro p i hi
    obtain ⟨n, hn, _⟩ := hi.nodeAt
    exact ⟨n, hn, hn⟩
  refine ⟨bag, hbag, fun p hpm i => ⟨back p i, fun hi => key p i hi ?_⟩,
    fun p hpm r i => ⟨back _ i, fun hi => key _ i hi ?_⟩⟩
  · rintro q ⟨r, hr⟩
    exact ⟨r, i, by rw [hr]; exact hi, .inl ⟨p, hpm, by rw [hr]; exact same p i hi⟩⟩
  · rintro q ⟨r', hr⟩
    exact ⟨r', i, by rw [hr]; exact hi, .inr ⟨p, hpm, r, i, hi, by rw [hr]; exact same _ i hi⟩⟩

/-- The bag of a parent and a child says what the schema says about the name and metadata of the
child, and through which attributes of the parent it is reached. -/
theorem C50_relationship (ht : TextLaws t) (hb : AttrsOnce b)
    (hm : Helper.make t b s = .ok (some h)) {p q : List Action} {x y : Name}
    (hp : h.nameForPath p = .ok x) (hq : h.nameForPath q = .ok y) :
    if ∃ a, h.nameForPath (p ++ [a]) = .ok y then
      ∃ bag, h.relationshipBag x y = .ok bag ∧ ∀ id k v, Says bag id k v ↔ Fact b id k v ∧
        ((Reaches b s q (.struct id) ∧ (k = .schemaName ∨ k = .schemaMetadata)) ∨
          (Reaches b s p (.struct id) ∧ ∃ a, KeyOf a k ∧ h.nameForPath (p ++ [a]) = .ok y))
    else h.relationshipBag x y = .error .keyError := by
  have B := make_built ht hb hm
  have hx := B.check_ok ⟨p, hp⟩
  have hy := B.check_ok ⟨q, hq⟩
  by_cases hc : ∃ a, h.nameForPath (p ++ [a]) = .ok y
  · rw [if_pos hc]
    obtain ⟨a, ha⟩ := hc
    obtain ⟨i, hi⟩ := B.name_reaches ha
    obtain ⟨j, hj, hst⟩ := hi.snoc_inv
    obtain ⟨id0, rfl⟩ := hst.isStruct
    have he := step_edge hj hst
    obtain ⟨n1, n2⟩ := B.work_names he hj
    have ex := Except.ok.inj (n1.symm.trans hp)
    have ey := Except.ok.inj (n2.symm.trans ha)
    obtain ⟨bag, hl, _⟩ := B.done.bags rfl _ (.inr ⟨_, _, he⟩)
    rw [ex, ey] at hl
    simp only at hl
    refine ⟨bag, ?_, ?_⟩
    · simp only [Helper.relationshipBag, hx, hy, hl, bind, Except.bind]
    · have hmem : ∀ id k v, ((id, k), v) ∈ bag ↔ Fact b id k v ∧
          ((Reaches b s q (.struct id) ∧ (k = .schemaName ∨ k = .schemaMetadata)) ∨
            (Reaches b s p (.struct id) ∧ ∃ a, KeyOf a k ∧ h.nameForPath (p ++ [a]) = .ok y)) := by
        intro id k v
        rw [B.bag_iff hl]
        constructor
        · rintro ⟨w, hw, hpn, hnm, hf⟩
          refine ⟨B.factsOf_facts hw hf, ?_⟩
          have hsub : ∀ p', h.nameForPath p' = .ok y → ∀ i', Reaches b s p' i' → Reaches b s q i' := by
            intro p' hp' i' hi'
            obtain ⟨k', hk'⟩ := B.name_reaches hq
            have e1 := B.schemas_ok hp' hi'
            have e2 := B.schemas_ok hq hk'
            rw [Option.some.inj (e1.symm.trans e2)]
            exact hk'
          rcases (B.mem_factsOf hw id k v).1 hf with h1 | ⟨a', he', rfl, rfl⟩
          · obtain ⟨hcs, hk, _⟩ := (mem_stubEntries b w.child id k v).1 h1
            obtain ⟨p', hp'⟩ := work_place hw
            have hr := hp'.reaches
            rw [placeOf_item, hcs] at hr
            exact .inl ⟨hsub p' ((B.name_iff _ _).2 ⟨_, hp', hnm⟩) _ hr, hk⟩
          · obtain ⟨p', hp'⟩ := he'.reach
            obtain ⟨m1, m2⟩ := B.work_names he' hp'
            rw [hpn] at m1
            rw [hnm] at m2
            have e1 := B.schemas_ok m1 hp'
            have e2 := B.schemas_ok hp hj
            have e3 := Option.some.inj (e1.symm.trans e2)
            refine .inr ⟨by rw [e3]; exact hj, a', (keyOf_iff _ _).2 rfl, B.glue hp m1 m2⟩
        · rintro ⟨hf, h1⟩
          rcases h1 with ⟨hr, hk⟩ | ⟨hr, a', hk, ha'⟩
          · have e1 := B.schemas_ok hq hr
            have e2 := B.schemas_ok ha hi
            have e3 := Option.some.inj (e2.symm.trans e1)
            refine ⟨_, .inr ⟨_, _, he⟩, ex, ey, (B.mem_factsOf (.inr ⟨_, _, he⟩) _ _ _).2 (.inl ?_)⟩
            exact (mem_stubEntries b _ id k v).2 ⟨e3, hk, hf⟩
          · obtain ⟨i', hi'⟩ := B.name_reaches ha'
            obtain ⟨j', hj', hst'⟩ := hi'.snoc_inv
            rw [hj'.functional hb hr] at hst'
            have he' := step_edge hr hst'
            obtain ⟨m1, m2⟩ := B.work_names he' hr
            refine ⟨_, .inr ⟨_, _, he'⟩, Except.ok.inj (m1.symm.trans hp),
              Except.ok.inj (m2.symm.trans ha'), (B.mem_factsOf (.inr ⟨_, _, he'⟩) _ _ _).2 (.inr ?_)⟩
            have hka := (keyOf_iff a' k).1 hk
            subst hka
            exact ⟨a', he', rfl, hf.functional hb (fact_of_step hst')⟩
      intro id k v
      unfold Says
      rw [lookup_iff_mem hb, hmem]
      intro k' v' hm'
      exact ((hmem k'.1 k'.2 v').1 hm').1
  · rw [if_neg hc]
    have hl : h.bags.lookup (x, y) = .none := by
      cases hl : h.bags.lookup (x, y) with
      | none => rfl
      | some bag =>
        obtain ⟨w, hw, e⟩ := B.done.bagsKnown _ _ hl
        have e1 : x = pn w := congrArg Prod.fst e
        have e2 : y = nm t w := congrArg Prod.snd e
        rcases hw with rfl | ⟨id, a, he⟩
        · rw [show x = noParentMarker from e1] at hp
          exact absurd hp (B.marker_invalid p)
        · obtain ⟨p', hp'⟩ := he.reach
          obtain ⟨m1, m2⟩ := B.work_names he hp'
          rw [← e1] at m1
          rw [← e2] at m2
          exact absurd ⟨a, B.glue hp m1 m2⟩ hc
    simp only [Helper.relationshipBag, hx, hy, hl, bind, Except.bind]

/-! ### C51: affected nodes -/

/-- The nodes affected by setting an attribute of an entity are those that the attribute leads to
in the updated schema: the places at the attribute and below it. The updated schema is any schema
`b'` in which the attribute of the entity has the schema of the value. -/
theorem C51_affected (ht : TextLaws t) (hb : AttrsOnce b) (hm : Helper.make t b s = .ok (some h))
    {at_ : Name} {p : List Action} {id : Id} {attrs : List (Name × Item)}
    (hat : h.nameForPath p = .ok at_) (hp : Reaches b s p (.struct id))
    (hent : (b.get id).kind = .entity attrs) (attr : Name) {vb : Store} (hvb : AttrsOnce vb)
    {value : Item} (hv : NoOpaque vb value) :
    ∃ R, h.affected at_ attr vb value = .ok (some R) ∧ R.Nodup ∧
      ∀ b' s' p', AttrsOnce b' → Reaches b' s' p' (.struct id) →
        Step b' (.struct id) (.getAttr attr) value →
        (∀ r i, Reaches vb value r i → Reaches b' value r i) →
        ∀ n, n ∈ R ↔ ∃ r i, Reaches vb value r i ∧
          nodeNameForPath t b' s' (p' ++ .getAttr attr :: r) = .ok n := by
  have B := make_built ht hb hm
  have hsub := (C17_subschema ht hb hm hp hat).1
  have hst : Start vb ⟨some (.struct id), some (.getAttr attr), value⟩ true :=
    ⟨.inr ⟨id, .getAttr attr, rfl, rfl⟩, by simp⟩
  rcases analyzeSchema_spec ht hvb hst with ⟨hg, st, e, ha⟩ | ⟨_, w, hw, hg⟩
  · refine ⟨st.graph.map (·.1), ?_, ha.graphNodup, ?_⟩
    · simp only [Helper.affected, hsub, bind, Except.bind, isEntitySchema, kindOf, B.store, hent,
        B.text, e, if_true]
    · intro b' s' p' hb' hr hstep hsame n
      rw [← lookup_isSome_iff, ha.keys]
      constructor
      · rintro ⟨w, hw, rfl⟩
        have hok := (hg w hw).1
        rcases hw with rfl | ⟨id', a, he⟩
        · refine ⟨[], value, .nil, ?_⟩
          refine nameForPath_ok hb' t ?_ hok
          cases value with
          | struct v => exact .struct (hr.snoc hstep)
          | dtype d => exact .leaf hr hstep
        · obtain ⟨q, hq⟩ := he.reach
          have hqa := hq.snoc he.step
          refine ⟨q ++ [a], w.child, hqa, ?_⟩
          refine nameForPath_ok hb' t ?_ hok
          have g1 : Reaches b' s' (p' ++ .getAttr attr :: q) (.struct id') :=
            hr.append (.cons hstep (hsame _ _ hq))
          obtain ⟨j, g2, g3⟩ := (hsame _ _ hqa).snoc_inv
          rw [g2.functional hb' (hsame _ _ hq)] at g3
          have : p' ++ Action.getAttr attr :: (q ++ [a]) = (p' ++ .getAttr attr :: q) ++ [a] := by simp
          rw [this]
          obtain ⟨par, act, child⟩ := w
          have h1 := he.parent
          have h2 := he.action
          simp only at h1 h2 g3
          subst h1; subst h2
          cases child with
          | struct v => exact .struct (g1.snoc g3)
          | dtype d => exact .leaf g1 g3
      · rintro ⟨r, i, hri, hname⟩
        have hplace : ∃ w, IsWork vb ⟨some (.struct id), some (.getAttr attr), value⟩ w ∧
            NodeAt b' s' (p' ++ .getAttr attr :: r) (placeOf w) := by
          rcases List.eq_nil_or_concat r with rfl | ⟨q, a, rfl⟩
          · refine ⟨_, .inl rfl, ?_⟩
            cases value with
            | struct v => exact .struct (hr.snoc hstep)
            | dtype d => exact .leaf hr hstep
          · rw [List.concat_eq_append] at *
            obtain ⟨j, g1, g2⟩ := hri.snoc_inv
            obtain ⟨id', rfl⟩ := g2.isStruct
            refine ⟨⟨some (.struct id'), some a, i⟩, .inr ⟨id', a, rfl, rfl, g2, q, g1⟩, ?_⟩
            have g3 : Reaches b' s' (p' ++ .getAttr attr :: q) (.struct id') :=
              hr.append (.cons hstep (hsame _ _ g1))
            obtain ⟨j', g4, g5⟩ := (hsame _ _ hri).snoc_inv
            rw [g4.functional hb' (hsame _ _ g1)] at g5
            have : p' ++ Action.getAttr attr :: (q ++ [a]) = (p' ++ .getAttr attr :: q) ++ [a] := by
              simp
            rw [this]
            cases i with
            | struct v => exact .struct (g3.snoc g5)
            | dtype d => exact .leaf g3 g5
        obtain ⟨w, hw, hn⟩ := hplace
        refine ⟨w, hw, ?_⟩
        rw [nameForPath_ok hb' t hn (hg w hw).1] at hname
        exact Except.ok.inj hname
  · exact absurd ((good_iff _ true).2 ⟨hv, by simp⟩ w hw) hg

/-- Attributes of anything else than an entity, and values with `OBJECT` or `SCHEMA` subschemas,
are rejected. -/
theorem C51_rejected (ht : TextLaws t) (hb : AttrsOnce b) (hm : Helper.make t b s = .ok (some h))
    {at_ : Name} {p : List Action} {i : Item} (hat : h.nameForPath p = .ok at_)
    (hp : Reaches b s p i) (attr : Name) {vb : Store} (hvb : AttrsOnce vb) {value : Item}
    (hr : (¬ ∃ id attrs, i = .struct id ∧ (b.get id).kind = .entity attrs) ∨ ¬ NoOpaque vb value) :
    h.affected at_ attr vb value = .error .valueError := by
  have B := make_built ht hb hm
  have hsub := (C17_subschema ht hb hm hp hat).1
  by_cases hent : ∃ id attrs, i = .struct id ∧ (b.get id).kind = .entity attrs
  · obtain ⟨id, attrs, rfl, hk⟩ := hent
    have hno : ¬ NoOpaque vb value := by
      rcases hr with hr | hr
      · exact absurd ⟨id, attrs, rfl, hk⟩ hr
      · exact hr
    have hst : Start vb ⟨some (.struct id), some (.getAttr attr), value⟩ true :=
      ⟨.inr ⟨id, .getAttr attr, rfl, rfl⟩, by simp⟩
    rcases analyzeSchema_spec ht hvb hst with ⟨hg, _⟩ | ⟨e, _⟩
    · exact absurd ((good_iff _ true).1 hg).1 hno
    · simp only [Helper.affected, hsub, bind, Except.bind, isEntitySchema, kindOf, B.store, hk, B.text,
        e, if_true]
  · have : isEntitySchema b i = false := by
      cases i with
      | dtype d => rfl
      | struct id =>
        simp only [isEntitySchema, kindOf]
        cases hk : (b.get id).kind with
        | entity attrs => exact absurd ⟨id, attrs, rfl, hk⟩ hent
        | list _ => rfl
        | dict _ _ => rfl
    simp only [Helper.affected, hsub, bind, Except.bind, B.store, this, Bool.false_eq_true, if_false]

end

/-! ### Concrete cases

A tree: nodes (id 1) with an attribute `v` and a list (id 2) of nodes as the attribute `c`. -/

def exStore : Store :=
  [(1, { kind := .entity [(['v'], .dtype .int32), (['c'], .struct 2)], name := some ['T'],
         metadata := some [(['m'], .primitive 7)] }),
   (2, { kind := .list (.struct 1) })]

def exPath : List Action := [.getAttr ['c'], .listExplode, .getAttr ['v']]

/-- What the helper of the tree says. -/
def exRun : Option (List (List Name)) :=
  match Helper.make exampleText exStore (.struct 1) with
  | .ok (some h) =>
    match h.neededTo (fun _ => 1) [[.getAttr ['c']]] [], h.neededTo (fun _ => 0) [exPath] [],
      h.nameForPath [], h.nameForPath [.getAttr ['c']], h.nameForPath [.getAttr ['v']] with
    | .ok (some r), .ok (some r'), .ok n, .ok n', .ok n'' =>
      some [r, r', [n, n', n''], h.allNames, h.leafNames, h.nonLeafNames]
    | _, _, _, _, _ => .none
  | _ => .none

def exNode : Name := List.replicate 21 '0' ++ ['1']
def exList : Name := List.replicate 21 '0' ++ ['2']
def exLeaf : Name := List.replicate 21 '0' ++ ['1', '.', 'v', ':', 'I', 'N', 'T', '3', '2']

theorem exRun_eq : exRun = some
    [[exList, exNode], [exLeaf, exNode, exList], [exNode, exList, exLeaf],
      [exNode, exLeaf, exList], [exLeaf], [exNode, exList]] := by
  decide +kernel

theorem exStore_once : AttrsOnce exStore := by
  intro id attrs h
  by_cases h1 : id = 1
  · subst h1
    cases h
    decide
  · by_cases h2 : id = 2
    · subst h2; cases h
    · have e1 : (id == 1) = false := by simpa using h1
      have e2 : (id == 2) = false := by simpa using h2
      simp only [Store.get, exStore, List.lookup, e1, e2, Option.getD_none, StructKind.entity.injEq] at h
      subst h; simp

/-- The hypotheses of the theorems of C17 and C50 hold for the tree. -/
theorem exStore_made : ∃ h, Helper.make exampleText exStore (.struct 1) = .ok (some h) := by
  have h0 := exRun_eq
  unfold exRun at h0
  split at h0
  · exact ⟨_, by assumption⟩
  · cases h0

theorem exStore_prefix : Reaches exStore (.struct 1) [.getAttr ['c'], .listExplode] (.struct 1) :=
  .cons (.attr (id := 1) (i := .struct 2) rfl (by decide)) (.cons (.item (id := 2) rfl) .nil)

theorem exStore_path : Reaches exStore (.struct 1) exPath (.dtype .int32) :=
  exStore_prefix.append (.cons (.attr (id := 1) rfl (by decide)) .nil)

example : ∃ h, Helper.make exampleText exStore (.struct 1) = .ok (some h) ∧
    ∃ R, h.neededTo (fun _ => 0) [exPath] [] = .ok (some R) ∧ R.Nodup ∧
      (∀ n ∈ R, ∃ q, h.nameForPath q = .ok n) ∧
      ∀ q n, h.nameForPath q = .ok n → (n ∈ R ↔ Needed exStore (.struct 1) [exPath] [] q) := by
  obtain ⟨h, hm⟩ := exStore_made
  refine ⟨h, hm, C17_needed exampleText_laws exStore_once hm _ ?_ (by simp)⟩
  intro p hp
  rw [List.mem_singleton.1 hp]
  exact ⟨_, exStore_path⟩

/-- Schemas that are rejected. -/
example : (match Helper.make exampleText [(1, ⟨.entity [(['v'], .dtype .object)], .none, .none⟩)]
      (.struct 1) with | .error .valueError => true | _ => false) = true ∧
    (match Helper.make exampleText [(1, ⟨.list (.struct 3), .none, .none⟩),
      (3, ⟨.entity [], .none, some [(['m'], .other 0)]⟩)] (.struct 1) with
      | .error .valueError => true | _ => false) = true := by
  refine ⟨?_, ?_⟩ <;> decide +kernel

/-- Two paths to the same place, and two to places of the same schema that differ. -/
example : nodeNameForPath exampleText exStore (.struct 1) exPath =
      nodeNameForPath exampleText exStore (.struct 1) [.getAttr ['v']] ∧
    (match nodeNameForPath exampleText [(1, ⟨.dict (.dtype .string) (.dtype .string), .none, .none⟩)]
        (.struct 1) [.dictGetKeys],
      nodeNameForPath exampleText [(1, ⟨.dict (.dtype .string) (.dtype .string), .none, .none⟩)]
        (.struct 1) [.dictGetValues] with
      | .ok x, .ok y => x != y
      | _, _ => false) = true := by
  refine ⟨?_, ?_⟩
  · rw [nameForPath_ok (n := .leaf 1 (.getAttr ['v']) .int32) exStore_once _ ?_ (by simp [Node.Ok]),
      nameForPath_ok (n := .leaf 1 (.getAttr ['v']) .int32) exStore_once _ ?_ (by simp [Node.Ok])]
    · exact .leaf (p := []) .nil (.attr rfl (by decide))
    · exact .leaf (p := [.getAttr ['c'], .listExplode])
        exStore_prefix (.attr rfl (by decide))
  · decide +kernel

/-- The bag of the root and its list has one subschema; the affected nodes of `c := [INT32]`. -/
def exBags : Option (Bag × Bag × List Name) :=
  match Helper.make exampleText exStore (.struct 1) with
  | .ok (some h) =>
    match h.schemaBag [exNode, exList], h.relationshipBag exList exNode,
      h.affected exNode ['c'] [(5, ⟨.list (.dtype .int32), .none, .none⟩)] (.struct 5) with
    | .ok x, .ok y, .ok (some z) => some (x, y, z)
    | _, _, _ => .none
  | _ => .none

example : (exBags.map fun r => r.1.lookup (1, .attr ['c']) == some (.item (.struct 2)) &&
      r.1.lookup (1, .attr ['v']) == .none && r.2.1.lookup (2, .items) == some (.item (.struct 1)) &&
      r.2.1.lookup (1, .schemaName) == some (.text ['T']) && r.2.1.lookup (1, .attr ['c']) == .none) =
    some true ∧
    (exBags.map fun r => r.2.2) = some
      [List.replicate 21 '0' ++ ['5'],
       List.replicate 21 '0' ++ ['5', '.', 'g', 'e', 't', '_', 'i', 't', 'e', 'm', '_', 's', 'c', 'h',
         'e', 'm', 'a', '(', ')', ':', 'I', 'N', 'T', '3', '2']] := by
  refine ⟨?_, ?_⟩ <;> decide +kernel

end Verif.SchemaHelper
