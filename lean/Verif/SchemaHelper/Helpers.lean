import Verif.SchemaHelper.Paths

/-! The methods of the helper in terms of paths. -/

namespace Verif.SchemaHelper

open Verif.Path

set_option linter.unusedSectionVars false

/-! ### When the analysis succeeds -/

section
variable {t : Text} {b : Store}

theorem work_child {w0 w : Work} (h : IsWork b w0 w) : ∃ p, Reaches b w0.child p w.child := by
  rcases h with rfl | ⟨id, a, h⟩
  · exact ⟨[], .nil⟩
  · obtain ⟨p, hp⟩ := h.reach
    exact ⟨p ++ [a], hp.snoc h.step⟩

theorem child_work {w0 : Work} {p : List Action} {i : Item} (h : Reaches b w0.child p i) :
    ∃ w, IsWork b w0 w ∧ w.child = i := by
  rcases List.eq_nil_or_concat p with rfl | ⟨q, a, rfl⟩
  · cases h; exact ⟨w0, .inl rfl, rfl⟩
  · rw [List.concat_eq_append] at h
    obtain ⟨j, h1, h2⟩ := h.snoc_inv
    obtain ⟨id, rfl⟩ := h2.isStruct
    exact ⟨⟨some (.struct id), some a, i⟩, .inr ⟨id, a, rfl, rfl, h2, q, h1⟩, rfl⟩

theorem placeOf_ok (w : Work) :
    (placeOf w).Ok ↔ w.child ≠ .dtype .object ∧ w.child ≠ .dtype .schema := by
  rw [← placeOf_item w]
  cases placeOf w <;> simp [Node.Ok, Node.item]

theorem metadata_iff (i : Item) : metadataAllowed b i = true ↔
    ∀ id m n v, i = .struct id → (b.get id).metadata = some m → (n, v) ∈ m → ∃ x, v = .primitive x := by
  cases i with
  | dtype d => simp [metadataAllowed]
  | struct id =>
    simp only [metadataAllowed]
    cases hm : (b.get id).metadata with
    | none =>
      simp only [true_iff]
      intro id' m n v e h
      cases e; rw [hm] at h; cases h
    | some m =>
      simp only [List.all_eq_true]
      constructor
      · intro h id' m' n v e h1 h2
        cases e; rw [hm] at h1; cases h1
        have := h _ h2
        cases v with
        | primitive x => exact ⟨x, rfl⟩
        | other x => cases this
      · intro h x hx
        obtain ⟨y, hy⟩ := h id m x.1 x.2 rfl hm hx
        rw [hy]; rfl

theorem good_iff (w0 : Work) (only : Bool) :
    (∀ w, IsWork b w0 w → Good b only w) ↔
      NoOpaque b w0.child ∧ (only = false → PlainMetadata b w0.child) := by
  constructor
  · intro h
    refine ⟨fun p => ⟨fun hp => ?_, fun hp => ?_⟩, ?_⟩
    · obtain ⟨w, hw, hc⟩ := child_work hp
      exact ((placeOf_ok w).1 (h w hw).1).1 hc
    · obtain ⟨w, hw, hc⟩ := child_work hp
      exact ((placeOf_ok w).1 (h w hw).1).2 hc
    · intro ho p id m n v hp
      obtain ⟨w, hw, hc⟩ := child_work hp
      exact (metadata_iff _).1 ((h w hw).2 ho) id m n v hc
  · rintro ⟨h1, h2⟩ w hw
    obtain ⟨p, hp⟩ := work_child hw
    refine ⟨(placeOf_ok w).2 ⟨fun e => (h1 p).1 (e ▸ hp), fun e => (h1 p).2 (e ▸ hp)⟩, ?_⟩
    intro ho
    exact (metadata_iff _).2 fun id m n v e => h2 ho p id m n v (e ▸ hp)

end

/-! ### A helper -/

/-- What `Helper.make` gives. -/
structure Built (t : Text) (b : Store) (s : Item) (h : Helper) : Prop where
  ht : TextLaws t
  hb : AttrsOnce b
  text : h.text = t
  store : h.store = b
  schema : h.schema = s
  parents : h.parents = converse h.graph
  done : Analyzed t b (rootWork s) false ⟨h.graph, h.schemas, h.bags⟩

theorem make_spec {t : Text} {b : Store} (ht : TextLaws t) (hb : AttrsOnce b) (s : Item) :
    (NoOpaque b s ∧ PlainMetadata b s ∧ ∃ h, Helper.make t b s = .ok (some h) ∧ Built t b s h) ∨
    (¬ (NoOpaque b s ∧ PlainMetadata b s) ∧ Helper.make t b s = .error .valueError) := by
  rcases analyzeSchema_spec ht hb (start_root b s false) with ⟨hg, st, e, ha⟩ | ⟨e, w, hw, hg⟩
  · obtain ⟨h1, h2⟩ := (good_iff (rootWork s) false).1 hg
    refine .inl ⟨h1, h2 rfl, ⟨t, b, s, st.graph, st.schemas, st.bags, converse st.graph⟩, ?_,
      ht, hb, rfl, rfl, rfl, rfl, ?_⟩
    · simp only [rootWork] at e
      simp only [Helper.make, e]
    · exact ha
  · refine .inr ⟨fun hn => hg ?_, ?_⟩
    · exact (good_iff (rootWork s) false).2 ⟨hn.1, fun _ => hn.2⟩ w hw
    · simp only [rootWork] at e
      simp only [Helper.make, e]

theorem make_built {t : Text} {b : Store} (ht : TextLaws t) (hb : AttrsOnce b) {s : Item} {h : Helper}
    (hm : Helper.make t b s = .ok (some h)) : Built t b s h := by
  rcases make_spec ht hb s with ⟨_, _, h', e, hbt⟩ | ⟨_, e⟩
  · rw [e] at hm; cases hm; exact hbt
  · rw [e] at hm; cases hm

namespace Built

variable {t : Text} {b : Store} {s : Item} {h : Helper} (B : Built t b s h)
include B

theorem name_iff (p : List Action) (x : Name) :
    h.nameForPath p = .ok x ↔ ∃ n, NodeAt b s p n ∧ nodeName t n = x := by
  unfold Helper.nameForPath
  rw [B.text, B.store, B.schema]
  exact Verif.SchemaHelper.name_iff B.ht B.hb B.done p x

theorem name_error (p : List Action) (hp : ¬ ∃ i, Reaches b s p i) :
    h.nameForPath p = .error .valueError := by
  unfold Helper.nameForPath
  rw [B.text, B.store, B.schema]
  exact nameForPath_invalid B.hb t hp

theorem reaches_name {p : List Action} {i : Item} (hp : Reaches b s p i) :
    ∃ x, h.nameForPath p = .ok x := by
  obtain ⟨n, hn, _⟩ := hp.nodeAt
  exact ⟨_, (B.name_iff p _).2 ⟨n, hn, rfl⟩⟩

theorem name_reaches {p : List Action} {x : Name} (hp : h.nameForPath p = .ok x) :
    ∃ i, Reaches b s p i := by
  obtain ⟨n, hn, _⟩ := (B.name_iff p x).1 hp
  exact ⟨_, hn.reaches⟩

theorem same_iff (p q : List Action) :
    SamePlace b s p q ↔ ∃ x, h.nameForPath p = .ok x ∧ h.nameForPath q = .ok x := by
  constructor
  · rintro ⟨n, h1, h2⟩
    exact ⟨_, (B.name_iff _ _).2 ⟨n, h1, rfl⟩, (B.name_iff _ _).2 ⟨n, h2, rfl⟩⟩
  · rintro ⟨x, h1, h2⟩
    obtain ⟨m, h3, h4⟩ := (B.name_iff _ _).1 h1
    obtain ⟨n, h5, h6⟩ := (B.name_iff _ _).1 h2
    have : m = n := nodeName_inj B.ht (by rw [h4, h6])
    subst this
    exact ⟨m, h3, h5⟩

theorem glue {p q r : List Action} {x y : Name} (h1 : h.nameForPath p = .ok x)
    (h2 : h.nameForPath q = .ok x) (h3 : h.nameForPath (q ++ r) = .ok y) :
    h.nameForPath (p ++ r) = .ok y := by
  obtain ⟨m, g1, g2⟩ := (B.name_iff _ _).1 h1
  obtain ⟨n, g3, g4⟩ := (B.name_iff _ _).1 h2
  obtain ⟨k, g5, g6⟩ := (B.name_iff _ _).1 h3
  have : m = n := nodeName_inj B.ht (by rw [g2, g4])
  subst this
  exact (B.name_iff _ _).2 ⟨k, g1.glue B.hb g3 g5, g6⟩

theorem name_prefix {p r : List Action} {y : Name} (h1 : h.nameForPath (p ++ r) = .ok y) :
    ∃ x, h.nameForPath p = .ok x := by
  obtain ⟨i, hi⟩ := B.name_reaches h1
  obtain ⟨j, hj, _⟩ := hi.split
  exact B.reaches_name hj

theorem valid_iff (x : Name) : h.isValid x = true ↔ ∃ p, h.nameForPath p = .ok x := by
  unfold Helper.isValid
  rw [keys_iff B.done]
  constructor
  · rintro ⟨p, n, h1, h2⟩; exact ⟨p, (B.name_iff p x).2 ⟨n, h1, h2⟩⟩
  · rintro ⟨p, hp⟩
    obtain ⟨n, h1, h2⟩ := (B.name_iff p x).1 hp
    exact ⟨p, n, h1, h2⟩

theorem gedge_iff (x y : Name) : Edge ⟨h.graph, false⟩ x y ↔
    ∃ p a, h.nameForPath p = .ok x ∧ h.nameForPath (p ++ [a]) = .ok y := by
  have := edges_iff B.hb B.done x y
  constructor
  · intro he
    obtain ⟨p, a, m, n, h1, h2, h3, h4⟩ := this.1 he
    exact ⟨p, a, (B.name_iff _ _).2 ⟨m, h1, h3⟩, (B.name_iff _ _).2 ⟨n, h2, h4⟩⟩
  · rintro ⟨p, a, h1, h2⟩
    obtain ⟨m, h3, h4⟩ := (B.name_iff _ _).1 h1
    obtain ⟨n, h5, h6⟩ := (B.name_iff _ _).1 h2
    exact this.2 ⟨p, a, m, n, h3, h5, h4, h6⟩

theorem gplus_iff (x y : Name) : Plus (Edge ⟨h.graph, false⟩) x y ↔
    ∃ p r, r ≠ [] ∧ h.nameForPath p = .ok x ∧ h.nameForPath (p ++ r) = .ok y := by
  have := Verif.SchemaHelper.plus_iff B.ht B.hb B.done x y
  constructor
  · intro he
    obtain ⟨p, r, m, n, h0, h1, h2, h3, h4⟩ := this.1 he
    exact ⟨p, r, h0, (B.name_iff _ _).2 ⟨m, h1, h3⟩, (B.name_iff _ _).2 ⟨n, h2, h4⟩⟩
  · rintro ⟨p, r, h0, h1, h2⟩
    obtain ⟨m, h3, h4⟩ := (B.name_iff _ _).1 h1
    obtain ⟨n, h5, h6⟩ := (B.name_iff _ _).1 h2
    exact this.2 ⟨p, r, m, n, h0, h3, h5, h4, h6⟩

theorem pedge_iff (x y : Name) : Edge h.parents y x ↔ Edge ⟨h.graph, false⟩ x y := by
  rw [B.parents]
  exact edge_converse h.graph B.done.graphNodup x y

theorem pplus_iff (x y : Name) : Plus (Edge h.parents) y x ↔ Plus (Edge ⟨h.graph, false⟩) x y := by
  constructor
  · intro hp
    induction hp with
    | one he => exact .one ((B.pedge_iff _ _).1 he)
    | more _ he ih => exact .head ((B.pedge_iff _ _).1 he) ih
  · intro hp
    induction hp with
    | one he => exact .one ((B.pedge_iff _ _).2 he)
    | more _ he ih => exact .head ((B.pedge_iff _ _).2 he) ih

theorem check_ok {x : Name} (hx : ∃ p, h.nameForPath p = .ok x) : h.check x = .ok () := by
  unfold Helper.check
  rw [if_pos ((B.valid_iff x).2 hx)]

theorem check_error {x : Name} (hx : ¬ ∃ p, h.nameForPath p = .ok x) :
    h.check x = .error .valueError := by
  unfold Helper.check
  rw [if_neg fun hv => hx ((B.valid_iff x).1 hv)]

theorem checkAll_ok {ns : List Name} (hx : ∀ x ∈ ns, ∃ p, h.nameForPath p = .ok x) :
    h.checkAll ns = .ok () := by
  induction ns with
  | nil => rfl
  | cons n ns ih =>
    simp only [Helper.checkAll, B.check_ok (hx n (by simp)), bind, Except.bind]
    exact ih fun x hm => hx x (by simp [hm])

theorem checkAll_error {ns : List Name} (hx : ∃ x ∈ ns, ¬ ∃ p, h.nameForPath p = .ok x) :
    h.checkAll ns = .error .valueError := by
  induction ns with
  | nil => simp at hx
  | cons n ns ih =>
    by_cases hn : ∃ p, h.nameForPath p = .ok n
    · simp only [Helper.checkAll, B.check_ok hn, bind, Except.bind]
      obtain ⟨x, h1, h2⟩ := hx
      rcases List.mem_cons.1 h1 with rfl | h1
      · exact absurd hn h2
      · exact ih ⟨x, h1, h2⟩
    · simp only [Helper.checkAll, B.check_error hn, bind, Except.bind]

theorem graph_total {x : Name} (hx : ∃ p, h.nameForPath p = .ok x) : Total ⟨h.graph, false⟩ x :=
  .inr ((B.valid_iff x).2 hx)

theorem children (x : Name) (hx : ∃ p, h.nameForPath p = .ok x) :
    ∃ ys, (Relation.mk h.graph false).get x = .ok ys ∧
      ∀ y, y ∈ ys ↔ Edge ⟨h.graph, false⟩ x y := get_total (B.graph_total hx)

theorem descendants_ok (pick : List Name → Nat) {ns : List Name}
    (hx : ∀ x ∈ ns, ∃ p, h.nameForPath p = .ok x) :
    ∃ R, h.descendants pick ns = .ok (some R) ∧ R.Nodup ∧
      ∀ y, y ∈ R ↔ ∃ x ∈ ns, Plus (Edge ⟨h.graph, false⟩) x y := by
  obtain ⟨R, h1, h2, h3⟩ := closureImage_spec ⟨h.graph, false⟩ pick ns
    (fun x hm => B.graph_total (hx x hm)) (by
      intro x y he
      obtain ⟨p, a, _, h5⟩ := (B.gedge_iff x y).1 he
      exact B.graph_total ⟨_, h5⟩)
  refine ⟨R, ?_, h2, h3⟩
  simp only [Helper.descendants, B.checkAll_ok hx, bind, Except.bind]
  exact h1

theorem ancestors_ok (pick : List Name → Nat) {ns : List Name}
    (hx : ∀ x ∈ ns, ∃ p, h.nameForPath p = .ok x) :
    ∃ R, h.ancestors pick ns = .ok (some R) ∧ R.Nodup ∧
      ∀ y, y ∈ R ↔ ∃ x ∈ ns, Plus (Edge ⟨h.graph, false⟩) y x := by
  have hd : h.parents.isDefault = true := by rw [B.parents]; rfl
  obtain ⟨R, h1, h2, h3⟩ := closureImage_spec h.parents pick ns
    (fun x _ => .inl hd) (fun x y _ => .inl hd)
  refine ⟨R, ?_, h2, ?_⟩
  · simp only [Helper.ancestors, B.checkAll_ok hx, bind, Except.bind]
    exact h1
  · intro y
    rw [h3]
    constructor
    · rintro ⟨x, hm, hp⟩; exact ⟨x, hm, (B.pplus_iff _ _).1 hp⟩
    · rintro ⟨x, hm, hp⟩; exact ⟨x, hm, (B.pplus_iff _ _).2 hp⟩

theorem exists_true {p : List Action} (hp : ∃ i, Reaches b s p i) : h.exists_ p = .ok true := by
  obtain ⟨i, hi⟩ := hp
  obtain ⟨x, hx⟩ := B.reaches_name hi
  simp only [Helper.exists_, hx]

theorem exists_false {p : List Action} (hp : ¬ ∃ i, Reaches b s p i) : h.exists_ p = .ok false := by
  simp only [Helper.exists_, B.name_error p hp]

theorem checkPaths_ok {ps : List (List Action)} (hp : ∀ p ∈ ps, ∃ i, Reaches b s p i) :
    h.checkPaths ps = .ok () := by
  induction ps with
  | nil => rfl
  | cons p ps ih =>
    simp only [Helper.checkPaths, B.exists_true (hp p (by simp)), bind, Except.bind, if_true]
    exact ih fun q hq => hp q (by simp [hq])

theorem checkPaths_error {ps : List (List Action)} (hp : ∃ p ∈ ps, ¬ ∃ i, Reaches b s p i) :
    h.checkPaths ps = .error .valueError := by
  induction ps with
  | nil => simp at hp
  | cons p ps ih =>
    by_cases hn : ∃ i, Reaches b s p i
    · simp only [Helper.checkPaths, B.exists_true hn, bind, Except.bind, if_true]
      obtain ⟨q, h1, h2⟩ := hp
      rcases List.mem_cons.1 h1 with rfl | h1
      · exact absurd hn h2
      · exact ih ⟨q, h1, h2⟩
    · simp only [Helper.checkPaths, B.exists_false hn, bind, Except.bind, Bool.false_eq_true, if_false]

theorem namesForPaths_ok {ps : List (List Action)} (hp : ∀ p ∈ ps, ∃ i, Reaches b s p i)
    (acc : List Name) (ha : acc.Nodup) :
    ∃ ns, h.namesForPaths ps acc = .ok ns ∧ ns.Nodup ∧
      ∀ x, x ∈ ns ↔ x ∈ acc ∨ ∃ p ∈ ps, h.nameForPath p = .ok x := by
  induction ps generalizing acc with
  | nil => exact ⟨acc, rfl, ha, by simp⟩
  | cons p ps ih =>
    obtain ⟨i, hi⟩ := hp p (by simp)
    obtain ⟨n, hn⟩ := B.reaches_name hi
    obtain ⟨ns, h1, h2, h3⟩ := ih (fun q hq => hp q (by simp [hq])) (setAdd acc n) (nodup_setAdd ha n)
    refine ⟨ns, ?_, h2, ?_⟩
    · simp only [Helper.namesForPaths, hn, bind, Except.bind]
      exact h1
    · intro x
      rw [h3, mem_setAdd]
      simp only [List.mem_cons, exists_eq_or_imp, hn, Except.ok.injEq]
      constructor
      · rintro ((h | h) | h)
        · exact .inl h
        · exact .inr (.inl h.symm)
        · exact .inr (.inr h)
      · rintro (h | h | h)
        · exact .inl (.inl h)
        · exact .inl (.inr h.symm)
        · exact .inr h

/-- The names that are requested. -/
theorem needed_ok (pick : List Name → Nat) {ps ds : List (List Action)}
    (hps : ∀ p ∈ ps, ∃ i, Reaches b s p i) (hds : ∀ p ∈ ds, ∃ i, Reaches b s p i) :
    ∃ R, h.neededTo pick ps ds = .ok (some R) ∧ R.Nodup ∧
      ∀ n, n ∈ R ↔ ∃ q r m, h.nameForPath q = .ok n ∧ h.nameForPath (q ++ r) = .ok m ∧
        ((∃ p ∈ ps, h.nameForPath p = .ok m) ∨ ∃ p ∈ ds, ∃ r', h.nameForPath (p ++ r') = .ok m) := by
  obtain ⟨ns1, e1, nd1, m1⟩ := B.namesForPaths_ok hds [] (by simp)
  have v1 : ∀ x ∈ ns1, ∃ p, h.nameForPath p = .ok x := by
    intro x hx
    rcases (m1 x).1 hx with h0 | ⟨p, _, hp⟩
    · cases h0
    · exact ⟨p, hp⟩
  obtain ⟨below, e2, nd2, m2⟩ := B.descendants_ok pick v1
  obtain ⟨ns2, e3, nd3, m3⟩ := B.namesForPaths_ok hps [] (by simp)
  have mT : ∀ m, m ∈ setUpdate (setUpdate ns1 below) ns2 ↔
      ((∃ p ∈ ps, h.nameForPath p = .ok m) ∨ ∃ p ∈ ds, ∃ r', h.nameForPath (p ++ r') = .ok m) := by
    intro m
    rw [mem_setUpdate, mem_setUpdate, m1, m2, m3]
    constructor
    · rintro ((h0 | ⟨x, hx, hp⟩) | h0)
      · rcases h0 with h0 | ⟨p, hp, hm⟩
        · cases h0
        · exact .inr ⟨p, hp, [], by rw [List.append_nil]; exact hm⟩
      · obtain ⟨q, r, _, g1, g2⟩ := (B.gplus_iff x m).1 hp
        rcases (m1 x).1 hx with h0 | ⟨p, hp, hm⟩
        · cases h0
        · exact .inr ⟨p, hp, r, B.glue hm g1 g2⟩
      · rcases h0 with h0 | h0
        · cases h0
        · exact .inl h0
    · rintro (h0 | ⟨p, hp, r, hm⟩)
      · exact .inr (.inr h0)
      · by_cases hr : r = []
        · subst hr
          rw [List.append_nil] at hm
          exact .inl (.inl (.inr ⟨p, hp, hm⟩))
        · obtain ⟨x, hx⟩ := B.name_prefix hm
          exact .inl (.inr ⟨x, (m1 x).2 (.inr ⟨p, hp, hx⟩), (B.gplus_iff x m).2 ⟨p, r, hr, hx, hm⟩⟩)
  have vT : ∀ x ∈ setUpdate (setUpdate ns1 below) ns2, ∃ p, h.nameForPath p = .ok x := by
    intro x hx
    rcases (mT x).1 hx with ⟨p, _, hp⟩ | ⟨p, _, r, hp⟩
    · exact ⟨p, hp⟩
    · exact ⟨_, hp⟩
  obtain ⟨above, e4, nd4, m4⟩ := B.ancestors_ok pick vT
  refine ⟨setUpdate (setUpdate (setUpdate ns1 below) ns2) above, ?_, ?_, ?_⟩
  · simp only [Helper.neededTo, B.checkPaths_ok hps, B.checkPaths_ok hds, e1, e2, e3, e4, bind,
      Except.bind, pure, Except.pure]
  · exact nodup_setUpdate (nodup_setUpdate (nodup_setUpdate nd1 _) _) _
  · intro n
    rw [mem_setUpdate, m4]
    constructor
    · rintro (h0 | ⟨m, hm, hp⟩)
      · obtain ⟨q, hq⟩ := vT n h0
        exact ⟨q, [], n, hq, by rw [List.append_nil]; exact hq, (mT n).1 h0⟩
      · obtain ⟨q, r, _, g1, g2⟩ := (B.gplus_iff n m).1 hp
        exact ⟨q, r, m, g1, g2, (mT m).1 hm⟩
    · rintro ⟨q, r, m, g1, g2, g3⟩
      by_cases hr : r = []
      · subst hr
        rw [List.append_nil, g1] at g2
        cases g2
        exact .inl ((mT n).2 g3)
      · exact .inr ⟨m, (mT m).2 g3, (B.gplus_iff n m).2 ⟨q, r, hr, g1, g2⟩⟩

theorem schemas_ok {p : List Action} {n : Name} {i : Item} (hp : h.nameForPath p = .ok n)
    (hi : Reaches b s p i) : h.schemas.lookup n = some i := by
  obtain ⟨m, h1, rfl⟩ := (B.name_iff p n).1 hp
  obtain ⟨w, hw, rfl⟩ := place_work h1
  have e := B.done.schemas rfl w hw
  rw [← h1.reaches.functional B.hb hi, placeOf_item]
  exact e

/-! ### Bags -/

/-- The path has a name in the set. -/
theorem loaded_glue {names : List Name} {p q r : List Action} {id : Id}
    (hp : Reaches b s p (.struct id)) (hq : Reaches b s q (.struct id))
    (h1 : ∃ n ∈ names, h.nameForPath (q ++ r) = .ok n) : ∃ n ∈ names, h.nameForPath (p ++ r) = .ok n := by
  obtain ⟨n, hn, h2⟩ := h1
  obtain ⟨x, h3, h4⟩ := (B.same_iff p q).1 ⟨_, .struct hp, .struct hq⟩
  exact ⟨n, hn, B.glue h3 h4 h2⟩

theorem struct_name {p : List Action} {id : Id} (hp : Reaches b s p (.struct id)) :
    h.nameForPath p = .ok (encodeId id) := (B.name_iff _ _).2 ⟨_, .struct hp, rfl⟩

theorem work_names {w : Work} {id : Id} {a : Action} (hw : EdgeWork b (rootWork s) w id a)
    {p : List Action} (hp : Reaches b s p (.struct id)) :
    h.nameForPath p = .ok (pn w) ∧ h.nameForPath (p ++ [a]) = .ok (nm t w) := by
  refine ⟨?_, (B.name_iff _ _).2 ⟨_, edge_place hw hp, rfl⟩⟩
  rw [B.struct_name hp]
  simp only [pn, hw.parent]

theorem marker_invalid (p : List Action) : h.nameForPath p ≠ .ok noParentMarker := by
  intro hp
  obtain ⟨n, _, h2⟩ := (B.name_iff _ _).1 hp
  cases n with
  | struct id => exact marker_not_name id h2.symm
  | root d =>
    have : ':' ∈ noParentMarker := by rw [← h2]; simp [nodeName]
    exact absurd this (by decide)
  | leaf id a d =>
    have : ':' ∈ noParentMarker := by rw [← h2]; simp [nodeName]
    exact absurd this (by decide)

/-- The entries of the relationship bags are facts about subschemas. -/
theorem mem_factsOf {w : Work} (hw : IsWork b (rootWork s) w) (id : Id) (k : Key) (v : Val) :
    ((id, k), v) ∈ factsOf b w ↔
      ((id, k), v) ∈ stubEntries b w.child ∨
        ∃ a, EdgeWork b (rootWork s) w id a ∧ k = actionKey a ∧ v = .item w.child := by
  have hedge : ∀ id' a', EdgeWork b (rootWork s) w id' a' →
      (((id, k), v) ∈ factsOf b w ↔ ((id, k), v) ∈ stubEntries b w.child ∨
        ∃ a, EdgeWork b (rootWork s) w id a ∧ k = actionKey a ∧ v = .item w.child) := by
    intro id' a' he
    simp only [factsOf, he.parent, he.action, List.mem_cons, Prod.mk.injEq]
    constructor
    · rintro (⟨⟨rfl, rfl⟩, rfl⟩ | h0)
      · exact .inr ⟨a', he, rfl, rfl⟩
      · exact .inl h0
    · rintro (h0 | ⟨a, he2, rfl, rfl⟩)
      · exact .inr h0
      · have h1 := he.parent.symm.trans he2.parent
        have h2 := he.action.symm.trans he2.action
        cases h1; cases h2
        exact .inl ⟨⟨rfl, rfl⟩, rfl⟩
  rcases hw with rfl | ⟨id', a', he⟩
  · simp only [factsOf, rootWork]
    constructor
    · exact .inl
    · rintro (h0 | ⟨a, he, _⟩)
      · exact h0
      · have := he.parent
        simp at this
  · exact hedge id' a' he

theorem factsOf_facts {w : Work} (hw : IsWork b (rootWork s) w) {id : Id} {k : Key} {v : Val}
    (hm : ((id, k), v) ∈ factsOf b w) : Fact b id k v := by
  rcases (B.mem_factsOf hw id k v).1 hm with h1 | ⟨a, he, rfl, rfl⟩
  · exact ((mem_stubEntries b w.child id k v).1 h1).2.2
  · exact fact_of_step he.step

theorem bag_iff {x y : Name} {bag : Bag} (hl : h.bags.lookup (x, y) = some bag) (e : (Id × Key) × Val) :
    e ∈ bag ↔ ∃ w, IsWork b (rootWork s) w ∧ pn w = x ∧ nm t w = y ∧ e ∈ factsOf b w := by
  constructor
  · intro he
    obtain ⟨w, hw, hk, hf⟩ := B.done.bagsSound _ _ hl e he
    cases hk
    exact ⟨w, hw, rfl, rfl, hf⟩
  · rintro ⟨w, hw, rfl, rfl, hf⟩
    obtain ⟨bag', h1, h2⟩ := B.done.bags rfl w hw
    simp only at h1
    rw [hl] at h1
    cases h1
    exact h2 _ hf

theorem stubBags_ok {names : List Name} (hn : ∀ n ∈ names, ∃ p, h.nameForPath p = .ok n) :
    ∃ bags, h.stubBags names = .ok bags ∧ ∀ e, (∃ bag ∈ bags, e ∈ bag) ↔
      ∃ p i, (∃ n ∈ names, h.nameForPath p = .ok n) ∧ Reaches b s p i ∧ e ∈ stubEntries b i := by
  induction names with
  | nil => exact ⟨[], rfl, by simp⟩
  | cons n ns ih =>
    obtain ⟨bags, h1, h2⟩ := ih fun x hx => hn x (by simp [hx])
    obtain ⟨p, hp⟩ := hn n (by simp)
    obtain ⟨i, hi⟩ := B.name_reaches hp
    have hmeta : metadataAllowed b i = true := by
      obtain ⟨w, hw, hc⟩ := child_work (w0 := rootWork s) hi
      rw [← hc]
      exact (B.done.good w hw).2 rfl
    refine ⟨stubEntries b i :: bags, ?_, ?_⟩
    · simp only [Helper.stubBags, B.schemas_ok hp hi, B.store, schemaStubBag_ok hmeta, h1, bind,
        Except.bind, pure, Except.pure]
    · intro e
      simp only [List.mem_cons, exists_eq_or_imp, h2]
      constructor
      · rintro (h3 | ⟨q, j, ⟨m, hm, hq⟩, hj, he⟩)
        · exact ⟨p, i, .inl hp, hi, h3⟩
        · exact ⟨q, j, .inr ⟨m, hm, hq⟩, hj, he⟩
      · rintro ⟨q, j, (hq | hq), hj, he⟩
        · have h4 := B.schemas_ok hq hj
          rw [B.schemas_ok hp hi] at h4
          cases h4
          exact .inl he
        · exact .inr ⟨q, j, hq, hj, he⟩

theorem schemaBag_ok {names : List Name} (hn : ∀ n ∈ names, ∃ p, h.nameForPath p = .ok n) :
    ∃ bag, h.schemaBag names = .ok bag ∧ ∀ id k v, Says bag id k v ↔
      Fact b id k v ∧ ∃ p, Reaches b s p (.struct id) ∧ (∃ n ∈ names, h.nameForPath p = .ok n) ∧
        ∀ a, KeyOf a k → ∃ n ∈ names, h.nameForPath (p ++ [a]) = .ok n := by
  obtain ⟨stubs, h1, h2⟩ := B.stubBags_ok hn
  refine ⟨_, by simp only [Helper.schemaBag, B.checkAll_ok hn, h1, bind, Except.bind, pure, Except.pure]; rfl, ?_⟩
  have hrel : ∀ e, (∃ bag ∈ (h.bags.filter fun e =>
      names.contains e.1.2 && (e.1.1 == noParentMarker || names.contains e.1.1)).map (·.2), e ∈ bag) ↔
      ∃ w, IsWork b (rootWork s) w ∧ nm t w ∈ names ∧ (pn w = noParentMarker ∨ pn w ∈ names) ∧
        e ∈ factsOf b w := by
    intro e
    simp only [List.mem_map, List.mem_filter, Bool.and_eq_true, Bool.or_eq_true, beq_iff_eq,
      List.contains_iff_mem]
    constructor
    · rintro ⟨bag, ⟨⟨⟨x, y⟩, bag'⟩, ⟨hm, h3, h4⟩, rfl⟩, he⟩
      have hl := mem_lookup B.done.bagsNodup hm
      obtain ⟨w, hw, rfl, rfl, hf⟩ := (B.bag_iff hl e).1 he
      exact ⟨w, hw, h3, h4, hf⟩
    · rintro ⟨w, hw, h3, h4, hf⟩
      obtain ⟨bag, h5, h6⟩ := B.done.bags rfl w hw
      exact ⟨bag, ⟨((pn w, nm t w), bag), ⟨lookup_mem h5, h3, h4⟩, rfl⟩, h6 _ hf⟩
  have hmem : ∀ id k v, ((id, k), v) ∈ bagsUpdated (stubs ++ (h.bags.filter fun e =>
      names.contains e.1.2 && (e.1.1 == noParentMarker || names.contains e.1.1)).map (·.2)) ↔
      Fact b id k v ∧ ∃ p, Reaches b s p (.struct id) ∧ (∃ n ∈ names, h.nameForPath p = .ok n) ∧
        ∀ a, KeyOf a k → ∃ n ∈ names, h.nameForPath (p ++ [a]) = .ok n := by
    intro id k v
    rw [mem_bagsUpdated]
    simp only [List.mem_append, or_and_right, exists_or]
    rw [h2, hrel]
    have hstub : ∀ p i, (∃ n ∈ names, h.nameForPath p = .ok n) → Reaches b s p i →
        ((id, k), v) ∈ stubEntries b i → Fact b id k v ∧ ∃ p, Reaches b s p (.struct id) ∧
        (∃ n ∈ names, h.nameForPath p = .ok n) ∧
        ∀ a, KeyOf a k → ∃ n ∈ names, h.nameForPath (p ++ [a]) = .ok n := by
      intro p i hp hi he
      obtain ⟨rfl, hk, hf⟩ := (mem_stubEntries b i id k v).1 he
      refine ⟨hf, p, hi, hp, fun a ha => ?_⟩
      rcases hk with rfl | rfl <;> cases ha
    constructor
    · rintro (⟨p, i, hp, hi, he⟩ | ⟨w, hw, h3, h4, he⟩)
      · exact hstub p i hp hi he
      · rcases (B.mem_factsOf hw id k v).1 he with h5 | ⟨a, he2, rfl, rfl⟩
        · obtain ⟨p, hp⟩ := work_place hw
          have hr := hp.reaches
          rw [placeOf_item] at hr
          exact hstub p w.child ⟨_, h3, (B.name_iff _ _).2 ⟨_, hp, rfl⟩⟩ hr h5
        · obtain ⟨p, hp⟩ := he2.reach
          obtain ⟨e1, e2⟩ := B.work_names he2 hp
          refine ⟨fact_of_step he2.step, p, hp, ?_, ?_⟩
          · rcases h4 with h4 | h4
            · rw [h4] at e1; exact absurd e1 (B.marker_invalid p)
            · exact ⟨_, h4, e1⟩
          · intro a' ha'
            rw [← actionKey_inj ((keyOf_iff a' _).1 ha')]
            exact ⟨_, h3, e2⟩
    · rintro ⟨hf, p, hp, hn1, hn2⟩
      have hs : ∀ (k' : Key) (v' : Val), (k' = .schemaName ∨ k' = .schemaMetadata) → Fact b id k' v' →
          ((id, k'), v') ∈ stubEntries b (.struct id) := fun k' v' hk hf =>
        (mem_stubEntries b (.struct id) id k' v').2 ⟨rfl, hk, hf⟩
      by_cases hk : k = .schemaName ∨ k = .schemaMetadata
      · exact .inl ⟨p, _, hn1, hp, hs _ _ hk hf⟩
      · have : ∃ i, v = .item i := by
          cases hf with
          | name _ => exact absurd (.inl rfl) hk
          | metadata _ => exact absurd (.inr rfl) hk
          | items _ => exact ⟨_, rfl⟩
          | keys _ => exact ⟨_, rfl⟩
          | values _ => exact ⟨_, rfl⟩
          | attr _ => exact ⟨_, rfl⟩
        obtain ⟨i, rfl⟩ := this
        obtain ⟨a, rfl, hst⟩ := fact_item hf
        have he := step_edge hp hst
        obtain ⟨e1, e2⟩ := B.work_names he hp
        obtain ⟨x, hx, e3⟩ := hn1
        obtain ⟨y, hy, e4⟩ := hn2 a ((keyOf_iff a _).2 rfl)
        rw [← Except.ok.inj (e1.symm.trans e3)] at hx
        rw [← Except.ok.inj (e2.symm.trans e4)] at hy
        exact .inr ⟨_, .inr ⟨_, _, he⟩, hy, .inr hx,
          (B.mem_factsOf (.inr ⟨_, _, he⟩) _ _ _).2 (.inr ⟨a, he, rfl, rfl⟩)⟩
  intro id k v
  unfold Says
  rw [lookup_iff_mem B.hb, hmem]
  intro k' v' hm
  exact ((hmem k'.1 k'.2 v').1 hm).1

end Built

end Verif.SchemaHelper
