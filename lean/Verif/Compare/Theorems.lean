import Verif.Compare.Loop
import Verif.Compare.Cases
import Verif.Traverse.Theorems

/-!
C74: `kd.testing.assert_equivalent` and the operators below it find exactly the differences between
two slices. C75: which schemas are compatible.
-/

namespace Verif.Compare

open Verif.ObjectId
open Verif.Uuid
open Verif.Traverse (Bag Name Pair exEntity exList exDict exSchema exA exMe exKids exBag itemsName
  keysName valuesName)

/-! ### C74 -/

section
variable {lt : Item → Item → Bool} {P : Params} {bl br : Bag} {fuel : Nat} {xs ys : List Item}
  {ls rs : Item}

/-- **C74, sizes.** Slices of different sizes are not compared. -/
theorem C74_sizes (h : xs.length ≠ ys.length) :
    deepEquivalent lt P bl br fuel xs ls ys rs = some (.error .sizes) := by
  unfold deepEquivalent compareSlices
  rw [if_pos h]

/-- What `deepEquivalent` says in terms of what was compared. -/
theorem deepEquivalent_spec (v : ValueOrder lt) (hbl : BagOk bl) (hbr : BagOk br)
    (hlen : xs.length = ys.length) {res : Except Err (List Diff)}
    (h : deepEquivalent lt P bl br fuel xs ls ys rs = some res) :
    (∃ ds, res = .ok ds ∧
      (∀ D, D ∈ ds.map see ↔ Matters (equivalence P) bl br (Start xs ls ys rs) D) ∧
      (∀ l r, Together (equivalence P) bl br (Start xs ls ys rs) l r → CanRead bl l ∧ CanRead br r)) ∨
    ((∃ e, res = .error e) ∧ ∃ l r, Together (equivalence P) bl br (Start xs ls ys rs) l r ∧
      ¬ (CanRead bl l ∧ CanRead br r)) := by
  unfold deepEquivalent at h
  cases hc : compareSlices (equivalent lt P) bl br fuel xs ls ys rs with
  | none => rw [hc] at h; cases h
  | some r =>
    rw [hc] at h
    rcases compareSlices_spec (equivalent_follows lt P) hbl hbr (compareOrder_ok v)
      (fun l r _ _ => ⟨keysIn_all _ _, keysIn_all _ _⟩) hlen hc with
      ⟨st, rfl, h1, _, _, h4⟩ | ⟨⟨e, rfl⟩, l, r, h1, _, h2⟩
    · cases h
      exact .inl ⟨_, rfl, h1, fun l r hT => h4 l r hT trivial⟩
    · cases h
      exact .inr ⟨⟨_, rfl⟩, l, r, h1, h2⟩

/-- **C74, the differences.** What is reported are exactly the differences that matter between
the items that are reached on the same paths: no other, and each one. -/
theorem C74_differences (v : ValueOrder lt) (hbl : BagOk bl) (hbr : BagOk br) {ds : List Diff}
    (h : deepEquivalent lt P bl br fuel xs ls ys rs = some (.ok ds)) (D : Difference) :
    D ∈ ds.map see ↔ Matters (equivalence P) bl br (Start xs ls ys rs) D := by
  have hlen : xs.length = ys.length := Decidable.byContradiction fun hl => by
    rw [C74_sizes hl] at h; cases h
  rcases deepEquivalent_spec v hbl hbr hlen h with ⟨ds', he, h1, _⟩ | ⟨⟨e, he⟩, _⟩
  · cases he; exact h1 D
  · cases he

/-- **C74, equivalence.** No difference is reported exactly if the slices have the same size and
the items at the same positions are equivalent; if both slices are empty, their schemas are
compared as those of missing items. -/
theorem C74_equivalent (v : ValueOrder lt) (hbl : BagOk bl) (hbr : BagOk br) {ds : List Diff}
    (h : deepEquivalent lt P bl br fuel xs ls ys rs = some (.ok ds)) :
    xs.length = ys.length ∧
    (ds = [] ↔ ∀ i l r, Start xs ls ys rs i l r → Equivalent P bl br l r) := by
  refine ⟨Decidable.byContradiction fun hl => (by rw [C74_sizes hl] at h; cases h), ?_⟩
  have h1 := C74_differences v hbl hbr h
  unfold Equivalent
  rw [← no_difference hbl hbr]
  constructor
  · rintro rfl D hD
    exact absurd ((h1 D).mpr hD) (by simp)
  · intro h2
    cases ds with
    | nil => rfl
    | cons d ds => exact absurd ((h1 (see d)).mp (by simp)) (h2 _)

/-- **C74, errors.** Slices of the same size are compared without an error exactly if all the
items that are reached on the same paths can be read. -/
theorem C74_errors (v : ValueOrder lt) (hbl : BagOk bl) (hbr : BagOk br)
    (hlen : xs.length = ys.length) {res : Except Err (List Diff)}
    (h : deepEquivalent lt P bl br fuel xs ls ys rs = some res) :
    (∃ ds, res = .ok ds) ↔
      ∀ l r, Together (equivalence P) bl br (Start xs ls ys rs) l r → CanRead bl l ∧ CanRead br r := by
  rcases deepEquivalent_spec v hbl hbr hlen h with ⟨ds, rfl, _, h1⟩ | ⟨⟨e, rfl⟩, l, r, h1, h2⟩
  · exact ⟨fun _ => h1, fun _ => ⟨ds, rfl⟩⟩
  · refine ⟨?_, fun h3 => absurd (h3 l r h1) h2⟩
    rintro ⟨ds, h3⟩
    cases h3

/-- **C74, termination.** If finitely many pairs of items are reached, the comparison ends,
also if items refer to each other in circles. -/
theorem C74_ends (v : ValueOrder lt) (hbl : BagOk bl) (hbr : BagOk br) {all : List (Pair × Pair)}
    (hall : ∀ l r, Together (equivalence P) bl br (Start xs ls ys rs) l r → (l, r) ∈ all) :
    ∃ n, ∀ m, n ≤ m → (deepEquivalent lt P bl br m xs ls ys rs).isSome = true := by
  obtain ⟨n, hn⟩ := compareSlices_ends (equivalent_follows lt P) hbl hbr (compareOrder_ok v)
    (fun l r _ _ => ⟨keysIn_all _ _, keysIn_all _ _⟩) hall
  refine ⟨n, fun m hm => ?_⟩
  have := hn m hm
  unfold deepEquivalent
  split
  · rename_i h; rw [h] at this; cases this
  · rfl
  · rfl

/-- **C74, one result.** The result does not depend on how many steps are allowed. -/
theorem C74_result {n m : Nat} {res res' : Except Err (List Diff)}
    (h : deepEquivalent lt P bl br n xs ls ys rs = some res)
    (h' : deepEquivalent lt P bl br m xs ls ys rs = some res') : res = res' := by
  have key : ∀ {n m : Nat} {res : Except Err (List Diff)}, n ≤ m →
      deepEquivalent lt P bl br n xs ls ys rs = some res →
      deepEquivalent lt P bl br m xs ls ys rs = some res := by
    intro n m res hnm h
    unfold deepEquivalent at h ⊢
    cases hc : compareSlices (equivalent lt P) bl br n xs ls ys rs with
    | none => rw [hc] at h; cases h
    | some r => rw [compareSlices_more hnm hc]; rwa [hc] at h
  rcases Nat.le_total n m with hnm | hnm
  · have := key hnm h
    rw [h'] at this
    exact (Option.some.inj this).symm
  · have := key hnm h'
    rw [h] at this
    exact Option.some.inj this

/-! #### Laws of equivalence -/

theorem SameValue.refl (x : Item) : SameValue x x := .inl rfl

theorem SameValue.symm {x y : Item} (h : SameValue x y) : SameValue y x := by
  rw [sameValue_norm] at *
  exact h.symm

theorem SameValue.trans {x y z : Item} (h : SameValue x y) (h' : SameValue y z) : SameValue x z := by
  rw [sameValue_norm] at *
  exact h.trans h'

theorem SameValue.object {o : ObjectId} {y : Item} (h : SameValue (.object o) y) : y = .object o := by
  rw [sameValue_norm] at h
  exact norm_other h.symm

theorem Alike.refl (p : Pair) : Alike P p p := by
  refine ⟨fun _ => rfl, ?_⟩
  by_cases h : ∃ o, p.1 = .object o
  · obtain ⟨o, ho⟩ := h
    cases hi : P.ids with
    | true => exact .inr ⟨.inr (.inr rfl), .refl _⟩
    | false => exact .inl ⟨o, o, ho, ho, rfl, ⟨rfl, rfl, rfl⟩, fun h => ⟨h, rfl⟩⟩
  · exact .inr ⟨.inl fun o ho => h ⟨o, ho⟩, .refl _⟩

theorem Alike.symm (hs : P.schemas = true) {l r : Pair} (h : Alike P l r) : Alike P r l := by
  obtain ⟨h1, h2⟩ := h
  refine ⟨fun h => (h1 h).symm, ?_⟩
  rcases h2 with ⟨o, o', a, b, c, ⟨d1, d2, d3⟩, e⟩ | ⟨a, b⟩
  · refine .inl ⟨o', o, b, a, c, ⟨d1.symm, d2.symm, d3.symm⟩, fun h => ?_⟩
    have h' : l.2 = .dtype 10 := (h1 hs).trans h
    exact ⟨h', (e h').2.symm⟩
  · refine .inr ⟨?_, b.symm⟩
    rcases a with a | a | a
    · exact .inr (.inl a)
    · exact .inl a
    · exact .inr (.inr a)

theorem Alike.trans {l m r : Pair} (h : Alike P l m) (h' : Alike P m r) : Alike P l r := by
  obtain ⟨h1, h2⟩ := h
  obtain ⟨h3, h4⟩ := h'
  refine ⟨fun h => (h1 h).trans (h3 h), ?_⟩
  rcases h2 with ⟨o, o', a, b, c, ⟨d1, d2, d3⟩, e⟩ | ⟨a, b⟩
  · rcases h4 with ⟨p, p', a', b', c', ⟨d1', d2', d3'⟩, e'⟩ | ⟨a', b'⟩
    · have : o' = p := by rw [b] at a'; exact Item.object.inj a'
      subst this
      refine .inl ⟨o, p', a, b', c, ⟨d1.trans d1', d2.trans d2', d3.trans d3'⟩, fun h => ?_⟩
      obtain ⟨f1, f2⟩ := e h
      obtain ⟨f3, f4⟩ := e' f1
      exact ⟨f3, f2.trans f4⟩
    · exfalso
      rw [b] at b'
      have hr := b'.object
      rcases a' with a' | a' | a'
      · exact a' _ b
      · exact a' _ hr
      · rw [c] at a'; cases a'
  · rcases h4 with ⟨p, p', a', b', c', ⟨d1', d2', d3'⟩, e'⟩ | ⟨a', b'⟩
    · exfalso
      rw [a'] at b
      have hr := b.symm.object
      rcases a with a | a | a
      · exact a _ hr
      · exact a _ a'
      · rw [c'] at a; cases a
    · refine .inr ⟨?_, b.trans b'⟩
      rcases a with a | a | a
      · exact .inl a
      · left
        intro o ho
        rw [ho] at b
        exact a _ b.object
      · exact .inr (.inr a)

theorem Equivalent.refl {b : Bag} (hb : BagOk b) (p : Pair) : Equivalent P b b p p := by
  refine ⟨fun l r => l = r, ⟨?_, ?_, ?_, ?_⟩, rfl⟩
  · rintro l r rfl; exact Alike.refl l
  · rintro l r n p q rfl _ h1 h2; exact .inl (h1.unique hb h2)
  · rintro l r n p rfl _ h1 h2; exact absurd h1 (h2 p)
  · rintro l r n p rfl _ h1 h2; exact absurd h1 (h2 p)

/-- **C74, reflexivity.** Slices of items that are equal in the same bag have no difference. -/
theorem C74_self (v : ValueOrder lt) {b : Bag} (hb : BagOk b) {ds : List Diff}
    (h : deepEquivalent lt P b b fuel xs ls xs ls = some (.ok ds)) : ds = [] := by
  refine (C74_equivalent v hb hb h).2.mpr ?_
  rintro i l r (⟨x, y, h1, h2, rfl, rfl⟩ | ⟨_, _, _, rfl, rfl⟩)
  · rw [h1] at h2; cases h2; exact Equivalent.refl hb _
  · exact Equivalent.refl hb _

theorem Equivalent.symm (hp : P.partly = false) (hs : P.schemas = true) {l r : Pair}
    (h : Equivalent P bl br l r) : Equivalent P br bl r l := by
  obtain ⟨R, hR, hlr⟩ := h
  refine ⟨fun a b => R b a, ⟨?_, ?_, ?_, ?_⟩, hlr⟩
  · intro a b hab; exact (hR.alike _ _ hab).symm hs
  · intro a b n p q hab _ h1 h2
    rcases hR.both _ _ _ _ _ hab trivial h2 h1 with h | ⟨_, h⟩
    · exact .inl h
    · exact absurd (fun h => by rw [hp] at h; cases h) h
  · intro a b n p hab _ h1 h2 h3
    exact hR.right _ _ _ _ hab trivial h1 h2 (.inr hs)
  · intro a b n p hab _ h1 h2 h3
    exact hR.left _ _ _ _ hab trivial h1 h2 ⟨(fun h => by rw [hp] at h; cases h), .inr hs⟩

/-- **C74, symmetry.** When schemas are compared and the comparison is not partial, the order of
the slices does not matter. -/
theorem C74_symmetric (v : ValueOrder lt) (hbl : BagOk bl) (hbr : BagOk br) (hp : P.partly = false)
    (hs : P.schemas = true) {n : Nat} {ds ds' : List Diff}
    (h : deepEquivalent lt P bl br fuel xs ls ys rs = some (.ok ds))
    (h' : deepEquivalent lt P br bl n ys rs xs ls = some (.ok ds')) : ds = [] ↔ ds' = [] := by
  have key : ∀ {bl br : Bag} {xs ys : List Item} {ls rs : Item} {fuel n : Nat} {ds ds' : List Diff},
      BagOk bl → BagOk br →
      deepEquivalent lt P bl br fuel xs ls ys rs = some (.ok ds) →
      deepEquivalent lt P br bl n ys rs xs ls = some (.ok ds') → ds = [] → ds' = [] := by
    intro bl br xs ys ls rs fuel n ds ds' hbl hbr h h' h0
    have h1 := (C74_equivalent v hbl hbr h).2.mp h0
    refine (C74_equivalent v hbr hbl h').2.mpr ?_
    intro i l r hs'
    refine (h1 i r l ?_).symm hp hs
    rcases hs' with ⟨x, y, h1, h2, rfl, rfl⟩ | ⟨h1, h2, rfl, rfl, rfl⟩
    · exact .inl ⟨_, _, h2, h1, rfl, rfl⟩
    · exact .inr ⟨h2, h1, rfl, rfl, rfl⟩
  exact ⟨key hbl hbr h h', key hbr hbl h' h⟩

theorem has_missing {b : Bag} {p q : Pair} {n : Label} (hp : p.1 = .missing) (h : Has b p n q) :
    q.1 = .missing := by
  obtain ⟨e, _, h⟩ := h
  rw [hp] at h
  cases h with
  | item _ _ h => simp [itemsOf] at h
  | noItems => rfl
  | key _ _ h => simp [dictOf] at h
  | value _ _ h => simp [dictOf] at h
  | noKeys => rfl
  | noValues => rfl
  | attr => rfl
  | schemaAttr h => cases h

theorem alike_missing {l r : Pair} (h : Alike P l r) : l.1 = .missing ↔ r.1 = .missing := by
  rcases h.2 with ⟨o, o', a, b, _⟩ | ⟨_, h⟩
  · rw [a, b]; constructor <;> intro h <;> cases h
  · constructor
    · intro h1; rw [h1] at h; exact sameValue_missing h
    · intro h1; rw [h1] at h; exact sameValue_missing h.symm

theorem Equivalent.trans {bm : Bag} (hp : P.partly = false) {l m r : Pair}
    (h : Equivalent P bl bm l m) (h' : Equivalent P bm br m r) : Equivalent P bl br l r := by
  obtain ⟨R, hR, hlm⟩ := h
  obtain ⟨S, hS, hmr⟩ := h'
  have np : ∀ {Q : Prop}, P.partly = true → Q := fun h => by rw [hp] at h; cases h
  have rl : ∀ {a b n p}, R a b → Has bl a n p → (∀ q, ¬ Has bm b n q) →
      p.1 = .missing ∧ P.schemas = false := by
    intro a b n p hab h1 h2
    have := hR.left _ _ _ _ hab trivial h1 h2
    simp only [equivalence] at this
    refine ⟨Decidable.byContradiction fun h => this ⟨np, .inl h⟩, ?_⟩
    cases hs : P.schemas with
    | false => rfl
    | true => exact absurd ⟨np, .inr hs⟩ this
  have sr : ∀ {a b n q}, S a b → Has br b n q → (∀ p, ¬ Has bm a n p) →
      q.1 = .missing ∧ P.schemas = false := by
    intro a b n p hab h1 h2
    have := hS.right _ _ _ _ hab trivial h1 h2
    simp only [equivalence] at this
    refine ⟨Decidable.byContradiction fun h => this (.inl h), ?_⟩
    cases hs : P.schemas with
    | false => rfl
    | true => exact absurd (.inr hs) this
  have rr : ∀ {a b n q}, R a b → Has bm b n q → (∀ p, ¬ Has bl a n p) →
      q.1 = .missing ∧ P.schemas = false := by
    intro a b n p hab h1 h2
    have := hR.right _ _ _ _ hab trivial h1 h2
    simp only [equivalence] at this
    refine ⟨Decidable.byContradiction fun h => this (.inl h), ?_⟩
    cases hs : P.schemas with
    | false => rfl
    | true => exact absurd (.inr hs) this
  have sl : ∀ {a b n p}, S a b → Has bm a n p → (∀ q, ¬ Has br b n q) →
      p.1 = .missing ∧ P.schemas = false := by
    intro a b n p hab h1 h2
    have := hS.left _ _ _ _ hab trivial h1 h2
    simp only [equivalence] at this
    refine ⟨Decidable.byContradiction fun h => this ⟨np, .inl h⟩, ?_⟩
    cases hs : P.schemas with
    | false => rfl
    | true => exact absurd ⟨np, .inr hs⟩ this
  have rb : ∀ {a b n p q}, R a b → Has bl a n p → Has bm b n q → R p q := by
    intro a b n p q hab h1 h2
    rcases hR.both _ _ _ _ _ hab trivial h1 h2 with h | ⟨_, h⟩
    · exact h
    · exact absurd np h
  have sb : ∀ {a b n p q}, S a b → Has bm a n p → Has br b n q → S p q := by
    intro a b n p q hab h1 h2
    rcases hS.both _ _ _ _ _ hab trivial h1 h2 with h | ⟨_, h⟩
    · exact h
    · exact absurd np h
  have nl : ∀ {n p}, p.1 = .missing → P.schemas = false → ¬ (equivalence P).left n p := by
    rintro n p h1 h2 ⟨_, h | h⟩
    · exact h h1
    · rw [h2] at h; cases h
  have nr : ∀ {n p}, p.1 = .missing → P.schemas = false → ¬ (equivalence P).right n p := by
    rintro n p h1 h2 (h | h)
    · exact h h1
    · rw [h2] at h; cases h
  refine ⟨fun a c => (∃ b, R a b ∧ S b c) ∨ (P.schemas = false ∧ a.1 = .missing ∧ c.1 = .missing),
    ⟨?_, ?_, ?_, ?_⟩, .inl ⟨m, hlm, hmr⟩⟩
  · rintro a c (⟨b, h1, h2⟩ | ⟨h1, h2, h3⟩)
    · exact (hR.alike _ _ h1).trans (hS.alike _ _ h2)
    · refine ⟨fun h => (by rw [h1] at h; cases h), .inr ⟨.inl ?_, ?_⟩⟩
      · intro o ho; rw [h2] at ho; cases ho
      · rw [h2, h3]; exact .refl _
  · rintro a c n p q (⟨b, h1, h2⟩ | ⟨h1, h2, h3⟩) _ ha hc
    · left
      by_cases hb : ∃ z, Has bm b n z
      · obtain ⟨z, hz⟩ := hb
        exact .inl ⟨z, rb h1 ha hz, sb h2 hz hc⟩
      · have hb' : ∀ z, ¬ Has bm b n z := fun z hz => hb ⟨z, hz⟩
        obtain ⟨e1, e2⟩ := rl h1 ha hb'
        exact .inr ⟨e2, e1, (sr h2 hc hb').1⟩
    · exact .inl (.inr ⟨h1, has_missing h2 ha, has_missing h3 hc⟩)
  · rintro a c n p (⟨b, h1, h2⟩ | ⟨h1, h2, h3⟩) _ ha hc
    · by_cases hb : ∃ z, Has bm b n z
      · obtain ⟨z, hz⟩ := hb
        obtain ⟨e1, e2⟩ := sl h2 hz hc
        exact nl ((alike_missing (hR.alike _ _ (rb h1 ha hz))).mpr e1) e2
      · obtain ⟨e1, e2⟩ := rl h1 ha fun z hz => hb ⟨z, hz⟩
        exact nl e1 e2
    · exact nl (has_missing h2 ha) h1
  · rintro a c n p (⟨b, h1, h2⟩ | ⟨h1, h2, h3⟩) _ hc ha
    · by_cases hb : ∃ z, Has bm b n z
      · obtain ⟨z, hz⟩ := hb
        obtain ⟨e1, e2⟩ := rr h1 hz ha
        exact nr ((alike_missing (hS.alike _ _ (sb h2 hz hc))).mp e1) e2
      · obtain ⟨e1, e2⟩ := sr h2 hc fun z hz => hb ⟨z, hz⟩
        exact nr e1 e2
    · exact nr (has_missing h3 hc) h1

/-- **C74, transitivity.** Slices that are equivalent to the same slice are equivalent, unless the
comparison is partial. -/
theorem C74_transitive (v : ValueOrder lt) {bm : Bag} (hbl : BagOk bl) (hbm : BagOk bm) (hbr : BagOk br)
    (hp : P.partly = false) {n k : Nat} {zs : List Item} {ms : Item} {ds : List Diff}
    (h : deepEquivalent lt P bl bm fuel xs ls zs ms = some (.ok []))
    (h' : deepEquivalent lt P bm br n zs ms ys rs = some (.ok []))
    (h'' : deepEquivalent lt P bl br k xs ls ys rs = some (.ok ds)) : ds = [] := by
  obtain ⟨l1, h1⟩ := C74_equivalent v hbl hbm h
  obtain ⟨l2, h2⟩ := C74_equivalent v hbm hbr h'
  have h1 := h1.mp rfl
  have h2 := h2.mp rfl
  refine (C74_equivalent v hbl hbr h'').2.mpr ?_
  rintro i l r (⟨x, y, a, b, rfl, rfl⟩ | ⟨rfl, rfl, rfl, rfl, rfl⟩)
  · obtain ⟨z, hz⟩ : ∃ z, zs[i]? = some z := by
      have : i < zs.length := by
        rw [← l1]
        exact (List.getElem?_eq_some_iff.mp a).1
      exact ⟨zs[i], List.getElem?_eq_getElem this⟩
    exact Equivalent.trans hp (h1 i _ _ (.inl ⟨x, z, a, hz, rfl, rfl⟩))
      (h2 i _ _ (.inl ⟨z, y, hz, b, rfl, rfl⟩))
  · have hz : zs = [] := by cases zs with | nil => rfl | cons => cases l1
    exact Equivalent.trans hp (h1 0 _ _ (.inr ⟨rfl, hz, rfl, rfl, rfl⟩))
      (h2 0 _ _ (.inr ⟨hz, rfl, rfl, rfl, rfl⟩))

end

/-! ### C75 -/

section
variable {lt : Item → Item → Bool} {P : SchemaParams} {castable : Item → Item → Bool} {bl br : Bag}
  {fuel : Nat} {x y : Item}

/-- **C75, comparison.** The comparison of two schemas does not fail, and says yes exactly if the
first schema can be cast to the second one. -/
theorem C75_compatible (v : ValueOrder lt) (hbl : BagOk bl) (hbr : BagOk br) (hl : NamesOk bl)
    (hr : NamesOk br) {res : Except Err Bool}
    (h : deepSchemaCompatible lt P castable bl br fuel x y = some res) :
    ∃ yes, res = .ok yes ∧ (yes = true ↔ Compatible P castable bl br x y) := by
  unfold deepSchemaCompatible at h
  cases hc : compareSlices (schemaCompatible lt P castable) bl br fuel [x] Traverse.kSchema [y]
      Traverse.kSchema with
  | none => rw [hc] at h; cases h
  | some r =>
    rw [hc] at h
    rcases compareSlices_spec (schemaCompatible_follows lt P castable) hbl hbr (compareNames_ok v)
      (fun l r hT _ => ⟨keysIn_schema (together_schema hl hr hT).1,
        keysIn_schema (together_schema hl hr hT).2.1⟩) (show [x].length = [y].length from rfl) hc with
      ⟨st, rfl, h1, _, _, h4⟩ | ⟨⟨e, rfl⟩, l, r, h1, _, h2⟩
    · cases h
      refine ⟨_, rfl, ?_⟩
      have e : st.diffs = [] ↔ ∀ D, ¬ Matters (compatibility P castable) bl br
          (Start [x] Traverse.kSchema [y] Traverse.kSchema) D := by
        constructor
        · intro h0 D hD
          have := (h1 D).mpr hD
          rw [h0] at this
          cases this
        · intro h2
          cases hd : st.diffs with
          | nil => rfl
          | cons d ds => exact absurd ((h1 (see d)).mp (by rw [hd]; simp)) (h2 _)
      rw [decide_eq_true_eq, e, no_difference hbl hbr]
      constructor
      · intro h; exact h 0 _ _ (.inl ⟨x, y, rfl, rfl, rfl, rfl⟩)
      · rintro h i l r (⟨x', y', a, b, rfl, rfl⟩ | ⟨a, _⟩)
        · cases i with
          | zero => cases a; cases b; exact h
          | succ i => cases a
        · cases a
    · exfalso
      obtain ⟨a, b, c, d⟩ := together_schema hl hr h1
      exact h2 ⟨canRead_schema a c, canRead_schema b d⟩

/-- **C75, termination.** If finitely many pairs of schemas are reached, the comparison ends. -/
theorem C75_ends (v : ValueOrder lt) (hbl : BagOk bl) (hbr : BagOk br) (hl : NamesOk bl)
    (hr : NamesOk br) {all : List (Pair × Pair)}
    (hall : ∀ l r, Together (compatibility P castable) bl br (Start [x] (.dtype 12) [y] (.dtype 12)) l r →
      (l, r) ∈ all) :
    ∃ n, ∀ m, n ≤ m → (deepSchemaCompatible lt P castable bl br m x y).isSome = true := by
  obtain ⟨n, hn⟩ := compareSlices_ends (schemaCompatible_follows lt P castable) hbl hbr
    (compareNames_ok v) (fun l r hT _ => ⟨keysIn_schema (together_schema hl hr hT).1,
        keysIn_schema (together_schema hl hr hT).2.1⟩) hall
  refine ⟨n, fun m hm => ?_⟩
  have := hn m hm
  unfold deepSchemaCompatible
  split
  · rename_i h
    have h' : compareSlices (schemaCompatible lt P castable) bl br m [x] (.dtype 12) [y] (.dtype 12) =
      none := h
    rw [h'] at this; cases this
  · rfl
  · rfl

/-- **C75, the assertion.** Equal schemas are compatible; if one of them is not the id of a schema,
only that pair is looked at; otherwise everything that is reached from them. -/
theorem C75_assert (v : ValueOrder lt) {b : Bag} (hb : BagOk b) (hn : NamesOk b)
    {res : Except Err Bool} (h : assertCompatible lt P castable b fuel x y = some res) :
    ∃ yes, res = .ok yes ∧ (yes = true ↔ x = y ∨
      (((∀ o, x ≠ .object o) ∨ ∀ o, y ≠ .object o) ∧ castable x y = true) ∨
      ((∃ o, x = .object o) ∧ (∃ o, y = .object o) ∧ Compatible P castable b b x y)) := by
  have hid : ∀ z, Traverse.holdsId z = true ↔ ∃ o, z = .object o := by
    intro z; cases z <;> simp [Traverse.holdsId]
  have hnid : ∀ z, Traverse.holdsId z = false ↔ ∀ o, z ≠ .object o := by
    intro z; cases z <;> simp [Traverse.holdsId]
  unfold assertCompatible at h
  by_cases hxy : x = y
  · rw [if_pos hxy] at h
    cases h
    exact ⟨true, rfl, by simp [hxy]⟩
  · rw [if_neg hxy] at h
    by_cases hi : (!Traverse.holdsId x || !Traverse.holdsId y) = true
    · rw [if_pos hi] at h
      cases h
      refine ⟨_, rfl, ?_⟩
      simp only [Bool.or_eq_true, Bool.not_eq_true', hnid] at hi
      constructor
      · intro h; exact .inr (.inl ⟨hi, h⟩)
      · rintro (h | ⟨_, h⟩ | ⟨⟨o, rfl⟩, ⟨o', rfl⟩, _⟩)
        · exact absurd h hxy
        · exact h
        · rcases hi with hi | hi
          · exact absurd rfl (hi o)
          · exact absurd rfl (hi o')
    · rw [if_neg hi] at h
      obtain ⟨yes, rfl, hy⟩ := C75_compatible v hb hb hn hn h
      refine ⟨yes, rfl, ?_⟩
      rw [hy]
      simp only [Bool.or_eq_true, Bool.not_eq_true', not_or, Bool.not_eq_false, hid] at hi
      obtain ⟨⟨o, rfl⟩, ⟨o', rfl⟩⟩ := hi
      constructor
      · intro h; exact .inr (.inr ⟨⟨_, rfl⟩, ⟨_, rfl⟩, h⟩)
      · rintro (h | ⟨h | h, _⟩ | ⟨_, _, h⟩)
        · exact absurd h hxy
        · exact absurd rfl (h o)
        · exact absurd rfl (h o')
        · exact h

/-- **C75, one result.** The result does not depend on how many steps are allowed. -/
theorem C75_result {n m : Nat} {b : Bag} {res : Except Err Bool} (hnm : n ≤ m)
    (h : assertCompatible lt P castable b n x y = some res) :
    assertCompatible lt P castable b m x y = some res := by
  unfold assertCompatible at h ⊢
  split
  · rename_i h1; rwa [if_pos h1] at h
  · rename_i h1
    rw [if_neg h1] at h
    split
    · rename_i h2; rwa [if_pos h2] at h
    · rename_i h2
      rw [if_neg h2] at h
      unfold deepSchemaCompatible at h ⊢
      cases hc : compareSlices (schemaCompatible lt P castable) b b n [x] Traverse.kSchema [y]
          Traverse.kSchema with
      | none => rw [hc] at h; cases h
      | some r => rw [compareSlices_more hnm hc]; rwa [hc] at h

/-- **C75, casts.** Which schemas may be cast to which, as far as one can tell without the
data. -/
theorem C75_castable (hx : IsSchema x) (hy : IsSchema y) :
    isProbablyCastable x y = true ↔ MayCast x y := isProbablyCastable_iff x y hx hy

end

/-! ### Examples and witnesses -/

/-- A list of numbers for each item, different for different items of the same type. -/
def exCode : Item → List Nat
  | .missing => []
  | .object o => [o.allocatorId.toNat, o.offsetBits.toNat, o.metadata.toNat, o.id.toNat]
  | .int32 v => [v.toNat]
  | .int64 v => [v.toNat]
  | .float32 v => [v.toNat]
  | .float64 v => [v.toNat]
  | .bool b => [b.toNat]
  | .unit => []
  | .text s => s.map (·.toNat)
  | .bytes s => s.map (·.toNat)
  | .expr s => s.map (·.toNat)
  | .dtype n => [n.val]

/-- An order of the values of each type. -/
def exLt (a b : Item) : Bool := decide (typeId a = typeId b) && decide (exCode a < exCode b)

theorem exCode_inj {a b : Item} (ht : typeId a = typeId b) (h : exCode a = exCode b) : a = b := by
  have hm : ∀ {s t : Bytes}, s.map (·.toNat) = t.map (·.toNat) → s = t := by
    intro s t h
    exact List.map_inj_right (fun x y h => UInt8.toNat_inj.mp h) |>.mp h
  cases a <;> cases b <;> simp [typeId] at ht <;> simp only [exCode, List.cons.injEq, and_true] at h
  case missing.missing => rfl
  case unit.unit => rfl
  case object.object o o' =>
    obtain ⟨h1, h2, h3, h4⟩ := h
    obtain ⟨a, b, c, d⟩ := o
    obtain ⟨a', b', c', d'⟩ := o'
    simp only [BitVec.toNat_inj] at h1 h2 h3 h4
    subst h1 h2 h3 h4
    rfl
  case int32.int32 => rw [BitVec.toNat_inj.mp h]
  case int64.int64 => rw [BitVec.toNat_inj.mp h]
  case float32.float32 => rw [BitVec.toNat_inj.mp h]
  case float64.float64 => rw [BitVec.toNat_inj.mp h]
  case bool.bool a b => revert h; cases a <;> cases b <;> decide
  case text.text => rw [hm h]
  case bytes.bytes => rw [hm h]
  case expr.expr => rw [hm h]
  case dtype.dtype => rw [Fin.val_inj.mp h]

/-- There is an order of the values. -/
theorem exLt_ok : ValueOrder exLt where
  irrefl a := by simp [exLt, List.lt_irrefl]
  trans a b c h1 h2 := by
    simp only [exLt, Bool.and_eq_true, decide_eq_true_eq] at *
    exact ⟨h1.1.trans h2.1, List.lt_trans h1.2 h2.2⟩
  total a b ht hn := by
    simp only [exLt, Bool.and_eq_true, decide_eq_true_eq]
    by_cases h1 : exCode a < exCode b
    · exact .inl ⟨ht, h1⟩
    · by_cases h2 : exCode b < exCode a
      · exact .inr ⟨ht.symm, h2⟩
      · exact absurd (exCode_inj ht (List.le_antisymm (List.not_lt.mp h2) (List.not_lt.mp h1))) hn

/-- The differences that were found. -/
def exFound (r : Option (Except Err (List Diff))) : Option (List Difference) :=
  match r with
  | some (.ok ds) => some (ds.map see)
  | _ => none

/-- A bag like `exBag 10`, in which a number in the list is another one, an attribute that refers
to the item itself is not set, and there is one attribute more. -/
def exOther : Bag where
  attr := fun o n =>
    if o = exEntity 20 then
      (if n = exA then .int32 7 else if n = exKids then .object (exList 20)
        else if n = chars ['z'] then .unit else .missing)
    else if o = exEntity 21 then (if n = exA then .int32 8 else .missing)
    else if o = exEntity 22 then (if n = exA then .int32 10 else .missing)
    else .missing
  list := fun o => if o = exList 20 then
      [.object (exEntity 21), .object (exEntity 22), .object (exEntity 21)] else []
  dict := fun _ => []
  schemaAttrs := fun o =>
    if o = exSchema 20 then
      [(exA, .dtype 1), (exMe, .object (exSchema 20)), (exKids, .object (exSchema 21)),
        (chars ['z'], .dtype 5)]
    else if o = exSchema 21 then [(itemsName, .object (exSchema 22))]
    else if o = exSchema 22 then [(exA, .dtype 1)]
    else []

/-- Without schemas, without ids. -/
def exPlain : Params := ⟨false, false, false⟩

/-- Example: the items of `exBag 10` and `exBag 20` are equivalent, though their ids differ and
they refer to themselves. -/
example : exFound (deepEquivalent exLt exPlain (exBag 10) (exBag 20) 100 [.object (exEntity 10)]
    (.object (exSchema 10)) [.object (exEntity 20)] (.object (exSchema 20))) = some [] := by
  decide +kernel

/-- Example: all the differences to `exOther`. -/
example : exFound (deepEquivalent exLt exPlain (exBag 10) exOther 100 [.object (exEntity 10)]
    (.object (exSchema 10)) [.object (exEntity 20)] (.object (exSchema 20))) = some [
      .both ((.object (exEntity 12), .object (exSchema 12)), (.object (exEntity 22), .object (exSchema 22)))
        (.attr exA) (.int32 9, .dtype 1) (.int32 10, .dtype 1),
      .right ((.object (exList 10), .object (exSchema 11)), (.object (exList 20), .object (exSchema 21)))
        (.item 2) (.object (exEntity 21), .object (exSchema 22)),
      .right ((.object (exEntity 10), .object (exSchema 10)), (.object (exEntity 20), .object (exSchema 20)))
        (.attr (chars ['z'])) (.unit, .dtype 5),
      .both ((.object (exEntity 10), .object (exSchema 10)), (.object (exEntity 20), .object (exSchema 20)))
        (.attr exMe) (.object (exEntity 10), .object (exSchema 10)) (.missing, .object (exSchema 20))] := by
  decide +kernel

/-- Example: seen from `exOther`, an attribute more and an attribute that `exBag 10` does not
expect do not matter when the comparison is partial. -/
example : exFound (deepEquivalent exLt ⟨true, false, false⟩ exOther (exBag 10) 100
    [.object (exEntity 22)] (.object (exSchema 20)) [.object (exEntity 99)] (.object (exSchema 12))) =
      some [] := by
  decide +kernel

theorem exBag_bagOk (k : Nat) : BagOk (exBag k) where
  attrs := by
    intro o
    simp only [exBag]
    repeat' split
    all_goals simp only [List.map_cons, List.map_nil]
    all_goals decide
  dicts := by intro o; exact List.nodup_nil

theorem exOther_ok : BagOk exOther where
  attrs := by
    intro o
    simp only [exOther]
    repeat' split
    all_goals decide
  dicts := by intro o; exact List.nodup_nil

/-- What was reached in a comparison. -/
def exTokens (r : Option (Except Err State)) : Option (List (Pair × Pair)) :=
  match r with
  | some (.ok st) => some st.tokens
  | _ => none

/-- Example for `C74_ends`: finitely many pairs are reached. -/
theorem exFinite : ∃ all : List (Pair × Pair), ∀ l r, Together (equivalence exPlain) (exBag 10) exOther
    (Start [.object (exEntity 10)] (.object (exSchema 10)) [.object (exEntity 20)]
      (.object (exSchema 20))) l r → (l, r) ∈ all := by
  have h : (exTokens (compareSlices (equivalent exLt exPlain) (exBag 10) exOther 100
    [.object (exEntity 10)] (.object (exSchema 10)) [.object (exEntity 20)]
      (.object (exSchema 20)))).isSome = true := by decide +kernel
  generalize hc : compareSlices (equivalent exLt exPlain) (exBag 10) exOther 100
    [.object (exEntity 10)] (.object (exSchema 10)) [.object (exEntity 20)]
      (.object (exSchema 20)) = res at h
  match res, h with
  | some (.ok st), _ =>
    rcases compareSlices_spec (equivalent_follows exLt exPlain) (exBag_bagOk 10) exOther_ok
      (compareOrder_ok exLt_ok) (fun l r _ _ => ⟨keysIn_all _ _, keysIn_all _ _⟩) (by rfl) hc with
      ⟨st', he, _, _, h3, _⟩ | ⟨⟨e, he⟩, _⟩
    · cases he
      exact ⟨st.tokens, fun l r h => (h3 l r).mpr h⟩
    · cases he

example : ∃ n, ∀ m, n ≤ m → (deepEquivalent exLt exPlain (exBag 10) exOther m [.object (exEntity 10)]
    (.object (exSchema 10)) [.object (exEntity 20)] (.object (exSchema 20))).isSome = true := by
  obtain ⟨all, h⟩ := exFinite
  exact C74_ends exLt_ok (exBag_bagOk 10) exOther_ok h

/-- **C74, witness.** When schemas are not compared, the order of the slices matters: an item with
schema ITEMID on the right is compared by its kind only. -/
theorem C74_not_symmetric : ∃ (b : Bag) (x s y t : Item), BagOk b ∧
    exFound (deepEquivalent exLt exPlain b b 100 [x] s [y] t) = some [] ∧
    exFound (deepEquivalent exLt exPlain b b 100 [y] t [x] s) = some [.slice 0 (y, t) (x, s)] :=
  ⟨exBag 10, .object (exEntity 98), .object (exSchema 98), .object (exEntity 99), .dtype 10,
    exBag_bagOk 10, by decide +kernel, by decide +kernel⟩

/-- Example: numbers are compared by value, also if their types differ; all NaNs are the same; an
integer is not a floating point number. -/
example : exFound (deepEquivalent exLt exPlain (exBag 10) (exBag 10) 100
    [.int32 (-5), .float32 0x3F800000, .float32 0x7FC00000, .float32 1, .int32 1, .float32 0x3DCCCCCD]
    (.dtype 11)
    [.int64 (-5), .float64 0x3FF0000000000000, .float64 0xFFF8000000000001, .float64 0x36A0000000000000,
      .float64 0x3FF0000000000000, .float64 0x3FB999999999999A] (.dtype 11)) =
    some [.slice 5 (.float32 0x3DCCCCCD, .dtype 11) (.float64 0x3FB999999999999A, .dtype 11),
      .slice 4 (.int32 1, .dtype 11) (.float64 0x3FF0000000000000, .dtype 11)] := by
  decide +kernel

/-- A dict with a key and a value. -/
def exDictBag (k : Item) : Bag where
  attr := fun _ _ => .missing
  list := fun _ => []
  dict := fun o => if o = exDict 1 then [(k, .unit)] else []
  schemaAttrs := fun o => if o = exSchema 1 then [(keysName, .dtype 11), (valuesName, .dtype 5)] else []

theorem exDictBag_ok (k : Item) : BagOk (exDictBag k) where
  attrs := by
    intro o
    simp only [exDictBag]
    split <;> simp only [List.map_cons, List.map_nil] <;> decide
  dicts := by
    intro o
    simp only [exDictBag]
    split <;> simp

/-- The place of the dict on both sides. -/
def exPlace : Pair × Pair :=
  ((.object (exDict 1), .object (exSchema 1)), (.object (exDict 1), .object (exSchema 1)))

/-- **C74, witness.** The keys of dicts are compared with their types: `1` of type INT32 and of type
INT64 are equivalent as items, but not as keys of dicts. -/
theorem C74_dict_keys : ∃ x y : Item,
    exFound (deepEquivalent exLt exPlain (exDictBag x) (exDictBag y) 100 [x] (.dtype 11) [y] (.dtype 11)) =
      some [] ∧
    exFound (deepEquivalent exLt exPlain (exDictBag x) (exDictBag y) 100 [.object (exDict 1)]
      (.object (exSchema 1)) [.object (exDict 1)] (.object (exSchema 1))) =
      some [.right exPlace (.value y) (.unit, .dtype 5), .left exPlace (.value x) (.unit, .dtype 5),
        .right exPlace (.key y) (y, .dtype 11), .left exPlace (.key x) (x, .dtype 11)] :=
  ⟨.int32 1, .int64 1, by decide +kernel, by decide +kernel⟩

/-- Example: the schemas of empty slices are compared. -/
example : exFound (deepEquivalent exLt ⟨false, true, false⟩ (exBag 10) (exBag 10) 100 [] (.dtype 1) []
    (.dtype 0)) = some [.slice 0 (.missing, .dtype 1) (.missing, .dtype 0)] ∧
    exFound (deepEquivalent exLt ⟨false, true, false⟩ (exBag 10) (exBag 10) 100 [] (.dtype 1) []
    (.dtype 1)) = some [] := by
  decide +kernel

/-- Schemas that refer to themselves. -/
def exSchemas : Bag where
  attr := fun _ _ => .missing
  list := fun _ => []
  dict := fun _ => []
  schemaAttrs := fun o =>
    if o = exSchema 1 then [(exA, .dtype 1), (exMe, .object (exSchema 1))]
    else if o = exSchema 2 then [(exMe, .object (exSchema 2)), (exA, .dtype 7)]
    else if o = exSchema 3 then [(exMe, .object (exSchema 1)), (exA, .dtype 0), (exKids, .dtype 1)]
    else if o = exSchema 4 then [(exA, .dtype 11)]
    else if o = exSchema 5 then [(exA, .dtype 11)]
    else if o = exSchema 6 then [(exMe, .object (exSchema 6)), (exA, .dtype 6)]
    else []

theorem exSchemas_ok : BagOk exSchemas where
  attrs := by
    intro o
    simp only [exSchemas]
    repeat' split
    all_goals decide
  dicts := by intro o; exact List.nodup_nil

theorem exSchemas_names : NamesOk exSchemas := by
  intro S n y h ha
  exfalso
  revert h
  simp only [exSchemas]
  have hA : ¬ Traverse.AboutSchema exA := by unfold Traverse.AboutSchema; decide
  have hM : ¬ Traverse.AboutSchema exMe := by unfold Traverse.AboutSchema; decide
  have hK : ¬ Traverse.AboutSchema exKids := by unfold Traverse.AboutSchema; decide
  repeat' split
  all_goals
    simp only [List.mem_cons, Prod.mk.injEq, List.not_mem_nil, or_false]
    intro h
    first
      | exact h
      | (rcases h with ⟨rfl, _⟩ | ⟨rfl, _⟩ | ⟨rfl, _⟩ <;> contradiction)
      | (rcases h with ⟨rfl, _⟩ | ⟨rfl, _⟩ <;> contradiction)
      | (obtain ⟨rfl, _⟩ := h; contradiction)

/-- The answer. -/
def exYes (r : Option (Except Err Bool)) : Option Bool :=
  match r with
  | some (.ok b) => some b
  | _ => none

/-- Example: numbers can be cast to texts, bytes can not be cast to numbers; attributes are added
and removed only if that is allowed. -/
example :
    let ask (removing new : Bool) (m n : Nat) := exYes (assertCompatible exLt ⟨removing, new⟩
      isProbablyCastable exSchemas 100 (.object (exSchema m)) (.object (exSchema n)))
    ask false false 1 2 = some true ∧ ask false false 2 6 = some false ∧
    ask false false 1 3 = some false ∧ ask false true 1 3 = some true ∧ ask true false 1 3 = some false ∧
    ask false false 3 1 = some false ∧ ask false true 3 1 = some false ∧ ask true false 3 1 = some true := by
  decide +kernel

/-- **C75, witness.** A schema with an attribute of schema OBJECT is not compatible with another
schema that has the same attributes, since OBJECT can not be cast to OBJECT. -/
theorem C75_object : ∃ (b : Bag) (S S' : ObjectId), BagOk b ∧ NamesOk b ∧
    b.schemaAttrs S = b.schemaAttrs S' ∧
    exYes (assertCompatible exLt ⟨false, false⟩ isProbablyCastable b 100 (.object S) (.object S')) =
      some false :=
  ⟨exSchemas, exSchema 4, exSchema 5, exSchemas_ok, exSchemas_names, by decide, by decide +kernel⟩

end Verif.Compare
