import Verif.BagWorld.Impls
import Verif.BagWorld.Visit
/-
The invariant of worlds, and how the operations preserve it.
-/

namespace Verif.BagWorld

open Verif.BagAttr

/-! ### The invariant -/

structure Ok (w : World) : Prop where
  impls : ImplsOk w.impls
  valid : ∀ (h : Nat) (d : DataBag), w.bags[h]? = some d → ∃ b, bagAt w.impls d.impl = some b ∧
    (d.mutbl = false → b.frozen = true) ∧ (d.mutbl = true → b.frozen = d.forked)
  inj : ∀ (h h' : Nat) (d d' : DataBag), w.bags[h]? = some d → w.bags[h']? = some d' →
    d.impl = d'.impl → h = h'
  fb : ∀ (h : Nat) (d : DataBag), w.bags[h]? = some d → d.mutbl = true → d.fallbacks = []
  fbs : ∀ (h : Nat) (d : DataBag), w.bags[h]? = some d → ∀ f ∈ d.fallbacks, f < h ∧
    ∃ d' : DataBag, w.bags[f]? = some d' ∧ d'.mutbl = false
  own : ∀ (h : Nat) (d : DataBag) (b : Bag), w.bags[h]? = some d → d.fallbacks ≠ [] →
    bagAt w.impls d.impl = some b → ∀ x attr, b.lookup x attr = none

theorem Ok.acyclic {w : World} (hok : Ok w) : Acyclic w.bags :=
  fun f d hd c hc => (hok.fbs f d hd c hc).1

/-- What the bag itself knows. -/
def look (w : World) (h : Nat) (x : Obj) (attr : Attr) : Cell :=
  (implOf w h).bind fun b => b.lookup x attr

theorem implOf_some {w : World} {h : Nat} {d : DataBag} (hd : w.bags[h]? = some d) :
    implOf w h = bagAt w.impls d.impl := by
  unfold implOf; rw [hd]; rfl

theorem look_some {w : World} {h : Nat} {b : Bag} (hb : implOf w h = some b) (x : Obj) (attr : Attr) :
    look w h x attr = b.lookup x attr := by
  unfold look; rw [hb]; rfl

private theorem filterMap_read (w : World) (x : Obj) (attr : Attr) (hs : List Nat) :
    getWithRemoved (hs.filterMap (implOf w)) x attr = hs.findSome? (look w · x attr) := by
  induction hs with
  | nil => rfl
  | cons h hs ih =>
    rw [List.filterMap_cons, List.findSome?_cons]
    cases hi : implOf w h with
    | none =>
      have : look w h x attr = none := by unfold look; rw [hi]; rfl
      simp only [this]
      exact ih
    | some b =>
      simp only
      rw [getWithRemoved_cons, ih, look_some hi]
      cases b.lookup x attr <;> rfl

theorem flat_eq (w : World) (h : Nat) : flatFallbacks w h = visit w.bags (kids w.bags h) [h] := by
  unfold flatFallbacks kids
  cases hd : w.bags[h]? with
  | none => simp only; rw [visit_nil]
  | some d =>
    simp only
    by_cases he : d.fallbacks.isEmpty = true
    · rw [if_pos he, List.isEmpty_iff.1 he, visit_nil]
    · rw [if_neg he]

theorem read_first (w : World) (h : Nat) (x : Obj) (attr : Attr) :
    read w h x attr = first (look w · x attr) w.bags h := by
  unfold read readers
  rw [filterMap_read, flat_eq]
  rfl

theorem read_eq {w : World} (hok : Ok w) (h : Nat) (x : Obj) (attr : Attr) :
    read w h x attr = (look w h x attr).or ((kids w.bags h).findSome? fun f => read w f x attr) := by
  rw [read_first, first_eq _ hok.acyclic]
  congr 1
  congr 1
  funext f
  exact (read_first w f x attr).symm

theorem read_nofb {w : World} {h : Nat} {d : DataBag} (hd : w.bags[h]? = some d)
    (he : d.fallbacks = []) (x : Obj) (attr : Attr) : read w h x attr = look w h x attr := by
  rw [read_first]
  unfold first
  rw [kids_some hd, he, visit_nil, List.findSome?_cons]
  cases look w h x attr <;> rfl

/-! ### What an operation keeps -/

/-- All bags but `t` know in `w'` what they know in `w`, and all but `im` are as
mutable as before. -/
structure Keeps (w w' : World) (t im : Option Nat) : Prop where
  bag : ∀ (h : Nat) (d : DataBag), w.bags[h]? = some d → ∃ d' : DataBag, w'.bags[h]? = some d' ∧
    d'.fallbacks = d.fallbacks ∧ (d.mutbl = false → d'.mutbl = false) ∧
    (im ≠ some h → d'.mutbl = d.mutbl)
  look : ∀ h, h < w.bags.length → t ≠ some h → ∀ x attr, look w' h x attr = look w h x attr

theorem Keeps.refl (w : World) (t im : Option Nat) : Keeps w w t im :=
  ⟨fun _ d hd => ⟨d, hd, rfl, id, fun _ => rfl⟩, fun _ _ _ _ _ => rfl⟩

theorem lt_of_get {bags : List DataBag} {h : Nat} {d : DataBag} (hd : bags[h]? = some d) :
    h < bags.length := (List.getElem?_eq_some_iff.1 hd).1

theorem get_of_lt {bags : List DataBag} {h : Nat} (hl : h < bags.length) : ∃ d, bags[h]? = some d :=
  ⟨_, List.getElem?_eq_getElem hl⟩

theorem Keeps.len {w w' : World} {t im : Option Nat} (hk : Keeps w w' t im) {h : Nat}
    (hl : h < w.bags.length) : h < w'.bags.length := by
  obtain ⟨d, hd⟩ := get_of_lt hl
  obtain ⟨d', hd', _⟩ := hk.bag h d hd
  exact lt_of_get hd'

theorem Keeps.trans {w w' w'' : World} {t im : Option Nat} (h1 : Keeps w w' t im)
    (h2 : Keeps w' w'' t im) : Keeps w w'' t im := by
  constructor
  · intro h d hd
    obtain ⟨d', a1, a2, a3, a4⟩ := h1.bag h d hd
    obtain ⟨d'', b1, b2, b3, b4⟩ := h2.bag h d' a1
    exact ⟨d'', b1, b2.trans a2, fun h => b3 (a3 h), fun h => (b4 h).trans (a4 h)⟩
  · intro h hl ht x attr
    rw [h2.look h (h1.len hl) ht, h1.look h hl ht]

theorem Keeps.weaken {w w' : World} {t im : Option Nat} (h1 : Keeps w w' none none) : Keeps w w' t im :=
  ⟨fun h d hd => by
      obtain ⟨d', a1, a2, a3, a4⟩ := h1.bag h d hd
      exact ⟨d', a1, a2, a3, fun _ => a4 (by simp)⟩,
    fun h hl _ => h1.look h hl (by simp)⟩

/-- Reads of the other bags stay. -/
theorem Keeps.read {w w' : World} {t im : Option Nat} (hok : Ok w) (hk : Keeps w w' t im) {h : Nat}
    (hl : h < w.bags.length) (ht : t ≠ some h)
    (htm : ∀ k d, t = some k → w.bags[k]? = some d → d.mutbl = true) (x : Obj) (attr : Attr) :
    BagWorld.read w' h x attr = BagWorld.read w h x attr := by
  obtain ⟨d, hd⟩ := get_of_lt hl
  obtain ⟨d', hd', hfb, _⟩ := hk.bag h d hd
  rw [read_first, read_first]
  unfold first
  have hkids : kids w'.bags h = kids w.bags h := by rw [kids_some hd, kids_some hd', hfb]
  rw [hkids, visit_congr hok.acyclic (fun f d hd => by
    obtain ⟨d', a1, a2, _⟩ := hk.bag f d hd
    exact ⟨d', a1, a2⟩) _ _ (fun c hc => kids_valid hok.acyclic hc)]
  rw [List.findSome?_cons, List.findSome?_cons, hk.look h hl ht]
  have : ∀ ls : List Nat, (∀ g ∈ ls, g < w.bags.length ∧ t ≠ some g) →
      ls.findSome? (fun f => BagWorld.look w' f x attr) = ls.findSome? (fun f => BagWorld.look w f x attr) := by
    intro ls
    induction ls with
    | nil => intro _; rfl
    | cons g ls ih =>
      intro hg
      rw [List.findSome?_cons, List.findSome?_cons, hk.look g (hg g (by simp)).1 (hg g (by simp)).2,
        ih fun x hx => hg x (List.mem_cons_of_mem _ hx)]
  rw [this]
  intro g hg
  refine ⟨visit_valid _ _ g hg, ?_⟩
  intro htg
  have himm : ∃ d' : DataBag, w.bags[g]? = some d' ∧ d'.mutbl = false := by
    rcases visit_mem _ _ g hg with hm | ⟨f, df, hf, hm⟩
    · rw [kids_some hd] at hm
      exact (hok.fbs h d hd g hm).2
    · exact (hok.fbs f df hf g hm).2
  obtain ⟨dg, h1, h2⟩ := himm
  rw [htm g dg htg h1] at h2
  cases h2

/-! ### More implementations -/

/-- Only new implementations. -/
structure Ext (impls impls' : List Impl) : Prop where
  ok : ImplsOk impls'
  len : impls.length ≤ impls'.length
  same : ∀ i, i < impls.length → bagAt impls' i = bagAt impls i

theorem Ext.refl {impls : List Impl} (hok : ImplsOk impls) : Ext impls impls :=
  ⟨hok, Nat.le_refl _, fun _ _ => rfl⟩

theorem Ext.trans {a b c : List Impl} (h1 : Ext a b) (h2 : Ext b c) : Ext a c :=
  ⟨h2.ok, Nat.le_trans h1.len h2.len, fun i hi =>
    (h2.same i (Nat.lt_of_lt_of_le hi h1.len)).trans (h1.same i hi)⟩

theorem ext_append {impls : List Impl} (hok : ImplsOk impls) {m : Impl}
    (h : ImplsOk (impls ++ [m])) : Ext impls (impls ++ [m]) :=
  ⟨h, by simp, fun _ hi => bagAt_append_lt hok _ hi⟩

theorem bagAt_lt {impls : List Impl} {i : Nat} {b : Bag} (h : bagAt impls i = some b) :
    i < impls.length := by
  obtain ⟨m, hm, _⟩ := bagAt_inv h
  exact (List.getElem?_eq_some_iff.1 hm).1

theorem Ok.impl_lt {w : World} (hok : Ok w) {h : Nat} {d : DataBag} (hd : w.bags[h]? = some d) :
    d.impl < w.impls.length := by
  obtain ⟨b, hb, _⟩ := hok.valid h d hd
  exact bagAt_lt hb

theorem Ext.okWorld {w : World} (hok : Ok w) {impls' : List Impl} (he : Ext w.impls impls') :
    Ok { w with impls := impls' } where
  impls := he.ok
  valid h d hd := by
    simp only
    rw [he.same _ (hok.impl_lt hd)]
    exact hok.valid h d hd
  inj := hok.inj
  fb := hok.fb
  fbs := hok.fbs
  own h d b hd hne hb := by
    simp only at hb hd
    rw [he.same _ (hok.impl_lt hd)] at hb
    exact hok.own h d b hd hne hb

theorem Ext.keeps {w : World} (hok : Ok w) {impls' : List Impl} (he : Ext w.impls impls') :
    Keeps w { w with impls := impls' } none none where
  bag h d hd := ⟨d, hd, rfl, id, fun _ => rfl⟩
  look h hl _ x attr := by
    obtain ⟨d, hd⟩ := get_of_lt hl
    unfold look
    rw [implOf_some hd, implOf_some (w := { w with impls := impls' }) hd]
    simp only
    rw [he.same _ (hok.impl_lt hd)]

/-- A new bag with a new implementation. -/
structure NewBag (w : World) (impls' : List Impl) (d : DataBag) (b : Bag) : Prop where
  ext : Ext w.impls impls'
  new : w.impls.length ≤ d.impl
  at' : bagAt impls' d.impl = some b
  frozen : b.frozen = !d.mutbl
  forked : d.forked = false
  fb : d.mutbl = true → d.fallbacks = []
  fbs : ∀ f ∈ d.fallbacks, ∃ d' : DataBag, w.bags[f]? = some d' ∧ d'.mutbl = false
  own : d.fallbacks ≠ [] → ∀ x attr, b.lookup x attr = none

theorem get_bags (bags : List DataBag) (d : DataBag) (h : Nat) (d' : DataBag) :
    (bags ++ [d])[h]? = some d' ↔ bags[h]? = some d' ∨ (h = bags.length ∧ d' = d) := by
  by_cases hl : h < bags.length
  · rw [List.getElem?_append_left hl]
    exact ⟨.inl, fun h => h.elim id (fun h => by omega)⟩
  · rw [List.getElem?_append_right (Nat.le_of_not_lt hl), List.getElem?_eq_none (Nat.le_of_not_lt hl)]
    constructor
    · intro h'
      have := lt_of_get h'
      simp only [List.length_singleton] at this
      have h0 : h = bags.length := by omega
      subst h0
      simp at h'
      exact .inr ⟨rfl, h'.symm⟩
    · rintro (h' | ⟨rfl, rfl⟩)
      · cases h'
      · simp

theorem NewBag.okWorld {w : World} (hok : Ok w) {impls' : List Impl} {d : DataBag} {b : Bag}
    (hn : NewBag w impls' d b) : Ok { impls := impls', bags := w.bags ++ [d] } where
  impls := hn.ext.ok
  valid h d' hd' := by
    simp only at hd' ⊢
    rcases (get_bags _ _ _ _).1 hd' with hd' | ⟨_, rfl⟩
    · rw [hn.ext.same _ (hok.impl_lt hd')]; exact hok.valid h d' hd'
    · refine ⟨b, hn.at', ?_, ?_⟩
      · intro hm; rw [hn.frozen, hm]; rfl
      · intro hm; rw [hn.frozen, hm, hn.forked]; rfl
  inj h h' d1 d2 h1 h2 he := by
    simp only at h1 h2
    rcases (get_bags _ _ _ _).1 h1 with g1 | ⟨e1, e1'⟩ <;>
      rcases (get_bags _ _ _ _).1 h2 with g2 | ⟨e2, e2'⟩
    · exact hok.inj h h' d1 d2 g1 g2 he
    · have := hok.impl_lt g1; have := hn.new; rw [e2'] at he; omega
    · have := hok.impl_lt g2; have := hn.new; rw [e1'] at he; omega
    · rw [e1, e2]
  fb h d' hd' := by
    simp only at hd'
    rcases (get_bags _ _ _ _).1 hd' with hd' | ⟨_, rfl⟩
    · exact hok.fb h d' hd'
    · exact hn.fb
  fbs h d' hd' f hf := by
    simp only at hd' ⊢
    rcases (get_bags _ _ _ _).1 hd' with hd' | ⟨rfl, rfl⟩
    · obtain ⟨h1, d2, h2, h3⟩ := hok.fbs h d' hd' f hf
      exact ⟨h1, d2, (get_bags _ _ _ _).2 (.inl h2), h3⟩
    · obtain ⟨d2, h2, h3⟩ := hn.fbs f hf
      exact ⟨lt_of_get h2, d2, (get_bags _ _ _ _).2 (.inl h2), h3⟩
  own h d' b' hd' hne hb := by
    simp only at hd' hb
    rcases (get_bags _ _ _ _).1 hd' with hd' | ⟨_, rfl⟩
    · rw [hn.ext.same _ (hok.impl_lt hd')] at hb
      exact hok.own h d' b' hd' hne hb
    · rw [hn.at'] at hb
      rw [← Option.some.inj hb]
      exact hn.own hne

theorem NewBag.keeps {w : World} (hok : Ok w) {impls' : List Impl} {d : DataBag} {b : Bag}
    (hn : NewBag w impls' d b) : Keeps w { impls := impls', bags := w.bags ++ [d] } none none where
  bag h d' hd' := ⟨d', (get_bags _ _ _ _).2 (.inl hd'), rfl, id, fun _ => rfl⟩
  look h hl _ x attr := by
    obtain ⟨d', hd'⟩ := get_of_lt hl
    have hd2 : (w.bags ++ [d])[h]? = some d' := (get_bags _ _ _ _).2 (.inl hd')
    unfold look
    rw [implOf_some hd', implOf_some (w := { impls := impls', bags := w.bags ++ [d] }) hd2]
    simp only
    rw [hn.ext.same _ (hok.impl_lt hd')]

theorem NewBag.look {w : World} {impls' : List Impl} {d : DataBag} {b : Bag}
    (hn : NewBag w impls' d b) (x : Obj) (attr : Attr) :
    look { impls := impls', bags := w.bags ++ [d] } w.bags.length x attr = b.lookup x attr := by
  apply look_some
  have hd : (w.bags ++ [d])[w.bags.length]? = some d := (get_bags _ _ _ _).2 (.inr ⟨rfl, rfl⟩)
  rw [implOf_some (w := { impls := impls', bags := w.bags ++ [d] }) hd]
  exact hn.at'

/-! ### Freezing the implementation of a bag -/

theorem bagAt_freeze (impls : List Impl) (i j : Nat) : bagAt (freezeImpl impls i) j =
    (bagAt impls j).map fun b => if i = j then { b with frozen := true } else b := by
  unfold bagAt
  rw [get_freeze]
  cases hm : impls[j]? with
  | none => rfl
  | some m =>
    simp only [Option.map_some]
    have hp : ∀ p, parentLayers (freezeImpl impls i) p = parentLayers impls p := by
      intro p
      cases p with
      | none => rfl
      | some q => exact layersOf_freeze impls i q
    rw [hp]
    by_cases h : i = j <;> simp [h]

theorem modify_get (bags : List DataBag) (h k : Nat) (f : DataBag → DataBag) :
    (bags.modify h f)[k]? = (bags[k]?).map fun d => if h = k then f d else d := by
  rw [List.getElem?_modify]
  cases bags[k]? with
  | none => rfl
  | some d => by_cases hk : h = k <;> simp [hk]

theorem modify_some {bags : List DataBag} {h k : Nat} {f : DataBag → DataBag} {d' : DataBag}
    (hd : (bags.modify h f)[k]? = some d') :
    ∃ d, bags[k]? = some d ∧ d' = if h = k then f d else d := by
  rw [modify_get] at hd
  cases hk : bags[k]? with
  | none => rw [hk] at hd; cases hd
  | some d => rw [hk] at hd; exact ⟨d, rfl, (Option.some.inj hd).symm⟩

/-- Freezing the implementation of a bag and marking the bag as forked or as
immutable. -/
theorem freezeBag_ok {w : World} (hok : Ok w) {h : Nat} {d : DataBag} (hd : w.bags[h]? = some d)
    {f : DataBag → DataBag} (h1 : (f d).impl = d.impl) (h2 : (f d).fallbacks = d.fallbacks)
    (h3 : (f d).mutbl = true → (f d).forked = true ∧ d.mutbl = true) :
    Ok { impls := freezeImpl w.impls d.impl, bags := w.bags.modify h f } := by
  have key : ∀ (k : Nat) (dk' : DataBag), (w.bags.modify h f)[k]? = some dk' →
      ∃ dk : DataBag, w.bags[k]? = some dk ∧ dk'.impl = dk.impl ∧ dk'.fallbacks = dk.fallbacks ∧
        (h = k → dk' = f d) ∧ (h ≠ k → dk' = dk) ∧ (dk.mutbl = false → dk'.mutbl = false) := by
    intro k dk' hk
    obtain ⟨dk, hdk, he⟩ := modify_some hk
    by_cases hhk : h = k
    · subst hhk
      rw [hd] at hdk
      obtain rfl := Option.some.inj hdk
      rw [if_pos rfl] at he
      subst he
      refine ⟨d, hd, h1, h2, fun _ => rfl, fun h => absurd rfl h, ?_⟩
      intro hm
      cases hf : (f d).mutbl with
      | false => rfl
      | true => rw [(h3 hf).2] at hm; cases hm
    · rw [if_neg hhk] at he
      subst he
      exact ⟨dk', hdk, rfl, rfl, fun h => absurd h hhk, fun _ => rfl, id⟩
  constructor
  · exact freeze_ok hok.impls _
  · intro k dk' hk
    obtain ⟨dk, a1, a2, a3, a4, a5, a6⟩ := key k dk' hk
    obtain ⟨b, b1, b2, b3⟩ := hok.valid k dk a1
    simp only
    rw [bagAt_freeze, a2, b1]
    refine ⟨_, rfl, ?_⟩
    by_cases hhk : h = k
    · subst hhk
      rw [hd] at a1
      obtain rfl := Option.some.inj a1
      simp only [if_true]
      rw [a4 rfl]
      exact ⟨fun _ => trivial, fun hm => (h3 hm).1.symm⟩
    · have hne : d.impl ≠ dk.impl := fun he => hhk (hok.inj h k d dk hd a1 he)
      simp only
      rw [if_neg hne, a5 hhk]
      exact ⟨b2, b3⟩
  · intro k k' e e' he he' hi
    obtain ⟨dk, a1, a2, _⟩ := key k e he
    obtain ⟨dk', b1, b2, _⟩ := key k' e' he'
    exact hok.inj k k' dk dk' a1 b1 (by rw [← a2, ← b2, hi])
  · intro k dk' hk hm
    obtain ⟨dk, a1, a2, a3, a4, a5, a6⟩ := key k dk' hk
    rw [a3]
    refine hok.fb k dk a1 ?_
    cases hdm : dk.mutbl with
    | true => rfl
    | false => rw [a6 hdm] at hm; cases hm
  · intro k dk' hk g hg
    obtain ⟨dk, a1, a2, a3, _⟩ := key k dk' hk
    rw [a3] at hg
    obtain ⟨b1, dg, b2, b3⟩ := hok.fbs k dk a1 g hg
    refine ⟨b1, ?_⟩
    simp only
    rw [modify_get, b2]
    refine ⟨_, rfl, ?_⟩
    by_cases hhg : h = g
    · subst hhg
      rw [hd] at b2
      obtain rfl := Option.some.inj b2
      simp only [if_true]
      cases hf : (f d).mutbl with
      | false => rfl
      | true => rw [(h3 hf).2] at b3; cases b3
    · simp only; rw [if_neg hhg]; exact b3
  · intro k dk' b hk hne hb x attr
    obtain ⟨dk, a1, a2, a3, _⟩ := key k dk' hk
    rw [a3] at hne
    simp only at hb
    rw [a2, bagAt_freeze] at hb
    cases hb0 : bagAt w.impls dk.impl with
    | none => rw [hb0] at hb; cases hb
    | some b0 =>
      rw [hb0] at hb
      rw [← Option.some.inj hb]
      have := hok.own k dk b0 a1 hne hb0 x attr
      rw [← this]
      simp only
      by_cases hh : d.impl = dk.impl
      · rw [if_pos hh]; rfl
      · rw [if_neg hh]

theorem freezeBag_keeps {w : World} {h : Nat} {d : DataBag} (hd : w.bags[h]? = some d)
    {f : DataBag → DataBag} (h1 : (f d).impl = d.impl) (h2 : (f d).fallbacks = d.fallbacks)
    {im : Option Nat} (h3 : d.mutbl = false → (f d).mutbl = false)
    (h4 : im ≠ some h → (f d).mutbl = d.mutbl) :
    Keeps w { impls := freezeImpl w.impls d.impl, bags := w.bags.modify h f } none im where
  bag k dk hk := by
    simp only
    rw [modify_get, hk]
    refine ⟨_, rfl, ?_⟩
    by_cases hhk : h = k
    · subst hhk
      rw [hd] at hk
      obtain rfl := Option.some.inj hk
      simp only [if_true]
      exact ⟨h2, h3, h4⟩
    · simp only; rw [if_neg hhk]; exact ⟨rfl, id, fun _ => rfl⟩
  look k hl _ x attr := by
    obtain ⟨dk, hk⟩ := get_of_lt hl
    have hk' : (w.bags.modify h f)[k]? = some (if h = k then f dk else dk) := by
      rw [modify_get, hk]; rfl
    have himpl : (if h = k then f dk else dk).impl = dk.impl := by
      by_cases hhk : h = k
      · subst hhk
        rw [hd] at hk
        obtain rfl := Option.some.inj hk
        rw [if_pos rfl]; exact h1
      · rw [if_neg hhk]
    unfold look
    rw [implOf_some hk,
      implOf_some (w := { impls := freezeImpl w.impls d.impl, bags := w.bags.modify h f }) hk', himpl]
    simp only
    rw [bagAt_freeze]
    cases bagAt w.impls dk.impl with
    | none => rfl
    | some b =>
      simp only [Option.map_some, Option.bind_some]
      by_cases hh : d.impl = dk.impl
      · rw [if_pos hh]; rfl
      · rw [if_neg hh]

/-! ### New bags -/

theorem newBag_new (w : World) (hok : Ok w) (mutbl : Bool) :
    NewBag w (w.impls ++ [{ emptyImpl w.impls.length with frozen := !mutbl }])
      { impl := w.impls.length, fallbacks := [], mutbl := mutbl, forked := false }
      { emptyBag w.impls.length with frozen := !mutbl } where
  ext := ext_append hok.impls (empty_ok hok.impls _)
  new := Nat.le_refl _
  at' := by
    rw [bagAt_append_last hok.impls (fun p hp => by cases hp)]; rfl
  frozen := rfl
  forked := rfl
  fb _ := rfl
  fbs f hf := by cases hf
  own h := absurd rfl h

theorem lookup_frozen (b : Bag) (f : Bool) (x : Obj) (attr : Attr) :
    ({ b with frozen := f } : Bag).lookup x attr = b.lookup x attr := rfl

theorem withFallbacks_new (w : World) (hok : Ok w) (fs : List Nat)
    (hfs : ∀ f ∈ fs, ∃ d' : DataBag, w.bags[f]? = some d' ∧ d'.mutbl = false) :
    NewBag w (w.impls ++ [{ emptyImpl w.impls.length with frozen := true }])
      { impl := w.impls.length, fallbacks := fs, mutbl := false, forked := false }
      { emptyBag w.impls.length with frozen := true } where
  ext := ext_append hok.impls (empty_ok hok.impls _)
  new := Nat.le_refl _
  at' := by
    rw [bagAt_append_last hok.impls (fun p hp => by cases hp)]; rfl
  frozen := rfl
  forked := rfl
  fb h := by cases h
  fbs := hfs
  own _ x attr := by rw [lookup_frozen]; exact emptyBag_lookup _ _ _

/-- The world in which a bag has been frozen before it is forked. -/
def prepared (w : World) (h : Nat) (d : DataBag) : World :=
  { impls := freezeImpl w.impls d.impl
    bags := w.bags.modify h fun d => if d.mutbl then { d with forked := true } else d }

theorem prepared_ok {w : World} (hok : Ok w) {h : Nat} {d : DataBag} (hd : w.bags[h]? = some d) :
    Ok (prepared w h d) ∧ Keeps w (prepared w h d) none none := by
  have h1 : (if d.mutbl then { d with forked := true } else d).impl = d.impl := by split <;> rfl
  have h2 : (if d.mutbl then { d with forked := true } else d).fallbacks = d.fallbacks := by
    split <;> rfl
  have h3 : (if d.mutbl then { d with forked := true } else d).mutbl = d.mutbl := by split <;> rfl
  refine ⟨freezeBag_ok (f := fun d => if d.mutbl then { d with forked := true } else d) hok hd h1 h2 ?_,
    freezeBag_keeps (f := fun d => if d.mutbl then { d with forked := true } else d) hd h1 h2
      (fun h => h3.trans h) (fun _ => h3)⟩
  intro hm
  rw [h3] at hm
  rw [if_pos hm]
  exact ⟨rfl, hm⟩

theorem ext_freeze_last {impls : List Impl} {m : Impl} (he : Ext impls (impls ++ [m])) :
    Ext impls (freezeImpl (impls ++ [m]) impls.length) where
  ok := freeze_ok he.ok _
  len := by rw [length_freeze]; exact he.len
  same i hi := by
    rw [bagAt_freeze, he.same i hi]
    have : impls.length ≠ i := by omega
    simp only [if_neg this]
    cases bagAt impls i <;> rfl

theorem fork_new {w : World} (hok : Ok w) {h : Nat} {d : DataBag} (hd : w.bags[h]? = some d)
    {b : Bag} (hb : bagAt w.impls d.impl = some b) (hf : b.frozen = true) (immutable : Bool) :
    NewBag w (if immutable then freezeImpl (forkImpl w.impls d.impl) w.impls.length
        else forkImpl w.impls d.impl)
      { impl := w.impls.length, fallbacks := [], mutbl := !immutable, forked := false }
      { b.fork w.impls.length with frozen := immutable } := by
  obtain ⟨m, hm, hbm⟩ := bagAt_inv hb
  have hmf : m.frozen = true := by rw [hbm] at hf; exact hf
  have hfo := fork_ok hok.impls hm hmf
  have hext : Ext w.impls (forkImpl w.impls d.impl) := ext_append hok.impls hfo
  have hat := bagAt_fork hok.impls hb
  refine ⟨?_, Nat.le_refl _, ?_, by cases immutable <;> rfl, rfl, fun _ => rfl,
    (fun f hf => by cases hf), fun h => absurd rfl h⟩
  · cases immutable with
    | false => exact hext
    | true => exact ext_freeze_last hext
  · cases immutable with
    | false => exact hat
    | true =>
      simp only [if_true]
      rw [bagAt_freeze, hat]
      simp

theorem bagAt_prepared {w : World} {h : Nat} {d : DataBag} {b : Bag}
    (hb : bagAt w.impls d.impl = some b) :
    bagAt (prepared w h d).impls d.impl = some { b with frozen := true } := by
  unfold prepared
  simp only
  rw [bagAt_freeze, hb]
  simp

theorem prepared_get {w : World} {h : Nat} {d : DataBag} (hd : w.bags[h]? = some d) :
    (prepared w h d).bags[h]? = some (if d.mutbl then { d with forked := true } else d) := by
  unfold prepared
  simp only
  rw [modify_get, hd]
  simp

/-- A fork is made in the prepared world. -/
theorem fallbackFreeFork_eq {w : World} (hok : Ok w) {h : Nat} {d : DataBag}
    (hd : w.bags[h]? = some d) (immutable : Bool) :
    fallbackFreeFork w h d immutable =
      { impls := if immutable then
            freezeImpl (forkImpl (prepared w h d).impls d.impl) (prepared w h d).impls.length
          else forkImpl (prepared w h d).impls d.impl
        bags := (prepared w h d).bags ++
          [{ impl := (prepared w h d).impls.length, fallbacks := [], mutbl := !immutable, forked := false }] } := by
  unfold fallbackFreeFork
  have hl : (prepared w h d).impls.length = w.impls.length := length_freeze _ _
  rw [hl]
  unfold prepared
  simp only
  rw [freeze_fork (hok.impl_lt hd)]
  congr 2
  by_cases hm : d.mutbl = true
  · rw [if_pos hm]
    apply List.ext_getElem?
    intro k
    rw [modify_get, modify_get]
    by_cases hhk : h = k
    · subst hhk; rw [hd]; simp [hm]
    · simp [hhk]
  · rw [if_neg hm]
    apply List.ext_getElem?
    intro k
    rw [modify_get]
    by_cases hhk : h = k
    · subst hhk; rw [hd]; simp [hm]
    · simp [hhk]

/-- What `FallbackFreeFork` does. -/
theorem fallbackFreeFork_ok {w : World} (hok : Ok w) {h : Nat} {d : DataBag}
    (hd : w.bags[h]? = some d) (immutable : Bool) :
    Ok (fallbackFreeFork w h d immutable) ∧ Keeps w (fallbackFreeFork w h d immutable) none none ∧
    (fallbackFreeFork w h d immutable).bags.length = w.bags.length + 1 ∧
    (∃ d', (fallbackFreeFork w h d immutable).bags[w.bags.length]? = some d' ∧
      d'.mutbl = !immutable ∧ d'.fallbacks = []) ∧
    ∀ x attr, look (fallbackFreeFork w h d immutable) w.bags.length x attr = look w h x attr := by
  obtain ⟨b, hb, _⟩ := hok.valid h d hd
  obtain ⟨hok1, hk1⟩ := prepared_ok hok hd
  have hd1 := prepared_get (w := w) hd
  have hb1 := bagAt_prepared (h := h) hb
  have himpl : (if d.mutbl then { d with forked := true } else d).impl = d.impl := by split <;> rfl
  have hn := fork_new hok1 hd1 (by rw [himpl]; exact hb1) rfl immutable
  rw [himpl] at hn
  have hlen : (prepared w h d).bags.length = w.bags.length := by
    unfold prepared; simp
  rw [fallbackFreeFork_eq hok hd]
  refine ⟨hn.okWorld hok1, hk1.trans (hn.keeps hok1), by simp [hlen], ?_, ?_⟩
  · refine ⟨_, (get_bags _ _ _ _).2 (.inr ⟨hlen.symm, rfl⟩), rfl, rfl⟩
  · intro x attr
    rw [← hlen, hn.look, lookup_frozen, fork_lookup, lookup_frozen,
      look_some (by rw [implOf_some hd]; exact hb)]

end Verif.BagWorld
