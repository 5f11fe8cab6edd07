import Verif.BagAttr.MergeColl
import Verif.BagAttr.Write
/-
Merging one attribute of one allocation.
-/

namespace Verif.BagAttr

theorem Coll.asConst_cell {a : Alloc} {c : Coll} (h : c.WF a) (o : Obj) (up : Cell) :
    c.asConst.cell o up = c.cell o up := by
  obtain ⟨sp, md, cd, lp⟩ := c
  cases md with
  | none => rfl
  | some d =>
    have h1 := h.mutd d rfl
    simp only at h1
    obtain ⟨_, _, rfl, rfl, rfl⟩ := h1
    simp [Coll.asConst, Coll.cell]

theorem Coll.asConst_mut (c : Coll) : c.asConst.mutDense = none := by
  obtain ⟨sp, md, cd, lp⟩ := c
  cases md <;> rfl

theorem Coll.asConst_lookup (c : Coll) : c.asConst.lookupParent = c.lookupParent := by
  obtain ⟨sp, md, cd, lp⟩ := c
  cases md <;> rfl

theorem Coll.asConst_wf {a : Alloc} {c : Coll} (h : c.WF a) : c.asConst.WF a := by
  obtain ⟨sp, md, cd, lp⟩ := c
  cases md with
  | none => exact h
  | some d =>
    have h1 := h.mutd d rfl
    simp only at h1
    obtain ⟨h2, _, rfl, rfl, rfl⟩ := h1
    refine ⟨(by intro s hs; cases hs), (by intro d hd; cases hd), ?_⟩
    intro d' hd
    have := Option.some.inj hd
    subst this
    exact ⟨h2, rfl⟩

/-- Every dense source of an attribute is in one of the layers. -/
theorem bigSources_mem (a : Alloc) (attr : Attr) (layers : List Layer) (size : Nat) (d : Dense)
    (h : d ∈ (bigSources a attr layers size).2.1) :
    ∃ l ∈ layers, ∃ c, l.big.get? (a, attr) = some c ∧
      (c.mutDense = some d ∨ c.constDense = some d) := by
  induction layers with
  | nil => simp [bigSources] at h
  | cons l ls ih =>
    have hrec : d ∈ (bigSources a attr ls size).2.1 → _ := ih
    have lift : (∃ l' ∈ ls, ∃ c, l'.big.get? (a, attr) = some c ∧
        (c.mutDense = some d ∨ c.constDense = some d)) →
        ∃ l' ∈ l :: ls, ∃ c, l'.big.get? (a, attr) = some c ∧
          (c.mutDense = some d ∨ c.constDense = some d) := by
      rintro ⟨l', h1, h2⟩
      exact ⟨l', List.mem_cons_of_mem _ h1, h2⟩
    rw [bigSources] at h
    cases hg : l.big.get? (a, attr) with
    | none => rw [hg] at h; exact lift (ih h)
    | some c =>
      rw [hg] at h
      simp only at h
      cases hm : c.mutDense with
      | some d' =>
        rw [hm] at h
        simp only [List.mem_singleton] at h
        exact ⟨l, List.mem_cons_self, c, hg, .inl (by rw [hm, h])⟩
      | none =>
        rw [hm] at h
        cases hcd : c.constDense with
        | some d' =>
          rw [hcd] at h
          simp only [List.mem_singleton] at h
          exact ⟨l, List.mem_cons_self, c, hg, .inr (by rw [hcd, h])⟩
        | none =>
          rw [hcd] at h
          simp only at h
          split at h
          · exact lift (ih h)
          · simp at h

/-- An oversized source of the attribute. -/
def OverIn (a : Alloc) (attr : Attr) (layers : List Layer) : Prop :=
  ∃ l ∈ layers, ∃ c d, l.big.get? (a, attr) = some c ∧
    (c.mutDense = some d ∨ c.constDense = some d) ∧ Oversized a d

/-- What merging one attribute of one allocation does. -/
def KeyOutcome (a : Alloc) (p : Policy) (t o : Obj → Cell) (over arr : Prop) :
    Except Err Coll → Prop
  | .ok c => c.WF a ∧ c.lookupParent = false ∧
      ((∀ x : Obj, x.alloc = a → x.off < a.n → ∀ up, Merged p (t x) (o x) (c.cell x up)) ∨
       (arr ∧ (∀ x : Obj, x.alloc = a → x.off < a.n → o x = some none) ∧
         ∀ x : Obj, x.alloc = a → x.off < a.n → ∀ up, c.cell x up = t x))
  | .error e =>
      (e = .conflict ∧ p = .raise ∧ ∃ x : Obj, x.alloc = a ∧ x.off < a.n ∧ Conflict (t x) (o x)) ∨
      (e = .outOfBounds ∧ over)

theorem Coll.cell_up {c : Coll} (h : c.lookupParent = false) (o : Obj) (up up' : Cell) :
    c.cell o up = c.cell o up' := by
  unfold Coll.cell
  rw [h]
  rfl

theorem mergeBigKey_ok {a : Alloc} (hsm : a.isSmall = false) (haw : a.WF) {attr : Attr}
    {this thisParents : List Layer} (hthis : ∀ l ∈ this, l.WF) (hpar : ∀ l ∈ thisParents, l.WF)
    {l : Layer} {rest : List Layer} (hother : ∀ l' ∈ l :: rest, l'.WF) {oc0 : Coll}
    (hoc : l.big.get? (a, attr) = some oc0) (fr : Bool) (p : Policy) {c : Coll} (hc : c.WF a)
    (hT : ∀ o : Obj, o.alloc = a →
      lookupBig o attr this = c.cell o (lookupBig o attr thisParents))
    (hnd : (bigSources a attr this a.capacity).2.1 = [] →
      c.mutDense = none ∧ c.constDense = none) :
    KeyOutcome a p (fun o => lookupBig o attr this) (fun o => lookupBig o attr (l :: rest))
      (OverIn a attr (l :: rest)) (InArray this a attr ∧ InArray (l :: rest) a attr)
      (mergeBigKey fr this thisParents (l :: rest) a attr p c) := by
  have hoc0 := (hother l List.mem_cons_self).big a attr oc0 hoc
  have htw := bigSources_wf a attr this a.capacity hthis
  have how := bigSources_wf a attr (l :: rest) a.capacity hother
  have htc : ∀ o : Obj, o.alloc = a →
      cellOf (bigSources a attr this a.capacity).2 o = lookupBig o attr this := by
    intro o ho
    rw [← ho]
    exact bigSources_cell o attr this _ hthis
  have hoc' : ∀ o : Obj, o.alloc = a →
      cellOf (bigSources a attr (l :: rest) a.capacity).2 o = lookupBig o attr (l :: rest) := by
    intro o ho
    rw [← ho]
    exact bigSources_cell o attr (l :: rest) _ hother
  have hocell : ∀ o : Obj, o.alloc = a →
      oc0.asConst.cell o (lookupBig o attr rest) = lookupBig o attr (l :: rest) := by
    intro o ho
    rw [Coll.asConst_cell hoc0.2.2.1, lookupBig_cons, ho, hoc]
  have hmem := bigSources_mem a attr (l :: rest) a.capacity
  have hrest : ∀ l' ∈ rest, l'.WF := fun l' hl => hother l' (List.mem_cons_of_mem _ hl)
  -- a collection that falls back to the parents has a sparse source
  have hlp : (bigSources a attr (l :: rest) a.capacity).2.2 = [] →
      oc0.asConst.lookupParent = false := by
    intro he
    rw [Coll.asConst_lookup]
    cases hl : oc0.lookupParent with
    | false => rfl
    | true =>
      have h1 := hoc0.2.2.2 hl
      obtain ⟨s, hs⟩ := Option.isSome_iff_exists.1 h1
      have h2 : s ∈ (bigSources a attr (l :: rest) a.capacity).2.2 := by
        rw [bigSources, hoc]
        simp only
        cases hmd : oc0.mutDense with
        | some d =>
          have := (hoc0.2.2.1.mutd d hmd).2.2.1
          rw [hs] at this
          cases this
        | none =>
          cases hcd : oc0.constDense with
          | some d =>
            have := (hoc0.2.2.1.const d hcd).2
            rw [hl] at this
            cases this
          | none =>
            simp only [hl, hs]
            simp
      rw [he] at h2
      cases h2
  unfold mergeBigKey
  simp only [dataSources_big hsm, List.head?_cons, Option.bind_some, hoc, Option.getD_some,
    List.tail_cons]
  generalize hts : bigSources a attr this a.capacity = t at htw htc hnd
  generalize hos : bigSources a attr (l :: rest) a.capacity = o at how hoc' hmem hlp
  obtain ⟨tn, td, ts⟩ := t
  obtain ⟨on, od, os⟩ := o
  simp only at htw htc how hoc' hnd hmem hlp ⊢
  cases td with
  | nil =>
    have hT0 : ∀ x : Obj, x.alloc = a → lookupBig x attr this = ts.findSome? (·.get x) := by
      intro x hx
      rw [← htc x hx]
      simp [cellOf]
    cases od with
    | nil =>
      have hO0 : ∀ x : Obj, x.alloc = a → lookupBig x attr (l :: rest) = os.findSome? (·.get x) := by
        intro x hx
        rw [← hoc' x hx]
        simp [cellOf]
      have hdn := hnd rfl
      have hcs : ∀ (s : Option Sparse), (∀ s', s = some s' → s'.WF (some a)) →
          Coll.WF a { c with sparse := s, lookupParent := false } := by
        intro s hs
        refine ⟨hs, ?_, ?_⟩
        · intro d hd
          rw [show ({ c with sparse := s, lookupParent := false } : Coll).mutDense = c.mutDense
            from rfl, hdn.1] at hd
          cases hd
        · intro d hd
          rw [show ({ c with sparse := s, lookupParent := false } : Coll).constDense = c.constDense
            from rfl, hdn.2] at hd
          cases hd
      have hcc : ∀ (s : Option Sparse) (x : Obj) (up : Cell),
          Coll.cell { c with sparse := s, lookupParent := false } x up = s.bind (·.get x) := by
        intro s x up
        simp only [Coll.cell, hdn.1, hdn.2]
        simp
      cases ts with
      | nil =>
        simp only
        by_cases hos0 : os = []
        · subst hos0
          have hmt : mergeToSparse [] = none := rfl
          rw [hmt]
          refine ⟨hcs none (by intro s hs; cases hs), rfl, .inl ?_⟩
          intro x hx _ up
          simp only
          rw [hcc, hT0 x hx, hO0 x hx]
          rfl
        · obtain ⟨s, h1, h2, h3⟩ := mergeToSparse_ok hos0 how.2.1
          rw [h1]
          refine ⟨hcs (some s) (by intro s' hs; cases hs; exact h2), rfl, .inl ?_⟩
          intro x hx _ up
          simp only
          rw [hcc, hT0 x hx, hO0 x hx]
          exact h3 x
      | cons t0 ts0 =>
        obtain ⟨s, h1, h2, h3⟩ := mergeToSparse_ok (List.cons_ne_nil t0 ts0) htw.2.1
        rw [h1]
        have hm := mergeSparseIntoSparse_ok h2 how.2.1 p
        simp only
        cases hr : mergeSparseIntoSparse s os p with
        | ok s' =>
          rw [hr] at hm
          refine ⟨hcs (some s') (by intro s'' hs; cases hs; exact hm.1), rfl, .inl ?_⟩
          intro x hx _ up
          simp only
          rw [hcc, hT0 x hx, hO0 x hx]
          have := hm.2 x hx
          rw [h3] at this
          exact this
        | error e =>
          rw [hr] at hm
          obtain ⟨e1, e2, x, e3, e4, e5⟩ := hm
          refine .inl ⟨e1, e2, x, e4, by rw [← e4]; exact e3.off, ?_⟩
          simp only
          rw [hT0 x e4, hO0 x e4]
          rw [h3] at e5
          exact e5
    | cons od od' =>
      have hodw := how.1 od List.mem_cons_self
      cases ts with
      | nil =>
        simp only
        have hTn : ∀ x : Obj, x.alloc = a → lookupBig x attr this = none := by
          intro x hx
          rw [hT0 x hx]
          rfl
        by_cases hcase : (!os.isEmpty || (oc0.asConst.constDense.any (·.rep.isMutable) && !fr)) = true
        · rw [if_pos hcase]
          obtain ⟨d, h1, h2, h3, h4⟩ := createMutableDense_ok rest hrest oc0.asConst a attr none
            a.capacity (Coll.asConst_wf hoc0.2.2.1) (Coll.asConst_mut _) hsm haw (Nat.le_refl _)
          rw [h1]
          refine ⟨Coll.WF.ofDense h2 h3, rfl, .inl ?_⟩
          intro x hx hxn up
          simp only
          rw [Coll.cell_dense, h4 x hx hxn, hocell x hx, hTn x hx]
          rfl
        · rw [if_neg hcase]
          have hose : os = [] := by
            cases os with
            | nil => rfl
            | cons s ss => simp at hcase
          have hl := hlp hose
          refine ⟨Coll.asConst_wf hoc0.2.2.1, hl, .inl ?_⟩
          intro x hx _ up
          simp only
          rw [Coll.cell_up hl x up (lookupBig x attr rest), hocell x hx, hTn x hx]
          rfl
      | cons t0 ts0 =>
        simp only
        obtain ⟨d, h1, h2, h3, h4⟩ := createMutableDense_ok rest hrest oc0.asConst a attr none
            od.rep.size (Coll.asConst_wf hoc0.2.2.1) (Coll.asConst_mut _) hsm hodw.rep.size hodw.size
        rw [h1]
        simp only
        have hm := mergeSparseIntoDense_ok h2 h3 htw.2.1 p.reverse
        cases hr : mergeSparseIntoDense d (t0 :: ts0) p.reverse with
        | ok d' =>
          rw [hr] at hm
          refine ⟨Coll.WF.ofDense hm.1 hm.2.1, rfl, .inl ?_⟩
          intro x hx hxn up
          simp only
          rw [Coll.cell_dense]
          have := hm.2.2 x hx
          rw [h4 x hx hxn, hocell x hx, ← hT0 x hx] at this
          exact this.reverse
        | error e =>
          rw [hr] at hm
          obtain ⟨e1, e2, x, e3, e4, e5⟩ := hm
          have hxn : x.off < a.n := by rw [← e4]; exact e3.off
          refine .inl ⟨e1, ?_, x, e4, hxn, ?_⟩
          · cases p with
            | raise => rfl
            | overwrite => cases e2
            | keep => cases e2
          · rw [h4 x e4 hxn, hocell x e4, ← hT0 x e4] at e5
            exact e5.symm
  | cons td td' =>
    have htdw := htw.1 td List.mem_cons_self
    have htarr : InArray this a attr := by
      obtain ⟨l', e1, c', e2, e3⟩ := bigSources_mem a attr this a.capacity td (by rw [hts]; simp)
      exact ⟨l', e1, c', td, e2, e3⟩
    simp only
    have hC : ∃ d, (if c.mutDense.isNone then createMutableDense thisParents c a attr none td.rep.size
        else .ok c) = .ok (Coll.mk none (some d) none false) ∧ d.WF a ∧ d.rep.isMutable = true ∧
        ∀ x : Obj, x.alloc = a → x.off < a.n → d.get x = lookupBig x attr this := by
      cases hmd : c.mutDense with
      | none =>
        obtain ⟨d, h1, h2, h3, h4⟩ := createMutableDense_ok thisParents hpar c a attr none
          td.rep.size hc hmd hsm htdw.rep.size htdw.size
        refine ⟨d, ?_, h2, h3, ?_⟩
        · exact h1
        · intro x hx hxn
          rw [h4 x hx hxn, hT x hx]
      | some d =>
        have hd := hc.mutd d hmd
        refine ⟨d, ?_, hd.1, hd.2.1, ?_⟩
        · obtain ⟨sp, md, cd, lp⟩ := c
          simp only at hd hmd
          rw [hd.2.2.1, hd.2.2.2.1, hd.2.2.2.2, hmd]
          rfl
        · intro x hx _
          rw [hT x hx]
          obtain ⟨sp, md, cd, lp⟩ := c
          simp only at hd hmd
          rw [hd.2.2.1, hd.2.2.2.1, hd.2.2.2.2, hmd, Coll.cell_dense]
    obtain ⟨d, h1, h2, h3, h4⟩ := hC
    rw [h1]
    simp only
    have hfin : ∀ r : Except Err Dense, DenseOutcome a p d.get (fun x => lookupBig x attr (l :: rest))
        (OverIn a attr (l :: rest)) r →
        (InArray (l :: rest) a attr ∨ ∀ d', r = .ok d' → ∀ x : Obj, x.alloc = a → x.off < a.n →
          Merged p (d.get x) (lookupBig x attr (l :: rest)) (d'.get x)) →
        KeyOutcome a p (fun o => lookupBig o attr this) (fun o => lookupBig o attr (l :: rest))
          (OverIn a attr (l :: rest)) (InArray this a attr ∧ InArray (l :: rest) a attr) (match r with
          | .error e => .error e
          | .ok d => .ok (Coll.mk none (some d) none false)) := by
      intro r hr harr
      cases r with
      | ok d' =>
        refine ⟨Coll.WF.ofDense hr.1 hr.2.1, rfl, ?_⟩
        rcases harr with harr | hr
        rcases hr.2.2 with hr | ⟨hr1, hr2⟩
        · left
          intro x hx hxn up
          simp only
          rw [Coll.cell_dense, ← h4 x hx hxn]
          exact hr x hx hxn
        · right
          refine ⟨⟨htarr, harr⟩, hr1, ?_⟩
          intro x hx hxn up
          rw [Coll.cell_dense, hr2 x hx hxn, h4 x hx hxn]
        · left
          intro x hx hxn up
          simp only
          rw [Coll.cell_dense, ← h4 x hx hxn]
          exact hr _ rfl x hx hxn
      | error e =>
        rcases hr with ⟨e1, e2, x, e3, e4, e5⟩ | hr
        · left
          refine ⟨e1, e2, x, e3, e4, ?_⟩
          simp only
          rw [← h4 x e3 e4]
          exact e5
        · exact .inr hr
    cases od with
    | nil =>
      have hO0 : ∀ x : Obj, x.alloc = a → lookupBig x attr (l :: rest) = os.findSome? (·.get x) := by
        intro x hx
        rw [← hoc' x hx]
        simp [cellOf]
      have hm := mergeSparseIntoDense_ok h2 h3 how.2.1 p
      simp only
      refine hfin (mergeSparseIntoDense d os p) ?_ (.inr ?_)
      rotate_left
      · intro d' he x hx _
        rw [he] at hm
        rw [hO0 x hx]
        exact hm.2.2 x hx
      cases hr : mergeSparseIntoDense d os p with
      | ok d' =>
        rw [hr] at hm
        refine ⟨hm.1, hm.2.1, .inl ?_⟩
        intro x hx _
        simp only
        rw [hO0 x hx]
        exact hm.2.2 x hx
      | error e =>
        rw [hr] at hm
        obtain ⟨e1, e2, x, e3, e4, e5⟩ := hm
        refine .inl ⟨e1, e2, x, e4, by rw [← e4]; exact e3.off, ?_⟩
        simp only
        rw [hO0 x e4]
        exact e5
    | cons od od' =>
      have hodw := how.1 od List.mem_cons_self
      have hod' : od' = [] := by
        have := how.2.2
        cases od' with
        | nil => rfl
        | cons _ _ => simp at this
      subst hod'
      have hm := mergeDenseIntoDense_ok h2 h3 hodw how.2.1 p
      simp only
      refine hfin (mergeDenseIntoDense d a od os p) ?_ (.inl ?_)
      rotate_left
      · obtain ⟨l', e1, c', e2, e3⟩ := hmem od List.mem_cons_self
        exact ⟨l', e1, c', od, e2, e3⟩
      cases hr : mergeDenseIntoDense d a od os p with
      | ok d' =>
        rw [hr] at hm
        refine ⟨hm.1, hm.2.1, ?_⟩
        rcases hm.2.2 with hm | ⟨hm1, hm2⟩
        · left
          intro x hx hxn
          simp only
          rw [← hoc' x hx]
          exact hm x hx hxn
        · right
          refine ⟨?_, hm2⟩
          intro x hx hxn
          simp only
          rw [← hoc' x hx]
          exact hm1 x hx hxn
      | error e =>
        rw [hr] at hm
        rcases hm with ⟨e1, e2, x, e3, e4, e5⟩ | ⟨e1, e2⟩
        · refine .inl ⟨e1, e2, x, e3, e4, ?_⟩
          simp only
          rw [← hoc' x e3]
          exact e5
        · right
          obtain ⟨l', hl, c', hg, hd⟩ := hmem od List.mem_cons_self
          refine ⟨e1, l', hl, c', od, hg, hd, ?_, e2.2.1, e2.2.2⟩
          have := h2.rep.size
          have := e2.1
          omega

end Verif.BagAttr
