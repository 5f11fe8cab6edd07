import Verif.Clone.Search

/-!
The visits of `deep_clone` do not fail for well-typed data.
-/

namespace Verif.Clone

open Verif.ObjectId
open Verif.Uuid
open Verif.Traverse

section
variable {S : Type} {H : HashFn S} {alloc : Nat → BitVec 6 → BitVec 6 → AllocationId} {b : Bag}
  {ds : List Item} {s : Item} {N : Nat} {t0 : Tracker} {M : ObjectId → Prop}

/-- The value of a pair can be given. -/
structure Val (M : ObjectId → Prop) (t0 : Tracker) (q : Pair) : Prop where
  fits : Fits q
  ids : ∀ o, q.1 = .object o → M o ∧
    (q.2 = .dtype 10 ∨ Explicit o ∨ Has t0 o ∨ o.isImplicitSchema = true)

/-- The tracker has the entries of the search, and it is not too large. -/
structure VS (M : ObjectId → Prop) (t0 : Tracker) (st : State) : Prop where
  keys : Keys M st
  grows : Grows t0 st.tracker

theorem VS.same {st st' : State} (h : VS M t0 st) (h1 : st'.tracker = st.tracker)
    (h2 : st'.count = st.count) : VS M t0 st' :=
  ⟨h.keys.same h1 h2, by rw [h1]; exact h.grows⟩

theorem tracked_of_has {t : Tracker} {o : ObjectId} (h : Has t o) : ∃ p, tracked t o = some p := by
  obtain ⟨v, hv⟩ := Option.ne_none_iff_exists'.mp h
  exact ⟨_, by unfold tracked; rw [hv]; rfl⟩

theorem cloneAsExplicit_run {st : State} {o : ObjectId} (ho : M o) (hv : VS M t0 st) :
    VS M t0 (cloneAsExplicit alloc st o) ∧ Has (cloneAsExplicit alloc st o).tracker o := by
  unfold cloneAsExplicit
  split
  · rename_i v h
    exact ⟨hv, by unfold Has; rw [h]; simp⟩
  · rename_i h
    refine ⟨⟨hv.keys.add h ⟨o, ho, rfl⟩ rfl (Nat.le_refl _), hv.grows.trans (grows_cons h)⟩, ?_⟩
    unfold Has
    simp only [find_cons, if_true]
    simp

theorem cloneGetValue_run {st : State} {q : Pair} (hq : Val M t0 q) (hv : VS M t0 st) :
    ∃ y st', cloneGetValue alloc st q.1 q.2 = .ok (y, st') ∧ VS M t0 st' ∧
      ((∃ o, q.1 = .object o) → ∃ o, y = .object o) := by
  unfold cloneGetValue
  split
  · rename_i o ho
    obtain ⟨h1, h2⟩ := hq.ids o ho
    by_cases c1 : q.2 = kItemId
    · rw [if_pos c1]; exact ⟨_, _, rfl, hv, fun _ => ⟨o, ho⟩⟩
    rw [if_neg c1]
    by_cases c2 : (o.isSchema && !o.isImplicitSchema) = true
    · rw [if_pos c2]; exact ⟨_, _, rfl, hv, fun _ => ⟨o, ho⟩⟩
    rw [if_neg c2]
    split
    · rename_i p _; exact ⟨_, _, rfl, hv, fun _ => ⟨p, rfl⟩⟩
    · rename_i hn
      rcases h2 with h2 | h2 | h2 | h2
      · exact absurd h2 c1
      · exact absurd ((explicit_iff o).mpr h2) c2
      · obtain ⟨p, hp⟩ := tracked_of_has (h2.grows hv.grows)
        rw [hp] at hn; cases hn
      · rw [if_pos h2]
        obtain ⟨k1, k2⟩ := cloneAsExplicit_run (alloc := alloc) h1 hv
        obtain ⟨p, hp⟩ := tracked_of_has k2
        rw [hp]
        exact ⟨_, _, rfl, k1, fun _ => ⟨p, rfl⟩⟩
  · rename_i hno
    exact ⟨_, _, rfl, hv, fun ⟨o, ho⟩ => absurd ho (hno o)⟩

theorem getValue_run {st : State} {q : Pair} (hq : Val M t0 q) (hv : VS M t0 st) :
    ∃ y st', getValue (cloneVisitor H alloc) st q = .ok (y, st') ∧ VS M t0 st' := by
  unfold getValue
  rw [fits_ok hq.fits]
  obtain ⟨y, st', h, h1, _⟩ := cloneGetValue_run (alloc := alloc) hq hv
  exact ⟨y, st', h, h1⟩

theorem listValues_run {t : Item} : ∀ {l : List Item} {st : State},
    (∀ y ∈ l, Val M t0 (y, t)) → VS M t0 st →
    ∃ ys st', listValues (cloneVisitor H alloc) t st l = .ok (ys, st') ∧ VS M t0 st'
  | [], st, _, hv => ⟨[], st, rfl, hv⟩
  | y :: l, st, h, hv => by
    unfold listValues
    obtain ⟨y1, st1, h1, v1⟩ := getValue_run (H := H) (alloc := alloc) (h y (by simp)) hv
    obtain ⟨ys, st2, h2, v2⟩ := listValues_run (t := t) (l := l)
      (fun z hz => h z (by simp [hz])) v1
    rw [h1]; simp only [h2]
    exact ⟨_, _, rfl, v2⟩

theorem dictValues_run {kt vt : Item} : ∀ {l : List (Item × Item)} {st : State},
    (∀ y ∈ l, Val M t0 (y.1, kt)) → (∀ y ∈ l, Val M t0 (y.2, vt)) → VS M t0 st →
    ∃ ys st', dictValues (cloneVisitor H alloc) kt vt st l = .ok (ys, st') ∧ VS M t0 st'
  | [], st, _, _, hv => ⟨[], st, rfl, hv⟩
  | (k, y) :: l, st, h, h', hv => by
    unfold dictValues
    obtain ⟨k1, st1, h1, v1⟩ := getValue_run (H := H) (alloc := alloc) (h (k, y) (by simp)) hv
    obtain ⟨y2, st2, h2, v2⟩ := getValue_run (H := H) (alloc := alloc) (h' (k, y) (by simp)) v1
    obtain ⟨ys, st3, h3, v3⟩ := dictValues_run (kt := kt) (vt := vt) (l := l)
      (fun z hz => h z (by simp [hz])) (fun z hz => h' z (by simp [hz])) v2
    simp only at h1 h2
    rw [h1]; simp only [h2, h3]
    exact ⟨_, _, rfl, v3⟩

theorem attrValues_run {tr : Name → Except Err Pair} : ∀ {l : List Name} {st : State},
    (∀ n ∈ l, ∃ p, tr n = .ok p ∧ Val M t0 p) → VS M t0 st →
    ∃ ys st', attrValues (cloneVisitor H alloc) tr st l = .ok (ys, st') ∧ VS M t0 st'
  | [], st, _, hv => ⟨[], st, rfl, hv⟩
  | n :: l, st, h, hv => by
    unfold attrValues
    obtain ⟨p, hp, hq⟩ := h n (by simp)
    obtain ⟨y1, st1, h1, v1⟩ := getValue_run (H := H) (alloc := alloc) hq hv
    obtain ⟨ys, st2, h2, v2⟩ := attrValues_run (tr := tr) (l := l)
      (fun z hz => h z (by simp [hz])) v1
    rw [hp]; simp only [h1, h2]
    exact ⟨_, _, rfl, v2⟩

theorem resultItems_run {s : Item} : ∀ {l : List Item} {st : State},
    (∀ y ∈ l, Val M t0 (y, s)) → VS M t0 st →
    ∃ ys st', resultItems alloc s st l = .ok (ys, st') ∧ VS M t0 st'
  | [], st, _, hv => ⟨[], st, rfl, hv⟩
  | y :: l, st, h, hv => by
    unfold resultItems
    obtain ⟨y1, st1, h1, v1, _⟩ := cloneGetValue_run (alloc := alloc) (h y (by simp)) hv
    obtain ⟨ys, st2, h2, v2⟩ := resultItems_run (s := s) (l := l)
      (fun z hz => h z (by simp [hz])) v1
    simp only at h1
    rw [h1]; simp only [h2]
    exact ⟨_, _, rfl, v2⟩

theorem cloneId_run {st : State} {x : ObjectId} {u : Item} {io : Bool} (hx : Val M t0 (.object x, u))
    (hu : io = true → Val M t0 (u, kSchema)) (hv : VS M t0 st) :
    ∃ o st', cloneId alloc st (.object x) u io = .ok (o, st') ∧ VS M t0 st' := by
  unfold cloneId
  obtain ⟨y, st1, h1, v1, hy⟩ := cloneGetValue_run (alloc := alloc) hx hv
  obtain ⟨o, rfl⟩ := hy ⟨x, rfl⟩
  simp only at h1
  rw [h1]
  simp only
  cases io with
  | false => exact ⟨_, _, rfl, v1⟩
  | true =>
    obtain ⟨y2, st2, h2, v2, _⟩ := cloneGetValue_run (alloc := alloc) (hu rfl) v1
    simp only at h2
    simp only [if_true, h2]
    exact ⟨_, _, rfl, v2.same rfl rfl⟩

/-- The lists of the new bag have the length of the old lists. -/
def LInv (b : Bag) (f : Tracker) (g : NewBag) : Prop :=
  ∀ o, g.list o ≠ [] → ∃ x, Has f x ∧ newId f x = o ∧ (g.list o).length = (b.list x).length

theorem newId_grows {f f' : Tracker} {x : ObjectId} (h : Has f x) (hg : Grows f f') :
    newId f' x = newId f x := by
  obtain ⟨p, hp⟩ := tracked_of_has h
  rw [(tracked_some hp hg).1, (tracked_some hp (.refl _)).1]

/-- All that is known during the visits. -/
structure VI (H : HashFn S) (alloc : Nat → BitVec 6 → BitVec 6 → AllocationId) (b : Bag)
    (M : ObjectId → Prop) (N : Nat) (t0 : Tracker) (st : State) : Prop where
  vs : VS M t0 st
  inv : TInv H alloc b N st
  lists : LInv b st.tracker st.bag

theorem visitEntity_run (hb : b.Ok) (hA : NewIds alloc N M) (hC : NoCollision H alloc N b M)
    (hi : ∀ x T, b.attr x schemaAttrName = .object T → T.isImplicitSchema = true →
      T = implicitOf H x ∧ x.isSchema = false)
    (hM : ∀ st : State, Keys M st → st.count ≤ N)
    {x T : ObjectId} {io : Bool} {st : State} (hx : x.isSchema = false)
    (hty : Typed b x (.object T)) (hxv : Val M t0 (.object x, .object T))
    (hT : io = true → Val M t0 (.object T, kSchema))
    (hp : ∀ q, Part b x (.object T) q → Val M t0 q) (hv : VI H alloc b M N t0 st) :
    ∃ st', visitEntity (cloneVisitor H alloc) b st (.object x) (.object T) io = .ok st' ∧
      VS M t0 st' := by
  have hxe : ¬ Explicit x := by simp [Explicit, hx]
  have h10 : Item.object T ≠ .dtype 10 := by simp
  have kind : ∀ {st2 : State} {o : ObjectId}, TInv H alloc b N st2 → o = newId st2.tracker x →
      Has st2.tracker x → o.metadata = x.metadata &&& ~~~kUuidFlag := by
    intro st2 o h1 h2 h3
    rw [h2]
    exact (newId_kind hA hi h1 h3 hx).1
  have twice : ∀ m : BitVec 6, (m &&& ~~~kUuidFlag) &&& ~~~kUuidFlag = m &&& ~~~kUuidFlag := by
    decide
  unfold visitEntity
  rcases typed_transitions hb hty true with h1 | ⟨t, h2, h3, _, h1⟩ | ⟨k, t, h2, h3, _, _, h1⟩ |
    ⟨names, h2, h3, h4, _, h5, h1⟩
  · rw [h1]
    simp only [cloneVisitor, cloneVisitObject]
    obtain ⟨o, st2, h6, v2⟩ := cloneId_run (alloc := alloc) (io := io) hxv hT hv.vs
    rw [h6]
    exact ⟨_, rfl, v2.same rfl rfl⟩
  · have hlist : x.isList = true := by
      unfold getTransitions at h1
      simp only [holdsId, if_true] at h1
      rcases entityTransitions_ok h1 with ⟨_, e⟩ | ⟨_, _, _, _, _, e⟩ | ⟨_, _, _, _, e, _⟩ |
        ⟨_, _, ⟨_, _, e⟩ | e⟩
      · cases e
      · simp only [explodeList] at e
        cases hl : x.isList with
        | true => rfl
        | false => rw [hl] at e; cases e
      · cases e
      · cases e
      · cases e
    rw [h1]
    simp only
    obtain ⟨ys, st1, h6, v1⟩ := listValues_run (H := H) (alloc := alloc) (t := t) (l := b.list x)
      (fun y hy => hp _ (.listItem h2 h3 hy)) hv.vs
    rw [h6]
    simp only [cloneVisitor, cloneVisitList]
    obtain ⟨o, st2, h7, v2⟩ := cloneId_run (alloc := alloc) (io := io) hxv hT v1
    obtain ⟨m1, m2, m3⟩ := listValues_clone (b := b) hA h6
    obtain ⟨c1, c2⟩ := cloneId_ok (H := H) (b := b) hA h10 hxe h7
    have i2 := c1.inv (m1.inv hv.inv)
    obtain ⟨d1, d2, d3⟩ := c2 _ (.refl _)
    have hol : o.isList = true := by
      unfold ObjectId.isList at hlist ⊢
      rw [kind i2 d1 d2, twice]
      exact hlist
    rw [h7]
    simp only [hol, Bool.not_true, Bool.false_eq_true, if_false]
    by_cases k2 : (st2.bag.list o).length ≠ 0
    · rw [if_pos k2, if_neg]
      · exact ⟨_, rfl, v2⟩
      · have e1 : st2.bag.list o = st.bag.list o := by
          rw [d3, withSchema_rest.1, m2]
        rw [e1] at k2 ⊢
        obtain ⟨y, y1, y2, y3⟩ := hv.lists o (by intro hc; rw [hc] at k2; exact k2 rfl)
        have hg := m1.grows.trans c1.grows
        have : y = x := newId_inj hA (hM _ v2.keys) hC hi i2 (y1.grows hg) d2
          (by rw [newId_grows y1 hg, y2, d1])
        subst this
        rw [y3, m3 _ (.refl _), List.length_map]
        simp
    · rw [if_neg k2]
      exact ⟨_, rfl, v2.same rfl rfl⟩
  · have hdict : x.isDict = true := by
      unfold getTransitions at h1
      simp only [holdsId, if_true] at h1
      rcases entityTransitions_ok h1 with ⟨_, e⟩ | ⟨_, _, _, e, _⟩ | ⟨_, _, _, _, _, _, e⟩ |
        ⟨_, _, ⟨_, _, e⟩ | e⟩
      · cases e
      · cases e
      · simp only [dictItems] at e
        cases hl : x.isDict with
        | true => rfl
        | false => rw [hl] at e; cases e
      · cases e
      · cases e
    rw [h1]
    simp only
    obtain ⟨ys, st1, h6, v1⟩ := dictValues_run (H := H) (alloc := alloc) (kt := k) (vt := t)
      (l := b.dict x) (fun y hy => hp _ (.dictKey h2 h3 hy)) (fun y hy => hp _ (.dictValue h2 h3 hy))
      hv.vs
    rw [h6]
    simp only [cloneVisitor, cloneVisitDict]
    obtain ⟨o, st2, h7, v2⟩ := cloneId_run (alloc := alloc) (io := io) hxv hT v1
    obtain ⟨m1, m2, m3⟩ := dictValues_clone (b := b) hA h6
    obtain ⟨c1, c2⟩ := cloneId_ok (H := H) (b := b) hA h10 hxe h7
    have i2 := c1.inv (m1.inv hv.inv)
    obtain ⟨d1, d2, d3⟩ := c2 _ (.refl _)
    have hol : o.isDict = true := by
      unfold ObjectId.isDict at hdict ⊢
      rw [kind i2 d1 d2, twice]
      exact hdict
    rw [h7]
    simp only [hol, Bool.not_true, Bool.false_eq_true, if_false]
    exact ⟨_, rfl, v2.same rfl rfl⟩
  · rw [h1]
    simp only
    obtain ⟨ys, st1, h6, v1⟩ := attrValues_run (H := H) (alloc := alloc)
      (tr := attributeTransition b (.object x) (.object T)) (l := names) (fun n hn => by
        obtain ⟨t, ht, hs⟩ := h5 n hn
        refine ⟨_, attributeTransition_isOk hb h3 ht, hp _ (.attr (n := n) h2 h4 ⟨t, ht, ?_, rfl⟩)⟩
        rw [aboutSchema_iff, hs rfl]
        simp) hv.vs
    rw [h6]
    simp only [cloneVisitor, cloneVisitObject]
    obtain ⟨o, st2, h7, v2⟩ := cloneId_run (alloc := alloc) (io := io) hxv hT v1
    rw [h7]
    exact ⟨_, rfl, v2.same rfl rfl⟩

theorem visitSchemaItem_run (hb : b.Ok) {x : ObjectId} {st : State} (hty : Typed b x kSchema)
    (hxv : Val M t0 (.object x, kSchema)) (hp : ∀ q, Part b x (.dtype 12) q → Val M t0 q)
    (hv : VS M t0 st) :
    ∃ st', visitSchemaItem (cloneVisitor H alloc) b st (.object x) kSchema = .ok st' ∧
      VS M t0 st' := by
  unfold visitSchemaItem
  simp only [holdsId, Bool.not_true, Bool.false_eq_true, if_false]
  rcases typed_schema hty true with h1 | ⟨h2, h3, _, h1⟩
  · rw [h1]
    simp only [cloneVisitor, cloneVisitObject]
    obtain ⟨o, st2, h6, v2⟩ := cloneId_run (alloc := alloc) (io := false) hxv (by simp) hv
    rw [h6]
    exact ⟨_, rfl, v2.same rfl rfl⟩
  · rw [h1]
    simp only
    obtain ⟨ys, st1, h6, v1⟩ := attrValues_run (H := H) (alloc := alloc)
      (tr := schemaAttributeTransition b (.object x)) (l := (b.schemaAttrs x).map (·.1))
      (fun n hn => by
        obtain ⟨⟨n', t⟩, ht, rfl⟩ := List.mem_map.mp hn
        exact ⟨_, schemaTransition_isOk hb h3 ht,
          hp _ (.schemaAttr (n := n') h2 ⟨t, _, ht, (attrKind_iff _ _).mpr rfl, rfl⟩)⟩) hv
    rw [h6]
    simp only [cloneVisitor, cloneVisitObject]
    obtain ⟨o, st2, h7, v2⟩ := cloneId_run (alloc := alloc) (io := false) hxv (by simp) v1
    rw [h7]
    exact ⟨_, rfl, v2.same rfl rfl⟩

/-- What is known of a pair that is visited. -/
structure Ready (b : Bag) (M : ObjectId → Prop) (t0 : Tracker) (p : Pair) : Prop where
  vis : Visitable b p
  typed : ∀ x, p.1 = .object x → ∃ e, Own b x p.2 e ∧ Typed b x e
  item : ∀ x, p.1 = .object x → M x ∧ (DataSchema p.2 → Has t0 x)
  own : ∀ x T, p.1 = .object x → Own b x p.2 (.object T) → Val M t0 (.object T, kSchema)
  parts : ∀ x e q, p.1 = .object x → Own b x p.2 e → Part b x e q → Val M t0 q

theorem visitOne_run (hb : b.Ok) (hA : NewIds alloc N M) (hC : NoCollision H alloc N b M)
    (hi : ∀ x T, b.attr x schemaAttrName = .object T → T.isImplicitSchema = true →
      T = implicitOf H x ∧ x.isSchema = false)
    (hM : ∀ st : State, Keys M st → st.count ≤ N) {p : Pair} {st : State} (hp : Ready b M t0 p)
    (hv : VI H alloc b M N t0 st) :
    ∃ st', visitOne (cloneVisitor H alloc) b st p = .ok st' ∧ VI H alloc b M N t0 st' := by
  obtain ⟨x, _, hx, _⟩ := hp.vis.owned
  obtain ⟨e, he, hty⟩ := hp.typed x hx
  obtain ⟨hMx, hhas⟩ := hp.item x hx
  have hval : ∀ T, DataSchema p.2 → Val M t0 (.object x, .object T) := by
    intro T hd
    refine ⟨fun hc => ?_, fun o ho => ?_⟩
    · rw [primitive_iff] at hc; cases hc
    · simp only at ho; cases ho; exact ⟨hMx, .inr (.inr (.inl (hhas hd)))⟩
  have hrun : ∃ st', visitOne (cloneVisitor H alloc) b st p = .ok st' ∧ VS M t0 st' := by
    obtain ⟨px, s1⟩ := p
    simp only at hx he hhas hval
    subst hx
    unfold visitOne
    simp only
    by_cases h1 : holdsId s1 = true
    · rw [if_pos h1]
      obtain ⟨T, rfl⟩ := (holdsId_iff _).mp h1
      have ho : Own b x (.object T) (.object T) := .other (by simp)
      have := Own.unique he ho
      subst this
      exact visitEntity_run hb hA hC hi hM (hp.vis.data x rfl (.inr ⟨T, rfl⟩)) hty
        (hval T (.inr ⟨T, rfl⟩)) (fun _ => hp.own x T rfl ho) (fun q hq => hp.parts x _ q rfl ho hq) hv
    rw [if_neg h1]
    by_cases h2 : s1 = kObject
    · rw [if_pos h2]
      subst h2
      obtain ⟨T, rfl⟩ := hp.vis.object x e rfl rfl he
      unfold visitObjectItem
      simp only [holdsId, Bool.not_true, Bool.false_eq_true, if_false]
      rw [getObjectSchema_isOk he]
      exact visitEntity_run hb hA hC hi hM (hp.vis.data x rfl (.inl rfl)) hty
        (hval T (.inl rfl)) (fun _ => hp.own x T rfl he) (fun q hq => hp.parts x _ q rfl he hq) hv
    rw [if_neg h2]
    by_cases h3 : s1 = kSchema
    · rw [if_pos h3]
      subst h3
      have := Own.unique he (.other (by decide))
      subst this
      refine visitSchemaItem_run hb hty ⟨fun hc => ?_, fun o ho => ?_⟩
        (fun q hq => hp.parts x _ q rfl he hq) hv.vs
      · rw [primitive_iff] at hc; cases hc
      · simp only at ho; cases ho; exact ⟨hMx, .inr (.inr (.inr (hp.vis.schema x rfl rfl)))⟩
    rw [if_neg h3]
    exact ⟨_, rfl, hv.vs⟩
  obtain ⟨st', h1, v1⟩ := hrun
  obtain ⟨m1, m2⟩ := visitOne_clone hb hA hp.vis h1
  have i1 := m1.inv hv.inv
  obtain ⟨f1, f2⟩ := m2 _ (.refl _)
  refine ⟨st', h1, v1, i1, ?_⟩
  have hmoved : Moved st'.tracker p := by
    rintro y rfl hc
    refine newId_fresh hA (hM _ v1.keys) hC hi i1 (f1.has (.inr (.inl rfl)) y rfl) ?_
    rw [← hc]
    exact (hp.item y rfl).1
  intro o ho
  have hold : st.bag.list o ≠ [] → st'.bag.list o = st.bag.list o →
      ∃ x, Has st'.tracker x ∧ newId st'.tracker x = o ∧ (st'.bag.list o).length = (b.list x).length := by
    intro k1 k2
    obtain ⟨y, y1, y2, y3⟩ := hv.lists o k1
    exact ⟨y, y1.grows m1.grows, by rw [newId_grows y1 m1.grows, y2], by rw [k2, y3]⟩
  rcases (f2 hmoved).list o with ⟨l, ⟨y, T, t, w1, w2, w3, w4, w5, w6⟩, k | ⟨k1, k2⟩⟩ | ⟨k, _⟩
  · refine ⟨y, f1.has ?_ y w1, w2.symm, by rw [k, w6, List.length_map]⟩
    generalize hT : Item.object T = e' at w3
    generalize hq : p.2 = s1 at w3
    cases w3 with
    | object _ _ => exact .inl rfl
    | other _ => exact .inr (.inr ⟨T, hT.symm⟩)
  · exact hold k1 k2
  · exact hold (by rw [← k]; exact ho) k

theorem visitInPostOrder_run (hb : b.Ok) (hA : NewIds alloc N M) (hC : NoCollision H alloc N b M)
    (hi : ∀ x T, b.attr x schemaAttrName = .object T → T.isImplicitSchema = true →
      T = implicitOf H x ∧ x.isSchema = false)
    (hM : ∀ st : State, Keys M st → st.count ≤ N) : ∀ {l : List Pair} {st : State},
    (∀ p ∈ l, Ready b M t0 p) → VI H alloc b M N t0 st →
    ∃ st', visitInPostOrder (cloneVisitor H alloc) b st l = .ok st' ∧ VI H alloc b M N t0 st'
  | [], st, _, hv => ⟨st, rfl, hv⟩
  | p :: l, st, hp, hv => by
    unfold visitInPostOrder
    obtain ⟨st1, h1, v1⟩ := visitOne_run hb hA hC hi hM (hp p (by simp)) hv
    rw [h1]
    exact visitInPostOrder_run hb hA hC hi hM (fun q hq => hp q (by simp [hq])) v1

theorem reached_root {y : ObjectId} (hs : s ≠ .dtype 12) (h : .object y ∈ ds) :
    Reached b ds s (.object y, s) := by
  obtain ⟨i, hi⟩ := List.getElem?_of_mem h
  refine ⟨_, .inr ⟨i, y, hi, rfl, ?_⟩, .refl⟩
  unfold follow
  split
  · rename_i o hc; cases hc; exact absurd rfl hs
  · rfl

/-- The value of an id that is referred to. -/
theorem ref_val (hcl : Clonable b ds s) {q : Pair} {o : ObjectId}
    (hhas : ∀ x t, Reached b ds s (.object x, t) → DataSchema t → Has t0 x)
    (hr : Reached b ds s q) (hq : q.1 = .object o) :
    q.2 = .dtype 10 ∨ Explicit o ∨ Has t0 o ∨ o.isImplicitSchema = true := by
  obtain ⟨q1, q2⟩ := q
  simp only at hq
  subst hq
  obtain ⟨e, h1, h2, h3⟩ := hcl.typed o q2 hr
  by_cases hd : DataSchema q2
  · exact .inr (.inr (.inl (hhas o q2 hr hd)))
  have hne : q2 ≠ kObject := fun hc => hd (.inl hc)
  have := Own.unique h1 (.other hne)
  subst this
  by_cases h12 : e = .dtype 12
  · rw [h12] at hr; exact .inr (.inr (.inr (reached_schema hr)))
  · left
    clear h1 hr h3 hne
    generalize hq : e = e' at h2
    cases h2 with
    | itemId => rfl
    | noFollowSchema _ => exact absurd hq h12
    | schema _ _ _ => exact absurd hq h12
    | noFollow _ => exact absurd (.inr ⟨_, hq⟩) hd
    | list _ _ _ _ _ => exact absurd (.inr ⟨_, hq⟩) hd
    | dict _ _ _ _ _ _ => exact absurd (.inr ⟨_, hq⟩) hd
    | entity _ _ _ _ => exact absurd (.inr ⟨_, hq⟩) hd

theorem part_fits {x : ObjectId} {e : Item} {q : Pair} (hty : Typed b x e) (h : Part b x e q) :
    Fits q := by
  cases hty with
  | itemId => cases h
  | noFollow h1 =>
    cases h with
    | listItem h2 _ _ => rw [h1] at h2; cases h2
    | dictKey h2 _ _ => rw [h1] at h2; cases h2
    | dictValue h2 _ _ => rw [h1] at h2; cases h2
    | attr h2 _ _ => rw [h1] at h2; cases h2
  | list _ _ h3 _ h5 =>
    cases h with
    | listItem _ k2 k3 => rw [listSchema_unique k2 h3]; exact h5 _ k3
    | dictKey _ k2 _ => exact (list_not_dict h3 k2).elim
    | dictValue _ k2 _ => exact (list_not_dict h3 k2).elim
    | attr _ k2 _ => exact (list_not_plain h3 k2).elim
  | dict _ _ h3 _ h5 h6 =>
    cases h with
    | listItem _ k2 _ => exact (list_not_dict k2 h3).elim
    | dictKey _ k2 k3 => rw [(dictSchema_unique k2 h3).1]; exact h5 _ k3
    | dictValue _ k2 k3 => rw [(dictSchema_unique k2 h3).2]; exact h6 _ k3
    | attr _ k2 _ => exact (dict_not_plain h3 k2).elim
  | entity _ _ h3 h4 =>
    cases h with
    | listItem _ k2 _ => exact (list_not_plain k2 h3).elim
    | dictKey _ k2 _ => exact (dict_not_plain k2 h3).elim
    | dictValue _ k2 _ => exact (dict_not_plain k2 h3).elim
    | attr _ _ k3 => exact h4 _ _ k3
  | noFollowSchema h1 =>
    cases h with
    | schemaAttr h2 _ => rw [h1] at h2; cases h2
  | schema _ _ h3 =>
    cases h with
    | schemaAttr _ k2 => exact h3 _ _ k2

theorem visitable (ho : Ordinary H b ds s) {p : Pair} (hr : Reached b ds s p)
    (hp : ∃ x e, p.1 = .object x ∧ Own b x p.2 e) : Visitable b p := by
  refine ⟨hp, ?_, ?_, reached_data ho p hr⟩
  · intro x e _ h2 h3
    rw [h2] at h3
    cases h3 with
    | object h4 h5 =>
      rcases ho.own x with h6 | ⟨T, h6⟩
      · rw [h6] at h4; exact absurd h4.symm h5
      · exact ⟨T, by rw [← h4, h6]⟩
    | other h4 => exact absurd rfl h4
  · intro x h1 h2
    obtain ⟨p1, p2⟩ := p
    simp only at h1 h2
    subst h1 h2
    exact reached_schema hr

theorem ready (hcl : Clonable b ds s)
    (hhas : ∀ x t, Reached b ds s (.object x, t) → DataSchema t → Has t0 x) {p : Pair}
    (hr : Reached b ds s p) (hv : Visitable b p) : Ready b (Mentioned b ds s) t0 p := by
  obtain ⟨x, _, hx, _⟩ := hv.owned
  obtain ⟨px, s1⟩ := p
  simp only at hx
  subst hx
  have hval : ∀ e k q, Own b x s1 e → Ref b x e k q → Fits q → Val (Mentioned b ds s) t0 q := by
    intro e k q h1 h2 h3
    refine ⟨h3, fun o hq => ⟨(ref_mentioned (reached_mentioned hr).2 h1 h2).1 o hq, ?_⟩⟩
    cases hf : follow (.object x, e) (some k) q with
    | true =>
      refine ref_val hcl hhas ?_ hq
      obtain ⟨r, r1, r2⟩ := hr
      exact ⟨r, r1, .step r2 ⟨x, e, k, rfl, h1, h2, hf⟩⟩
    | false =>
      obtain ⟨q1, q2⟩ := q
      simp only at hq
      subst hq
      unfold follow at hf
      split at hf
      · rename_i o' hc
        cases hc
        exact .inr (.inl ⟨hcl.schemas x s1 e k o hr h1 h2, hf⟩)
      · cases hf
  refine ⟨hv, ?_, ?_, ?_, ?_⟩
  · intro y hy
    cases hy
    obtain ⟨e, h1, h2, _⟩ := hcl.typed x s1 hr
    exact ⟨e, h1, h2⟩
  · intro y hy
    cases hy
    exact ⟨(reached_mentioned hr).1 x rfl, fun hd => hhas x s1 hr hd⟩
  · intro y T hy h1
    cases hy
    refine hval _ _ _ h1 .schema (fun hc => ?_)
    rw [primitive_iff] at hc; cases hc
  · intro y e q hy h1 h2
    cases hy
    obtain ⟨e', k1, k2, _⟩ := hcl.typed x s1 hr
    have := Own.unique k1 h1
    subst this
    have hf := part_fits k2 h2
    by_cases hq : ∃ o, q.1 = .object o
    · obtain ⟨o, hq⟩ := hq
      obtain ⟨q1, q2⟩ := q
      simp only at hq
      subst hq
      obtain ⟨k, _, hk⟩ := h2.ref (fun hp => by
        rcases hf hp with h | ⟨n, _, h⟩ <;> cases h)
      exact hval _ _ _ h1 hk hf
    · exact ⟨hf, fun o h => absurd ⟨o, h⟩ hq⟩

theorem NewIds.mono {n m : Nat} (h : NewIds alloc m M) (hn : n ≤ m) : NewIds alloc n M :=
  ⟨h.kind, h.bits, h.base, fun i j a k a' k' h1 h2 => h.distinct i j a k a' k' h1 (by omega),
    fun i a k o h1 => h.new i a k o (by omega)⟩

theorem NoCollision.mono {n m : Nat} (h : NoCollision H alloc m b M) (hn : n ≤ m) :
    NoCollision H alloc n b M :=
  ⟨h.objects, fun i j x y h1 h2 => h.new i j x y (by omega) (by omega),
    fun i x o h1 => h.apart i x o (by omega)⟩

theorem clone_succeeds {fuel : Nat} {r : Except Err (List Item × State)} {U : List AllocationId}
    (hb : b.Ok) (ho : Ordinary H b ds s) (hcl : Clonable b ds s)
    (hU : ∀ o, Mentioned b ds s o → AllocationId.ofObject o ∈ U)
    (hA : NewIds alloc U.length (Mentioned b ds s))
    (hC : NoCollision H alloc U.length b (Mentioned b ds s))
    (h : deepClone H alloc b fuel ds s = some r) : ∃ out st, r = .ok (out, st) ∧
      st.count ≤ U.length := by
  have hi : ∀ x T, b.attr x schemaAttrName = .object T → T.isImplicitSchema = true →
      T = implicitOf H x ∧ x.isSchema = false := by
    rw [← named_schema]; exact ho.implicit
  have hdata := reached_data ho
  unfold deepClone at h
  rw [if_neg (show s ≠ kSchema from hcl.top.1)] at h
  unfold traverseSlice at h
  obtain ⟨d, hd, c0⟩ := init_run (H := H) (alloc := alloc) hcl ho
  rw [hd] at h
  simp only at h
  have hg0 := init_good (b := b) decides_clone hd
  cases hd' : dfs (cloneVisitor H alloc) b fuel d with
  | none => rw [hd'] at h; cases h
  | some r' =>
    obtain ⟨d', rfl, c1⟩ := dfs_run hb hcl ho fuel hg0 c0 hd'
    rw [hd'] at h
    simp only at h
    have hk := keeps_clone (H := H) (b := b) hA (fun x T h1 h2 => (hi x T h1 h2).2)
    have hs0 := init_inv hk decides_clone ho.root hdata hd ⟨start_inv, rfl⟩
    have hs1 := dfs_inv hb hk decides_clone ho.declared hdata fuel hd' hs0
    obtain ⟨⟨i0, _⟩, g0⟩ := hs1.v
    obtain ⟨_, hmem, _⟩ := search_order hb decides_clone (follow_own ho) hd hd'
    have howned := search_owned hb decides_clone (follow_own ho) hd hd'
    obtain ⟨hgood, _⟩ := dfs_good hb decides_clone (follow_own ho) fuel hg0 hd'
    have hhas : ∀ x t, Reached b ds s (.object x, t) → DataSchema t → Has d'.v.tracker x :=
      fun x t hr => c1.has x t (.inr ((hgood.inv.mem _).mpr (.inl ((hmem _).mpr hr))))
    have hready : ∀ p ∈ d'.order, Ready b (Mentioned b ds s) d'.v.tracker p := by
      intro p hp
      have hr : Reached b ds s p := (hmem p).mp hp
      exact ready hcl hhas hr (visitable ho hr (howned p hp))
    obtain ⟨st1, h1, v1⟩ := visitInPostOrder_run hb hA hC hi (fun st hk => hk.le hU) hready
      ⟨⟨c1.keys, .refl _⟩, i0, by rw [g0]; intro o hc; exact absurd rfl hc⟩
    rw [h1] at h
    simp only [Option.some.injEq] at h
    obtain ⟨ys, st2, h2, v2⟩ := resultItems_run (alloc := alloc) (s := s) (l := ds) (fun y hy => ⟨hcl.items y hy,
      fun o hq => ⟨by simp only at hq; subst hq; exact .item hy, by
        simp only at hq
        subst hq
        exact ref_val hcl hhas (reached_root hcl.top.1 hy) rfl⟩⟩) v1.vs
    exact ⟨ys, st2, by rw [← h, h2], v2.keys.le hU⟩

end

end Verif.Clone
