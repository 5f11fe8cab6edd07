import Verif.Clone.Cells
import Verif.Traverse.Visit

/-!
What the visits do to the tracker and to the new bag.
-/

namespace Verif.Clone

open Verif.ObjectId
open Verif.Uuid
open Verif.Traverse

/-- The allocation of an id is in the tracker. -/
def Has (t : Tracker) (o : ObjectId) : Prop := findAlloc (AllocationId.ofObject o) t ≠ none

theorem Has.grows {t t' : Tracker} {o : ObjectId} (h : Has t o) (hg : Grows t t') : Has t' o := by
  obtain ⟨v, hv⟩ := Option.ne_none_iff_exists'.mp h
  unfold Has
  rw [hg _ _ hv]
  simp

theorem tracked_some {t t' : Tracker} {o p : ObjectId} (h : tracked t o = some p)
    (hg : Grows t t') : newId t' o = p ∧ Has t' o := by
  unfold tracked at h
  obtain ⟨v, hv, hp⟩ := Option.map_eq_some_iff.mp h
  have := hg _ _ hv
  refine ⟨?_, by unfold Has; rw [this]; simp⟩
  unfold newId tracked
  rw [this]
  simpa using hp

section
variable {S : Type} {H : HashFn S} {alloc : Nat → BitVec 6 → BitVec 6 → AllocationId} {b : Bag}
  {N : Nat} {old : ObjectId → Prop}

/-- The tracker only grows, and its invariant stays. -/
structure Moves (H : HashFn S) (alloc : Nat → BitVec 6 → BitVec 6 → AllocationId) (b : Bag)
    (N : Nat) (st st' : State) : Prop where
  grows : Grows st.tracker st'.tracker
  inv : TInv H alloc b N st → TInv H alloc b N st'

theorem Moves.refl (st : State) : Moves H alloc b N st st := ⟨.refl _, id⟩

theorem Moves.trans {st st' st'' : State} (h : Moves H alloc b N st st')
    (h' : Moves H alloc b N st' st'') : Moves H alloc b N st st'' :=
  ⟨h.grows.trans h'.grows, fun hi => h'.inv (h.inv hi)⟩

theorem Moves.same {st st' : State} (h1 : st'.tracker = st.tracker) (h2 : st'.count = st.count) :
    Moves H alloc b N st st' := ⟨by rw [h1]; exact .refl _, fun hi => hi.same h1 h2⟩

/-- The value of an item is known. -/
def Known (t : Tracker) (y u : Item) : Prop :=
  ∀ o, y = .object o → u ≠ .dtype 10 → ¬ Explicit o → Has t o

theorem explicit_iff (o : ObjectId) : (o.isSchema && !o.isImplicitSchema) = true ↔ Explicit o := by
  unfold Explicit
  simp

theorem cloneAsExplicit_ok (hA : NewIds alloc N old) {st : State} {o : ObjectId}
    (ho : o.isImplicitSchema = true) : Moves H alloc b N st (cloneAsExplicit alloc st o) ∧
      (cloneAsExplicit alloc st o).bag = st.bag := by
  unfold cloneAsExplicit
  split
  · exact ⟨.refl _, rfl⟩
  · rename_i hn
    refine ⟨⟨grows_cons hn, ?_⟩, rfl⟩
    intro hi
    exact hi.add hA hn (v := newSchemas alloc st.count (AllocationId.ofObject o)) rfl (by decide)
      (.schemas _ (Nat.lt_succ_self _) ho) rfl rfl

theorem cloneGetValue_ok (hA : NewIds alloc N old) {st st' : State} {y y' t : Item}
    (h : cloneGetValue alloc st y t = .ok (y', st')) :
    Moves H alloc b N st st' ∧ st'.bag = st.bag ∧
      ∀ f, Grows st'.tracker f → y' = copied (newId f) y t ∧ Known f y t := by
  unfold cloneGetValue at h
  split at h
  · rename_i y o
    by_cases h1 : t = kItemId
    · rw [if_pos h1] at h
      cases h
      refine ⟨.refl _, rfl, fun f _ => ⟨?_, ?_⟩⟩
      · simp only [copied]
        rw [if_pos (.inl h1)]
      · intro o _ h2; exact absurd h1 h2
    rw [if_neg h1] at h
    by_cases h2 : (o.isSchema && !o.isImplicitSchema) = true
    · rw [if_pos h2] at h
      cases h
      refine ⟨.refl _, rfl, fun f _ => ⟨?_, ?_⟩⟩
      · simp only [copied]
        rw [if_pos (.inr ((explicit_iff o).mp h2))]
      · intro o' ho _ h3
        cases ho
        exact absurd ((explicit_iff o).mp h2) h3
    rw [if_neg h2] at h
    have hne : ¬ (t = .dtype 10 ∨ Explicit o) := by
      rintro (h3 | h3)
      · exact h1 h3
      · exact h2 ((explicit_iff o).mpr h3)
    split at h
    · rename_i p hp
      cases h
      refine ⟨.refl _, rfl, fun f hf => ?_⟩
      obtain ⟨k1, k2⟩ := tracked_some hp hf
      refine ⟨?_, ?_⟩
      · simp only [copied]
        rw [if_neg hne, k1]
      · intro o' ho _ _
        cases ho
        exact k2
    · split at h
      · rename_i hi
        split at h
        · rename_i p hp
          cases h
          obtain ⟨m1, m2⟩ := cloneAsExplicit_ok (H := H) (b := b) hA (st := st) hi
          refine ⟨m1, m2, fun f hf => ?_⟩
          obtain ⟨k1, k2⟩ := tracked_some hp hf
          refine ⟨?_, ?_⟩
          · simp only [copied]
            rw [if_neg hne, k1]
          · intro o' ho _ _
            cases ho
            exact k2
        · cases h
      · cases h
  · rename_i hno
    cases h
    refine ⟨.refl _, rfl, fun f _ => ⟨?_, ?_⟩⟩
    · unfold copied
      split
      · rename_i o; exact absurd rfl (hno o)
      · rfl
    · intro o ho
      exact absurd ho (hno o)

theorem getValue_clone (hA : NewIds alloc N old) {st st' : State} {p : Pair} {y' : Item}
    (h : getValue (cloneVisitor H alloc) st p = .ok (y', st')) :
    Moves H alloc b N st st' ∧ st'.bag = st.bag ∧
      ∀ f, Grows st'.tracker f → y' = copied (newId f) p.1 p.2 ∧ Known f p.1 p.2 := by
  unfold getValue at h
  split at h
  · cases h
  · exact cloneGetValue_ok hA h

theorem listValues_clone (hA : NewIds alloc N old) {t : Item} : ∀ {l : List Item} {st st' : State}
    {ys : List Item}, listValues (cloneVisitor H alloc) t st l = .ok (ys, st') →
    Moves H alloc b N st st' ∧ st'.bag = st.bag ∧
      ∀ f, Grows st'.tracker f → ys = l.map (fun y => copied (newId f) y t)
  | [], st, st', ys, h => by cases h; exact ⟨.refl _, rfl, fun _ _ => rfl⟩
  | y :: l, st, st', ys, h => by
    unfold listValues at h
    split at h
    · cases h
    rename_i y1 st1 h1
    split at h
    · cases h
    rename_i ys2 st2 h2
    cases h
    obtain ⟨a1, a2, a3⟩ := getValue_clone (b := b) hA h1
    obtain ⟨b1, b2, b3⟩ := listValues_clone hA h2
    refine ⟨a1.trans b1, by rw [b2, a2], fun f hf => ?_⟩
    rw [List.map_cons, ← b3 f hf, (a3 f (b1.grows.trans hf)).1]

theorem dictValues_clone (hA : NewIds alloc N old) {kt vt : Item} :
    ∀ {l : List (Item × Item)} {st st' : State} {ys : List (Item × Item)},
    dictValues (cloneVisitor H alloc) kt vt st l = .ok (ys, st') →
    Moves H alloc b N st st' ∧ st'.bag = st.bag ∧
      ∀ f, Grows st'.tracker f →
        ys = l.map (fun y => (copied (newId f) y.1 kt, copied (newId f) y.2 vt)) ∧
        ∀ y ∈ l, Known f y.1 kt
  | [], st, st', ys, h => by cases h; exact ⟨.refl _, rfl, fun _ _ => ⟨rfl, by simp⟩⟩
  | (k, y) :: l, st, st', ys, h => by
    unfold dictValues at h
    split at h
    · cases h
    rename_i k1 st1 h1
    split at h
    · cases h
    rename_i y2 st2 h2
    split at h
    · cases h
    rename_i ys3 st3 h3
    cases h
    obtain ⟨a1, a2, a3⟩ := getValue_clone (b := b) hA h1
    obtain ⟨b1, b2, b3⟩ := getValue_clone (b := b) hA h2
    obtain ⟨c1, c2, c3⟩ := dictValues_clone hA h3
    refine ⟨a1.trans (b1.trans c1), by rw [c2, b2, a2], fun f hf => ?_⟩
    have e1 := a3 f (b1.grows.trans (c1.grows.trans hf))
    have e2 := b3 f (c1.grows.trans hf)
    refine ⟨by rw [List.map_cons, ← (c3 f hf).1, e1.1, e2.1], ?_⟩
    intro z hz
    rcases List.mem_cons.mp hz with rfl | hz
    · exact e1.2
    · exact (c3 f hf).2 z hz

theorem attrValues_clone (hA : NewIds alloc N old) {tr : Name → Except Err Pair} :
    ∀ {l : List Name} {st st' : State} {ys : List (Name × Item)},
    attrValues (cloneVisitor H alloc) tr st l = .ok (ys, st') →
    Moves H alloc b N st st' ∧ st'.bag = st.bag ∧
      ∀ f, Grows st'.tracker f → (∀ n v, (n, v) ∈ ys → n ∈ l ∧
          ∃ p, tr n = .ok p ∧ v = copied (newId f) p.1 p.2) ∧
        ∀ n ∈ l, ∃ p, tr n = .ok p ∧ (n, copied (newId f) p.1 p.2) ∈ ys
  | [], st, st', ys, h => by
    cases h; exact ⟨.refl _, rfl, fun _ _ => ⟨by simp, by simp⟩⟩
  | n :: l, st, st', ys, h => by
    unfold attrValues at h
    split at h
    · cases h
    rename_i p hp
    split at h
    · cases h
    rename_i y1 st1 h1
    split at h
    · cases h
    rename_i ys2 st2 h2
    cases h
    obtain ⟨a1, a2, a3⟩ := getValue_clone (b := b) hA h1
    obtain ⟨b1, b2, b3⟩ := attrValues_clone hA h2
    refine ⟨a1.trans b1, by rw [b2, a2], fun f hf => ?_⟩
    have e1 := (a3 f (b1.grows.trans hf)).1
    obtain ⟨c1, c2⟩ := b3 f hf
    constructor
    · intro m v hm
      rcases List.mem_cons.mp hm with h3 | hm
      · cases h3
        exact ⟨by simp, p, hp, e1⟩
      · obtain ⟨h4, h5⟩ := c1 m v hm
        exact ⟨List.mem_cons_of_mem _ h4, h5⟩
    · intro m hm
      rcases List.mem_cons.mp hm with rfl | hm
      · exact ⟨p, hp, by rw [← e1]; simp⟩
      · obtain ⟨q, h4, h5⟩ := c2 m hm
        exact ⟨q, h4, List.mem_cons_of_mem _ h5⟩

theorem resultItems_ok (hA : NewIds alloc N old) {s : Item} : ∀ {l : List Item} {st st' : State}
    {ys : List Item}, resultItems alloc s st l = .ok (ys, st') →
    Moves H alloc b N st st' ∧ st'.bag = st.bag ∧
      ∀ f, Grows st'.tracker f → ys = l.map (fun y => copied (newId f) y s)
  | [], st, st', ys, h => by cases h; exact ⟨.refl _, rfl, fun _ _ => rfl⟩
  | y :: l, st, st', ys, h => by
    unfold resultItems at h
    split at h
    · cases h
    rename_i y1 st1 h1
    split at h
    · cases h
    rename_i ys2 st2 h2
    cases h
    obtain ⟨a1, a2, a3⟩ := cloneGetValue_ok (H := H) (b := b) hA h1
    obtain ⟨b1, b2, b3⟩ := resultItems_ok hA h2
    refine ⟨a1.trans b1, by rw [b2, a2], fun f hf => ?_⟩
    rw [List.map_cons, ← b3 f hf, (a3 f (b1.grows.trans hf)).1]

/-- The bag after the schema of an object was set. -/
def withSchema (c : ObjectId → ObjectId) (x : ObjectId) (s : Item) (io : Bool) (g : NewBag) : NewBag :=
  if io then g.setAttr (c x) schemaAttrName (copied c s kSchema) else g

theorem cloneId_ok (hA : NewIds alloc N old) {st st' : State} {x o : ObjectId} {s : Item} {io : Bool}
    (hs : s ≠ .dtype 10) (hx : ¬ Explicit x)
    (h : cloneId alloc st (.object x) s io = .ok (o, st')) :
    Moves H alloc b N st st' ∧
      ∀ f, Grows st'.tracker f → o = newId f x ∧ Has f x ∧
        st'.bag = withSchema (newId f) x s io st.bag := by
  unfold cloneId at h
  split at h
  · cases h
  · rename_i o1 st1 h1
    obtain ⟨a1, a2, a3⟩ := cloneGetValue_ok (H := H) (b := b) hA h1
    have hval : ∀ f, Grows st1.tracker f → o1 = newId f x ∧ Has f x := by
      intro f hf
      obtain ⟨e1, e2⟩ := a3 f hf
      simp only [copied] at e1
      rw [if_neg (by simp [hs, hx])] at e1
      cases e1
      exact ⟨rfl, e2 x rfl hs hx⟩
    by_cases hio : io = true
    · subst hio
      simp only [if_true] at h
      split at h
      · cases h
      rename_i s' st2 h2
      cases h
      obtain ⟨b1, b2, b3⟩ := cloneGetValue_ok (H := H) (b := b) hA h2
      refine ⟨a1.trans (b1.trans (.same rfl rfl)), fun f hf => ?_⟩
      obtain ⟨e1, e2⟩ := hval f (b1.grows.trans hf)
      refine ⟨e1, e2, ?_⟩
      unfold withSchema
      rw [if_pos rfl, ← e1, ← (b3 f hf).1, b2, a2]
    · have : io = false := by simpa using hio
      subst this
      simp only [Bool.false_eq_true, if_false] at h
      cases h
      refine ⟨a1, fun f hf => ?_⟩
      obtain ⟨e1, e2⟩ := hval f hf
      refine ⟨e1, e2, ?_⟩
      unfold withSchema
      rw [if_neg (by simp), a2]
  · cases h

/-! ### The bag -/

theorem setFields_false (x o : ObjectId) : ∀ (fs : List (Name × Item)) (g : NewBag),
    (setFields x o false g fs).list = g.list ∧ (setFields x o false g fs).dict = g.dict ∧
    (setFields x o false g fs).schemaAttr = g.schemaAttr ∧
    ∀ p m, (∃ v, p = o ∧ (m, v) ∈ fs ∧ (setFields x o false g fs).attr p m = v) ∨
      ((setFields x o false g fs).attr p m = g.attr p m ∧ ∀ v, ¬ (p = o ∧ (m, v) ∈ fs))
  | [], g => ⟨rfl, rfl, rfl, fun p m => .inr ⟨rfl, by simp⟩⟩
  | (n, y) :: fs, g => by
    unfold setFields
    simp only [Bool.false_eq_true, if_false]
    obtain ⟨h1, h2, h3, h4⟩ := setFields_false x o fs (g.setAttr o n y)
    refine ⟨h1, h2, h3, ?_⟩
    intro p m
    rcases h4 p m with ⟨v, k1, k2, k3⟩ | ⟨k1, k2⟩
    · exact .inl ⟨v, k1, List.mem_cons_of_mem _ k2, k3⟩
    · rw [k1]
      by_cases hc : p = o ∧ m = n
      · left
        exact ⟨y, hc.1, by rw [hc.2]; simp, by simp only [NewBag.setAttr]; rw [if_pos hc]⟩
      · right
        refine ⟨by simp only [NewBag.setAttr]; rw [if_neg hc], ?_⟩
        rintro v ⟨k3, k4⟩
        rcases List.mem_cons.mp k4 with k4 | k4
        · cases k4; exact hc ⟨k3, rfl⟩
        · exact k2 v ⟨k3, k4⟩

theorem setFields_true {x o : ObjectId} (hxo : x ≠ o) : ∀ (fs : List (Name × Item)) (g : NewBag),
    (setFields x o true g fs).list = g.list ∧ (setFields x o true g fs).dict = g.dict ∧
    (setFields x o true g fs).attr = g.attr ∧
    ∀ p m, (∃ v, p = o ∧ (m, v) ∈ fs ∧ m ≠ nameName ∧ (setFields x o true g fs).schemaAttr p m = v) ∨
      ((setFields x o true g fs).schemaAttr p m = g.schemaAttr p m ∧
        ∀ v, ¬ (p = o ∧ (m, v) ∈ fs ∧ m ≠ nameName))
  | [], g => ⟨rfl, rfl, rfl, fun p m => .inr ⟨rfl, by simp⟩⟩
  | (n, y) :: fs, g => by
    unfold setFields
    simp only [if_true]
    by_cases hn : n = nameName
    · rw [if_pos ⟨hxo, hn⟩]
      obtain ⟨h1, h2, h3, h4⟩ := setFields_true hxo fs g
      refine ⟨h1, h2, h3, ?_⟩
      intro p m
      rcases h4 p m with ⟨v, k1, k2, k3, k4⟩ | ⟨k1, k2⟩
      · exact .inl ⟨v, k1, List.mem_cons_of_mem _ k2, k3, k4⟩
      · right
        refine ⟨k1, ?_⟩
        rintro v ⟨k3, k4, k5⟩
        rcases List.mem_cons.mp k4 with k4 | k4
        · cases k4; exact k5 hn
        · exact k2 v ⟨k3, k4, k5⟩
    · rw [if_neg (by simp [hn])]
      obtain ⟨h1, h2, h3, h4⟩ := setFields_true hxo fs (g.setSchemaAttr o n y)
      refine ⟨h1, h2, h3, ?_⟩
      intro p m
      rcases h4 p m with ⟨v, k1, k2, k3, k4⟩ | ⟨k1, k2⟩
      · exact .inl ⟨v, k1, List.mem_cons_of_mem _ k2, k3, k4⟩
      · rw [k1]
        by_cases hc : p = o ∧ m = n
        · left
          refine ⟨y, hc.1, by rw [hc.2]; simp, by rw [hc.2]; exact hn, ?_⟩
          simp only [NewBag.setSchemaAttr]; rw [if_pos hc]
        · right
          refine ⟨by simp only [NewBag.setSchemaAttr]; rw [if_neg hc], ?_⟩
          rintro v ⟨k3, k4, k5⟩
          rcases List.mem_cons.mp k4 with k4 | k4
          · cases k4; exact hc ⟨k3, rfl⟩
          · exact k2 v ⟨k3, k4, k5⟩

theorem setKeys_ok (o : ObjectId) : ∀ (l : List (Item × Item)) (g : NewBag),
    (g.setKeys o l).list = g.list ∧ (g.setKeys o l).attr = g.attr ∧
    (g.setKeys o l).schemaAttr = g.schemaAttr ∧
    ∀ p k, (∃ v, p = o ∧ (k, v) ∈ l ∧ (g.setKeys o l).dict p k = some v) ∨
      ((g.setKeys o l).dict p k = g.dict p k ∧ ∀ v, ¬ (p = o ∧ (k, v) ∈ l))
  | [], g => ⟨rfl, rfl, rfl, fun p m => .inr ⟨rfl, by simp⟩⟩
  | (n, y) :: l, g => by
    unfold NewBag.setKeys
    obtain ⟨h1, h2, h3, h4⟩ := setKeys_ok o l (g.setKey o n y)
    refine ⟨h1, h2, h3, ?_⟩
    intro p m
    rcases h4 p m with ⟨v, k1, k2, k3⟩ | ⟨k1, k2⟩
    · exact .inl ⟨v, k1, List.mem_cons_of_mem _ k2, k3⟩
    · rw [k1]
      by_cases hc : p = o ∧ m = n
      · left
        exact ⟨y, hc.1, by rw [hc.2]; simp, by simp only [NewBag.setKey]; rw [if_pos hc]⟩
      · right
        refine ⟨by simp only [NewBag.setKey]; rw [if_neg hc], ?_⟩
        rintro v ⟨k3, k4⟩
        rcases List.mem_cons.mp k4 with k4 | k4
        · cases k4; exact hc ⟨k3, rfl⟩
        · exact k2 v ⟨k3, k4⟩

/-- What the visit of an item with the own schema `T` writes. -/
inductive Effect (b : Bag) (c : ObjectId → ObjectId) (x T : ObjectId) (io : Bool) (g : NewBag) :
    NewBag → Prop where
  | noFollow : T.isNoFollowSchema = true → Effect b c x T io g (withSchema c x (.object T) io g)
  | list {t : Item} : T.isNoFollowSchema = false → ListSchema b T t → g.list (c x) = [] →
      Effect b c x T io g ((withSchema c x (.object T) io g).extend (c x)
        ((b.list x).map (fun y => copied c y t)))
  | again {t : Item} : T.isNoFollowSchema = false → ListSchema b T t → g.list (c x) ≠ [] →
      Effect b c x T io g (withSchema c x (.object T) io g)
  | dict {k v : Item} : T.isNoFollowSchema = false → DictSchema b T k v →
      Effect b c x T io g ((withSchema c x (.object T) io g).setKeys (c x)
        ((b.dict x).map (fun y => (copied c y.1 k, copied c y.2 v))))
  | plain {fs : List (Name × Item)} : T.isNoFollowSchema = false → PlainSchema b T →
      (∀ n v, (n, v) ∈ fs ↔ ∃ t, (n, t) ∈ b.schemaAttrs T ∧ ¬ AboutSchema n ∧
        v = copied c (b.attr x n) t) →
      Effect b c x T io g (setFields x (c x) false (withSchema c x (.object T) io g) fs)

theorem withSchema_rest {c : ObjectId → ObjectId} {x : ObjectId} {s : Item} {io : Bool} {g : NewBag} :
    (withSchema c x s io g).list = g.list ∧ (withSchema c x s io g).dict = g.dict ∧
      (withSchema c x s io g).schemaAttr = g.schemaAttr := by
  unfold withSchema
  split <;> exact ⟨rfl, rfl, rfl⟩

/-- The cells of attributes when only the schema is written. -/
theorem attr_schema {c : ObjectId → ObjectId} {x T : ObjectId} {s : Item} {g : NewBag}
    (ho : Own b x s (.object T)) (hno : ∀ k v, ∀ T t, Own b x s (.object T) →
      T.isNoFollowSchema = false → PlainSchema b T → (k, t) ∈ b.schemaAttrs T → ¬ AboutSchema k →
      v = copied c (b.attr x k) t → False) :
    CellStep (WAttr b c) .missing (.object x, s) (fun k => g.attr k.1 k.2)
      (fun k => (withSchema c x (.object T) (s = kObject) g).attr k.1 k.2) := by
  rintro ⟨o, n⟩
  unfold withSchema
  by_cases hs : s = kObject
  · have hw : WAttr b c (.object x, s) (c x, named "__schema__") (copied c (.object T) kSchema) := by
      refine ⟨x, rfl, rfl, .inl ⟨hs, rfl, .object T, ?_, rfl⟩⟩
      rw [hs] at ho; exact ho
    simp only [hs, decide_true, if_true, NewBag.setAttr]
    by_cases hc : o = c x ∧ n = schemaAttrName
    · left
      rw [if_pos hc]
      refine ⟨_, ?_, .inl rfl⟩
      rw [hc.1, hc.2, ← named_schema, ← hs]
      exact hw
    · right
      rw [if_neg hc]
      refine ⟨rfl, ?_⟩
      rintro v ⟨y, hy, hk, h⟩
      simp only at hy hk h
      cases hy
      rcases h with ⟨_, h2, _⟩ | ⟨T', t, h1, h2, h3, h4, h5, h6⟩
      · exact hc ⟨hk, by rw [h2, named_schema]⟩
      · exact hno _ _ T' t (hs ▸ h1) h2 h3 h4 h5 h6
  · simp only [hs, decide_false, Bool.false_eq_true, if_false]
    right
    refine ⟨trivial, ?_⟩
    rintro v ⟨y, hy, hk, h⟩
    simp only at hy hk h
    cases hy
    rcases h with ⟨h2, _⟩ | ⟨T', t, h1, h2, h3, h4, h5, h6⟩
    · exact hs h2
    · exact hno _ _ T' t h1 h2 h3 h4 h5 h6

theorem Effect.step {c : ObjectId → ObjectId} {x T : ObjectId} {s : Item} {g g' : NewBag}
    (ho : Own b x s (.object T)) (h : Effect b c x T (s = kObject) g g') :
    Step b c (.object x, s) g g' := by
  obtain ⟨w1, w2, w3⟩ := withSchema_rest (c := c) (x := x) (s := .object T)
    (io := decide (s = kObject)) (g := g)
  -- nothing is written to schemas
  have hs12 : s ≠ .dtype 12 := by
    intro hc; subst hc
    cases ho
  have noSchema : ∀ k v, ¬ WSchema b c (.object x, s) k v := by
    rintro k v ⟨y, _, _, _, _, h1, _⟩
    exact hs12 h1
  have noList : (∀ t, T.isNoFollowSchema = false → ListSchema b T t → False) →
      ∀ o l, ¬ WList b c (.object x, s) o l := by
    rintro hn o l ⟨y, T', t, h1, _, h3, h4, h5, _⟩
    simp only at h1 h3
    cases h1
    have := Own.unique h3 ho
    cases this
    exact hn t h4 h5
  have noDict : (∀ k v, T.isNoFollowSchema = false → DictSchema b T k v → False) →
      ∀ k v, ¬ WDict b c (.object x, s) k v := by
    rintro hn k v ⟨y, T', kt, vt, _, _, h1, _, h3, h4, h5, _⟩
    simp only at h1 h3
    cases h1
    have := Own.unique h3 ho
    cases this
    exact hn _ _ h4 h5
  have noPlain : (T.isNoFollowSchema = false → PlainSchema b T → False) →
      ∀ k v, ∀ T t, Own b x s (.object T) →
      T.isNoFollowSchema = false → PlainSchema b T → (k, t) ∈ b.schemaAttrs T → ¬ AboutSchema k →
      v = copied c (b.attr x k) t → False := by
    intro hn k v T' t h1 h2 h3 _ _ _
    have := Own.unique h1 ho
    cases this
    exact hn h2 h3
  cases h with
  | noFollow h1 =>
    have hf : T.isNoFollowSchema = false → False := by rw [h1]; simp
    refine ⟨attr_schema ho (noPlain (fun h _ => hf h)), ?_, ?_, ?_⟩
    · intro k; exact .inr ⟨by rw [w1], noList (fun _ h _ => hf h) k⟩
    · intro k; exact .inr ⟨by simp only [w2], noDict (fun _ _ h _ => hf h) k⟩
    · intro k; exact .inr ⟨by simp only [w3], noSchema k⟩
  | @list t h1 h2 h3 =>
    refine ⟨attr_schema ho (noPlain (fun _ h => list_not_plain h2 h)), ?_, ?_, ?_⟩
    · intro k
      simp only [NewBag.extend]
      by_cases hk : k = c x
      · left
        refine ⟨_, ⟨x, T, t, rfl, hk, ho, h1, h2, rfl⟩, .inl ?_⟩
        rw [if_pos hk, w1, hk, h3, List.nil_append]
      · right
        refine ⟨by rw [if_neg hk, w1], ?_⟩
        rintro l ⟨y, T', t', h4, h5, _⟩
        simp only at h4
        cases h4
        exact hk h5
    · intro k; exact .inr ⟨by simp only [NewBag.extend, w2], noDict (fun _ _ _ h => list_not_dict h2 h) k⟩
    · intro k; exact .inr ⟨by simp only [NewBag.extend, w3], noSchema k⟩
  | @again t h1 h2 h3 =>
    refine ⟨attr_schema ho (noPlain (fun _ h => list_not_plain h2 h)), ?_, ?_, ?_⟩
    · intro k
      by_cases hk : k = c x
      · left
        exact ⟨_, ⟨x, T, t, rfl, hk, ho, h1, h2, rfl⟩, .inr ⟨by rw [hk]; exact h3, by rw [w1]⟩⟩
      · right
        refine ⟨by rw [w1], ?_⟩
        rintro l ⟨y, T', t', h4, h5, _⟩
        simp only at h4
        cases h4
        exact hk h5
    · intro k; exact .inr ⟨by simp only [w2], noDict (fun _ _ _ h => list_not_dict h2 h) k⟩
    · intro k; exact .inr ⟨by simp only [w3], noSchema k⟩
  | @dict kt vt h1 h2 =>
    obtain ⟨e1, e2, e3, e4⟩ := setKeys_ok (c x)
      ((b.dict x).map (fun y => (copied c y.1 kt, copied c y.2 vt)))
      (withSchema c x (.object T) (s = kObject) g)
    refine ⟨?_, ?_, ?_, ?_⟩
    · simp only [e2]
      exact attr_schema ho (noPlain (fun _ h => dict_not_plain h2 h))
    · intro k; exact .inr ⟨by rw [e1, w1], noList (fun _ _ h => list_not_dict h h2) k⟩
    · rintro ⟨o, k⟩
      rcases e4 o k with ⟨v, k1, k2, k3⟩ | ⟨k1, k2⟩
      · left
        obtain ⟨⟨y, z⟩, m1, m2⟩ := List.mem_map.mp k2
        simp only [Prod.mk.injEq] at m2
        exact ⟨some v, ⟨x, T, kt, vt, y, z, rfl, k1, ho, h1, h2, m1, m2.1.symm, by rw [m2.2]⟩, .inl k3⟩
      · right
        refine ⟨by simp only [k1, w2], ?_⟩
        rintro v ⟨y, T', kt', vt', y1, z1, m1, m2, m3, m4, m5, m6, m7, m8⟩
        simp only at m1 m2 m3 m7
        cases m1
        have := Own.unique m3 ho
        cases this
        obtain ⟨rfl, rfl⟩ := dictSchema_unique m5 h2
        exact k2 (copied c z1 vt') ⟨m2, List.mem_map.mpr ⟨_, m6, by rw [m7]⟩⟩
    · intro k; exact .inr ⟨by simp only [e3, w3], noSchema k⟩
  | @plain fs h1 h2 h3 =>
    obtain ⟨e1, e2, e3, e4⟩ := setFields_false x (c x) fs
      (withSchema c x (.object T) (s = kObject) g)
    refine ⟨?_, ?_, ?_, ?_⟩
    · rintro ⟨o, n⟩
      rcases e4 o n with ⟨v, k1, k2, k3⟩ | ⟨k1, k2⟩
      · left
        obtain ⟨t, m1, m2, m3⟩ := (h3 n v).mp k2
        exact ⟨v, ⟨x, rfl, k1, .inr ⟨T, t, ho, h1, h2, m1, m2, m3⟩⟩, .inl k3⟩
      · simp only [k1]
        unfold withSchema
        by_cases hs : s = kObject
        · simp only [hs, decide_true, if_true, NewBag.setAttr]
          by_cases hc : o = c x ∧ n = schemaAttrName
          · left
            rw [if_pos hc]
            refine ⟨_, ⟨x, rfl, hc.1, .inl ⟨rfl, by rw [hc.2, named_schema], .object T,
              (by rw [hs] at ho; exact ho), rfl⟩⟩, .inl rfl⟩
          · right
            rw [if_neg hc]
            refine ⟨rfl, ?_⟩
            rintro v ⟨y, hy, hk, h⟩
            simp only at hy hk h
            cases hy
            rcases h with ⟨_, h2, _⟩ | ⟨T', t, m1, m2, m3, m4, m5, m6⟩
            · exact hc ⟨hk, by rw [h2, named_schema]⟩
            · have := Own.unique (hs ▸ m1) ho
              cases this
              exact k2 v ⟨hk, (h3 n v).mpr ⟨t, m4, m5, m6⟩⟩
        · simp only [hs, decide_false, Bool.false_eq_true, if_false]
          right
          refine ⟨trivial, ?_⟩
          rintro v ⟨y, hy, hk, h⟩
          simp only at hy hk h
          cases hy
          rcases h with ⟨h2, _⟩ | ⟨T', t, m1, m2, m3, m4, m5, m6⟩
          · exact hs h2
          · have := Own.unique m1 ho
            cases this
            exact k2 v ⟨hk, (h3 n v).mpr ⟨t, m4, m5, m6⟩⟩
    · intro k; exact .inr ⟨by rw [e1, w1], noList (fun _ _ h => list_not_plain h h2) k⟩
    · intro k; exact .inr ⟨by simp only [e2, w2], noDict (fun _ _ _ h => dict_not_plain h h2) k⟩
    · intro k; exact .inr ⟨by simp only [e3, w3], noSchema k⟩

/-! ### The visits -/

/-- The keys of the dict of a pair have values. -/
def KeysKnown (b : Bag) (f : Tracker) (p : Pair) : Prop :=
  ∀ x T k v, p.1 = .object x → Own b x p.2 (.object T) → T.isNoFollowSchema = false →
    DictSchema b T k v → ∀ y ∈ b.dict x, Known f y.1 k

/-- What the visit of a pair has found out, seen from a later tracker. -/
structure Found (b : Bag) (f : Tracker) (p : Pair) : Prop where
  has : Kind p.2 → ∀ x, p.1 = .object x → Has f x
  keys : KeysKnown b f p

/-- Schemas do not keep their ids. -/
def Moved (f : Tracker) (p : Pair) : Prop := ∀ x, p = (.object x, .dtype 12) → x ≠ newId f x

/-- What is known of the pairs that are visited. -/
structure Visitable (b : Bag) (p : Pair) : Prop where
  owned : ∃ x e, p.1 = .object x ∧ Own b x p.2 e
  object : ∀ x e, p.1 = .object x → p.2 = .dtype 11 → Own b x p.2 e → ∃ T, e = .object T
  schema : ∀ x, p.1 = .object x → p.2 = .dtype 12 → x.isImplicitSchema = true
  data : Data p

theorem visitEntity_clone (hb : b.Ok) (hA : NewIds alloc N old) {x T : ObjectId} {io : Bool}
    {st st' : State} (hx : ¬ Explicit x)
    (h : visitEntity (cloneVisitor H alloc) b st (.object x) (.object T) io = .ok st') :
    Moves H alloc b N st st' ∧ ∀ f, Grows st'.tracker f →
      Effect b (newId f) x T io st.bag st'.bag ∧ Has f x ∧
      ∀ k v, T.isNoFollowSchema = false → DictSchema b T k v → ∀ y ∈ b.dict x, Known f y.1 k := by
  have hT : (Item.object T) ≠ .dtype 10 := by simp
  unfold visitEntity at h
  split at h
  · cases h
  · -- list
    rename_i tt l htr
    unfold getTransitions at htr
    simp only [holdsId, if_true] at htr
    split at h
    · cases h
    rename_i ys st1 hv
    obtain ⟨a1, a2, a3⟩ := listValues_clone (b := b) hA hv
    rcases entityTransitions_ok htr with ⟨_, h2⟩ | ⟨h1, it, l', h2, h3, h4⟩ |
        ⟨_, _, _, _, h2, _⟩ | ⟨_, _, ⟨_, _, h2⟩ | h2⟩
    · cases h2
    · cases h2
      have := explodeList_ok h4
      subst this
      simp only [cloneVisitor, cloneVisitList] at h
      split at h
      · cases h
      rename_i o st2 hid
      obtain ⟨c1, c2⟩ := cloneId_ok (H := H) (b := b) hA hT hx hid
      by_cases k1 : (!o.isList) = true
      · rw [if_pos k1] at h; cases h
      rw [if_neg k1] at h
      by_cases k2 : (st2.bag.list o).length ≠ 0
      · rw [if_pos k2] at h
        by_cases k3 : ys.length ≠ (st2.bag.list o).length
        · rw [if_pos k3] at h; cases h
        rw [if_neg k3] at h
        cases h
        refine ⟨a1.trans c1, fun f hf => ?_⟩
        obtain ⟨d1, d2, d3⟩ := c2 f hf
        refine ⟨?_, d2, fun k v _ h7 => (list_not_dict h3 h7).elim⟩
        rw [d3, a2]
        refine .again h1 h3 ?_
        rw [d3, a2, withSchema_rest.1, d1] at k2
        intro hc
        rw [hc] at k2
        exact k2 rfl
      · rw [if_neg k2] at h
        cases h
        refine ⟨a1.trans (c1.trans (.same rfl rfl)), fun f hf => ?_⟩
        obtain ⟨d1, d2, d3⟩ := c2 f hf
        refine ⟨?_, d2, fun k v _ h7 => (list_not_dict h3 h7).elim⟩
        simp only
        rw [d3, a2, a3 f (c1.grows.trans hf), d1]
        refine .list h1 h3 ?_
        rw [d3, a2, withSchema_rest.1, d1] at k2
        simpa using k2
    · cases h2
    · cases h2
    · cases h2
  · -- dict
    rename_i kt vt l htr
    unfold getTransitions at htr
    simp only [holdsId, if_true] at htr
    split at h
    · cases h
    rename_i ys st1 hv
    obtain ⟨a1, a2, a3⟩ := dictValues_clone (b := b) hA hv
    rcases entityTransitions_ok htr with ⟨_, h2⟩ | ⟨_, _, _, h2, _⟩ |
        ⟨h1, kt', vt', l', h2, h3, h4⟩ | ⟨_, _, ⟨_, _, h2⟩ | h2⟩
    · cases h2
    · cases h2
    · cases h2
      have := dictItems_ok h4
      subst this
      simp only [cloneVisitor, cloneVisitDict] at h
      split at h
      · cases h
      rename_i o st2 hid
      obtain ⟨c1, c2⟩ := cloneId_ok (H := H) (b := b) hA hT hx hid
      by_cases k1 : (!o.isDict) = true
      · rw [if_pos k1] at h; cases h
      rw [if_neg k1] at h
      cases h
      refine ⟨a1.trans (c1.trans (.same rfl rfl)), fun f hf => ?_⟩
      obtain ⟨d1, d2, d3⟩ := c2 f hf
      obtain ⟨e1, e2⟩ := a3 f (c1.grows.trans hf)
      refine ⟨?_, d2, ?_⟩
      · simp only
        rw [d3, a2, e1, d1]
        exact .dict h1 h3
      · intro k v _ h7
        obtain ⟨rfl, rfl⟩ := dictSchema_unique h7 h3
        exact e2
    · cases h2
    · cases h2
  · -- nothing
    rename_i htr
    unfold getTransitions at htr
    simp only [holdsId, if_true] at htr
    simp only [cloneVisitor, cloneVisitObject] at h
    split at h
    · cases h
    rename_i o st2 hid
    obtain ⟨c1, c2⟩ := cloneId_ok (H := H) (b := b) hA hT hx hid
    cases h
    refine ⟨c1.trans (.same rfl rfl), fun f hf => ?_⟩
    obtain ⟨d1, d2, d3⟩ := c2 f hf
    simp only [setFields]
    rw [d3]
    rcases entityTransitions_ok htr with ⟨h1, _⟩ | ⟨_, _, _, h2, _⟩ | ⟨_, _, _, _, h2, _⟩ |
        ⟨h1, h3, ⟨h4, _, _⟩ | h2⟩
    · exact ⟨.noFollow h1, d2, fun k v h7 => by rw [h1] at h7; cases h7⟩
    · cases h2
    · cases h2
    · refine ⟨.plain (fs := []) h1 h3 ?_, d2, fun k v _ h7 => (dict_not_plain h7 h3).elim⟩
      intro n v
      constructor
      · intro hm; cases hm
      · rintro ⟨t, h5, h6, _⟩
        exact absurd ((aboutSchema_iff _).mpr (h4 rfl _ (List.mem_map.mpr ⟨_, h5, rfl⟩))) h6
    · cases h2
  · -- attributes
    rename_i names htr
    unfold getTransitions at htr
    simp only [holdsId, if_true] at htr
    split at h
    · cases h
    rename_i ys st1 hv
    obtain ⟨a1, a2, a3⟩ := attrValues_clone (b := b) hA hv
    rcases entityTransitions_ok htr with ⟨_, h2⟩ | ⟨_, _, _, h2, _⟩ | ⟨_, _, _, _, h2, _⟩ |
        ⟨h1, h3, ⟨_, _, h2⟩ | h2⟩
    · cases h2
    · cases h2
    · cases h2
    · cases h2
    · simp only [if_true] at h2
      injection h2 with h2
      subst h2
      obtain ⟨_, e2⟩ := entity_names hb (T := T)
      simp only [cloneVisitor, cloneVisitObject] at h
      split at h
      · cases h
      rename_i o st2 hid
      obtain ⟨c1, c2⟩ := cloneId_ok (H := H) (b := b) hA hT hx hid
      cases h
      refine ⟨a1.trans (c1.trans (.same rfl rfl)), fun f hf => ?_⟩
      obtain ⟨d1, d2, d3⟩ := c2 f hf
      obtain ⟨m1, m2⟩ := a3 f (c1.grows.trans hf)
      refine ⟨?_, d2, fun k v _ h7 => (dict_not_plain h7 h3).elim⟩
      have htrans : ∀ n p t, (n, t) ∈ b.schemaAttrs T →
          attributeTransition b (.object x) (.object T) n = .ok p → p = (b.attr x n, t) := by
        intro n p t h5 h6
        unfold attributeTransition at h6
        simp only [getAttr] at h6
        split at h6
        · cases h6
        rename_i u' hu'
        have := attr_unique hb h5 (getSchemaAttr_ok hu')
        subst this
        simp_all
      have hplain : (decide (Item.object T = kSchema)) = false := by simp [kSchema]
      simp only [hplain]
      rw [d3, a2, d1]
      refine .plain h1 h3 ?_
      intro n v
      constructor
      · intro hm
        obtain ⟨h5, p, h6, h7⟩ := m1 n v hm
        obtain ⟨t, h8, h9⟩ := (e2 n).mp h5
        have := htrans n p t h8 h6
        subst this
        exact ⟨t, h8, h9, h7⟩
      · rintro ⟨t, h8, h9, rfl⟩
        obtain ⟨p, h6, h7⟩ := m2 n ((e2 n).mpr ⟨t, h8, h9⟩)
        have := htrans n p t h8 h6
        subst this
        exact h7
  · -- a schema is no entity
    rename_i names htr
    unfold getTransitions at htr
    simp only [holdsId, if_true] at htr
    rcases entityTransitions_ok htr with ⟨_, h2⟩ | ⟨_, _, _, h2, _⟩ | ⟨_, _, _, _, h2, _⟩ |
        ⟨h1, h3, ⟨_, _, h2⟩ | h2⟩ <;> cases h2

theorem schema_step {c : ObjectId → ObjectId} {x : ObjectId} {g : NewBag} {fs : List (Name × Item)}
    (hx : x ≠ c x)
    (hfs : ∀ n v, (n, v) ∈ fs ↔ ∃ y k, (n, y) ∈ b.schemaAttrs x ∧ AttrKind n k ∧ v = copied c y k) :
    Step b c (.object x, .dtype 12) g (setFields x (c x) true g fs) := by
  obtain ⟨e1, e2, e3, e4⟩ := setFields_true hx fs g
  have hown : ∀ T, ¬ Own b x (.dtype 12) (.object T) := by
    intro T h; cases h
  refine ⟨?_, ?_, ?_, ?_⟩
  · intro k
    right
    refine ⟨by simp only [e3], ?_⟩
    rintro v ⟨y, hy, _, ⟨h1, _⟩ | ⟨T, t, h1, _⟩⟩
    · simp at h1
    · simp only at hy h1
      cases hy
      exact hown T h1
  · intro k
    right
    refine ⟨by rw [e1], ?_⟩
    rintro v ⟨y, T, t, hy, _, h1, _⟩
    simp only at hy h1
    cases hy
    exact hown T h1
  · intro k
    right
    refine ⟨by simp only [e2], ?_⟩
    rintro v ⟨y, T, kt, vt, _, _, hy, _, h1, _⟩
    simp only at hy h1
    cases hy
    exact hown T h1
  · rintro ⟨o, n⟩
    rcases e4 o n with ⟨v, k1, k2, k3, k4⟩ | ⟨k1, k2⟩
    · left
      obtain ⟨y, k, m1, m2, m3⟩ := (hfs n v).mp k2
      exact ⟨v, ⟨x, y, k, rfl, k1, rfl, m1, m2, by rw [named_name]; exact k3, m3⟩, .inl k4⟩
    · right
      refine ⟨k1, ?_⟩
      rintro v ⟨y, z, k, m1, m2, _, m4, m5, m6, m7⟩
      simp only at m1 m2 m4 m5 m6
      cases m1
      exact k2 v ⟨m2, (hfs n v).mpr ⟨z, k, m4, m5, m7⟩, by rw [← named_name]; exact m6⟩

theorem visitSchemaItem_clone (hb : b.Ok) (hA : NewIds alloc N old) {x : ObjectId}
    {st st' : State} (hx : x.isImplicitSchema = true)
    (h : visitSchemaItem (cloneVisitor H alloc) b st (.object x) kSchema = .ok st') :
    Moves H alloc b N st st' ∧ ∀ f, Grows st'.tracker f → Has f x ∧
      (x ≠ newId f x → Step b (newId f) (.object x, .dtype 12) st.bag st'.bag) := by
  have hs : kSchema ≠ .dtype 10 := by decide
  have hx' : ¬ Explicit x := by
    rintro ⟨_, h2⟩; rw [hx] at h2; cases h2
  have hnf : x.isNoFollowSchema = false := by
    cases hc : x.isNoFollowSchema with
    | false => rfl
    | true =>
      exfalso
      unfold ObjectId.isImplicitSchema at hx
      unfold ObjectId.isNoFollowSchema at hc
      simp only [beq_iff_eq] at hx
      rw [hx] at hc
      revert hc
      decide
  unfold visitSchemaItem at h
  simp only [holdsId, Bool.not_true, Bool.false_eq_true, if_false] at h
  split at h
  · cases h
  · rename_i names htr
    unfold getTransitions at htr
    simp only [holdsId, kSchema, holdsDType, if_true, kObject, Bool.false_eq_true, if_false] at htr
    rw [if_neg (by decide)] at htr
    split at h
    · cases h
    rename_i ys st1 hv
    obtain ⟨a1, a2, a3⟩ := attrValues_clone (b := b) hA hv
    rcases schemaTransitions_ok htr with ⟨_, h2⟩ | ⟨h1, hsc, ⟨_, h2⟩ | h2⟩
    · cases h2
    · cases h2
    cases h2
    simp only [cloneVisitor, cloneVisitObject] at h
    split at h
    · cases h
    rename_i o st2 hid
    obtain ⟨c1, c2⟩ := cloneId_ok (H := H) (b := b) hA hs hx' hid
    cases h
    refine ⟨a1.trans (c1.trans (.same rfl rfl)), fun f hf => ?_⟩
    obtain ⟨d1, d2, d3⟩ := c2 f hf
    obtain ⟨m1, m2⟩ := a3 f (c1.grows.trans hf)
    refine ⟨d2, fun hne => ?_⟩
    simp only [decide_true]
    rw [d3, a2, d1]
    simp only [withSchema, Bool.false_eq_true, if_false]
    refine schema_step hne ?_
    have htrans : ∀ n p y, (n, y) ∈ b.schemaAttrs x →
        schemaAttributeTransition b (.object x) n = .ok p → p = (y, schemaOfSchemaAttr n) := by
      intro n p y h5 h6
      unfold schemaAttributeTransition at h6
      rw [getSchemaAttr_of_mem hb hsc h5] at h6
      simpa using h6.symm
    intro n v
    constructor
    · intro hm
      obtain ⟨h5, p, h6, h7⟩ := m1 n v hm
      obtain ⟨⟨n', y⟩, h8, rfl⟩ := List.mem_map.mp h5
      have := htrans n' p y h8 h6
      subst this
      exact ⟨y, _, h8, (attrKind_iff _ _).mpr rfl, h7⟩
    · rintro ⟨y, k, h8, h9, rfl⟩
      obtain ⟨p, h6, h7⟩ := m2 n (List.mem_map.mpr ⟨_, h8, rfl⟩)
      have := htrans n p y h8 h6
      subst this
      rw [← (attrKind_iff _ _).mp h9]
      exact h7
  · rename_i tr hne htr
    unfold getTransitions at htr
    simp only [holdsId, kSchema, holdsDType, if_true, kObject, Bool.false_eq_true, if_false] at htr
    rw [if_neg (by decide)] at htr
    simp only [cloneVisitor, cloneVisitObject] at h
    split at h
    · cases h
    rename_i o st2 hid
    obtain ⟨c1, c2⟩ := cloneId_ok (H := H) (b := b) hA hs hx' hid
    cases h
    refine ⟨c1.trans (.same rfl rfl), fun f hf => ?_⟩
    obtain ⟨d1, d2, d3⟩ := c2 f hf
    refine ⟨d2, fun hne' => ?_⟩
    simp only [decide_true]
    rw [d3, d1]
    simp only [withSchema, Bool.false_eq_true, if_false]
    refine schema_step hne' ?_
    intro n v
    rcases schemaTransitions_ok htr with ⟨h1, rfl⟩ | ⟨h1, hsc, ⟨h3, rfl⟩ | h2⟩
    · rw [hnf] at h1; cases h1
    · rw [h3]; simp
    · exact absurd h2 (hne _)

theorem visitOne_clone (hb : b.Ok) (hA : NewIds alloc N old) {p : Pair} {st st' : State}
    (hp : Visitable b p) (h : visitOne (cloneVisitor H alloc) b st p = .ok st') :
    Moves H alloc b N st st' ∧ ∀ f, Grows st'.tracker f →
      Found b f p ∧ (Moved f p → Step b (newId f) p st.bag st'.bag) := by
  obtain ⟨x, e, hx, he⟩ := hp.owned
  obtain ⟨px, s1⟩ := p
  simp only at hx he
  subst hx
  have hkeys : ∀ {f : Tracker} {T : ObjectId}, Own b x s1 (.object T) →
      (∀ k v, T.isNoFollowSchema = false → DictSchema b T k v → ∀ y ∈ b.dict x, Known f y.1 k) →
      KeysKnown b f (.object x, s1) := by
    intro f T ho hk y T' k v hy ho' hn hd
    simp only at hy ho'
    cases hy
    have := Own.unique ho' ho
    cases this
    exact hk k v hn hd
  unfold visitOne at h
  simp only at h
  by_cases h1 : holdsId s1 = true
  · rw [if_pos h1] at h
    obtain ⟨T, rfl⟩ := (holdsId_iff _).mp h1
    have ho : Own b x (.object T) (.object T) := .other (by simp)
    have hsch := hp.data x rfl (.inr ⟨T, rfl⟩)
    obtain ⟨a1, a2⟩ := visitEntity_clone hb hA (by simp [Explicit, hsch]) h
    refine ⟨a1, fun f hf => ?_⟩
    obtain ⟨c1, c2, c3⟩ := a2 f hf
    refine ⟨⟨fun _ y hy => by cases hy; exact c2, hkeys ho c3⟩, fun _ => ?_⟩
    refine Effect.step ho ?_
    simpa [kObject] using c1
  rw [if_neg h1] at h
  by_cases h2 : s1 = kObject
  · rw [if_pos h2] at h
    subst h2
    obtain ⟨T, rfl⟩ := hp.object x e rfl rfl he
    have hsch := hp.data x rfl (.inl rfl)
    unfold visitObjectItem at h
    simp only [holdsId, Bool.not_true, Bool.false_eq_true, if_false] at h
    split at h
    · cases h
    rename_i e' he'
    have := Own.unique (own_object he') he
    subst this
    obtain ⟨a1, a2⟩ := visitEntity_clone hb hA (by simp [Explicit, hsch]) h
    refine ⟨a1, fun f hf => ?_⟩
    obtain ⟨c1, c2, c3⟩ := a2 f hf
    refine ⟨⟨fun _ y hy => by cases hy; exact c2, hkeys he c3⟩, fun _ => ?_⟩
    refine Effect.step he ?_
    simpa using c1
  rw [if_neg h2] at h
  by_cases h3 : s1 = kSchema
  · rw [if_pos h3] at h
    subst h3
    obtain ⟨a1, a2⟩ := visitSchemaItem_clone hb hA (hp.schema x rfl rfl) h
    refine ⟨a1, fun f hf => ?_⟩
    obtain ⟨c1, c2⟩ := a2 f hf
    refine ⟨⟨fun _ y hy => by cases hy; exact c1, ?_⟩, fun hm => c2 (hm x rfl)⟩
    intro y T k v hy ho
    simp only [kSchema] at hy ho
    cases ho
  rw [if_neg h3] at h
  cases h
  have hown : ∀ T, ¬ Own b x s1 (.object T) := by
    intro T ho
    generalize hT : Item.object T = e' at ho
    cases ho with
    | object _ _ => exact h2 rfl
    | other _ => subst hT; exact h1 rfl
  refine ⟨.refl _, fun f hf => ⟨⟨?_, ?_⟩, fun _ => ⟨?_, ?_, ?_, ?_⟩⟩⟩
  · rintro (h | h | ⟨T, h⟩)
    · exact absurd h h2
    · exact absurd h h3
    · simp only at h; subst h; exact absurd rfl h1
  · intro y T k v hy ho
    simp only at hy ho
    cases hy
    exact absurd ho (hown T)
  · intro k
    right
    refine ⟨rfl, ?_⟩
    rintro v ⟨y, hy, _, ⟨h4, _⟩ | ⟨T, t, h4, _⟩⟩
    · exact h2 h4
    · simp only at hy h4
      cases hy
      exact hown T h4
  · intro k
    right
    refine ⟨rfl, ?_⟩
    rintro v ⟨y, T, t, hy, _, h4, _⟩
    simp only at hy h4
    cases hy
    exact hown T h4
  · intro k
    right
    refine ⟨rfl, ?_⟩
    rintro v ⟨y, T, kt, vt, _, _, hy, _, h4, _⟩
    simp only at hy h4
    cases hy
    exact hown T h4
  · intro k
    right
    refine ⟨rfl, ?_⟩
    rintro v ⟨y, z, t, _, _, h4, _⟩
    exact h3 h4

theorem visitInPostOrder_clone (hb : b.Ok) (hA : NewIds alloc N old) :
    ∀ {l : List Pair} {st st' : State}, (∀ p ∈ l, Visitable b p) →
      visitInPostOrder (cloneVisitor H alloc) b st l = .ok st' →
      Moves H alloc b N st st' ∧ ∀ f, Grows st'.tracker f →
        (∀ p ∈ l, Found b f p) ∧
          ((∀ p ∈ l, Moved f p) → Run b (newId f) st.bag l st'.bag)
  | [], st, st', _, h => by
    cases h
    exact ⟨.refl _, fun f _ => ⟨by simp, fun _ => .nil⟩⟩
  | p :: l, st, st', hp, h => by
    unfold visitInPostOrder at h
    split at h
    · cases h
    rename_i st1 h1
    obtain ⟨a1, a2⟩ := visitOne_clone hb hA (hp p (by simp)) h1
    obtain ⟨b1, b2⟩ := visitInPostOrder_clone hb hA (fun q hq => hp q (by simp [hq])) h
    refine ⟨a1.trans b1, fun f hf => ?_⟩
    obtain ⟨c1, c2⟩ := a2 f (b1.grows.trans hf)
    obtain ⟨d1, d2⟩ := b2 f hf
    refine ⟨?_, fun hm => .cons (c2 (hm p (by simp))) (d2 (fun q hq => hm q (by simp [hq])))⟩
    intro q hq
    rcases List.mem_cons.mp hq with rfl | hq
    · exact c1
    · exact d1 q hq

end

end Verif.Clone
