import Verif.Clone.Whole

/-!
The list of explicit schemas.
-/

namespace Verif.Clone

open Verif.ObjectId
open Verif.Uuid
open Verif.Traverse

section
variable {S : Type} {H : HashFn S} {alloc : Nat → BitVec 6 → BitVec 6 → AllocationId} {b : Bag}
  {ds : List Item} {s : Item}

/-- The pair asks for the explicit schema `o`. -/
def Asks (q : Pair) (o : ObjectId) : Prop := q = (.object o, .dtype 12) ∧ o.isImplicitSchema = false

theorem previsitImplicit_explicit {st st' : State} {x : Item} {T : ObjectId}
    (h : previsitImplicit H st x T = .ok st') : st'.explicit = st.explicit := by
  unfold previsitImplicit at h
  split at h
  · cases h; rfl
  · split at h
    · split at h
      · cases h
      · cases h; rfl
    · cases h

theorem previsitObject_explicit (st : State) (x : Item) :
    (previsitObject alloc st x).explicit = st.explicit := by
  unfold previsitObject
  split
  · split <;> rfl
  · rfl

theorem clonePrevisit_explicit {st st' : State} {src q : Pair} {k : Option Key} {r : Bool}
    (h : clonePrevisit H alloc st src k q = .ok (r, st')) (o : ObjectId) :
    o ∈ st'.explicit ↔ o ∈ st.explicit ∨ Asks q o := by
  obtain ⟨q1, q2⟩ := q
  unfold clonePrevisit at h
  simp only at h
  by_cases h1 : q2 = kSchema
  · rw [if_pos h1] at h
    simp only [Except.ok.injEq] at h
    unfold previsitSchema at h
    split at h
    · rename_i x
      by_cases h2 : x.isImplicitSchema = true
      · rw [if_pos h2] at h
        cases h
        constructor
        · exact .inl
        · rintro (h3 | ⟨h3, h4⟩)
          · exact h3
          · cases h3; rw [h2] at h4; cases h4
      · rw [if_neg h2] at h
        cases h
        simp only [List.mem_append, List.mem_singleton]
        constructor
        · rintro (h3 | rfl)
          · exact .inl h3
          · exact .inr ⟨by rw [h1]; rfl, by simpa using h2⟩
        · rintro (h3 | ⟨h3, _⟩)
          · exact .inl h3
          · cases h3; exact .inr rfl
    · rename_i hno
      cases h
      constructor
      · exact .inl
      · rintro (h3 | ⟨h3, _⟩)
        · exact h3
        · cases h3; exact absurd rfl (hno o)
  · have hn : ¬ Asks (q1, q2) o := by
      rintro ⟨h2, _⟩
      cases h2
      exact h1 rfl
    have hsame : st'.explicit = st.explicit := by
      rw [if_neg h1] at h
      split at h
      · cases h
      split at h
      · split at h
        · split at h
          · cases h
          rename_i h3
          cases h
          exact previsitImplicit_explicit h3
        · cases h; exact previsitObject_explicit _ _
      · split at h
        · cases h; exact previsitObject_explicit _ _
        · cases h; rfl
      · cases h
    rw [hsame]
    simp [hn]

theorem previsit_explicit {d d' : Dfs State} {src q : Pair} {k : Option Key}
    (h : previsit (cloneVisitor H alloc) d src k q = .ok d') :
    d'.used = d.used ∧ ∀ o, o ∈ d'.v.explicit ↔ o ∈ d.v.explicit ∨ Asks q o := by
  unfold previsit at h
  split at h
  · cases h
  split at h
  · cases h
  rename_i should v hv
  have := clonePrevisit_explicit (H := H) (alloc := alloc) (k := k) (src := src) hv
  split at h
  · cases h; exact ⟨rfl, this⟩
  · cases h; exact ⟨rfl, this⟩

theorem previsitAll_explicit {src : Pair} : ∀ {cs : List (Key × Pair)} {d d' : Dfs State},
    previsitAll (cloneVisitor H alloc) src d cs = .ok d' →
    d'.used = d.used ∧ ∀ o, o ∈ d'.v.explicit ↔ o ∈ d.v.explicit ∨ ∃ c ∈ cs, Asks c.2 o
  | [], d, d', h => by cases h; simp
  | (k, q) :: cs, d, d', h => by
    unfold previsitAll at h
    split at h
    · cases h
    rename_i d1 h1
    obtain ⟨a1, a2⟩ := previsit_explicit h1
    obtain ⟨b1, b2⟩ := previsitAll_explicit h
    refine ⟨by rw [b1, a1], ?_⟩
    intro o
    rw [b2, a2]
    simp only [List.mem_cons, exists_eq_or_imp, or_assoc]

theorem expand_explicit (hb : b.Ok) {x : ObjectId} {e : Item} {d d' : Dfs State}
    (hobj : e = kObject → getObjectSchema b (.object x) = .ok kObject)
    (h : expand (cloneVisitor H alloc) b d (.object x) e = .ok d') :
    d'.used = d.used ∧ ∀ o, o ∈ d'.v.explicit ↔ o ∈ d.v.explicit ∨
      (o.isImplicitSchema = false ∧ ∃ k, Ref b x e k (.object o, .dtype 12)) := by
  unfold expand at h
  rw [if_pos (by simp [kSchema])] at h
  split at h
  · cases h
  rename_i d1 h1
  split at h
  · cases h
  rename_i t ht
  split at h
  · cases h
  rename_i cs hcs
  obtain ⟨a1, a2⟩ := previsit_explicit h1
  obtain ⟨b1, b2⟩ := previsitAll_explicit h
  refine ⟨by rw [b1, a1], ?_⟩
  intro o
  rw [b2, a2]
  have hm := mem_forEachObject hb ht hcs hobj
  constructor
  · rintro ((h2 | ⟨h2, h3⟩) | ⟨⟨k, q⟩, h2, h3, h4⟩)
    · exact .inl h2
    · cases h2; exact .inr ⟨h3, _, .schema⟩
    · simp only at h3
      subst h3
      exact .inr ⟨h4, k, ((hm k _).mp ⟨h2, rfl⟩).1⟩
  · rintro (h2 | ⟨h2, k, h3⟩)
    · exact .inl (.inl h2)
    · by_cases hk : k = .schema
      · subst hk
        left; right
        generalize hq : ((Item.object o, Item.dtype 12) : Pair) = q at h3
        cases h3
        cases hq
        exact ⟨rfl, h2⟩
      · exact .inr ⟨(k, _), ((hm k _).mpr ⟨h3, hk⟩).1, rfl, h2⟩

/-- The explicit schemas that the processed pairs refer to. -/
def ByUsed (b : Bag) (used : List Pair) (o : ObjectId) : Prop :=
  o.isImplicitSchema = false ∧ ∃ p ∈ used, ∃ x e k, p.1 = .object x ∧ Own b x p.2 e ∧
    Ref b x e k (.object o, .dtype 12)

theorem byUsed_cons {b : Bag} {used : List Pair} {o x : ObjectId} {t e : Item}
    (he : Own b x t e) : ByUsed b ((.object x, t) :: used) o ↔
      (o.isImplicitSchema = false ∧ ∃ k, Ref b x e k (.object o, .dtype 12)) ∨ ByUsed b used o := by
  constructor
  · rintro ⟨h1, p, h2, y, e', k, h3, h4, h5⟩
    rcases List.mem_cons.mp h2 with rfl | h2
    · simp only at h3 h4
      cases h3
      rw [Own.unique h4 he] at h5
      exact .inl ⟨h1, k, h5⟩
    · exact .inr ⟨h1, p, h2, y, e', k, h3, h4, h5⟩
  · rintro (⟨h1, k, h2⟩ | ⟨h1, p, h2, h3⟩)
    · exact ⟨h1, _, List.mem_cons_self .., x, e, k, rfl, he, h2⟩
    · exact ⟨h1, p, List.mem_cons_of_mem _ h2, h3⟩

theorem dfsStep_explicit (hb : b.Ok) (ho : Ordinary H b ds s) {base : ObjectId → Prop}
    {d d' : Dfs State} (hids : ∀ p ∈ d.stack, ∃ x, p.1 = .object x)
    (hi : ∀ o, o ∈ d.v.explicit ↔ base o ∨ ByUsed b d.used o)
    (h : dfsStep (cloneVisitor H alloc) b d = .ok d') :
    ∀ o, o ∈ d'.v.explicit ↔ base o ∨ ByUsed b d'.used o := by
  unfold dfsStep at h
  split at h
  · cases h; exact hi
  rename_i p rest hst
  split at h
  · cases h; exact hi
  obtain ⟨x, hx⟩ := hids p (by rw [hst]; exact List.mem_cons_self ..)
  obtain ⟨px, ps⟩ := p
  simp only at hx
  subst hx
  dsimp only at h
  split at h
  · rename_i hO
    subst hO
    split at h
    · cases h
    rename_i e he
    have hown := own_object he
    obtain ⟨T, rfl⟩ : ∃ T, e = .object T := by
      generalize hk : kObject = k at hown
      cases hown with
      | object h1 h2 =>
        rcases ho.own x with h3 | ⟨T, h3⟩
        · rw [h3] at h1; exact absurd h1.symm h2
        · exact ⟨T, by rw [← h1, h3]⟩
      | other h1 => exact absurd hk.symm h1
    split at h
    · cases h
    rename_i should v hp
    have hsh := decides_clone _ _ _ _ _ _ hp
    have hexp := clonePrevisit_explicit (H := H) (alloc := alloc)
      (src := (.object x, kObject)) (k := some .objectSchema) (q := (.object x, .object T))
      (st := d.v) (r := should) hp
    have hno : ∀ o, ¬ Asks (.object x, .object T) o := by
      rintro o ⟨h1, _⟩; cases h1
    split at h
    · rename_i hs
      rw [hsh] at hs
      simp [follow] at hs
    split at h
    · cases h
    rename_i d1 h1
    cases h
    obtain ⟨a1, a2⟩ := expand_explicit hb (fun h1 => by cases h1) h1
    intro o
    show o ∈ d1.v.explicit ↔ base o ∨ ByUsed b d1.used o
    rw [a2, a1, byUsed_cons hown, hexp, hi]
    simp only [hno, or_false, or_assoc]
    constructor
    · rintro (h2 | h2 | h2)
      · exact .inl h2
      · exact .inr (.inr h2)
      · exact .inr (.inl h2)
    · rintro (h2 | h2 | h2)
      · exact .inl h2
      · exact .inr (.inr h2)
      · exact .inr (.inl h2)
  · rename_i hO
    split at h
    · cases h
    rename_i d1 h1
    cases h
    obtain ⟨a1, a2⟩ := expand_explicit hb (fun h1 => absurd h1 hO) h1
    intro o
    show o ∈ d1.v.explicit ↔ base o ∨ ByUsed b d1.used o
    rw [a2, a1, byUsed_cons (.other hO), hi]
    constructor
    · rintro ((h2 | h2) | h2)
      · exact .inl h2
      · exact .inr (.inr h2)
      · exact .inr (.inl h2)
    · rintro (h2 | h2 | h2)
      · exact .inl (.inl h2)
      · exact .inr h2
      · exact .inl (.inr h2)

theorem dfs_explicit (hb : b.Ok) (ho : Ordinary H b ds s) {base : ObjectId → Prop}
    {root : Pair → Prop} : ∀ (n : Nat) {d d' : Dfs State}, Traverse.Good b follow root d →
    (∀ o, o ∈ d.v.explicit ↔ base o ∨ ByUsed b d.used o) →
    dfs (cloneVisitor H alloc) b n d = some (.ok d') →
    ∀ o, o ∈ d'.v.explicit ↔ base o ∨ ByUsed b d'.used o
  | 0, d, d', _, hi, h => by
    unfold dfs at h
    split at h
    · cases h; exact hi
    · cases h
  | n + 1, d, d', hg, hi, h => by
    unfold dfs at h
    split at h
    · cases h; exact hi
    split at h
    · cases h
    rename_i d1 h1
    exact dfs_explicit hb ho n (step_good hb decides_clone (follow_own ho) hg h1)
      (dfsStep_explicit hb ho hg.ids hi h1) h

theorem init_explicit {d : Dfs State} (hs : s ≠ kSchema)
    (h : initDfs (cloneVisitor H alloc) State.start ds s = .ok d) :
    d.used = [] ∧ ∀ o, o ∈ d.v.explicit ↔ (s = .object o ∧ o.isImplicitSchema = false) := by
  unfold initDfs at h
  split at h
  · cases h
  rename_i d1 h1
  obtain ⟨a1, a2⟩ := previsit_explicit h1
  obtain ⟨b1, b2⟩ := previsitAll_explicit h
  refine ⟨by rw [b1, a1], ?_⟩
  intro o
  rw [b2, a2]
  constructor
  · rintro ((h2 | ⟨h2, h3⟩) | ⟨c, h2, h3, _⟩)
    · cases h2
    · cases h2; exact ⟨rfl, h3⟩
    · obtain ⟨j, y, _, rfl⟩ := mem_rootCalls ds 0 h2
      cases h3
      exact absurd rfl hs
  · rintro ⟨rfl, h3⟩
    exact .inl (.inr ⟨rfl, h3⟩)

theorem cloneGetValue_explicit {st st' : State} {y y' t : Item}
    (h : cloneGetValue alloc st y t = .ok (y', st')) : st'.explicit = st.explicit := by
  unfold cloneGetValue at h
  split at h
  · split at h
    · cases h; rfl
    split at h
    · cases h; rfl
    split at h
    · cases h; rfl
    split at h
    · split at h
      · cases h
        unfold cloneAsExplicit
        split <;> rfl
      · cases h
    · cases h
  · cases h; rfl

theorem getValue_explicit {st st' : State} {p : Pair} {y' : Item}
    (h : getValue (cloneVisitor H alloc) st p = .ok (y', st')) : st'.explicit = st.explicit := by
  unfold getValue at h
  split at h
  · cases h
  · exact cloneGetValue_explicit h

theorem listValues_explicit {t : Item} : ∀ {l : List Item} {st st' : State} {ys : List Item},
    listValues (cloneVisitor H alloc) t st l = .ok (ys, st') → st'.explicit = st.explicit
  | [], st, st', ys, h => by cases h; rfl
  | y :: l, st, st', ys, h => by
    unfold listValues at h
    split at h
    · cases h
    rename_i h1
    split at h
    · cases h
    rename_i h2
    cases h
    rw [listValues_explicit h2, getValue_explicit h1]

theorem dictValues_explicit {kt vt : Item} : ∀ {l : List (Item × Item)} {st st' : State}
    {ys : List (Item × Item)},
    dictValues (cloneVisitor H alloc) kt vt st l = .ok (ys, st') → st'.explicit = st.explicit
  | [], st, st', ys, h => by cases h; rfl
  | y :: l, st, st', ys, h => by
    unfold dictValues at h
    split at h
    · cases h
    rename_i h1
    split at h
    · cases h
    rename_i h2
    split at h
    · cases h
    rename_i h3
    cases h
    rw [dictValues_explicit h3, getValue_explicit h2, getValue_explicit h1]

theorem attrValues_explicit {tr : Name → Except Err Pair} : ∀ {l : List Name} {st st' : State}
    {ys : List (Name × Item)},
    attrValues (cloneVisitor H alloc) tr st l = .ok (ys, st') → st'.explicit = st.explicit
  | [], st, st', ys, h => by cases h; rfl
  | y :: l, st, st', ys, h => by
    unfold attrValues at h
    split at h
    · cases h
    split at h
    · cases h
    rename_i h2
    split at h
    · cases h
    rename_i h3
    cases h
    rw [attrValues_explicit h3, getValue_explicit h2]

theorem cloneId_explicit {st st' : State} {x s : Item} {io : Bool} {o : ObjectId}
    (h : cloneId alloc st x s io = .ok (o, st')) : st'.explicit = st.explicit := by
  unfold cloneId at h
  split at h
  · cases h
  · rename_i h1
    split at h
    · split at h
      · cases h
      rename_i h2
      cases h
      show _ = _
      rw [← cloneGetValue_explicit h1, ← cloneGetValue_explicit h2]
    · cases h
      exact cloneGetValue_explicit h1
  · cases h

theorem cloneVisitObject_explicit {st st' : State} {x s : Item} {io : Bool}
    {fs : List (Name × Item)} (h : cloneVisitObject alloc st x s io fs = .ok st') :
    st'.explicit = st.explicit := by
  unfold cloneVisitObject at h
  split at h
  · split at h
    · cases h
    rename_i h1
    cases h
    have := cloneId_explicit h1
    exact this
  · cases h

theorem visitOne_explicit {st st' : State} {p : Pair}
    (h : visitOne (cloneVisitor H alloc) b st p = .ok st') : st'.explicit = st.explicit := by
  have hent : ∀ x s io, visitEntity (cloneVisitor H alloc) b st x s io = .ok st' →
      st'.explicit = st.explicit := by
    intro x s io h
    unfold visitEntity at h
    split at h
    · cases h
    · split at h
      · cases h
      rename_i h1
      rw [← listValues_explicit h1]
      replace h : cloneVisitList alloc _ x s io _ = .ok st' := h
      unfold cloneVisitList at h
      split at h
      · cases h
      rename_i h2
      split at h
      · cases h
      split at h
      · split at h
        · cases h
        · cases h; have := cloneId_explicit h2; exact this
      · cases h; have := cloneId_explicit h2; exact this
    · split at h
      · cases h
      rename_i h1
      rw [← dictValues_explicit h1]
      replace h : cloneVisitDict alloc _ x s io _ = .ok st' := h
      unfold cloneVisitDict at h
      split at h
      · cases h
      rename_i h2
      split at h
      · cases h
      · cases h; have := cloneId_explicit h2; exact this
    · exact cloneVisitObject_explicit h
    · split at h
      · cases h
      rename_i h1
      rw [← attrValues_explicit h1]
      exact cloneVisitObject_explicit h
    · split at h
      · cases h
      rename_i h1
      rw [← attrValues_explicit h1]
      exact cloneVisitObject_explicit h
  unfold visitOne at h
  split at h
  · exact hent _ _ _ h
  split at h
  · unfold visitObjectItem at h
    split at h
    · cases h; rfl
    split at h
    · cases h
    · exact hent _ _ _ h
  split at h
  · unfold visitSchemaItem at h
    split at h
    · cases h; rfl
    split at h
    · cases h
    · split at h
      · cases h
      rename_i h1
      rw [← attrValues_explicit h1]
      exact cloneVisitObject_explicit h
    · exact cloneVisitObject_explicit h
  · cases h; rfl

theorem visitInPostOrder_explicit : ∀ {l : List Pair} {st st' : State},
    visitInPostOrder (cloneVisitor H alloc) b st l = .ok st' → st'.explicit = st.explicit
  | [], st, st', h => by cases h; rfl
  | p :: l, st, st', h => by
    unfold visitInPostOrder at h
    split at h
    · cases h
    rename_i h1
    rw [visitInPostOrder_explicit h, visitOne_explicit h1]

theorem resultItems_explicit {s : Item} : ∀ {l : List Item} {st st' : State} {ys : List Item},
    resultItems alloc s st l = .ok (ys, st') → st'.explicit = st.explicit
  | [], st, st', ys, h => by cases h; rfl
  | y :: l, st, st', ys, h => by
    unfold resultItems at h
    split at h
    · cases h
    rename_i h1
    split at h
    · cases h
    rename_i h2
    cases h
    rw [resultItems_explicit h2, cloneGetValue_explicit h1]

theorem explicit_ok {fuel : Nat} {out : List Item} {st : State} (hb : b.Ok)
    (ho : Ordinary H b ds s) (h : deepClone H alloc b fuel ds s = some (.ok (out, st)))
    (o : ObjectId) : o ∈ st.explicit ↔ UsedSchema b ds s o := by
  unfold deepClone at h
  split at h
  · cases h
  rename_i hs
  split at h
  · cases h
  · cases h
  rename_i stv hv
  simp only [Option.some.injEq] at h
  unfold traverseSlice at hv
  split at hv
  · cases hv
  rename_i d hd
  split at hv
  · cases hv
  · cases hv
  rename_i d' hd'
  simp only [Option.some.injEq] at hv
  obtain ⟨u0, e0⟩ := init_explicit hs hd
  have hg := init_good (b := b) decides_clone hd
  have hx := dfs_explicit hb ho (base := fun o => s = .object o ∧ o.isImplicitSchema = false)
    fuel hg (by
      intro o
      rw [e0, u0]
      constructor
      · exact .inl
      · rintro (h1 | ⟨_, p, h1, _⟩)
        · exact h1
        · cases h1) hd'
  obtain ⟨_, hmem, _⟩ := search_order hb decides_clone (follow_own ho) hd hd'
  obtain ⟨hgood, hstk⟩ := dfs_good hb decides_clone (follow_own ho) fuel hg hd'
  have hused : ∀ p, p ∈ d'.used ↔ Reached b ds s p := by
    intro p
    constructor
    · intro hp; exact hgood.inv.sound p (.inr hp)
    · intro hp; exact (hgood.inv.mem p).mpr (.inl ((hmem p).mpr hp))
  rw [resultItems_explicit h, visitInPostOrder_explicit hv, hx]
  constructor
  · rintro (⟨h1, h2⟩ | ⟨h1, p, h2, x, e, k, h3, h4, h5⟩)
    · exact ⟨h2, .inl h1⟩
    · obtain ⟨p1, t⟩ := p
      simp only at h3 h4
      subst h3
      exact ⟨h1, .inr ⟨x, t, e, k, (hused _).mp h2, h4, h5⟩⟩
  · rintro ⟨h1, h2 | ⟨x, t, e, k, h2, h3, h4⟩⟩
    · exact .inl ⟨h2, h1⟩
    · exact .inr ⟨h1, _, (hused _).mpr h2, x, e, k, rfl, h3, h4⟩

end

end Verif.Clone
