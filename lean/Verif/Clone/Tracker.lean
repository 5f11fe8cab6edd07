import Verif.Clone.Walk
import Verif.ObjectId.IdTheorems
import Verif.Uuid.UuidTheorems

/-!
What is in `allocation_tracker_`.
-/

namespace Verif.Clone

open Verif.ObjectId
open Verif.Uuid
open Verif.Traverse

abbrev Tracker := List (AllocationId × AllocationId)

/-- Entries are never changed. -/
def Grows (t t' : Tracker) : Prop := ∀ a v, findAlloc a t = some v → findAlloc a t' = some v

theorem Grows.refl (t : Tracker) : Grows t t := fun _ _ h => h

theorem Grows.trans {t t' t'' : Tracker} (h : Grows t t') (h' : Grows t' t'') : Grows t t'' :=
  fun a v ha => h' a v (h a v ha)

theorem find_cons {a k v : AllocationId} {t : Tracker} :
    findAlloc a ((k, v) :: t) = if k = a then some v else findAlloc a t := rfl

theorem grows_cons {k v : AllocationId} {t : Tracker} (h : findAlloc k t = none) :
    Grows t ((k, v) :: t) := by
  intro a w ha
  rw [find_cons]
  by_cases hk : k = a
  · subst hk; rw [h] at ha; cases ha
  · rw [if_neg hk]; exact ha

section
variable {S : Type} {H : HashFn S} {alloc : Nat → BitVec 6 → BitVec 6 → AllocationId} {b : Bag}

/-- How an entry came to be. -/
inductive Entry (H : HashFn S) (alloc : Nat → BitVec 6 → BitVec 6 → AllocationId) (b : Bag)
    (t : Tracker) (n : Nat) (a : AllocationId) : AllocationId → Prop where
  | like (i : Nat) : i < n → a.raw.isSchema = false → Entry H alloc b t n a (newLike alloc i a)
  | schemas (i : Nat) : i < n → a.raw.isImplicitSchema = true →
      Entry H alloc b t n a (newSchemas alloc i a)
  | implicit (x T : ObjectId) (v : AllocationId) : b.attr x schemaAttrName = .object T →
      T.isImplicitSchema = true → a = AllocationId.ofObject T →
      findAlloc (AllocationId.ofObject x) t = some v →
      Entry H alloc b t n a (AllocationId.ofObject (implicitOf H (v.objectByOffset x.offset)))

theorem Entry.mono {t t' : Tracker} {n n' : Nat} {a v : AllocationId} (hg : Grows t t')
    (hn : n ≤ n') (h : Entry H alloc b t n a v) : Entry H alloc b t' n' a v := by
  cases h with
  | like i h1 h2 => exact .like i (Nat.lt_of_lt_of_le h1 hn) h2
  | schemas i h1 h2 => exact .schemas i (Nat.lt_of_lt_of_le h1 hn) h2
  | implicit x T w h1 h2 h3 h4 => exact .implicit x T w h1 h2 h3 (hg _ _ h4)

/-- An allocation made by the process, not an implicit schema. -/
def Num (alloc : Nat → BitVec 6 → BitVec 6 → AllocationId) (n : Nat) (v : AllocationId) : Prop :=
  ∃ i m k, i < n ∧ m ≠ kUuidImplicitSchemaFlag ∧ v = alloc i m k

theorem clear_ne (m : BitVec 6) : m &&& ~~~kUuidFlag ≠ kUuidImplicitSchemaFlag := by
  revert m; decide

theorem num_like {n i : Nat} {a : AllocationId} (h : i < n) :
    Num alloc n (newLike alloc i a) := ⟨i, _, _, h, clear_ne _, rfl⟩

theorem num_schemas {n i : Nat} {a : AllocationId} (h : i < n) :
    Num alloc n (newSchemas alloc i a) := ⟨i, _, _, h, by decide, rfl⟩

/-- The invariant of the tracker. -/
structure TInv (H : HashFn S) (alloc : Nat → BitVec 6 → BitVec 6 → AllocationId) (b : Bag)
    (N : Nat) (st : State) : Prop where
  entry : ∀ a v, findAlloc a st.tracker = some v → Entry H alloc b st.tracker st.count a v
  sep : st.count ≤ N → ∀ a a' v, findAlloc a st.tracker = some v →
    findAlloc a' st.tracker = some v → Num alloc st.count v → a = a'

theorem implicit_meta (o : ObjectId) :
    (AllocationId.ofObject (implicitOf H o)).raw.metadata = kUuidImplicitSchemaFlag := rfl

/-- A new numbered entry. -/
theorem TInv.add {N : Nat} {old : ObjectId → Prop} (hA : NewIds alloc N old) {st : State}
    (h : TInv H alloc b N st) {a v : AllocationId} {m k : BitVec 6}
    (hn : findAlloc a st.tracker = none) (hv : v = alloc st.count m k)
    (hm : m ≠ kUuidImplicitSchemaFlag) {st' : State}
    (he : Entry H alloc b ((a, v) :: st.tracker) (st.count + 1) a v)
    (h1 : st'.tracker = (a, v) :: st.tracker) (h2 : st'.count = st.count + 1) :
    TInv H alloc b N st' := by
  have hg := grows_cons (v := v) hn
  constructor
  · intro a' v' hf
    rw [h1] at hf
    rw [h1, h2]
    rw [find_cons] at hf
    split at hf
    · rename_i hk
      cases hf
      subst hk
      exact he
    · exact (h.entry _ _ hf).mono hg (Nat.le_succ _)
  · intro hN a1 a2 v' hf1 hf2 hnum
    rw [h2] at hN hnum
    rw [h1, find_cons] at hf1 hf2
    have hold : ∀ a', findAlloc a' st.tracker = some v → False := by
      intro a' hf
      have := h.entry _ _ hf
      generalize hw : v = w at this
      rw [hv] at hw
      cases this with
      | like i h3 _ => exact hA.distinct i st.count _ _ _ _ h3 (by omega) hw.symm
      | schemas i h3 _ => exact hA.distinct i st.count _ _ _ _ h3 (by omega) hw.symm
      | implicit x T w' _ _ _ _ =>
        have := congrArg (·.raw.metadata) hw
        simp only [hA.kind, implicit_meta] at this
        exact hm this
    by_cases k1 : a = a1
    · rw [if_pos k1] at hf1
      cases hf1
      by_cases k2 : a = a2
      · rw [← k1, ← k2]
      · rw [if_neg k2] at hf2
        exact (hold _ hf2).elim
    · rw [if_neg k1] at hf1
      by_cases k2 : a = a2
      · rw [if_pos k2] at hf2
        cases hf2
        exact (hold _ hf1).elim
      · rw [if_neg k2] at hf2
        have := h.entry _ _ hf1
        refine h.sep (by omega) a1 a2 v' hf1 hf2 ?_
        cases this with
        | like i h3 _ => exact num_like h3
        | schemas i h3 _ => exact num_schemas h3
        | implicit x T w' _ _ _ _ =>
          obtain ⟨i, m', k', _, h5, h6⟩ := hnum
          have := congrArg (·.raw.metadata) h6
          simp only [hA.kind, implicit_meta] at this
          exact absurd this.symm h5

/-- A new entry for implicit schemas. -/
theorem TInv.addImplicit {N : Nat} {old : ObjectId → Prop} (hA : NewIds alloc N old) {st : State}
    (h : TInv H alloc b N st) {a : AllocationId} {o : ObjectId}
    (hn : findAlloc a st.tracker = none) {st' : State}
    (he : Entry H alloc b ((a, AllocationId.ofObject (implicitOf H o)) :: st.tracker) st.count a
      (AllocationId.ofObject (implicitOf H o)))
    (h1 : st'.tracker = (a, AllocationId.ofObject (implicitOf H o)) :: st.tracker)
    (h2 : st'.count = st.count) : TInv H alloc b N st' := by
  have hg := grows_cons (v := AllocationId.ofObject (implicitOf H o)) hn
  constructor
  · intro a' v' hf
    rw [h1] at hf
    rw [h1, h2]
    rw [find_cons] at hf
    split at hf
    · rename_i hk
      cases hf
      subst hk
      exact he
    · exact (h.entry _ _ hf).mono hg (Nat.le_refl _)
  · intro hN a1 a2 v' hf1 hf2 hnum
    rw [h2] at hN hnum
    rw [h1, find_cons] at hf1 hf2
    have hv : v' ≠ AllocationId.ofObject (implicitOf H o) := by
      intro hc
      obtain ⟨i, m', k', _, h5, h6⟩ := hnum
      rw [hc] at h6
      have := congrArg (·.raw.metadata) h6
      simp only [hA.kind, implicit_meta] at this
      exact absurd this.symm h5
    rw [if_neg (by intro hk; rw [if_pos hk] at hf1; cases hf1; exact hv rfl)] at hf1
    rw [if_neg (by intro hk; rw [if_pos hk] at hf2; cases hf2; exact hv rfl)] at hf2
    exact h.sep hN a1 a2 v' hf1 hf2 hnum

theorem TInv.same {N : Nat} {st st' : State} (h : TInv H alloc b N st)
    (h1 : st'.tracker = st.tracker) (h2 : st'.count = st.count) : TInv H alloc b N st' := by
  constructor
  · intro a v; rw [h1, h2]; exact h.entry a v
  · intro hN a a' v; rw [h1, h2]; rw [h2] at hN; exact h.sep hN a a' v

theorem notSchema_meta {o : ObjectId} (h : o.isSchema = false) : o.isImplicitSchema = false := by
  cases hi : o.isImplicitSchema with
  | false => rfl
  | true =>
    simp only [ObjectId.isImplicitSchema, beq_iff_eq] at hi
    simp only [ObjectId.isSchema, hi] at h
    revert h; decide

theorem implicit_isSchema {o : ObjectId} (h : o.isImplicitSchema = true) : o.isSchema = true := by
  cases hi : o.isSchema with
  | true => rfl
  | false => rw [notSchema_meta hi] at h; cases h

/-- Entries for implicit schemas that were made during the search. -/
def Implicits (H : HashFn S) (b : Bag) (t : Tracker) : Prop :=
  ∀ a v, findAlloc a t = some v → a.raw.isImplicitSchema = true →
    ∃ x T w, b.attr x schemaAttrName = .object T ∧ T.isImplicitSchema = true ∧
      a = AllocationId.ofObject T ∧ findAlloc (AllocationId.ofObject x) t = some w ∧
      v = AllocationId.ofObject (implicitOf H (w.objectByOffset x.offset))

theorem Implicits.add {t : Tracker} (h : Implicits H b t) {a v : AllocationId}
    (hn : findAlloc a t = none) (ha : a.raw.isImplicitSchema = false) :
    Implicits H b ((a, v) :: t) := by
  intro a' v' hf hi
  rw [find_cons] at hf
  by_cases hk : a = a'
  · subst hk; rw [ha] at hi; cases hi
  · rw [if_neg hk] at hf
    obtain ⟨x, T, w, h1, h2, h3, h4, h5⟩ := h a' v' hf hi
    exact ⟨x, T, w, h1, h2, h3, grows_cons hn _ _ h4, h5⟩

/-! ### The steps -/

theorem previsitSchema_same {st st' : State} {x : Item} {r : Bool}
    (h : Except.ok (ε := Err) (previsitSchema st x) = .ok (r, st')) :
    st'.tracker = st.tracker ∧ st'.count = st.count ∧ st'.bag = st.bag := by
  simp only [Except.ok.injEq] at h
  unfold previsitSchema at h
  split at h
  · split at h <;> (cases h; exact ⟨rfl, rfl, rfl⟩)
  · cases h; exact ⟨rfl, rfl, rfl⟩

theorem previsitObject_ok {N : Nat} {old : ObjectId → Prop} (hA : NewIds alloc N old) {st : State}
    (h : TInv H alloc b N st) {x : Item} (hx : ∀ o, x = .object o → o.isSchema = false) :
    TInv H alloc b N (previsitObject alloc st x) ∧
      (Implicits H b st.tracker → Implicits H b (previsitObject alloc st x).tracker) := by
  unfold previsitObject
  split
  · rename_i o
    split
    · exact ⟨h, id⟩
    · rename_i hn
      exact ⟨h.add hA hn rfl (clear_ne _) (.like _ (Nat.lt_succ_self _) (hx o rfl)) rfl rfl,
        fun hm => hm.add hn (notSchema_meta (hx o rfl))⟩
  · exact ⟨h, id⟩

theorem previsitObject_grows (st : State) (x : Item) :
    Grows st.tracker (previsitObject alloc st x).tracker ∧
      (previsitObject alloc st x).bag = st.bag := by
  unfold previsitObject
  split
  · split
    · exact ⟨.refl _, rfl⟩
    · rename_i hn
      exact ⟨grows_cons hn, rfl⟩
  · exact ⟨.refl _, rfl⟩

theorem previsitImplicit_grows {st st' : State} {x : Item} {T : ObjectId}
    (h : previsitImplicit H st x T = .ok st') : Grows st.tracker st'.tracker ∧ st'.bag = st.bag ∧
      findAlloc (AllocationId.ofObject T) st'.tracker ≠ none := by
  unfold previsitImplicit at h
  split at h
  · rename_i hf
    cases h
    exact ⟨.refl _, rfl, by rw [hf]; simp⟩
  rename_i hn
  split at h
  · split at h
    · cases h
    · cases h
      refine ⟨grows_cons hn, rfl, ?_⟩
      rw [find_cons, if_pos rfl]
      simp
  · cases h

theorem previsitImplicit_ok {N : Nat} {old : ObjectId → Prop} (hA : NewIds alloc N old)
    {st st' : State} (h : TInv H alloc b N st) {x : Item} {T : ObjectId}
    (hT : T.isImplicitSchema = true)
    (hx : ∃ o, x = .object o ∧ b.attr o schemaAttrName = .object T ∧ o.isSchema = false)
    (hp : previsitImplicit H st x T = .ok st') : TInv H alloc b N st' ∧
      (Implicits H b st.tracker → Implicits H b st'.tracker) := by
  obtain ⟨o, rfl, ho, hs⟩ := hx
  unfold previsitImplicit at hp
  split at hp
  · cases hp; exact ⟨h, id⟩
  rename_i hn
  simp only at hp
  split at hp
  · cases hp
  rename_i p hpt
  cases hp
  have hne : AllocationId.ofObject T ≠ AllocationId.ofObject o := by
    intro hc
    have hc := congrArg (·.raw.metadata) hc
    have : T.metadata = o.metadata := hc
    simp only [ObjectId.isImplicitSchema, this] at hT
    have := notSchema_meta hs
    simp only [ObjectId.isImplicitSchema] at this
    rw [hT] at this
    cases this
  unfold tracked at hpt
  rw [find_cons, if_neg hne] at hpt
  cases hv : findAlloc (AllocationId.ofObject o) st.tracker with
  | none => rw [hv] at hpt; cases hpt
  | some v =>
    rw [hv] at hpt
    simp only [Option.map_some, Option.some.injEq] at hpt
    subst hpt
    refine ⟨h.addImplicit hA hn (.implicit o T v ho hT rfl (grows_cons hn _ _ hv)) rfl rfl, ?_⟩
    intro hm a' v' hf hi
    simp only at hf
    rw [find_cons] at hf
    by_cases hk : AllocationId.ofObject T = a'
    · rw [if_pos hk] at hf
      cases hf
      exact ⟨o, T, v, ho, hT, hk.symm, grows_cons hn _ _ hv, rfl⟩
    · rw [if_neg hk] at hf
      obtain ⟨x, T', w, h1, h2, h3, h4, h5⟩ := hm a' v' hf hi
      exact ⟨x, T', w, h1, h2, h3, grows_cons hn _ _ h4, h5⟩

theorem keeps_clone {N : Nat} {old : ObjectId → Prop} (hA : NewIds alloc N old)
    (hi : ∀ x T, b.attr x schemaAttrName = .object T → T.isImplicitSchema = true →
      x.isSchema = false) :
    Keeps (cloneVisitor H alloc) b (fun st => (TInv H alloc b N st ∧ Implicits H b st.tracker) ∧ st.bag = .empty)
      (fun _ e st => ∀ T, e = .object T → T.isImplicitSchema = true →
        findAlloc (AllocationId.ofObject T) st.tracker ≠ none) := by
  have hstep : ∀ st src k q r st', clonePrevisit H alloc st src k q = .ok (r, st') →
      Grows st.tracker st'.tracker ∧ st'.bag = st.bag := by
    intro st src k q r st' h
    unfold clonePrevisit at h
    split at h
    · obtain ⟨h1, _, h2⟩ := previsitSchema_same h
      exact ⟨by rw [h1]; exact .refl _, h2⟩
    split at h
    · cases h
    split at h
    · split at h
      · split at h
        · cases h
        rename_i h1
        cases h
        have := previsitImplicit_grows h1
        exact ⟨this.1, this.2.1⟩
      · cases h
        exact previsitObject_grows _ _
    · split at h
      · cases h
        exact previsitObject_grows _ _
      · cases h
        exact ⟨.refl _, rfl⟩
    · cases h
  constructor
  · intro st src k q r st' hf hd h ⟨h1, h2⟩
    refine ⟨?_, by rw [(hstep st src k q r st' h).2, h2]⟩
    replace h : clonePrevisit H alloc st src k q = .ok (r, st') := h
    unfold clonePrevisit at h
    split at h
    · obtain ⟨h3, h4, _⟩ := previsitSchema_same h
      exact ⟨h1.1.same h3 h4, by rw [h3]; exact h1.2⟩
    split at h
    · cases h
    split at h
    · rename_i T hT
      split at h
      · rename_i hTi
        split at h
        · cases h
        rename_i h3
        cases h
        obtain ⟨o, ho1, ho2⟩ := hf T hT hTi
        have := previsitImplicit_ok hA h1.1 hTi ⟨o, ho1, ho2, hi o T ho2 hTi⟩ h3
        exact ⟨this.1, this.2 h1.2⟩
      · cases h
        have := previsitObject_ok hA h1.1 (x := q.1) (fun o ho => hd o ho (.inr ⟨T, hT⟩))
        exact ⟨this.1, this.2 h1.2⟩
    · rename_i n hn
      split at h
      · rename_i hO
        cases h
        have := previsitObject_ok hA h1.1 (x := q.1) (fun o ho => hd o ho (.inl (by
          rw [hn, hO]
          rfl)))
        exact ⟨this.1, this.2 h1.2⟩
      · cases h
        exact h1
    · cases h
  · intro st src k q r st' x e h hC T hT hi'
    have := hC T hT hi'
    obtain ⟨v, hv⟩ := Option.ne_none_iff_exists'.mp this
    rw [(hstep st src k q r st' h).1 _ _ hv]
    simp
  · intro st src k r st' x e h T hT hi'
    subst hT
    replace h : clonePrevisit H alloc st src k (.object x, .object T) = .ok (r, st') := h
    unfold clonePrevisit at h
    rw [if_neg (by simp [kSchema]), if_neg (by simp [kObject])] at h
    simp only at h
    rw [if_pos hi'] at h
    split at h
    · cases h
    rename_i h3
    cases h
    exact (previsitImplicit_grows h3).2.2

theorem decides_clone : Decides (cloneVisitor H alloc) follow := by
  intro st src k q r st' h
  replace h : clonePrevisit H alloc st src k q = .ok (r, st') := h
  obtain ⟨q1, q2⟩ := q
  unfold clonePrevisit at h
  split at h
  · rename_i hs
    simp only at hs
    subst hs
    cases q1 with
    | object o =>
      simp only [previsitSchema, Except.ok.injEq] at h
      show r = o.isImplicitSchema
      split at h
      · rename_i ho
        cases h
        rw [ho]
      · rename_i ho
        cases h
        simpa using ho
    | _ => simp only [previsitSchema, Except.ok.injEq, Prod.mk.injEq] at h; exact h.1.symm
  rename_i hs
  have hf : follow src k (q1, q2) = true := by
    unfold follow
    split
    · rename_i heq
      cases heq
      exact absurd rfl hs
    · rfl
  rw [hf]
  split at h
  · cases h
  split at h
  · split at h
    · split at h
      · cases h
      · cases h; rfl
    · cases h; rfl
  · split at h <;> (cases h; rfl)
  · cases h

end

end Verif.Clone
