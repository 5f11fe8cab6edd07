import Verif.Clone.Whole

/-!
The search of `deep_clone` does not fail for well-typed data.
-/

namespace Verif.Clone

open Verif.ObjectId
open Verif.Uuid
open Verif.Traverse

/-- The schema of data: an object or an entity. -/
def DataSchema (t : Item) : Prop := t = .dtype 11 ∨ ∃ T, t = .object T

/-- The keys of the tracker are different, and there are at least as many as allocations. -/
structure Keys (old : ObjectId → Prop) (st : State) : Prop where
  nodup : (st.tracker.map (·.1)).Nodup
  count : st.count ≤ st.tracker.length
  old : ∀ e ∈ st.tracker, ∃ o, old o ∧ e.1 = AllocationId.ofObject o

theorem find_none {a : AllocationId} : ∀ {t : Tracker}, findAlloc a t = none → a ∉ t.map (·.1)
  | [], _ => by simp
  | (k, v) :: t, h => by
    rw [find_cons] at h
    by_cases hk : k = a
    · rw [if_pos hk] at h; cases h
    · rw [if_neg hk] at h
      simp only [List.map_cons, List.mem_cons, not_or]
      exact ⟨fun hc => hk hc.symm, find_none h⟩

theorem Keys.add {old : ObjectId → Prop} {st st' : State} (h : Keys old st) {a v : AllocationId}
    (hn : findAlloc a st.tracker = none) (ho : ∃ o, old o ∧ a = AllocationId.ofObject o)
    (h1 : st'.tracker = (a, v) :: st.tracker) (h2 : st'.count ≤ st.count + 1) : Keys old st' := by
  refine ⟨?_, ?_, ?_⟩
  · rw [h1, List.map_cons, List.nodup_cons]
    exact ⟨find_none hn, h.nodup⟩
  · rw [h1, List.length_cons]
    have := h.count
    omega
  · intro e he
    rw [h1] at he
    rcases List.mem_cons.mp he with rfl | he
    · exact ho
    · exact h.old e he

theorem Keys.same {old : ObjectId → Prop} {st st' : State} (h : Keys old st)
    (h1 : st'.tracker = st.tracker) (h2 : st'.count = st.count) : Keys old st' :=
  ⟨by rw [h1]; exact h.nodup, by rw [h1, h2]; exact h.count, by rw [h1]; exact h.old⟩

theorem nodup_length_le {α : Type} [DecidableEq α] : ∀ {l t : List α}, l.Nodup →
    (∀ x ∈ l, x ∈ t) → l.length ≤ t.length
  | [], _, _, _ => by simp
  | a :: l, t, hl, h => by
    rw [List.nodup_cons] at hl
    have h1 : a ∈ t := h a List.mem_cons_self
    have h2 : ∀ x ∈ l, x ∈ t.erase a := by
      intro x hx
      have hne : x ≠ a := fun hc => hl.1 (hc ▸ hx)
      exact (List.mem_erase_of_ne hne).mpr (h x (List.mem_cons_of_mem _ hx))
    have := nodup_length_le hl.2 h2
    rw [List.length_erase_of_mem h1] at this
    have := List.length_pos_of_mem h1
    simp only [List.length_cons]
    omega

theorem Keys.le {old : ObjectId → Prop} {st : State} (h : Keys old st) {U : List AllocationId}
    (hU : ∀ o, old o → AllocationId.ofObject o ∈ U) : st.count ≤ U.length := by
  refine Nat.le_trans h.count ?_
  rw [← List.length_map (f := (·.1))]
  refine nodup_length_le h.nodup ?_
  intro a ha
  obtain ⟨e, he, rfl⟩ := List.mem_map.mp ha
  obtain ⟨o, h1, h2⟩ := h.old e he
  rw [h2]
  exact hU o h1

section
variable {S : Type} {H : HashFn S} {alloc : Nat → BitVec 6 → BitVec 6 → AllocationId} {b : Bag}
  {ds : List Item} {s : Item}

/-- What is known of the pairs that the visitor is asked about. -/
structure Ask (b : Bag) (ds : List Item) (s : Item) (src q : Pair) : Prop where
  fits : Fits q
  schema : q.2 = kSchema ∨ (∃ n, q.2 = .dtype n ∧ (q.2 = kObject → src.2 ≠ kSchema)) ∨
    ∃ T, q.2 = .object T ∧ T.isImplicitSchema = false
  old : ∀ o, q.1 = .object o → DataSchema q.2 → Mentioned b ds s o

theorem previsitObject_run {st : State} {x : Item} {old : ObjectId → Prop}
    (ho : ∀ o, x = .object o → old o) (hk : Keys old st) :
    Keys old (previsitObject alloc st x) ∧
      ∀ o, x = .object o → Has (previsitObject alloc st x).tracker o := by
  unfold previsitObject
  split
  · rename_i o
    split
    · rename_i v hv
      exact ⟨hk, fun o' h' => by cases h'; unfold Has; rw [hv]; simp⟩
    · rename_i hn
      refine ⟨hk.add hn ⟨o, ho o rfl, rfl⟩ rfl (Nat.le_refl _), fun o' h' => ?_⟩
      cases h'
      unfold Has
      rw [find_cons, if_pos rfl]
      simp
  · rename_i hno
    exact ⟨hk, fun o h => absurd h (hno o)⟩

theorem clonePrevisit_run {st : State} {src q : Pair} {k : Option Key} (ha : Ask b ds s src q)
    (hk : Keys (Mentioned b ds s) st) :
    ∃ r st', clonePrevisit H alloc st src k q = .ok (r, st') ∧ Grows st.tracker st'.tracker ∧
      Keys (Mentioned b ds s) st' ∧ ∀ o, q.1 = .object o → DataSchema q.2 → Has st'.tracker o := by
  unfold clonePrevisit
  by_cases h1 : q.2 = kSchema
  · rw [if_pos h1]
    obtain ⟨h2, h3, _⟩ := previsitSchema_same (st := st) (x := q.1)
      (r := (previsitSchema st q.1).1) (st' := (previsitSchema st q.1).2) rfl
    refine ⟨(previsitSchema st q.1).1, (previsitSchema st q.1).2, rfl, by rw [h2]; exact .refl _,
      hk.same h2 h3, ?_⟩
    intro o _ hd
    rw [h1] at hd
    rcases hd with hd | ⟨T, hd⟩ <;> cases hd
  rw [if_neg h1]
  have h2 : ¬ (q.2 = kObject ∧ src.2 = kSchema) := by
    rintro ⟨h3, h4⟩
    rcases ha.schema with h | ⟨n, _, h⟩ | ⟨T, h, _⟩
    · exact h1 h
    · exact h h3 h4
    · rw [h] at h3; cases h3
  rw [if_neg h2]
  rcases ha.schema with h | ⟨n, h, _⟩ | ⟨T, h, h3⟩
  · exact absurd h h1
  · rw [h]
    simp only
    by_cases h3 : Item.dtype n = kObject
    · rw [if_pos h3]
      obtain ⟨a1, a2⟩ := previsitObject_run (alloc := alloc) (x := q.1)
        (fun o ho => ha.old o ho (.inl (by rw [h, h3]; rfl))) hk
      exact ⟨_, _, rfl, (previsitObject_grows _ _).1, a1, fun o ho _ => a2 o ho⟩
    · rw [if_neg h3]
      refine ⟨_, _, rfl, .refl _, hk, ?_⟩
      intro o _ hd
      rcases hd with hd | ⟨T, hd⟩
      · exact absurd hd h3
      · cases hd
  · rw [h]
    simp only
    rw [if_neg (by simp [h3])]
    obtain ⟨a1, a2⟩ := previsitObject_run (alloc := alloc) (x := q.1)
      (fun o ho => ha.old o ho (.inr ⟨T, h⟩)) hk
    exact ⟨_, _, rfl, (previsitObject_grows _ _).1, a1, fun o ho _ => a2 o ho⟩

/-- An object that is tracked can be asked about with its own schema. -/
theorem clonePrevisit_own {st : State} {x T : ObjectId} {k : Option Key}
    (hx : Has st.tracker x) (hm : Mentioned b ds s x) (hT : Mentioned b ds s T)
    (hk : Keys (Mentioned b ds s) st) :
    ∃ st', clonePrevisit H alloc st (.object x, kObject) k (.object x, .object T) = .ok (true, st') ∧
      Grows st.tracker st'.tracker ∧ Keys (Mentioned b ds s) st' := by
  unfold clonePrevisit
  rw [if_neg (by simp [kSchema]), if_neg (by simp [kObject])]
  simp only
  by_cases hi : T.isImplicitSchema = true
  · rw [if_pos hi]
    unfold previsitImplicit
    cases hf : findAlloc (AllocationId.ofObject T) st.tracker with
    | some v => exact ⟨_, rfl, .refl _, hk⟩
    | none =>
      simp only
      have : ∃ p, tracked ((AllocationId.ofObject T, ⟨⟨0, 0, 0, 0⟩⟩) :: st.tracker) x = some p := by
        unfold tracked
        rw [find_cons]
        split
        · exact ⟨_, rfl⟩
        · obtain ⟨v, hv⟩ := Option.ne_none_iff_exists'.mp hx
          rw [hv]
          exact ⟨_, rfl⟩
      obtain ⟨p, hp⟩ := this
      rw [hp]
      exact ⟨_, rfl, grows_cons hf, hk.add hf ⟨T, hT, rfl⟩ rfl (Nat.le_succ _)⟩
  · rw [if_neg hi]
    obtain ⟨a1, _⟩ := previsitObject_run (alloc := alloc) (x := .object x)
      (fun o ho => by cases ho; exact hm) hk
    exact ⟨_, rfl, (previsitObject_grows _ _).1, a1⟩

/-- The invariant of the search: what was looked at, or will be, is tracked. -/
structure CInv (b : Bag) (ds : List Item) (s : Item) (d : Dfs State) : Prop where
  has : ∀ x t, ((Item.object x, t) ∈ d.stack ∨ (Item.object x, t) ∈ d.used) → DataSchema t →
    Has d.v.tracker x
  keys : Keys (Mentioned b ds s) d.v

theorem previsit_run {d : Dfs State} {src q : Pair} {k : Option Key} (ha : Ask b ds s src q)
    (hc : CInv b ds s d) : ∃ d', previsit (cloneVisitor H alloc) d src k q = .ok d' ∧
      CInv b ds s d' := by
  obtain ⟨r, st', h1, h2, h3, h4⟩ := clonePrevisit_run (H := H) (alloc := alloc) (k := k) ha hc.keys
  unfold previsit
  rw [fits_ok ha.fits]
  simp only
  have h1' : (cloneVisitor H alloc).previsit d.v src k q = .ok (r, st') := h1
  rw [h1']
  simp only
  split
  · refine ⟨_, rfl, ?_, h3⟩
    intro x t hm hd
    rcases hm with hm | hm
    · rcases List.mem_cons.mp hm with hm | hm
      · exact h4 x (by rw [← hm]) (by rw [← hm]; exact hd)
      · exact (hc.has x t (.inl hm) hd).grows h2
    · exact (hc.has x t (.inr hm) hd).grows h2
  · exact ⟨_, rfl, fun x t hm hd => (hc.has x t hm hd).grows h2, h3⟩

theorem previsitAll_run {src : Pair} : ∀ {cs : List (Key × Pair)} {d : Dfs State},
    (∀ c ∈ cs, Ask b ds s src c.2) → CInv b ds s d →
    ∃ d', previsitAll (cloneVisitor H alloc) src d cs = .ok d' ∧ CInv b ds s d'
  | [], d, _, hc => ⟨d, rfl, hc⟩
  | (k, q) :: cs, d, h, hc => by
    unfold previsitAll
    obtain ⟨d1, h1, h2⟩ := previsit_run (H := H) (alloc := alloc) (k := some k)
      (h _ List.mem_cons_self) hc
    rw [h1]
    exact previsitAll_run (fun c hc => h c (List.mem_cons_of_mem _ hc)) h2

/-! ### The calls -/

/-- The schemas of the calls for well-typed data. -/
def Asked (src q : Pair) : Prop :=
  q.2 = kSchema ∨ (∃ n, q.2 = .dtype n ∧ (q.2 = kObject → src.2 ≠ kSchema)) ∨
    ∃ T, q.2 = .object T ∧ T.isImplicitSchema = false

theorem asked_declared (hcl : Clonable b ds s) (ho : Ordinary H b ds s) {U : ObjectId} {n : Name}
    {src : Pair} {y t : Item} (hsrc : src.2 ≠ kSchema) (h : (n, t) ∈ b.schemaAttrs U)
    (hn : ¬ AboutSchema n) : Asked src (y, t) := by
  rcases hcl.declared U n t h hn with ⟨m, rfl⟩ | ⟨T, rfl⟩
  · exact .inr (.inl ⟨m, rfl, fun _ => hsrc⟩)
  · exact .inr (.inr ⟨T, rfl, ho.declared U n T h⟩)

theorem not_about {n : Name} (h : n = itemsName ∨ n = keysName ∨ n = valuesName) :
    ¬ AboutSchema n := by
  rw [aboutSchema_iff]
  rcases h with rfl | rfl | rfl <;> decide

theorem attrCalls_asked (hb : b.Ok) (hcl : Clonable b ds s) (ho : Ordinary H b ds s)
    {x : Item} {T : ObjectId} : ∀ {ns : List Name} {cs : List (Key × Pair)},
    attrCalls b x (.object T) ns = .ok cs → ∀ c ∈ cs, Asked (x, .object T) c.2
  | [], cs, h, c, hc => by cases h; simp at hc
  | n :: ns, cs, h, c, hc => by
    unfold attrCalls at h
    split at h
    · exact attrCalls_asked hb hcl ho h c hc
    rename_i hn
    split at h
    · cases h
    rename_i p hp
    split at h
    · cases h
    rename_i l hl
    cases h
    rcases List.mem_append.mp hc with hc | hc
    · split at hc
      · simp only [List.mem_singleton] at hc
        subst hc
        unfold attributeTransition at hp
        split at hp
        · cases hp
        split at hp
        · cases hp
        rename_i t ht
        cases hp
        exact asked_declared hcl ho (by simp [kSchema]) (getSchemaAttr_ok ht)
          (by rw [aboutSchema_iff]; simpa using hn)
      · simp at hc
    · exact attrCalls_asked hb hcl ho hl c hc

theorem schemaAttrCalls_asked {x : ObjectId} (hm : ∀ t, (metadataName, t) ∉ b.schemaAttrs x) :
    ∀ {ns : List Name} {cs : List (Key × Pair)},
    schemaAttrCalls b (.object x) ns = .ok cs → ∀ c ∈ cs, Asked (.object x, kSchema) c.2
  | [], cs, h, c, hc => by cases h; simp at hc
  | n :: ns, cs, h, c, hc => by
    unfold schemaAttrCalls at h
    split at h
    · cases h
    rename_i p hp
    split at h
    · cases h
    rename_i l hl
    cases h
    rcases List.mem_append.mp hc with hc | hc
    · split at hc
      · simp only [List.mem_singleton] at hc
        subst hc
        unfold schemaAttributeTransition at hp
        split at hp
        · cases hp
        rename_i t ht
        cases hp
        have hmem := getSchemaAttr_ok ht
        unfold Asked
        simp only [schemaOfSchemaAttr]
        by_cases h1 : n = nameName
        · rw [if_pos h1]
          exact .inr (.inl ⟨7, rfl, fun h => by cases h⟩)
        rw [if_neg h1]
        by_cases h2 : n = metadataName
        · subst h2; exact absurd hmem (hm t)
        · rw [if_neg h2]; exact .inl rfl
      · simp at hc
    · exact schemaAttrCalls_asked hm hl c hc

/-- Where the schemas of the items of a list and of a dict are declared. -/
theorem transitions_names {x s' : Item} {t : Transitions}
    (h : getTransitions b x s' false = .ok t) :
    (∀ it l, t = .list it l → getSchemaAttr b s' itemsName = .ok it) ∧
    (∀ kt vt l, t = .dict kt vt l → getSchemaAttr b s' keysName = .ok kt ∧
      getSchemaAttr b s' valuesName = .ok vt) := by
  unfold getTransitions at h
  split at h
  · unfold entityTransitions at h
    split at h
    · split at h
      · cases h; exact ⟨by simp, by simp⟩
      split at h
      · cases h
      split at h
      · cases h; exact ⟨by simp, by simp⟩
      split at h
      · split at h
        · cases h
        unfold listTransitions at h
        split at h
        · cases h
        rename_i t1 ht
        split at h
        · cases h
        cases h
        exact ⟨fun it l heq => by cases heq; exact ht, by simp⟩
      split at h
      · split at h
        · cases h
        unfold dictTransitions at h
        split at h
        · cases h
        rename_i t1 ht
        split at h
        · cases h
        rename_i t2 ht2
        split at h
        · cases h
        cases h
        exact ⟨by simp, fun kt vt l heq => by cases heq; exact ⟨ht, ht2⟩⟩
      split at h
      · cases h; exact ⟨by simp, by simp⟩
      split at h <;> (cases h; exact ⟨by simp, by simp⟩)
    · cases h
  split at h
  · split at h
    · cases h; exact ⟨by simp, by simp⟩
    split at h
    · unfold schemaTransitions at h
      split at h
      · split at h
        · cases h; exact ⟨by simp, by simp⟩
        split at h
        · cases h
        split at h <;> (cases h; exact ⟨by simp, by simp⟩)
      · cases h; exact ⟨by simp, by simp⟩
    · cases h; exact ⟨by simp, by simp⟩
  · cases h

theorem calls_asked (hb : b.Ok) (hcl : Clonable b ds s) (ho : Ordinary H b ds s) {x : ObjectId}
    {e : Item} {t : Transitions} {cs : List (Key × Pair)} (hO : e ≠ kObject)
    (hm : e = kSchema → ∀ t, (metadataName, t) ∉ b.schemaAttrs x)
    (ht : getTransitions b (.object x) e false = .ok t)
    (hc : forEachObject b (.object x) e t = .ok cs) : ∀ c ∈ cs, Asked (.object x, e) c.2 := by
  have hmem : ∀ n t, getSchemaAttr b e n = .ok t → (e = .missing ∧ t = .missing) ∨
      ∃ U, e = .object U ∧ (n, t) ∈ b.schemaAttrs U := by
    intro n t h
    cases e with
    | missing => cases h; exact .inl ⟨rfl, rfl⟩
    | object U => exact .inr ⟨U, rfl, getSchemaAttr_ok h⟩
    | _ => cases h
  have hne : e ≠ .missing := by
    rintro rfl
    cases ht
  have hdecl : ∀ n t y, (n = itemsName ∨ n = keysName ∨ n = valuesName) →
      getSchemaAttr b e n = .ok t → Asked (.object x, e) (y, t) := by
    intro n t y hn h
    rcases hmem n t h with ⟨h1, _⟩ | ⟨U, rfl, h2⟩
    · exact absurd h1 hne
    · exact asked_declared hcl ho (by simp [kSchema]) h2 (not_about hn)
  unfold forEachObject at hc
  rw [if_neg hO] at hc
  obtain ⟨d1, d2⟩ := transitions_names ht
  split at hc
  · cases hc; simp
  · rename_i it l
    cases hc
    intro c hcm
    split at hcm
    · simp at hcm
    obtain ⟨i, y, _, rfl⟩ := (mem_listCalls _ _ _ _).mp hcm
    exact hdecl _ _ _ (.inl rfl) (d1 it l rfl)
  · rename_i kt vt l
    cases hc
    intro c hcm
    obtain ⟨e1, e2⟩ := d2 kt vt l rfl
    rcases List.mem_append.mp hcm with hcm | hcm
    · split at hcm
      · simp at hcm
      obtain ⟨i, y, z, _, rfl⟩ := (mem_dictKeyCalls _ _ _ _).mp hcm
      exact hdecl _ _ _ (.inr (.inl rfl)) e1
    · split at hcm
      · simp at hcm
      obtain ⟨i, y, z, _, rfl⟩ := (mem_dictValueCalls _ _ _ _).mp hcm
      exact hdecl _ _ _ (.inr (.inr rfl)) e2
  · have hs : e = kSchema := by
      unfold getTransitions at ht
      split at ht
      · rename_i hid
        obtain ⟨U, rfl⟩ := (holdsId_iff _).mp hid
        rcases entityTransitions_ok ht with ⟨_, h2⟩ | ⟨_, _, _, h2, _⟩ | ⟨_, _, _, _, h2, _⟩ |
          ⟨h1, h3, ⟨_, _, h2⟩ | h2⟩ <;> cases h2
      split at ht
      · split at ht
        · rename_i h; exact h
        · cases ht
      · cases ht
    subst hs
    exact schemaAttrCalls_asked (hm rfl) hc
  · cases e with
    | object T => exact attrCalls_asked hb hcl ho hc
    | _ =>
      exfalso
      unfold getTransitions at ht
      simp only [holdsId, holdsDType, Bool.false_eq_true, if_false] at ht
      first
        | cases ht
        | (simp only [if_true] at ht
           split at ht
           · cases ht
           split at ht
           · unfold schemaTransitions at ht
             simp only at ht
             split at ht
             · cases ht
             split at ht
             · cases ht
             split at ht <;> cases ht
           · cases ht)

/-! ### The search -/

theorem own_ne_object {x : ObjectId} {s' e : Item} (h : Own b x s' e)
    (hT : s' = .dtype 11 → ∃ T, e = .object T) : e ≠ kObject := by
  intro he
  cases h with
  | object _ _ => obtain ⟨T, h⟩ := hT rfl; rw [h] at he; cases he
  | other h => exact h he

theorem ask_schema {src : Pair} {x : Item} : Ask b ds s src (x, kSchema) := by
  refine ⟨fun hp => ?_, .inl rfl, fun o _ hd => ?_⟩
  · rw [primitive_iff] at hp; cases hp
  · rcases hd with hd | ⟨T, hd⟩ <;> cases hd

theorem expand_run (hb : b.Ok) (hcl : Clonable b ds s) (ho : Ordinary H b ds s) {d : Dfs State}
    {x : ObjectId} {s' e : Item} (hr : Reached b ds s (.object x, s')) (hown : Own b x s' e)
    (hty : Typed b x e) (hT : s' = .dtype 11 → ∃ T, e = .object T) (hc : CInv b ds s d) :
    ∃ d', expand (cloneVisitor H alloc) b d (.object x) e = .ok d' ∧ CInv b ds s d' := by
  have hO := own_ne_object hown hT
  have hmeta : e = kSchema → ∀ t, (metadataName, t) ∉ b.schemaAttrs x := by
    rintro rfl t
    rw [← named_metadata]
    refine hcl.metadata x t ?_
    cases hown with
    | object _ _ => obtain ⟨T, h⟩ := hT rfl; cases h
    | other _ => exact hr
  unfold expand
  rw [if_pos (by simp [kSchema])]
  obtain ⟨d1, h1, c1⟩ := previsit_run (H := H) (alloc := alloc) (k := some .schema)
    (src := (.object x, e)) (q := (e, kSchema)) (b := b) (ds := ds) (s := s)
    ask_schema hc
  obtain ⟨t, cs, h2, h3, h4⟩ := typed_calls hb hty
  rw [h1]
  simp only [h2, h3]
  refine previsitAll_run ?_ c1
  rintro ⟨k, q⟩ hm
  refine ⟨h4 _ hm, calls_asked hb hcl ho hO hmeta h2 h3 _ hm, ?_⟩
  intro o hq _
  have hid : holdsId q.1 = true := by simp only at hq; rw [hq]; rfl
  have href := ((mem_forEachObject hb h2 h3 (fun h => absurd h hO) k q).mp ⟨hm, hid⟩).1
  exact (ref_mentioned (reached_mentioned hr).2 hown href).1 o hq

theorem dfsStep_run (hb : b.Ok) (hcl : Clonable b ds s) (ho : Ordinary H b ds s) {d : Dfs State}
    (hg : Traverse.Good b follow (Root follow ds s) d) (hc : CInv b ds s d) :
    ∃ d', dfsStep (cloneVisitor H alloc) b d = .ok d' ∧ CInv b ds s d' := by
  unfold dfsStep
  split
  · exact ⟨_, rfl, hc⟩
  rename_i p rest hst
  split
  · refine ⟨_, rfl, ?_, hc.keys⟩
    intro x t hm
    refine hc.has x t ?_
    rw [hst]
    rcases hm with hm | hm
    · exact .inl (List.mem_cons_of_mem _ hm)
    · exact .inr hm
  obtain ⟨x, hx⟩ := hg.ids p (by rw [hst]; simp)
  obtain ⟨px, ps⟩ := p
  simp only at hx
  subst hx
  have hr : Reached b ds s (.object x, ps) := hg.inv.sound _ (.inl (by rw [hst]; simp))
  obtain ⟨e, h1, h2, h3⟩ := hcl.typed x ps hr
  have hhas : ∀ y t, ((Item.object y, t) ∈ rest ∨ (Item.object y, t) ∈ (Item.object x, ps) :: d.used) →
      DataSchema t → Has d.v.tracker y := by
    intro y t hm
    refine hc.has y t ?_
    rw [hst]
    rcases hm with hm | hm
    · exact .inl (List.mem_cons_of_mem _ hm)
    · rcases List.mem_cons.mp hm with hm | hm
      · exact .inl (by rw [hm]; simp)
      · exact .inr hm
  simp only
  by_cases hO : ps = kObject
  · rw [if_pos hO]
    obtain ⟨T, rfl⟩ := h3 hO
    rw [getObjectSchema_isOk (hO ▸ h1)]
    simp only
    have hm := (reached_mentioned hr).1 x rfl
    have hmT : Mentioned b ds s T := (ref_mentioned (reached_mentioned hr).2 h1 .schema).1 T rfl
    obtain ⟨st', k1, k2, k3⟩ := clonePrevisit_own (H := H) (alloc := alloc)
      (k := some .objectSchema) (hc.has x ps (.inl (by rw [hst]; simp)) (.inl hO)) hm hmT hc.keys
    have k1' : (cloneVisitor H alloc).previsit d.v (.object x, kObject) (some .objectSchema)
        (.object x, .object T) = .ok (true, st') := k1
    rw [k1']
    simp only [Bool.not_true, Bool.false_eq_true, if_false]
    obtain ⟨d1, hd1, hc1⟩ := expand_run (alloc := alloc) hb hcl ho
      (d := Dfs.mk rest ((rest.length, ((.object x, ps) : Pair)) :: d.onStack)
        ((.object x, ps) :: d.used) d.order st') hr h1 h2 h3
      ⟨fun y t hm hd => (hhas y t hm hd).grows k2, k3⟩
    rw [hd1]
    exact ⟨_, rfl, hc1.has, hc1.keys⟩
  · rw [if_neg hO]
    have := Own.unique h1 (.other hO)
    subst this
    obtain ⟨d1, hd1, hc1⟩ := expand_run (alloc := alloc) hb hcl ho
      (d := Dfs.mk rest ((rest.length, ((.object x, e) : Pair)) :: d.onStack)
        ((.object x, e) :: d.used) d.order d.v) hr h1 h2 h3 ⟨hhas, hc.keys⟩
    rw [hd1]
    exact ⟨_, rfl, hc1.has, hc1.keys⟩

theorem dfs_run (hb : b.Ok) (hcl : Clonable b ds s) (ho : Ordinary H b ds s) :
    ∀ (n : Nat) {d : Dfs State} {r : Except Err (Dfs State)},
      Traverse.Good b follow (Root follow ds s) d → CInv b ds s d →
      dfs (cloneVisitor H alloc) b n d = some r → ∃ d', r = .ok d' ∧ CInv b ds s d'
  | 0, d, r, _, hc, h => by
    unfold dfs at h
    split at h
    · cases h; exact ⟨_, rfl, hc⟩
    · cases h
  | n + 1, d, r, hg, hc, h => by
    unfold dfs at h
    split at h
    · cases h; exact ⟨_, rfl, hc⟩
    obtain ⟨d1, h1, hc1⟩ := dfsStep_run (alloc := alloc) hb hcl ho hg hc
    rw [h1] at h
    exact dfs_run hb hcl ho n (step_good hb decides_clone (follow_own ho) hg h1) hc1 h

theorem init_run (hcl : Clonable b ds s) (ho : Ordinary H b ds s) :
    ∃ d, initDfs (cloneVisitor H alloc) State.start ds s = .ok d ∧ CInv b ds s d := by
  unfold initDfs
  obtain ⟨d1, h1, hc1⟩ := previsit_run (H := H) (alloc := alloc) (k := none)
    (src := (.missing, .missing)) (q := (s, kSchema)) (b := b) (ds := ds) (s := s)
    (d := ⟨[], [], [], [], State.start⟩)
    ask_schema
    ⟨by simp, ⟨List.nodup_nil, Nat.le_refl _, by simp [State.start]⟩⟩
  rw [h1]
  refine previsitAll_run ?_ hc1
  intro c hc
  obtain ⟨j, y, h2, rfl⟩ := mem_rootCalls ds 0 hc
  have hy := List.mem_of_getElem? h2
  refine ⟨hcl.items y hy, ?_, fun o hq _ => ?_⟩
  · rcases hcl.top.2 with ⟨n, h⟩ | ⟨T, h⟩
    · exact .inr (.inl ⟨n, h, fun _ => by simp [kSchema]⟩)
    · exact .inr (.inr ⟨T, h, ho.root T h⟩)
  · simp only at hq; subst hq; exact .item hy

end

end Verif.Clone
