import Verif.Traverse.Visit

/-! The uuids that `deep_uuid` stores are those of the specification. -/

namespace Verif.Traverse

open Verif.ObjectId
open Verif.Uuid

theorem decides_uuid {S : Type} (H : HashFn S) (seed : Bytes) :
    Decides (uuidVisitor H seed) everything := by
  intro v src k p r v' h
  simp [uuidVisitor] at h
  simp [everything, h.1]

/-- A visitor that keeps its state during the search. -/
def KeepsState {V : Type} (w : Visitor V) : Prop :=
  ∀ v src k p r v', w.previsit v src k p = .ok (r, v') → v' = v

section
variable {V : Type} {w : Visitor V}

theorem previsit_state (hw : KeepsState w) {d d' : Dfs V} {src p : Pair} {key : Option Key}
    (h : previsit w d src key p = .ok d') : d'.v = d.v := by
  unfold previsit at h
  split at h
  · cases h
  split at h
  · cases h
  rename_i should v hp
  have := hw _ _ _ _ _ _ hp
  subst this
  split at h <;> cases h <;> rfl

theorem previsitAll_state (hw : KeepsState w) {src : Pair} :
    ∀ {cs : List (Key × Pair)} {d d' : Dfs V}, previsitAll w src d cs = .ok d' → d'.v = d.v
  | [], d, d', h => by cases h; rfl
  | (k, p) :: cs, d, d', h => by
    unfold previsitAll at h
    split at h
    · cases h
    rename_i d1 h1
    rw [previsitAll_state hw h, previsit_state hw h1]

theorem expand_state {b : Bag} (hw : KeepsState w) {x e : Item} {d d' : Dfs V}
    (h : expand w b d x e = .ok d') : d'.v = d.v := by
  unfold expand at h
  split at h
  · cases h
  rename_i d1 h1
  split at h
  · cases h
  split at h
  · cases h
  rw [previsitAll_state hw h]
  split at h1
  · exact previsit_state hw h1
  · cases h1; rfl

theorem dfsStep_state {b : Bag} (hw : KeepsState w) {d d' : Dfs V}
    (h : dfsStep w b d = .ok d') : d'.v = d.v := by
  unfold dfsStep at h
  split at h
  · cases h; rfl
  split at h
  · cases h; rfl
  dsimp only at h
  split at h
  · split at h
    · cases h
    split at h
    · cases h
    rename_i should v hp
    have := hw _ _ _ _ _ _ hp
    subst this
    split at h
    · cases h; rfl
    split at h
    · cases h
    rename_i d1 h1
    cases h
    have := expand_state hw h1
    exact this
  · split at h
    · cases h
    rename_i d1 h1
    cases h
    have := expand_state hw h1
    exact this

theorem dfs_state {b : Bag} (hw : KeepsState w) : ∀ (n : Nat) {d d' : Dfs V},
    dfs w b n d = some (.ok d') → d'.v = d.v
  | 0, d, d', h => by
    unfold dfs at h
    split at h
    · cases h; rfl
    · cases h
  | n + 1, d, d', h => by
    unfold dfs at h
    split at h
    · cases h; rfl
    split at h
    · cases h
    rename_i d1 h1
    rw [dfs_state hw n h, dfsStep_state hw h1]

theorem init_state (hw : KeepsState w) {v : V} {ds : List Item} {s : Item} {d : Dfs V}
    (h : initDfs w v ds s = .ok d) : d.v = v := by
  unfold initDfs at h
  split at h
  · cases h
  rename_i d1 h1
  rw [previsitAll_state hw h, previsit_state hw h1]

end

theorem keeps_uuid {S : Type} (H : HashFn S) (seed : Bytes) : KeepsState (uuidVisitor H seed) := by
  intro v src k p r v' h
  simp [uuidVisitor] at h
  exact h.2.symm

theorem findTracked_emplace {o x : ObjectId} {u : Item} :
    ∀ {l : List (ObjectId × Item)}, findTracked o (emplaceTracked x u l) =
      if o = x then some ((findTracked x l).getD u) else findTracked o l := by
  intro l
  have happ : ∀ l : List (ObjectId × Item), findTracked x l = none →
      findTracked o (l ++ [(x, u)]) = if o = x then some u else findTracked o l := by
    intro l
    induction l with
    | nil =>
      intro _
      simp only [List.nil_append, findTracked]
      by_cases h : x = o
      · simp [h]
      · simp [h, Ne.symm h]
    | cons a l ih =>
      obtain ⟨q, v⟩ := a
      intro hn
      unfold findTracked at hn
      by_cases hq : q = x
      · rw [if_pos hq] at hn; cases hn
      · rw [if_neg hq] at hn
        simp only [List.cons_append, findTracked]
        rw [ih hn]
        by_cases ho : o = x
        · subst ho; simp [hq]
        · simp [ho]
  unfold emplaceTracked
  split
  · rename_i hn
    rw [happ l hn, hn]
    simp
  · rename_i v hv
    rw [hv]
    by_cases ho : o = x
    · subst ho; simp [hv]
    · simp [ho]

section
variable {S : Type} {H : HashFn S} {seed : Bytes} {b : Bag} {ds : List Item} {s : Item}

/-- The facts about the order of the visits that are used. -/
structure OrderOk (b : Bag) (ds : List Item) (s : Item) (order : List Pair) : Prop where
  nodup : order.Nodup
  mem : ∀ p, p ∈ order ↔ Reachable b ds s p
  before : ∀ l p r, order = l ++ p :: r → ∀ q, Edge b everything p q →
    q ∈ l ∨ Reach (Edge b everything) q p
  owned : ∀ p ∈ order, ∃ x e, p.1 = .object x ∧ Own b x p.2 e

/-- The invariant of the visits. -/
structure Visits (H : HashFn S) (seed : Bytes) (b : Bag) (l : List Pair) (t : Track) : Prop where
  value : ∀ o u, findTracked o t.tracked = some u →
    ∃ s', (.object o, s') ∈ l ∧ s' ≠ kItemId ∧ Value H seed b (.object o, s') u
  data : ∀ x s', (.object x, s') ∈ l → (holdsId s' = true ∨ s' = kObject) →
    findTracked x t.tracked ≠ none
  disjoint : ∀ o ∈ t.untracked, findTracked o t.tracked = none
  asked : ∀ o ∈ t.untracked, (.object o, kSchema) ∈ l ∨
    ∃ p ∈ l, ∃ s', s' ≠ kItemId ∧ Edge b everything p (.object o, s')

theorem value_own {x : ObjectId} {s1 s2 e v : Item} (h1 : Own b x s1 e) (h2 : Own b x s2 e)
    (hT : s1 = kObject → ∃ T, e = .object T) (hT2 : s2 = kObject → ∃ T, e = .object T)
    (h : Value H seed b (.object x, s1) v) : Value H seed b (.object x, s2) v := by
  -- to the own schema
  have he : Value H seed b (.object x, e) v := by
    cases h1 with
    | object h3 h4 =>
      obtain ⟨T, rfl⟩ := hT rfl
      cases h with
      | leaf h5 => exact absurd rfl (h5 x)
      | object h5 h6 => rw [h5] at h3; cases h3; exact h6
    | other _ => exact h
  cases h2 with
  | object h3 h4 =>
    obtain ⟨T, rfl⟩ := hT2 rfl
    exact .object h3 he
  | other _ => exact he

theorem edge_own {x : ObjectId} {s1 s2 e : Item} (h1 : Own b x s1 e) (h2 : Own b x s2 e) {q : Pair}
    (h : Edge b everything (.object x, s1) q) : Edge b everything (.object x, s2) q := by
  obtain ⟨y, e', k, h3, h4, h5, _⟩ := h
  cases h3
  have := Own.unique h1 h4
  subst this
  exact ⟨x, e, k, rfl, h2, h5, rfl⟩

variable (hco : Coherent b ds s)

/-- What an id counts as, when its uuid is known. -/
theorem got_value {order l r : List Pair} {p : Pair} {t : Track}
    (hco : Coherent b ds s) (ho : OrderOk b ds s order) (hl : order = l ++ p :: r)
    (hv : Visits H seed b l t) {q : Pair} (hq : ∀ o, q.1 = .object o → Reachable b ds s q)
    (hk : ∀ o, ¬ Unknown t.tracked o q) : Value H seed b q (got t.tracked q) := by
  obtain ⟨y, tt⟩ := q
  by_cases hy : ∃ o, y = .object o
  · obtain ⟨o, rfl⟩ := hy
    have hr := hq o rfl
    by_cases hi : tt = kItemId
    · subst hi
      simp only [got, if_true]
      exact .itemId
    · simp only [got, if_neg hi]
      match hf : findTracked o t.tracked with
      | none => exact absurd ⟨rfl, hi, hf⟩ (hk o)
      | some u =>
        obtain ⟨s', h1, h2, h3⟩ := hv.value o u hf
        have hr' : Reachable b ds s (.object o, s') := (ho.mem _).mp (by rw [hl]; simp [h1])
        obtain ⟨x1, e1, h4, h5⟩ := ho.owned _ ((ho.mem _).mpr hr)
        obtain ⟨x2, e2, h6, h7⟩ := ho.owned _ ((ho.mem _).mpr hr')
        cases h4
        cases h6
        have := hco.one o s' tt e2 e1 hr' hr h2 hi h7 h5
        subst this
        refine value_own h7 h5 ?_ ?_ h3
        · rintro rfl; exact hco.own o _ hr' h7
        · rintro rfl; exact hco.own o _ hr h5
  · have hne : ∀ o, y ≠ .object o := fun o h => hy ⟨o, h⟩
    have : got t.tracked (y, tt) = y := by
      unfold got
      split
      · rename_i o h; exact absurd h (hne o)
      · rfl
    rw [this]
    exact .leaf hne

/-- Two uses of an id that are both visited have the same own schema. -/
theorem same_own {order : List Pair} (hco : Coherent b ds s) (ho : OrderOk b ds s order)
    {x : ObjectId} {s1 s2 e : Item} (h1 : (Item.object x, s1) ∈ order)
    (h2 : (Item.object x, s2) ∈ order) (hn1 : s1 ≠ kItemId) (hn2 : s2 ≠ kItemId)
    (he : Own b x s1 e) : Own b x s2 e := by
  obtain ⟨x2, e2, h6, h7⟩ := ho.owned _ h2
  cases h6
  have := hco.one x s1 s2 e e2 ((ho.mem _).mp h1) ((ho.mem _).mp h2) hn1 hn2 he h7
  subst this
  exact h7

/-- The own schema of what is visited as data is an id. -/
theorem own_data {order : List Pair} (hco : Coherent b ds s) (ho : OrderOk b ds s order)
    {x : ObjectId} {s1 e : Item} (h1 : (Item.object x, s1) ∈ order) (he : Own b x s1 e) :
    (holdsId s1 = true ∨ s1 = kObject → ∃ T, e = .object T) ∧
      ((∃ T, e = .object T) → holdsId s1 = true ∨ s1 = kObject) ∧
      (∀ n, e = .dtype n → s1 = .dtype n) := by
  cases he with
  | object h3 h4 =>
    have := hco.own x e ((ho.mem _).mp h1) (.object h3 h4)
    refine ⟨fun _ => this, fun _ => .inr rfl, ?_⟩
    rintro n rfl
    obtain ⟨T, hT⟩ := this
    cases hT
  | other h3 =>
    refine ⟨?_, ?_, fun n h => h⟩
    · rintro (h | h)
      · exact (holdsId_iff _).mp h
      · exact absurd h h3
    · intro h; exact .inl ((holdsId_iff _).mpr h)

/-- An id that is visited now and was asked for before, or that refers to itself, lies on a
cycle. -/
theorem asked_cycle {order l r : List Pair} {x : ObjectId} {s1 e : Item} {t t1 : Track}
    (hco : Coherent b ds s) (ho : OrderOk b ds s order)
    (hl : order = l ++ (.object x, s1) :: r) (hs1 : s1 ≠ kItemId) (he : Own b x s1 e)
    (hs : holdsId s1 = true ∨ s1 = kObject ∨ s1 = kSchema)
    (hv : Visits H seed b l t) (hask : Asked t t1 (Part b x e))
    (hu : x ∈ t1.untracked) (hn : findTracked x t.tracked = none) : OnCycle b x := by
  have hmem : (Item.object x, s1) ∈ order := by rw [hl]; simp
  have hnl : (Item.object x, s1) ∉ l := by
    have := ho.nodup
    rw [hl] at this
    intro h
    have := (List.nodup_append.mp this).2.2 _ h _ List.mem_cons_self
    exact this rfl
  -- a use of x that was visited before
  have hprev : ∀ s', (Item.object x, s') ∈ l → s' ≠ kItemId → False := by
    intro s' h1 h2
    have hm' : (Item.object x, s') ∈ order := by rw [hl]; simp [h1]
    have he' := same_own hco ho hmem hm' hs1 h2 he
    obtain ⟨d1, d2, d3⟩ := own_data hco ho hmem he
    obtain ⟨c1, c2, c3⟩ := own_data hco ho hm' he'
    rcases hs with h3 | h3 | h3
    · exact hv.data x s' h1 (c2 (d1 (.inl h3))) hn
    · exact hv.data x s' h1 (c2 (d1 (.inr h3))) hn
    · have : e = .dtype 12 := by
        cases he with
        | object _ _ => cases h3
        | other _ => exact h3
      have := c3 12 this
      subst this
      rw [h3] at hnl
      exact hnl h1
  rcases (hask.untracked x).mp hu with h1 | ⟨p, hp, h1, h2, h3⟩
  · rcases hv.asked x h1 with h2 | ⟨p, h2, s', h3, h4⟩
    · exact (hprev _ h2 (by decide)).elim
    · obtain ⟨l1, l2, hsp⟩ := List.append_of_mem h2
      rcases ho.before l1 p (l2 ++ (.object x, s1) :: r) (by rw [hl, hsp]; simp) _ h4 with h5 | h5
      · exact (hprev s' (by rw [hsp]; simp [h5]) h3).elim
      · exact ⟨s', p, h4, h5⟩
  · obtain ⟨y, tt⟩ := p
    simp only at h1 h2
    subst h1
    obtain ⟨k, _, href⟩ := hp.ref (hask.valid _ hp x rfl)
    have hedge : Edge b everything (.object x, s1) (.object x, tt) := ⟨x, e, k, rfl, he, href, rfl⟩
    have hr2 : (Item.object x, tt) ∈ order := by
      rw [ho.mem]
      obtain ⟨r0, h5, h6⟩ := (ho.mem _).mp hmem
      exact ⟨r0, h5, .step h6 hedge⟩
    have he' := same_own hco ho hmem hr2 hs1 h2 he
    exact ⟨tt, (.object x, tt), edge_own he he' hedge, .refl⟩

theorem part_reachable {order : List Pair} (ho : OrderOk b ds s order) {x : ObjectId} {s1 e : Item}
    {t t1 : Track} (hm : (Item.object x, s1) ∈ order) (he : Own b x s1 e)
    (hask : Asked t t1 (Part b x e)) {q : Pair} (hp : Part b x e q) (o : ObjectId)
    (hq : q.1 = .object o) : Reachable b ds s q := by
  obtain ⟨y, tt⟩ := q
  simp only at hq
  subst hq
  obtain ⟨k, _, href⟩ := hp.ref (hask.valid _ hp o rfl)
  obtain ⟨r0, h5, h6⟩ := (ho.mem _).mp hm
  exact ⟨r0, h5, .step h6 ⟨x, e, k, rfl, he, href, rfl⟩⟩

/-- The uuid of data that is visited for the first time. -/
theorem visited_value {order l r : List Pair} {x T : ObjectId} {s1 : Item} {t t1 : Track}
    {u : ObjectId} (hco : Coherent b ds s) (hnc : NoClash H seed b ds s)
    (ho : OrderOk b ds s order) (hl : order = l ++ (.object x, s1) :: r) (hs1 : s1 ≠ kItemId)
    (hs : holdsId s1 = true ∨ s1 = kObject) (he : Own b x s1 (.object T))
    (hv : Visits H seed b l t) (hask : Asked t t1 (Part b x (.object T)))
    (hvis : Visited H seed b x T t t1 u) (hn : findTracked x t.tracked = none) :
    Value H seed b (.object x, .object T) (.object u) := by
  have hmem : (Item.object x, s1) ∈ order := by rw [hl]; simp
  have hgot : ∀ q, Part b x (.object T) q → (∀ o, ¬ Unknown t.tracked o q) →
      Value H seed b q (got t.tracked q) := fun q hq hk =>
    got_value hco ho hl hv (part_reachable ho hmem he hask hq) hk
  -- what is unknown is untracked
  have hunk : ∀ q o, Part b x (.object T) q → Unknown t.tracked o q →
      got t.tracked q = .object o ∧ isUntracked t1 (got t.tracked q) = true := by
    intro q o hq hk
    obtain ⟨y, tt⟩ := q
    obtain ⟨h1, h2, h3⟩ := hk
    simp only at h1 h2
    subst h1
    have : got t.tracked (.object o, tt) = .object o := by simp [got, h2, h3]
    refine ⟨this, ?_⟩
    rw [this, isUntracked_iff]
    exact ⟨o, rfl, (hask.untracked o).mpr (.inr ⟨_, hq, rfl, h2, h3⟩)⟩
  cases hvis with
  | noFollow h1 => exact .noFollow h1
  | @list tt h1 h2 h3 =>
    refine .list h1 h2 (by simp) ?_
    intro i y v hy hvv
    simp only [List.getElem?_map, hy, Option.map_some, Option.some.injEq] at hvv
    subst hvv
    have hm : y ∈ b.list x := List.mem_of_getElem? hy
    have hp : Part b x (.object T) (y, tt) := .listItem h1 h2 hm
    refine hgot _ hp ?_
    intro o hk
    have := (hunk _ o hp hk).2
    rw [h3 y hm] at this
    cases this
  | @dict kt vt h1 h2 h3 h4 =>
    refine .dict h1 h2 (by simp) ?_ ?_
    · intro i y v hy hvv
      simp only [List.getElem?_map, hy, Option.map_some, Option.some.injEq] at hvv
      subst hvv
      have hm : y ∈ b.dict x := List.mem_of_getElem? hy
      have hp : Part b x (.object T) (y.1, kt) := .dictKey h1 h2 hm
      refine hgot _ hp ?_
      intro o hk
      have := (hunk _ o hp hk).2
      rw [h3 y hm] at this
      cases this
    · intro i y v hy hvv
      simp only [List.getElem?_map, hy, Option.map_some, Option.some.injEq] at hvv
      subst hvv
      have hm : y ∈ b.dict x := List.mem_of_getElem? hy
      have hp : Part b x (.object T) (y.2, vt) := .dictValue h1 h2 hm
      refine hgot _ hp ?_
      intro o hk
      have := (hunk _ o hp hk).2
      rw [h4 y hm] at this
      cases this
  | @entity pf names h1 h2 h3 h4 h5 =>
    refine .entity (vals := fun n => if isUntracked t1 (got t.tracked (pf n)) then selfReference
      else got t.tracked (pf n)) h1 h2 ?_ ?_ ?_
    · intro n p hp hself
      obtain ⟨hn', rfl⟩ := (h4 n p).mp hp
      have hp' : Part b x (.object T) (pf n) := .attr h1 h2 hp
      have hk : Unknown t.tracked x (pf n) := ⟨hself.1, hself.2, hn⟩
      rw [if_pos (hunk _ x hp' hk).2, selfText_eq]
    · intro n p hp hself
      obtain ⟨hn', rfl⟩ := (h4 n p).mp hp
      have hp' : Part b x (.object T) (pf n) := .attr h1 h2 hp
      have hk : ∀ o, ¬ Unknown t.tracked o (pf n) := by
        intro o hk
        obtain ⟨h6, h7⟩ := hunk _ o hp' hk
        have := h5 n hn' h7
        rw [h6] at this
        cases this
        exact hself ⟨hk.1, hk.2.1⟩
      have hval := hgot _ hp' hk
      by_cases hu : isUntracked t1 (got t.tracked (pf n)) = true
      · have hx := h5 n hn' hu
        rw [hx, isUntracked_iff] at hu
        obtain ⟨o, ho1, ho2⟩ := hu
        cases ho1
        have hcyc := asked_cycle hco ho hl hs1 he (hs.imp id .inl) hv hask ho2 hn
        exact absurd hx (hnc x hcyc s1 ((ho.mem _).mp hmem) n (pf n) _ (.inl ⟨T, he, h1, h2, hp⟩)
          hself hval)
      · rw [if_neg hu]; exact hval
    · refine ⟨by rw [List.map_map]; simpa [Function.comp_def] using h3, ?_⟩
      intro n v
      simp only [List.mem_map, Prod.mk.injEq]
      constructor
      · rintro ⟨m, hm, rfl, rfl⟩
        exact ⟨rfl, pf m, (h4 m _).mpr ⟨hm, rfl⟩⟩
      · rintro ⟨rfl, p, hp⟩
        exact ⟨n, ((h4 n p).mp hp).1, rfl, rfl⟩

/-- The uuid of a schema that is visited. -/
theorem schemaVisited_value {order l r : List Pair} {x : ObjectId} {t t1 t' : Track}
    (hco : Coherent b ds s) (hnc : NoClash H seed b ds s) (ho : OrderOk b ds s order)
    (hl : order = l ++ (.object x, kSchema) :: r)
    (hv : Visits H seed b l t) (hask : Asked t t1 (Part b x (.dtype 12)))
    (hvis : SchemaVisited H seed b x t t1 t') (hn : findTracked x t.tracked = none) :
    t' = { t1 with untracked := x :: t1.untracked } ∨
      ∃ u, t' = setTracked t1 (.object x) u ∧ Value H seed b (.object x, kSchema) (.object u) := by
  have hmem : (Item.object x, kSchema) ∈ order := by rw [hl]; simp
  have he : Own b x kSchema (.dtype 12) := .other (by decide)
  have hgot : ∀ q, Part b x (.dtype 12) q → (∀ o, ¬ Unknown t.tracked o q) →
      Value H seed b q (got t.tracked q) := fun q hq hk =>
    got_value hco ho hl hv (part_reachable ho hmem he hask hq) hk
  have hunk : ∀ q o, Part b x (.dtype 12) q → Unknown t.tracked o q →
      got t.tracked q = .object o ∧ isUntracked t1 (got t.tracked q) = true := by
    intro q o hq hk
    obtain ⟨y, tt⟩ := q
    obtain ⟨h1, h2, h3⟩ := hk
    simp only at h1 h2
    subst h1
    have : got t.tracked (.object o, tt) = .object o := by simp [got, h2, h3]
    refine ⟨this, ?_⟩
    rw [this, isUntracked_iff]
    exact ⟨o, rfl, (hask.untracked o).mpr (.inr ⟨_, hq, rfl, h2, h3⟩)⟩
  cases hvis with
  | noFollow h1 => exact .inr ⟨_, rfl, .noFollowSchema h1⟩
  | unknown _ _ _ => exact .inl rfl
  | @schema pf names h1 h3 h4 h5 =>
    refine .inr ⟨_, rfl, ?_⟩
    refine .schema (vals := fun n => if isUntracked t1 (got t.tracked (pf n)) then selfReference
      else got t.tracked (pf n)) h1 ?_ ?_ ?_
    · intro n p hp hself
      obtain ⟨hn', rfl⟩ := (h4 n p).mp hp
      have hp' : Part b x (.dtype 12) (pf n) := .schemaAttr h1 hp
      have hk : Unknown t.tracked x (pf n) := ⟨hself.1, hself.2, hn⟩
      rw [if_pos (hunk _ x hp' hk).2, selfText_eq]
    · intro n p hp hself
      obtain ⟨hn', rfl⟩ := (h4 n p).mp hp
      have hp' : Part b x (.dtype 12) (pf n) := .schemaAttr h1 hp
      have hk : ∀ o, ¬ Unknown t.tracked o (pf n) := by
        intro o hk
        obtain ⟨h6, h7⟩ := hunk _ o hp' hk
        have := h5 n hn' h7
        rw [h6] at this
        cases this
        exact hself ⟨hk.1, hk.2.1⟩
      have hval := hgot _ hp' hk
      by_cases hu : isUntracked t1 (got t.tracked (pf n)) = true
      · have hx := h5 n hn' hu
        rw [hx, isUntracked_iff] at hu
        obtain ⟨o, ho1, ho2⟩ := hu
        cases ho1
        have hcyc := asked_cycle hco ho hl (by decide) he (.inr (.inr rfl)) hv hask ho2 hn
        exact absurd hx (hnc x hcyc kSchema ((ho.mem _).mp hmem) n (pf n) _ (.inr ⟨rfl, h1, hp⟩)
          hself hval)
      · rw [if_neg hu]; exact hval
    · refine ⟨by rw [List.map_map]; simpa [Function.comp_def] using h3, ?_⟩
      intro n v
      simp only [List.mem_map, Prod.mk.injEq]
      constructor
      · rintro ⟨m, hm, rfl, rfl⟩
        exact ⟨rfl, pf m, (h4 m _).mpr ⟨hm, rfl⟩⟩
      · rintro ⟨rfl, p, hp⟩
        exact ⟨n, ((h4 n p).mp hp).1, rfl, rfl⟩

/-- A uuid is stored. -/
theorem Visits.store {l : List Pair} {x u : ObjectId} {s1 e : Item} {t t1 : Track}
    (hv : Visits H seed b l t) (hs1 : s1 ≠ kItemId) (he : Own b x s1 e)
    (hask : Asked t t1 (Part b x e))
    (hval : findTracked x t.tracked = none → Value H seed b (.object x, s1) (.object u)) :
    Visits H seed b (l ++ [(.object x, s1)]) (setTracked t1 (.object x) u) := by
  refine ⟨?_, ?_, ?_, ?_⟩
  · intro o v hf
    simp only [setTracked, findTracked_emplace, hask.tracked] at hf
    by_cases ho : o = x
    · subst ho
      simp only [if_true, Option.some.injEq] at hf
      match hfx : findTracked o t.tracked with
      | none =>
        rw [hfx] at hf
        simp at hf
        subst hf
        exact ⟨s1, by simp, hs1, hval hfx⟩
      | some v' =>
        rw [hfx] at hf
        simp at hf
        subst hf
        obtain ⟨s', h1, h2, h3⟩ := hv.value o _ hfx
        exact ⟨s', by simp [h1], h2, h3⟩
    · rw [if_neg ho] at hf
      obtain ⟨s', h1, h2, h3⟩ := hv.value o v hf
      exact ⟨s', by simp [h1], h2, h3⟩
  · intro y s' hm hd
    simp only [setTracked, findTracked_emplace, hask.tracked]
    by_cases hy : y = x
    · simp [hy]
    · rw [if_neg hy]
      rcases List.mem_append.mp hm with hm | hm
      · exact hv.data y s' hm hd
      · simp at hm; exact absurd hm.1 hy
  · intro o ho
    simp only [setTracked, List.mem_filter, decide_eq_true_eq] at ho
    simp only [setTracked, findTracked_emplace, hask.tracked]
    rw [if_neg ho.2]
    rcases (hask.untracked o).mp ho.1 with h | ⟨_, _, _, _, h⟩
    · exact hv.disjoint o h
    · exact h
  · intro o ho
    simp only [setTracked, List.mem_filter, decide_eq_true_eq] at ho
    rcases (hask.untracked o).mp ho.1 with h | ⟨p, hp, h1, h2, h3⟩
    · rcases hv.asked o h with h1 | ⟨p, h1, s', h2, h3⟩
      · exact .inl (by simp [h1])
      · exact .inr ⟨p, by simp [h1], s', h2, h3⟩
    · obtain ⟨y, tt⟩ := p
      simp only at h1 h2
      subst h1
      obtain ⟨k, _, href⟩ := hp.ref (hask.valid _ hp o rfl)
      exact .inr ⟨(.object x, s1), by simp, tt, h2, x, e, k, rfl, he, href, rfl⟩

theorem Visits.grow {l : List Pair} {t : Track} {p : Pair} (hv : Visits H seed b l t)
    (hp : ¬ (holdsId p.2 = true ∨ p.2 = kObject)) : Visits H seed b (l ++ [p]) t := by
  refine ⟨?_, ?_, hv.disjoint, ?_⟩
  · intro o u h
    obtain ⟨s', h1, h2⟩ := hv.value o u h
    exact ⟨s', by simp [h1], h2⟩
  · intro x s' hm hd
    rcases List.mem_append.mp hm with hm | hm
    · exact hv.data x s' hm hd
    · simp at hm; subst hm; exact absurd hd hp
  · intro o ho
    rcases hv.asked o ho with h1 | ⟨p', h1, h2⟩
    · exact .inl (by simp [h1])
    · exact .inr ⟨p', by simp [h1], h2⟩

theorem visitOne_visits {order l r : List Pair} {p : Pair} {t t' : Track} (hb : b.Ok)
    (hco : Coherent b ds s) (hnc : NoClash H seed b ds s) (ho : OrderOk b ds s order)
    (hl : order = l ++ p :: r) (hv : Visits H seed b l t)
    (h : visitOne (uuidVisitor H seed) b t p = .ok t') :
    Visits H seed b (l ++ [p]) t' := by
  have hmem : p ∈ order := by rw [hl]; simp
  obtain ⟨x, e, hx, he⟩ := ho.owned p hmem
  obtain ⟨px, s1⟩ := p
  simp only at hx he
  subst hx
  unfold visitOne at h
  simp only at h
  by_cases h1 : holdsId s1 = true
  · rw [if_pos h1] at h
    obtain ⟨T, rfl⟩ := (holdsId_iff _).mp h1
    cases he with
    | other _ =>
      obtain ⟨t1, u, a1, a2, rfl⟩ := visitEntity_ok hb h
      exact hv.store (by simp [kItemId]) (.other (by simp)) a1
        (visited_value hco hnc ho hl (by simp [kItemId]) (.inl rfl) (.other (by simp)) hv a1 a2)
  rw [if_neg h1] at h
  by_cases h2 : s1 = kObject
  · rw [if_pos h2] at h
    subst h2
    unfold visitObjectItem at h
    simp only [holdsId, Bool.not_true, Bool.false_eq_true, if_false] at h
    split at h
    · cases h
    rename_i e' he'
    have := Own.unique he (own_object he')
    subst this
    obtain ⟨T, rfl⟩ := hco.own x e ((ho.mem _).mp hmem) he
    obtain ⟨t1, u, a1, a2, rfl⟩ := visitEntity_ok hb h
    refine hv.store (by decide) he a1 ?_
    intro hn
    have := visited_value hco hnc ho hl (by decide) (.inr rfl) he hv a1 a2 hn
    cases he with
    | object h3 h4 => exact .object h3 this
  rw [if_neg h2] at h
  by_cases h3 : s1 = kSchema
  · rw [if_pos h3] at h
    subst h3
    have he2 : Own b x kSchema (.dtype 12) := .other (by decide)
    have := Own.unique he he2
    subst this
    obtain ⟨t1, a1, a2⟩ := visitSchemaItem_ok hb h
    -- the schema was not visited before
    have hn : findTracked x t.tracked = none := by
      match hf : findTracked x t.tracked with
      | none => rfl
      | some u =>
        obtain ⟨s', c1, c2, _⟩ := hv.value x u hf
        have hm' : (Item.object x, s') ∈ order := by rw [hl]; simp [c1]
        have he' := same_own hco ho hmem hm' (by decide) c2 he
        have := (own_data hco ho hm' he').2.2 12 rfl
        subst this
        have hnd := ho.nodup
        rw [hl] at hnd
        exact absurd rfl ((List.nodup_append.mp hnd).2.2 _ c1 _ List.mem_cons_self)
    rcases schemaVisited_value hco hnc ho hl hv a1 a2 hn with rfl | ⟨u, rfl, hval⟩
    · -- it stays unknown
      refine ⟨?_, ?_, ?_, ?_⟩
      · intro o u hf
        obtain ⟨s', c1, c2⟩ := hv.value o u (by rw [← a1.tracked]; exact hf)
        exact ⟨s', by simp [c1], c2⟩
      · intro y s' hm hd
        show findTracked y t1.tracked ≠ none
        rw [a1.tracked]
        rcases List.mem_append.mp hm with hm | hm
        · exact hv.data y s' hm hd
        · simp at hm
          rw [hm.2] at hd
          exact absurd hd (by decide)
      · intro o ho'
        show findTracked o t1.tracked = none
        rw [a1.tracked]
        rcases List.mem_cons.mp ho' with rfl | ho'
        · exact hn
        · rcases (a1.untracked o).mp ho' with c | ⟨_, _, _, _, c⟩
          · exact hv.disjoint o c
          · exact c
      · intro o ho'
        rcases List.mem_cons.mp ho' with rfl | ho'
        · exact .inl (by simp)
        · rcases (a1.untracked o).mp ho' with c | ⟨p, hp, c1, c2, c3⟩
          · rcases hv.asked o c with c1 | ⟨p, c1, c2⟩
            · exact .inl (by simp [c1])
            · exact .inr ⟨p, by simp [c1], c2⟩
          · obtain ⟨y, tt⟩ := p
            simp only at c1 c2
            subst c1
            obtain ⟨k, _, href⟩ := hp.ref (a1.valid _ hp o rfl)
            exact .inr ⟨(.object x, kSchema), by simp, tt, c2, x, _, k, rfl, he, href, rfl⟩
    · exact hv.store (by decide) he a1 (fun _ => hval)
  · rw [if_neg h3] at h
    cases h
    exact hv.grow (by simp [h1, h2])

theorem visitInPostOrder_visits {order : List Pair} (hb : b.Ok)
    (hco : Coherent b ds s) (hnc : NoClash H seed b ds s) (ho : OrderOk b ds s order) :
    ∀ (r l : List Pair) {t t' : Track}, order = l ++ r → Visits H seed b l t →
      visitInPostOrder (uuidVisitor H seed) b t r = .ok t' → Visits H seed b order t'
  | [], l, t, t', hl, hv, h => by
    cases h
    rw [hl, List.append_nil]
    exact hv
  | p :: r, l, t, t', hl, hv, h => by
    unfold visitInPostOrder at h
    split at h
    · cases h
    rename_i t1 h1
    exact visitInPostOrder_visits hb hco hnc ho r (l ++ [p]) (by rw [hl]; simp)
      (visitOne_visits hb hco hnc ho hl hv h1) h

theorem Visits.nil : Visits H seed b [] ⟨[], []⟩ :=
  ⟨by simp [findTracked], by simp, by simp, by simp⟩

/-- What a successful traversal has done. -/
theorem traverse_visits {fuel : Nat} {t : Track} (hb : b.Ok)
    (hco : Coherent b ds s) (hnc : NoClash H seed b ds s)
    (h : traverseSlice (uuidVisitor H seed) b fuel ⟨[], []⟩ ds s = some (.ok t)) :
    ∃ order, OrderOk b ds s order ∧ Visits H seed b order t := by
  unfold traverseSlice at h
  split at h
  · cases h
  rename_i d hd
  split at h
  · cases h
  · cases h
  rename_i d' hd'
  have hw := decides_uuid H seed
  obtain ⟨h1, h2, h3⟩ := search_order hb hw (fun _ _ _ => rfl) hd hd'
  have h4 := search_owned hb hw (fun _ _ _ => rfl) hd hd'
  have ho : OrderOk b ds s d'.order := ⟨h1, h2, h3, h4⟩
  simp only [Option.some.injEq] at h
  refine ⟨d'.order, ho, ?_⟩
  have hv : d'.v = ⟨[], []⟩ := by
    rw [dfs_state (keeps_uuid H seed) _ hd', init_state (keeps_uuid H seed) hd]
  rw [hv] at h
  exact visitInPostOrder_visits hb hco hnc ho d'.order [] rfl .nil h

/-- The values of all the ids that can be reached as data. -/
theorem traverse_values {fuel : Nat} {t : Track} (hb : b.Ok)
    (hco : Coherent b ds s) (hnc : NoClash H seed b ds s)
    (h : traverseSlice (uuidVisitor H seed) b fuel ⟨[], []⟩ ds s = some (.ok t)) {x : ObjectId}
    {s' u : Item} (hr : Reachable b ds s (.object x, s')) (hs : s' ≠ kItemId)
    (hu : findTracked x t.tracked = some u) : Value H seed b (.object x, s') u := by
  obtain ⟨order, ho, hv⟩ := traverse_visits hb hco hnc h
  obtain ⟨s1, h1, h2, h3⟩ := hv.value x u hu
  have hm := (ho.mem _).mpr hr
  obtain ⟨x2, e, h6, h7⟩ := ho.owned _ h1
  cases h6
  have he := same_own hco ho h1 hm h2 hs h7
  refine value_own h7 he ?_ ?_ h3
  · rintro rfl; exact hco.own x _ ((ho.mem _).mp h1) h7
  · rintro rfl; exact hco.own x _ hr he

/-- Every id that can be reached as data has a value. -/
theorem traverse_data {fuel : Nat} {t : Track} (hb : b.Ok)
    (hco : Coherent b ds s) (hnc : NoClash H seed b ds s)
    (h : traverseSlice (uuidVisitor H seed) b fuel ⟨[], []⟩ ds s = some (.ok t)) {x : ObjectId}
    {s' : Item} (hr : Reachable b ds s (.object x, s'))
    (hs : (∃ T, s' = .object T) ∨ s' = kObject) : ∃ u, Value H seed b (.object x, s') u := by
  obtain ⟨order, ho, hv⟩ := traverse_visits hb hco hnc h
  have := hv.data x s' ((ho.mem _).mpr hr) (hs.imp (holdsId_iff _).mpr id)
  match hf : findTracked x t.tracked with
  | none => exact absurd hf this
  | some u =>
    refine ⟨u, traverse_values hb hco hnc h hr ?_ hf⟩
    rintro rfl
    rcases hs with ⟨T, hT⟩ | hT <;> cases hT

theorem uuidResults_ok {t : Track} {seeded : Bytes → BitVec 128 → BitVec 128} :
    ∀ {ds us : List Item}, uuidResults H seed seeded t s ds = .ok us →
      us.length = ds.length ∧ ∀ (i : Nat) x, ds[i]? = some x →
        ∃ u, uuidGetValueSafe t x s = .ok u ∧ us[i]? = some (wrapUuid H seed seeded s u)
  | [], us, h => by cases h; simp
  | x :: ds, us, h => by
    unfold uuidResults at h
    split at h
    · cases h
    rename_i u hu
    split at h
    · cases h
    rename_i us' hus
    cases h
    obtain ⟨h1, h2⟩ := uuidResults_ok hus
    refine ⟨by simp [h1], ?_⟩
    intro i y hy
    cases i with
    | zero => simp at hy; subst hy; exact ⟨u, hu, by simp⟩
    | succ i => simp at hy; obtain ⟨u', c1, c2⟩ := h2 i y hy; exact ⟨u', c1, by simpa using c2⟩

end

end Verif.Traverse
