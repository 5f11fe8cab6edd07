import Verif.Clone.Spec
import Verif.Traverse.Theorems

/-!
The calls of `Previsit` during the walk.
-/

namespace Verif.Clone

open Verif.ObjectId
open Verif.Uuid
open Verif.Traverse

/-- An implicit schema is met together with its object. -/
def Fine (b : Bag) (q : Pair) : Prop :=
  ∀ T, q.2 = .object T → T.isImplicitSchema = true →
    ∃ o, q.1 = .object o ∧ b.attr o schemaAttrName = .object T

theorem fine_declared {b : Bag} {s y t : Item} {n : Name}
    (hd : ∀ U n T, (n, .object T) ∈ b.schemaAttrs U → T.isImplicitSchema = false)
    (h : getSchemaAttr b s n = .ok t) : Fine b (y, t) := by
  intro T hT hi
  simp only at hT
  subst hT
  unfold getSchemaAttr at h
  split at h
  · cases h
  split at h
  · cases h
  rename_i o ho
  split at h
  · cases h
  rename_i v hv
  cases h
  have := hd o n T (lookup_some_mem hv)
  rw [hi] at this
  cases this

theorem listCalls_fine {b : Bag} {t : Item} (h : ∀ y, Fine b (y, t)) :
    ∀ (l : List Item) (i : Nat) (k : Key) (q : Pair), (k, q) ∈ listCalls t i l → Fine b q
  | [], _, _, _, hm => by simp [listCalls] at hm
  | x :: l, i, k, q, hm => by
    unfold listCalls at hm
    rcases List.mem_append.mp hm with hm | hm
    · split at hm
      · simp only [List.mem_singleton, Prod.mk.injEq] at hm
        rw [hm.2]; exact h x
      · simp at hm
    · exact listCalls_fine h l _ k q hm

theorem dictKeyCalls_fine {b : Bag} {t : Item} (h : ∀ y, Fine b (y, t)) :
    ∀ (l : List (Item × Item)) (i : Nat) (k : Key) (q : Pair), (k, q) ∈ dictKeyCalls t i l →
      Fine b q
  | [], _, _, _, hm => by simp [dictKeyCalls] at hm
  | x :: l, i, k, q, hm => by
    unfold dictKeyCalls at hm
    rcases List.mem_append.mp hm with hm | hm
    · split at hm
      · simp only [List.mem_singleton, Prod.mk.injEq] at hm
        rw [hm.2]; exact h x.1
      · simp at hm
    · exact dictKeyCalls_fine h l _ k q hm

theorem dictValueCalls_fine {b : Bag} {t : Item} (h : ∀ y, Fine b (y, t)) :
    ∀ (l : List (Item × Item)) (i : Nat) (k : Key) (q : Pair), (k, q) ∈ dictValueCalls t i l →
      Fine b q
  | [], _, _, _, hm => by simp [dictValueCalls] at hm
  | x :: l, i, k, q, hm => by
    unfold dictValueCalls at hm
    rcases List.mem_append.mp hm with hm | hm
    · split at hm
      · simp only [List.mem_singleton, Prod.mk.injEq] at hm
        rw [hm.2]; exact h x.2
      · simp at hm
    · exact dictValueCalls_fine h l _ k q hm

theorem schemaAttrCalls_fine {b : Bag} {x : Item} :
    ∀ (ns : List Name) (cs : List (Key × Pair)) (k : Key) (q : Pair),
      schemaAttrCalls b x ns = .ok cs → (k, q) ∈ cs → Fine b q
  | [], cs, k, q, h, hm => by cases h; simp at hm
  | n :: ns, cs, k, q, h, hm => by
    unfold schemaAttrCalls at h
    split at h
    · cases h
    rename_i p hp
    split at h
    · cases h
    rename_i l hl
    cases h
    rcases List.mem_append.mp hm with hm | hm
    · split at hm
      · simp only [List.mem_singleton, Prod.mk.injEq] at hm
        rw [hm.2]
        unfold schemaAttributeTransition at hp
        split at hp
        · cases hp
        cases hp
        intro T hT
        simp only [schemaOfSchemaAttr, kString, kObject, kSchema] at hT
        split at hT
        · cases hT
        split at hT <;> cases hT
      · simp at hm
    · exact schemaAttrCalls_fine ns l k q hl hm

theorem attrCalls_fine {b : Bag} {x s : Item}
    (hd : ∀ U n T, (n, .object T) ∈ b.schemaAttrs U → T.isImplicitSchema = false) :
    ∀ (ns : List Name) (cs : List (Key × Pair)) (k : Key) (q : Pair),
      attrCalls b x s ns = .ok cs → (k, q) ∈ cs → Fine b q
  | [], cs, k, q, h, hm => by cases h; simp at hm
  | n :: ns, cs, k, q, h, hm => by
    unfold attrCalls at h
    split at h
    · exact attrCalls_fine hd ns cs k q h hm
    split at h
    · cases h
    rename_i p hp
    split at h
    · cases h
    rename_i l hl
    cases h
    rcases List.mem_append.mp hm with hm | hm
    · split at hm
      · simp only [List.mem_singleton, Prod.mk.injEq] at hm
        rw [hm.2]
        unfold attributeTransition at hp
        split at hp
        · cases hp
        split at hp
        · cases hp
        rename_i t ht
        cases hp
        exact fine_declared hd ht
      · simp at hm
    · exact attrCalls_fine hd ns l k q hl hm

theorem own_fine {b : Bag} {x e : Item} (h : getObjectSchema b x = .ok e) : Fine b (x, e) := by
  intro T hT _
  simp only at hT
  subst hT
  unfold getObjectSchema at h
  split at h
  · cases h
  rename_i s hs
  split at h
  · cases h
    unfold getAttr at hs
    split at hs
    · simp only [Except.ok.injEq] at hs; exact ⟨_, rfl, hs⟩
    · cases hs
    · cases hs
  · cases h

/-- The schemas of the items of a list and of a dict are declared in a schema. -/
theorem transitions_declared {b : Bag} {x s : Item} {t : Transitions}
    (h : getTransitions b x s false = .ok t) :
    (∀ it l, t = .list it l → ∃ n, getSchemaAttr b s n = .ok it) ∧
    (∀ kt vt l, t = .dict kt vt l → (∃ n, getSchemaAttr b s n = .ok kt) ∧
      ∃ n, getSchemaAttr b s n = .ok vt) := by
  unfold getTransitions at h
  split at h
  · unfold entityTransitions at h
    split at h
    · split at h
      · cases h; exact ⟨by simp, by simp⟩
      split at h
      · cases h
      split at h
      · cases h; exact ⟨by simp, by simp⟩
      split at h
      · split at h
        · cases h
        unfold listTransitions at h
        split at h
        · cases h
        rename_i t1 ht
        split at h
        · cases h
        cases h
        refine ⟨?_, by simp⟩
        intro it l heq
        cases heq
        exact ⟨_, ht⟩
      split at h
      · split at h
        · cases h
        unfold dictTransitions at h
        split at h
        · cases h
        rename_i t1 ht
        split at h
        · cases h
        rename_i t2 ht2
        split at h
        · cases h
        cases h
        refine ⟨by simp, ?_⟩
        intro kt vt l heq
        cases heq
        exact ⟨⟨_, ht⟩, _, ht2⟩
      split at h
      · cases h; exact ⟨by simp, by simp⟩
      split at h <;> (cases h; exact ⟨by simp, by simp⟩)
    · cases h
  split at h
  · split at h
    · cases h; exact ⟨by simp, by simp⟩
    split at h
    · unfold schemaTransitions at h
      split at h
      · split at h
        · cases h; exact ⟨by simp, by simp⟩
        split at h
        · cases h
        split at h <;> (cases h; exact ⟨by simp, by simp⟩)
      · cases h; exact ⟨by simp, by simp⟩
    · cases h; exact ⟨by simp, by simp⟩
  · cases h

theorem calls_fine {b : Bag} {x s : Item} {t : Transitions} {cs : List (Key × Pair)}
    (hd : ∀ U n T, (n, .object T) ∈ b.schemaAttrs U → T.isImplicitSchema = false)
    (ht : getTransitions b x s false = .ok t) (hc : forEachObject b x s t = .ok cs) :
    ∀ c ∈ cs, Fine b c.2 := by
  rintro ⟨k, q⟩ hm
  obtain ⟨h1, h2⟩ := transitions_declared ht
  unfold forEachObject at hc
  split at hc
  · split at hc
    · cases hc
    rename_i os hos
    cases hc
    split at hm
    · simp only [List.mem_singleton, Prod.mk.injEq] at hm
      simp only
      rw [hm.2]
      exact own_fine hos
    · simp at hm
  simp only at hc
  split at hc
  · cases hc; simp at hm
  · rename_i it l
    cases hc
    split at hm
    · simp at hm
    obtain ⟨n, hn⟩ := h1 it l rfl
    exact listCalls_fine (fun y => fine_declared hd hn) _ _ _ _ hm
  · rename_i kt vt l
    cases hc
    obtain ⟨⟨n, hn⟩, m, hm'⟩ := h2 kt vt l rfl
    rcases List.mem_append.mp hm with hm | hm
    · split at hm
      · simp at hm
      exact dictKeyCalls_fine (fun y => fine_declared hd hn) _ _ _ _ hm
    · split at hm
      · simp at hm
      exact dictValueCalls_fine (fun y => fine_declared hd hm') _ _ _ _ hm
  · exact schemaAttrCalls_fine _ _ k q hc hm
  · exact attrCalls_fine hd _ _ k q hc hm

/-! ### What holds of the state of the visitor -/

/-- Ids that are looked at as data are not ids of schemas. -/
def Data (q : Pair) : Prop :=
  ∀ y, q.1 = .object y → (q.2 = .dtype 11 ∨ ∃ T, q.2 = .object T) → y.isSchema = false

theorem follow_data {src : Pair} {k : Option Key} {y : ObjectId} {t : Item}
    (h : t = .dtype 11 ∨ ∃ T, t = .object T) : follow src k (.object y, t) = true := by
  rcases h with rfl | ⟨T, rfl⟩ <;> rfl

section
variable {V : Type} {w : Visitor V} {b : Bag} {P : V → Prop} {C : ObjectId → Item → V → Prop}
  {ds : List Item} {s : Item}

/-- The visitor keeps `P` when it is asked about a pair that is fine, and from the time on when
it was asked about an object with its own schema `C` holds for them. -/
structure Keeps (w : Visitor V) (b : Bag) (P : V → Prop) (C : ObjectId → Item → V → Prop) :
    Prop where
  inv : ∀ v src k q r v', Fine b q → Data q → w.previsit v src k q = .ok (r, v') → P v → P v'
  stays : ∀ v src k q r v' x e, w.previsit v src k q = .ok (r, v') → C x e v → C x e v'
  begins : ∀ v src k r v' x e, w.previsit v src k (.object x, e) = .ok (r, v') → C x e v'

/-- The invariant of the search. -/
structure SInv (b : Bag) (ds : List Item) (s : Item) (P : V → Prop)
    (C : ObjectId → Item → V → Prop) (d : Dfs V) : Prop where
  v : P d.v
  cov : ∀ x e, (Item.object x, kObject) ∈ d.used → getObjectSchema b (.object x) = .ok e → C x e d.v
  stack : ∀ q ∈ d.stack, Reached b ds s q ∧ ∃ x, q.1 = .object x

/-- A call about a reference of something that was reached. -/
def Good (b : Bag) (ds : List Item) (s : Item) (src : Pair) (k : Option Key) (q : Pair) : Prop :=
  Fine b q ∧ Data q ∧ (holdsId q.1 = true → follow src k q = true → Reached b ds s q)

theorem previsit_inv (hw : Keeps w b P C) (hf : Decides w follow) {d d' : Dfs V} {src p : Pair}
    {key : Option Key} (hp : Good b ds s src key p) (h : previsit w d src key p = .ok d')
    (hP : SInv b ds s P C d) : SInv b ds s P C d' := by
  obtain ⟨p1, p2, p3⟩ := hp
  unfold previsit at h
  split at h
  · cases h
  split at h
  · cases h
  rename_i should v hv
  have h1 := hw.inv _ _ _ _ _ _ p1 p2 hv hP.v
  have h3 := fun x e hx he => hw.stays _ _ _ _ _ _ x e hv (hP.cov x e hx he)
  have h2 := hf _ _ _ _ _ _ hv
  split at h
  · rename_i hc
    cases h
    simp only [Bool.and_eq_true] at hc
    refine ⟨h1, h3, ?_⟩
    intro q hq
    rcases List.mem_cons.mp hq with rfl | hq
    · exact ⟨p3 hc.2 (by rw [← h2]; exact hc.1), (holdsId_iff _).mp hc.2⟩
    · exact hP.stack q hq
  · cases h
    exact ⟨h1, h3, hP.stack⟩

theorem previsitAll_inv (hw : Keeps w b P C) (hf : Decides w follow) {src : Pair} :
    ∀ {cs : List (Key × Pair)} {d d' : Dfs V}, (∀ c ∈ cs, Good b ds s src (some c.1) c.2) →
      previsitAll w src d cs = .ok d' → SInv b ds s P C d → SInv b ds s P C d'
  | [], d, d', _, h, hP => by cases h; exact hP
  | (k, p) :: cs, d, d', hg, h, hP => by
    unfold previsitAll at h
    split at h
    · cases h
    rename_i d1 h1
    exact previsitAll_inv hw hf (fun c hc => hg c (List.mem_cons_of_mem _ hc)) h
      (previsit_inv hw hf (hg _ (List.mem_cons_self ..)) h1 hP)

theorem expand_inv (hb : b.Ok) (hw : Keeps w b P C) (hf : Decides w follow)
    (hd : ∀ U n T, (n, .object T) ∈ b.schemaAttrs U → T.isImplicitSchema = false)
    (hdata : ∀ q, Reached b ds s q → Data q)
    {x : ObjectId} {s' e : Item} {d d' : Dfs V} (hr : Reached b ds s (.object x, s'))
    (ho : Own b x s' e) (hobj : e = kObject → getObjectSchema b (.object x) = .ok kObject)
    (h : expand w b d (.object x) e = .ok d') (hP : SInv b ds s P C d) : SInv b ds s P C d' := by
  have hgood : ∀ k q, Fine b q → (holdsId q.1 = true → Ref b x e k q) →
      Good b ds s (.object x, e) (some k) q := by
    intro k q h1 h2
    have h3 : holdsId q.1 = true → follow (.object x, e) (some k) q = true → Reached b ds s q := by
      intro h4 h5
      obtain ⟨r, h6, h7⟩ := hr
      exact ⟨r, h6, h7.step ⟨x, e, k, rfl, ho, h2 h4, h5⟩⟩
    refine ⟨h1, ?_, h3⟩
    intro y hy ht
    have h4 : holdsId q.1 = true := by rw [hy]; rfl
    have h5 : follow (.object x, e) (some k) q = true := by
      obtain ⟨q1, q2⟩ := q
      simp only at hy
      subst hy
      exact follow_data ht
    exact hdata q (h3 h4 h5) y hy ht
  unfold expand at h
  rw [if_pos (by simp [kSchema])] at h
  split at h
  · cases h
  rename_i d1 h1
  split at h
  · cases h
  rename_i t ht
  split at h
  · cases h
  rename_i cs hcs
  refine previsitAll_inv hw hf ?_ h (previsit_inv hw hf ?_ h1 hP)
  · rintro ⟨k, q⟩ hc
    refine hgood k q (calls_fine hd ht hcs _ hc) ?_
    intro h4
    exact ((mem_forEachObject hb ht hcs hobj k q).mp ⟨hc, h4⟩).1
  · refine hgood _ _ (by intro T hT; cases hT) ?_
    intro h4
    obtain ⟨U, rfl⟩ := (holdsId_iff e).mp h4
    exact .schema

theorem dfsStep_inv (hb : b.Ok) (hw : Keeps w b P C) (hf : Decides w follow)
    (hd : ∀ U n T, (n, .object T) ∈ b.schemaAttrs U → T.isImplicitSchema = false)
    (hdata : ∀ q, Reached b ds s q → Data q)
    {d d' : Dfs V} (h : dfsStep w b d = .ok d') (hP : SInv b ds s P C d) : SInv b ds s P C d' := by
  unfold dfsStep at h
  split at h
  · cases h; exact hP
  rename_i p rest hst
  have hrest : ∀ q ∈ rest, Reached b ds s q ∧ ∃ x, q.1 = .object x := by
    intro q hq; exact hP.stack q (by rw [hst]; exact List.mem_cons_of_mem _ hq)
  split at h
  · cases h; exact ⟨hP.v, hP.cov, hrest⟩
  obtain ⟨hr, x, hx⟩ := hP.stack p (by rw [hst]; exact List.mem_cons_self ..)
  obtain ⟨px, ps⟩ := p
  simp only at hx
  subst hx
  dsimp only at h
  split at h
  · rename_i hO
    subst hO
    split at h
    · cases h
    rename_i e he
    split at h
    · cases h
    rename_i should v hp
    have hdt : Data (.object x, e) := by
      intro y hy _
      exact hdata _ hr y hy (.inl rfl)
    have := hw.inv _ _ _ _ _ _ (own_fine he) hdt hp hP.v
    have hcov : ∀ y e', (Item.object y, kObject) ∈ (Item.object x, kObject) :: d.used →
        getObjectSchema b (.object y) = .ok e' → C y e' v := by
      intro y e' hy he'
      rcases List.mem_cons.mp hy with hy | hy
      · cases hy
        rw [he] at he'
        cases he'
        exact hw.begins _ _ _ _ _ _ _ hp
      · exact hw.stays _ _ _ _ _ _ _ _ hp (hP.cov y e' hy he')
    split at h
    · cases h; exact ⟨this, hcov, hrest⟩
    split at h
    · cases h
    rename_i d1 h1
    cases h
    have h3 := expand_inv hb hw hf hd hdata hr (own_object he)
      (fun h1 => by rw [he, h1]) h1 ⟨this, hcov, hrest⟩
    exact ⟨h3.v, h3.cov, h3.stack⟩
  · rename_i hO
    split at h
    · cases h
    rename_i d1 h1
    cases h
    have h3 := expand_inv (C := C) hb hw hf hd hdata hr (.other hO)
      (fun h1 => absurd h1 hO) h1 ⟨hP.v, ?_, hrest⟩
    · exact ⟨h3.v, h3.cov, h3.stack⟩
    · intro y e' hy he'
      rcases List.mem_cons.mp hy with hy | hy
      · cases hy
        exact absurd rfl hO
      · exact hP.cov y e' hy he'

theorem dfs_inv (hb : b.Ok) (hw : Keeps w b P C) (hf : Decides w follow)
    (hd : ∀ U n T, (n, .object T) ∈ b.schemaAttrs U → T.isImplicitSchema = false)
    (hdata : ∀ q, Reached b ds s q → Data q) :
    ∀ (n : Nat) {d d' : Dfs V}, dfs w b n d = some (.ok d') → SInv b ds s P C d → SInv b ds s P C d'
  | 0, d, d', h, hP => by
    unfold dfs at h
    split at h
    · cases h; exact hP
    · cases h
  | n + 1, d, d', h, hP => by
    unfold dfs at h
    split at h
    · cases h; exact hP
    split at h
    · cases h
    rename_i d1 h1
    exact dfs_inv hb hw hf hd hdata n h (dfsStep_inv hb hw hf hd hdata h1 hP)

theorem mem_rootCalls {s : Item} {c : Key × Pair} : ∀ (ds : List Item) (i : Nat),
    c ∈ rootCalls s i ds → ∃ j y, ds[j]? = some y ∧ c = (.sliceItem (i + j), (y, s))
  | [], _, hc => by simp [rootCalls] at hc
  | x :: ds, i, hc => by
    unfold rootCalls at hc
    rcases List.mem_cons.mp hc with rfl | hc
    · exact ⟨0, x, rfl, rfl⟩
    · obtain ⟨j, y, h1, h2⟩ := mem_rootCalls ds _ hc
      refine ⟨j + 1, y, by simpa using h1, ?_⟩
      rw [h2]
      simp only [Prod.mk.injEq, Key.sliceItem.injEq, and_true]
      omega

theorem init_inv (hw : Keeps w b P C) (hf : Decides w follow) {v : V} {d : Dfs V}
    (hs : ∀ T, s = .object T → T.isImplicitSchema = false)
    (hdata : ∀ q, Reached b ds s q → Data q)
    (h : initDfs w v ds s = .ok d) (hP : P v) : SInv b ds s P C d := by
  unfold initDfs at h
  split at h
  · cases h
  rename_i d1 h1
  refine previsitAll_inv hw hf ?_ h (previsit_inv hw hf ?_ h1 ⟨hP, by simp, by simp⟩)
  · intro c hc
    obtain ⟨j, y, h2, rfl⟩ := mem_rootCalls ds 0 hc
    have h3 : holdsId y = true → follow (.missing, .missing) (some (.sliceItem (0 + j))) (y, s) = true →
        Reached b ds s (y, s) := by
      intro h4 h5
      obtain ⟨o, rfl⟩ := (holdsId_iff y).mp h4
      refine ⟨_, .inr ⟨j, o, h2, rfl, ?_⟩, .refl⟩
      simpa using h5
    refine ⟨?_, ?_, h3⟩
    · intro T hT hi
      rw [hs T hT] at hi
      cases hi
    · intro o ho ht
      simp only at ho ht
      subst ho
      exact hdata _ (h3 rfl (follow_data ht)) o rfl ht
  · have h3 : holdsId s = true → follow (.missing, .missing) none (s, kSchema) = true →
        Reached b ds s (s, kSchema) := by
      intro h4 h5
      obtain ⟨o, rfl⟩ := (holdsId_iff s).mp h4
      exact ⟨_, .inl ⟨o, rfl, rfl, h5⟩, .refl⟩
    refine ⟨(fun T hT => nomatch hT), ?_, h3⟩
    intro y hy ht
    rcases ht with ht | ⟨T, ht⟩ <;> cases ht

end

end Verif.Clone
