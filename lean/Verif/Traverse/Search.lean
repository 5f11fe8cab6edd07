import Verif.Traverse.Walk

/-! The depth first search of the model keeps the invariants. -/

namespace Verif.Traverse

open Verif.ObjectId
open Verif.Uuid

/-- Everything but the stack and the visitor is the same. -/
def SameRest {V : Type} (d d' : Dfs V) : Prop :=
  d'.onStack = d.onStack ∧ d'.used = d.used ∧ d'.order = d.order

section
variable {V : Type} {w : Visitor V} {want : Pair → Option Key → Pair → Bool}

theorem previsit_ok (hw : Decides w want) {d d' : Dfs V} {src p : Pair} {key : Option Key}
    (h : previsit w d src key p = .ok d') :
    SameRest d d' ∧
      d'.stack = (if want src key p && holdsId p.1 then [p] else []) ++ d.stack := by
  unfold previsit at h
  split at h
  · cases h
  split at h
  · cases h
  rename_i should v hp
  have := hw _ _ _ _ _ _ hp
  subst this
  split at h
  · rename_i hc; cases h; rw [if_pos hc]; exact ⟨⟨rfl, rfl, rfl⟩, rfl⟩
  · rename_i hc; cases h; rw [if_neg hc]; exact ⟨⟨rfl, rfl, rfl⟩, rfl⟩

theorem previsitAll_ok (hw : Decides w want) {src : Pair} :
    ∀ {cs : List (Key × Pair)} {d d' : Dfs V}, previsitAll w src d cs = .ok d' →
      SameRest d d' ∧ ∃ ks, d'.stack = ks ++ d.stack ∧
        ∀ q, q ∈ ks ↔ ∃ k, (k, q) ∈ cs ∧ holdsId q.1 = true ∧ want src (some k) q = true
  | [], d, d', h => by
    cases h
    exact ⟨⟨rfl, rfl, rfl⟩, [], by simp⟩
  | (k, p) :: cs, d, d', h => by
    unfold previsitAll at h
    split at h
    · cases h
    rename_i d1 h1
    obtain ⟨⟨a1, a2, a3⟩, a4⟩ := previsit_ok hw h1
    obtain ⟨⟨c1, c2, c3⟩, ks, c4, c5⟩ := previsitAll_ok hw h
    refine ⟨⟨by rw [c1, a1], by rw [c2, a2], by rw [c3, a3]⟩,
      ks ++ (if want src (some k) p && holdsId p.1 then [p] else []), ?_, ?_⟩
    · rw [c4, a4, List.append_assoc]
    · intro q
      rw [List.mem_append, c5]
      constructor
      · rintro (⟨k', h2, h3⟩ | h2)
        · exact ⟨k', List.mem_cons_of_mem _ h2, h3⟩
        · split at h2
          · rename_i hc
            simp at h2 hc
            subst h2
            exact ⟨k, by simp, hc.2, hc.1⟩
          · simp at h2
      · rintro ⟨k', h2, h3, h4⟩
        rcases List.mem_cons.mp h2 with h2 | h2
        · cases h2
          right
          rw [if_pos (by simp [h3, h4])]
          simp
        · exact .inl ⟨k', h2, h3, h4⟩

theorem expand_ok {b : Bag} (hb : b.Ok) (hw : Decides w want) {x : ObjectId} {e : Item}
    {d d' : Dfs V} (hobj : e = kObject → getObjectSchema b (.object x) = .ok kObject)
    (h : expand w b d (.object x) e = .ok d') :
    SameRest d d' ∧ ∃ ks, d'.stack = ks ++ d.stack ∧
      ∀ q, q ∈ ks ↔ ∃ k, Ref b x e k q ∧ want (.object x, e) (some k) q = true := by
  unfold expand at h
  rw [if_pos (by simp [kSchema])] at h
  split at h
  · cases h
  rename_i d1 h1
  split at h
  · cases h
  rename_i t ht
  split at h
  · cases h
  rename_i cs hcs
  obtain ⟨⟨a1, a2, a3⟩, a4⟩ := previsit_ok hw h1
  obtain ⟨⟨c1, c2, c3⟩, ks, c4, c5⟩ := previsitAll_ok hw h
  refine ⟨⟨by rw [c1, a1], by rw [c2, a2], by rw [c3, a3]⟩,
    ks ++ (if want (.object x, e) (some .schema) (e, kSchema) && holdsId e then [(e, kSchema)]
      else []), ?_, ?_⟩
  · rw [c4, a4, List.append_assoc]
  · intro q
    rw [List.mem_append, c5]
    constructor
    · rintro (⟨k, h2, h3, h4⟩ | h2)
      · exact ⟨k, ((mem_forEachObject hb ht hcs hobj k q).mp ⟨h2, h3⟩).1, h4⟩
      · split at h2
        · rename_i hc
          simp at h2 hc
          subst h2
          obtain ⟨S, rfl⟩ := (holdsId_iff e).mp hc.2
          exact ⟨.schema, .schema, hc.1⟩
        · simp at h2
    · rintro ⟨k, h2, h3⟩
      by_cases hk : k = .schema
      · subst hk
        right
        cases h2
        have h3' : want (Item.object x, Item.object _) (some .schema) (Item.object _, kSchema) = true :=
          h3
        rw [if_pos (by simp [h3', holdsId])]
        simp [kSchema]
      · obtain ⟨h4, h5⟩ := (mem_forEachObject hb ht hcs hobj k q).mpr ⟨h2, hk⟩
        exact .inl ⟨k, h4, h5, h3⟩

/-- The invariant of the search between two iterations. -/
structure Good (b : Bag) (want : Pair → Option Key → Pair → Bool) (root : Pair → Prop)
    (d : Dfs V) : Prop where
  inv : Inv (Edge b want) root d.stack d.onStack d.used d.order
  lt : ∀ a ∈ d.onStack, a.1 < d.stack.length
  ids : ∀ p ∈ d.stack, ∃ x, p.1 = .object x
  owned : ∀ p ∈ d.used, ∃ x e, p.1 = .object x ∧ Own b x p.2 e

theorem Good.ofInv {b : Bag} {root : Pair → Prop} {d : Dfs V}
    (h : Inv (Edge b want) root d.stack d.onStack d.used d.order)
    (hi : ∀ p ∈ d.stack, ∃ x, p.1 = .object x)
    (ho : ∀ p ∈ d.used, ∃ x e, p.1 = .object x ∧ Own b x p.2 e) :
    Good b want root (finish d) := by
  obtain ⟨h1, h2⟩ := Inv.flush _ _ h
  exact ⟨h1, h2, hi, ho⟩

theorem ref_id {b : Bag} {x : ObjectId} {e : Item} {k : Key} {q : Pair} (h : Ref b x e k q) :
    ∃ y, q.1 = .object y := by
  cases h <;> exact ⟨_, rfl⟩

theorem step_good {b : Bag} (hb : b.Ok) (hw : Decides w want)
    (hobj : ∀ x e, Own b x kObject e →
      want (.object x, kObject) (some .objectSchema) (.object x, e) = true) {root : Pair → Prop} {d d' : Dfs V}
    (hg : Good b want root d) (h : dfsStep w b d = .ok d') :
    Good b want root d' := by
  unfold dfsStep at h
  split at h
  · cases h; exact hg
  rename_i p rest hst
  have hinv := hg.inv
  have hlt := hg.lt
  rw [hst] at hinv hlt
  have hrest : ∀ q ∈ rest, ∃ x, q.1 = .object x := by
    intro q hq; exact hg.ids q (by rw [hst]; exact List.mem_cons_of_mem _ hq)
  by_cases hu : p ∈ d.used
  · rw [if_pos hu] at h
    cases h
    exact Good.ofInv (hinv.drop hlt hu) hrest hg.owned
  rw [if_neg hu] at h
  obtain ⟨x, hx⟩ := hg.ids p (by rw [hst]; simp)
  obtain ⟨px, ps⟩ := p
  simp only at hx
  subst hx
  simp only at h
  -- what is common to both cases
  have key : ∀ (e : Item) (v : V) (d1 : Dfs V), Own b x ps e →
      (e = kObject → getObjectSchema b (.object x) = .ok kObject) →
      expand w b { stack := rest, onStack := (rest.length, (.object x, ps)) :: d.onStack,
                   used := (.object x, ps) :: d.used, order := d.order, v := v } (.object x) e =
        .ok d1 → Good b want root (finish d1) := by
    intro e v d1 hown ho he
    obtain ⟨⟨a1, a2, a3⟩, ks, a4, a5⟩ := expand_ok hb hw ho he
    apply Good.ofInv
    · rw [a1, a2, a3, a4]
      refine hinv.open hlt hu ?_
      intro q
      rw [a5]
      constructor
      · rintro ⟨y, e', k, h1, h2, h3, h4⟩
        cases h1
        have := Own.unique hown h2
        subst this
        exact ⟨k, h3, h4⟩
      · rintro ⟨k, h3, h4⟩
        exact ⟨x, e, k, rfl, hown, h3, h4⟩
    · intro q hq
      rw [a4] at hq
      rcases List.mem_append.mp hq with hq | hq
      · obtain ⟨k, h1, _⟩ := (a5 q).mp hq
        exact ref_id h1
      · exact hrest q hq
    · intro q hq
      rw [a2] at hq
      rcases List.mem_cons.mp hq with rfl | hq
      · exact ⟨x, e, rfl, hown⟩
      · exact hg.owned q hq
  by_cases hO : ps = kObject
  · rw [if_pos hO] at h
    split at h
    · cases h
    rename_i e he
    split at h
    · cases h
    rename_i should v hp
    have := hw _ _ _ _ _ _ hp
    subst hO
    rw [hobj _ _ (own_object he)] at this
    subst this
    simp only [Bool.not_true, Bool.false_eq_true, if_false] at h
    split at h
    · cases h
    rename_i d1 hd1
    cases h
    refine key e v d1 (own_object he) ?_ hd1
    intro h1
    rw [he, h1]
  · rw [if_neg hO] at h
    split at h
    · cases h
    rename_i d1 hd1
    cases h
    exact key ps d.v d1 (.other hO) (fun h1 => absurd h1 hO) hd1

theorem dfs_good {b : Bag} (hb : b.Ok) (hw : Decides w want)
    (hobj : ∀ x e, Own b x kObject e →
      want (.object x, kObject) (some .objectSchema) (.object x, e) = true) {root : Pair → Prop} :
    ∀ (fuel : Nat) {d d' : Dfs V}, Good b want root d → dfs w b fuel d = some (.ok d') →
      Good b want root d' ∧ d'.stack = []
  | 0, d, d', hg, h => by
    unfold dfs at h
    split at h
    · rename_i hs; simp at h; subst h; exact ⟨hg, hs⟩
    · cases h
  | n + 1, d, d', hg, h => by
    unfold dfs at h
    split at h
    · rename_i hs; simp at h; subst h; exact ⟨hg, hs⟩
    · split at h
      · cases h
      · rename_i d1 hd1
        exact dfs_good hb hw hobj n (step_good hb hw hobj hg hd1) h

theorem mem_rootCalls (s : Item) (k : Key) (q : Pair) :
    ∀ (ds : List Item) (n : Nat), (k, q) ∈ rootCalls s n ds ↔
      ∃ i x, ds[i]? = some x ∧ k = .sliceItem (n + i) ∧ q = (x, s)
  | [], n => by simp [rootCalls]
  | x :: ds, n => by
    unfold rootCalls
    rw [List.mem_cons, mem_rootCalls s k q ds (n + 1)]
    constructor
    · rintro (h | ⟨i, y, h1, h2, h3⟩)
      · cases h; exact ⟨0, x, by simp, by simp, rfl⟩
      · exact ⟨i + 1, y, by simpa using h1, by rw [h2]; simp; omega, h3⟩
    · rintro ⟨i, y, h1, h2, h3⟩
      cases i with
      | zero => simp at h1; subst h1; left; simp [h2, h3]
      | succ i => exact .inr ⟨i, y, by simpa using h1, by rw [h2]; simp; omega, h3⟩

theorem init_good {b : Bag} (hw : Decides w want) {v : V} {ds : List Item} {s : Item} {d : Dfs V}
    (h : initDfs w v ds s = .ok d) : Good b want (Root want ds s) d := by
  unfold initDfs at h
  split at h
  · cases h
  rename_i d1 h1
  obtain ⟨⟨a1, a2, a3⟩, a4⟩ := previsit_ok hw h1
  obtain ⟨⟨c1, c2, c3⟩, ks, c4, c5⟩ := previsitAll_ok hw h
  have hroot : ∀ r, Root want ds s r ↔ r ∈ d.stack := by
    intro r
    rw [c4, a4, List.append_nil, List.mem_append, c5]
    unfold Root
    constructor
    · rintro (⟨o, rfl, rfl, h3⟩ | ⟨i, o, h2, rfl, h4⟩)
      · right
        rw [if_pos]
        · simp [kSchema]
        · have h3' : want (.missing, .missing) none (Item.object o, kSchema) = true := h3
          simp [h3', holdsId]
      · left
        exact ⟨.sliceItem i, (mem_rootCalls s _ _ ds 0).mpr ⟨i, _, h2, by simp, rfl⟩, rfl, h4⟩
    · rintro (⟨k, h2, h3, h4⟩ | h2)
      · right
        obtain ⟨i, x, h5, rfl, rfl⟩ := (mem_rootCalls s _ _ ds 0).mp h2
        obtain ⟨o, rfl⟩ := (holdsId_iff _).mp h3
        exact ⟨i, o, h5, rfl, by simpa using h4⟩
      · left
        split at h2
        · rename_i hc
          simp at h2 hc
          obtain ⟨o, rfl⟩ := (holdsId_iff s).mp hc.2
          exact ⟨o, rfl, h2, by rw [h2]; exact hc.1⟩
        · simp at h2
  refine ⟨?_, ?_, ?_, ?_⟩
  · rw [c1, c2, c3, a1, a2, a3]
    exact Inv.init _ hroot
  · rw [c1, a1]; simp
  · intro p hp
    rcases (hroot p).mpr hp with ⟨o, h1, h2, _⟩ | ⟨_, o, _, h2, _⟩
    · exact ⟨o, by rw [h2]; exact h1⟩
    · exact ⟨o, by rw [h2]⟩
  · rw [c2, a2]; simp

/-- The order of a search that is over. -/
theorem search_order {b : Bag} (hb : b.Ok) (hw : Decides w want)
    (hobj : ∀ x e, Own b x kObject e →
      want (.object x, kObject) (some .objectSchema) (.object x, e) = true) {v : V} {ds : List Item} {s : Item}
    {d d' : Dfs V} {fuel : Nat} (hi : initDfs w v ds s = .ok d)
    (hd : dfs w b fuel d = some (.ok d')) :
    d'.order.Nodup ∧
      (∀ p, p ∈ d'.order ↔ ∃ r, Root want ds s r ∧ Reach (Edge b want) r p) ∧
      ∀ l p r, d'.order = l ++ p :: r → ∀ q, Edge b want p q →
        q ∈ l ∨ Reach (Edge b want) q p :=
  by
  obtain ⟨hg, hs⟩ := dfs_good hb hw hobj fuel (init_good (b := b) hw hi) hd
  have hinv := hg.inv
  have hlt := hg.lt
  rw [hs] at hinv hlt
  exact hinv.final hlt

/-- Every item in the order has a schema of its own. -/
theorem search_owned {b : Bag} (hb : b.Ok) (hw : Decides w want)
    (hobj : ∀ x e, Own b x kObject e →
      want (.object x, kObject) (some .objectSchema) (.object x, e) = true) {v : V} {ds : List Item} {s : Item}
    {d d' : Dfs V} {fuel : Nat} (hi : initDfs w v ds s = .ok d)
    (hd : dfs w b fuel d = some (.ok d')) :
    ∀ p ∈ d'.order, ∃ x e, p.1 = .object x ∧ Own b x p.2 e := by
  obtain ⟨hg, _⟩ := dfs_good hb hw hobj fuel (init_good (b := b) hw hi) hd
  intro p hp
  exact hg.owned p ((hg.inv.mem p).mpr (.inl hp))

end

end Verif.Traverse
