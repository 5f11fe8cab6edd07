import Verif.Clone.Visit
import Verif.Traverse.Stop

/-!
The whole operation.
-/

namespace Verif.Clone

open Verif.ObjectId
open Verif.Uuid
open Verif.Traverse

section
variable {S : Type} {H : HashFn S} {alloc : Nat → BitVec 6 → BitVec 6 → AllocationId} {b : Bag}
  {ds : List Item} {s : Item}

theorem ref_mentioned {x : ObjectId} {s1 e : Item} {k : Key} {q : Pair}
    (hs : ∀ T, s1 = .object T → Mentioned b ds s T) (ho : Own b x s1 e) (h : Ref b x e k q) :
    (∀ x, q.1 = .object x → Mentioned b ds s x) ∧ ∀ x, q.2 = .object x → Mentioned b ds s x := by
  have hown : ∀ T, e = .object T → Mentioned b ds s T := by
    intro T hT
    subst hT
    generalize hs' : Item.object T = e' at ho
    cases ho with
    | object h4 _ => rw [← hs'] at h4; exact .attr h4
    | other _ => exact hs T hs'.symm
  have hlist : ∀ T t, ListSchema b T t → ∀ x, t = .object x → Mentioned b ds s x := by
    intro T t h x hx
    refine .schemaAttr (S := T) (n := named "__items__") ?_
    rw [h, hx]; simp
  have hkey : ∀ T k v, DictSchema b T k v → ∀ x, k = .object x → Mentioned b ds s x := by
    intro T k v h x hx
    refine .schemaAttr (S := T) (n := named "__keys__") ?_
    rcases h with h | h <;> rw [h, hx] <;> simp
  have hval : ∀ T k v, DictSchema b T k v → ∀ x, v = .object x → Mentioned b ds s x := by
    intro T k v h x hx
    refine .schemaAttr (S := T) (n := named "__values__") ?_
    rcases h with h | h <;> rw [h, hx] <;> simp
  cases h with
  | schema => exact ⟨fun x hx => hown x hx, fun x hx => by cases hx⟩
  | listItem _ h5 _ h7 =>
    exact ⟨fun x hx => by cases hx; exact .list (List.mem_of_getElem? h7), hlist _ _ h5⟩
  | dictKey _ h5 _ h7 =>
    exact ⟨fun x hx => by cases hx; exact .key (List.mem_of_getElem? h7), hkey _ _ _ h5⟩
  | dictValue _ h5 _ h7 =>
    exact ⟨fun x hx => by cases hx; exact .value (List.mem_of_getElem? h7), hval _ _ _ h5⟩
  | attr _ _ h6 _ h8 =>
    exact ⟨fun x hx => by cases hx; exact .attr h8, fun x hx => by
      simp only at hx; subst hx; exact .schemaAttr h6⟩
  | schemaAttr _ h6 h7 =>
    refine ⟨fun x hx => by cases hx; exact .schemaAttr h6, fun x hx => ?_⟩
    cases h7 <;> cases hx

/-- Everything that is reached is in the slice or in the bag. -/
theorem reached_mentioned {p : Pair} (h : Reached b ds s p) :
    (∀ x, p.1 = .object x → Mentioned b ds s x) ∧ ∀ x, p.2 = .object x → Mentioned b ds s x := by
  obtain ⟨r, hr, hp⟩ := h
  induction hp with
  | refl =>
    rcases hr with ⟨o, h1, rfl, _⟩ | ⟨i, o, h1, rfl, _⟩
    · exact ⟨fun x hx => .schema hx, fun x hx => by cases hx⟩
    · exact ⟨fun x hx => by cases hx; exact .item (List.mem_of_getElem? h1), fun x hx => .schema hx⟩
  | step _ he ih =>
    obtain ⟨x, e, k, h1, h2, h3, _⟩ := he
    exact ref_mentioned ih.2 h2 h3

/-- Schemas that are reached are implicit ones. -/
theorem reached_schema {x : ObjectId} (h : Reached b ds s (.object x, .dtype 12)) :
    x.isImplicitSchema = true := by
  obtain ⟨r, hr, hp⟩ := h
  generalize hq : ((Item.object x, Item.dtype 12) : Pair) = q at hp
  cases hp with
  | refl =>
    rcases hr with ⟨o, _, h1, h2⟩ | ⟨i, o, _, h1, h2⟩
    · rw [← hq] at h2; exact h2
    · rw [← hq] at h2; exact h2
  | step _ he =>
    obtain ⟨_, _, _, _, _, _, h4⟩ := he
    rw [← hq] at h4
    exact h4

theorem follow_own (ho : Ordinary H b ds s) (x : ObjectId) (e : Item) (h : Own b x kObject e) :
    follow (.object x, kObject) (some .objectSchema) (.object x, e) = true := by
  generalize hk : kObject = k at h
  cases h with
  | object h1 h2 =>
    rcases ho.own x with h3 | ⟨T, h3⟩
    · rw [h3] at h1; exact absurd h1.symm h2
    · rw [h3] at h1; subst h1; rfl
  | other h1 => exact absurd hk.symm h1

theorem reached_data (ho : Ordinary H b ds s) (q : Pair) (h : Reached b ds s q) : Data q := by
  intro y hy ht
  obtain ⟨q1, q2⟩ := q
  simp only at hy ht
  subst hy
  exact ho.data y q2 h ht

theorem copied_inj {f : Tracker} {old : ObjectId → Prop}
    (hinj : ∀ x y, Has f x → Has f y → newId f x = newId f y → x = y)
    (hfresh : ∀ x, Has f x → ¬ old (newId f x)) {y y' t : Item} (hk : Known f y t) (hk' : Known f y' t)
    (hm : ∀ o, y = .object o → old o) (hm' : ∀ o, y' = .object o → old o)
    (h : copied (newId f) y t = copied (newId f) y' t) : y = y' := by
  by_cases ht : t = .dtype 10
  · have : ∀ z, copied (newId f) z t = z := by
      intro z
      unfold copied
      split
      · rw [if_pos (.inl ht)]
      · rfl
    rw [this, this] at h
    exact h
  · cases y with
    | object o =>
      cases y' with
      | object o' =>
        simp only [copied, ht, false_or] at h
        by_cases h1 : Explicit o
        · rw [if_pos h1] at h
          by_cases h2 : Explicit o'
          · rw [if_pos h2] at h; exact h
          · rw [if_neg h2] at h
            injection h with h
            exact absurd (h ▸ hm o rfl) (hfresh o' (hk' o' rfl ht h2))
        · rw [if_neg h1] at h
          by_cases h2 : Explicit o'
          · rw [if_pos h2] at h
            injection h with h
            exact absurd (h ▸ hm' o' rfl) (hfresh o (hk o rfl ht h1))
          · rw [if_neg h2] at h
            injection h with h
            rw [hinj o o' (hk o rfl ht h1) (hk' o' rfl ht h2) h]
      | _ => simp only [copied] at h; split at h <;> cases h
    | _ =>
      cases y' with
      | object o' => simp only [copied] at h; split at h <;> cases h
      | _ => exact h

theorem start_inv {N : Nat} : TInv H alloc b N State.start ∧ Implicits H b State.start.tracker := by
  refine ⟨⟨?_, ?_⟩, ?_⟩
  · intro a v h; cases h
  · intro _ a a' v h; cases h
  · intro a v h; cases h

theorem clone_ok {fuel : Nat} {out : List Item} {st : State} (hb : b.Ok) (ho : Ordinary H b ds s)
    (h : deepClone H alloc b fuel ds s = some (.ok (out, st)))
    (hA : NewIds alloc st.count (Mentioned b ds s))
    (hC : NoCollision H alloc st.count b (Mentioned b ds s)) :
    IsClone H b ds s (newId st.tracker) out st.bag := by
  have hi : ∀ x T, b.attr x schemaAttrName = .object T → T.isImplicitSchema = true →
      T = implicitOf H x ∧ x.isSchema = false := by
    rw [← named_schema]; exact ho.implicit
  have hdata := reached_data ho
  unfold deepClone at h
  split at h
  · cases h
  split at h
  · cases h
  · cases h
  rename_i stv hv
  simp only [Option.some.injEq] at h
  unfold traverseSlice at hv
  split at hv
  · cases hv
  rename_i d hd
  split at hv
  · cases hv
  · cases hv
  rename_i d' hd'
  simp only [Option.some.injEq] at hv
  have hk := keeps_clone (H := H) (b := b) hA (fun x T h1 h2 => (hi x T h1 h2).2)
  have hs0 := init_inv hk decides_clone ho.root hdata hd ⟨start_inv, rfl⟩
  have hs1 := dfs_inv hb hk decides_clone ho.declared hdata fuel hd' hs0
  obtain ⟨⟨t0, i0⟩, g0⟩ := hs1.v
  obtain ⟨_, hmem, _⟩ := search_order hb decides_clone (follow_own ho) hd hd'
  have howned := search_owned hb decides_clone (follow_own ho) hd hd'
  obtain ⟨hgood, _⟩ := dfs_good hb decides_clone (follow_own ho) fuel
    (init_good (b := b) decides_clone hd) hd'
  have hvis : ∀ p ∈ d'.order, Visitable b p := by
    intro p hp
    have hr : Reached b ds s p := (hmem p).mp hp
    refine ⟨howned p hp, ?_, ?_, hdata p hr⟩
    · intro x e _ h2 h3
      rw [h2] at h3
      cases h3 with
      | object h4 h5 =>
        rcases ho.own x with h6 | ⟨T, h6⟩
        · rw [h6] at h4; exact absurd h4.symm h5
        · exact ⟨T, by rw [← h4, h6]⟩
      | other h4 => exact absurd rfl h4
    · intro x h1 h2
      obtain ⟨p1, p2⟩ := p
      simp only at h1 h2
      subst h1 h2
      exact reached_schema hr
  obtain ⟨m1, m2⟩ := visitInPostOrder_clone hb hA hvis hv
  obtain ⟨r1, r2, r3⟩ := resultItems_ok (H := H) (b := b) hA h
  have tf : TInv H alloc b st.count st := r1.inv (m1.inv t0)
  obtain ⟨found, run⟩ := m2 st.tracker r1.grows
  have hN : st.count ≤ st.count := Nat.le_refl _
  have hinj : ∀ x y, Has st.tracker x → Has st.tracker y →
      newId st.tracker x = newId st.tracker y → x = y :=
    fun x y hx hy => newId_inj hA hN hC hi tf hx hy
  have hfresh : ∀ x, Has st.tracker x → ¬ Mentioned b ds s (newId st.tracker x) :=
    fun x hx => newId_fresh hA hN hC hi tf hx
  have hhas : ∀ x t, Reached b ds s (.object x, t) → Kind t → Has st.tracker x := by
    intro x t hr ht
    exact (found _ ((hmem _).mpr hr)).has ht x rfl
  have hcl : ∀ x, Cloned b ds s x → Has st.tracker x := by
    rintro x ⟨t, h1, h2⟩
    exact hhas x t h1 h2
  have hmoved : ∀ p ∈ d'.order, Moved st.tracker p := by
    rintro p hp x rfl hc
    have hr : Reached b ds s _ := (hmem _).mp hp
    refine hfresh x (hhas x _ hr (.inr (.inl rfl))) ?_
    rw [← hc]
    exact (reached_mentioned hr).1 x rfl
  have facts : Facts b (newId st.tracker) (Reached b ds s) := by
    refine ⟨hb, ?_, ho.one, ho.names, ho.keys, ?_⟩
    · intro x y s1 s2 h1 h2 k1 k2
      exact hinj x y (hhas x s1 h1 k1) (hhas y s2 h2 k2)
    · intro x s1 T k v hr hown hn hD y z y' z' hy hy' hc
      have hkn := (found _ ((hmem _).mpr hr)).keys x T k v rfl hown hn hD
      refine copied_inj (old := Mentioned b ds s) hinj hfresh (hkn _ hy) (hkn _ hy') ?_ ?_ hc
      · intro o h1; subst h1; exact .key hy
      · intro o h1; subst h1; exact .key hy'
  refine ⟨r3 _ (.refl _), fun x y hx hy => hinj x y (hcl x hx) (hcl y hy), fun x hx => hfresh x (hcl x hx),
    fun x y hx _ => newId_together hA hi tf (hcl x hx), fun x hx hs => newId_kind hA hi tf (hcl x hx) hs,
    ?_, ?_⟩
  · intro x T hr hown hT
    have hu : (Item.object x, kObject) ∈ d'.used := (hgood.inv.mem _).mpr (.inl ((hmem _).mpr hr))
    have hattr : b.attr x schemaAttrName = .object T := by
      rw [← named_schema]
      generalize hk : Item.dtype 11 = k at hown
      cases hown with
      | object h1 _ => exact h1
      | other _ => cases hk
    refine newId_implicit hA hC named_schema.symm hi tf i0 (m1.grows.trans r1.grows) hattr hT
      (hhas x _ hr (.inl rfl)) ?_
    refine hs1.cov x (.object T) hu ?_ T rfl hT
    simp [getObjectSchema, getAttr, hattr]
  · have := (run hmoved).inv facts [] (by intro q hq; exact (hmem q).mp (by simpa using hq))
      (by rw [g0]; exact inv_empty b _)
    rw [r2]
    refine Inv.content facts ?_ (by simpa using this)
    intro q
    exact hmem q

end

end Verif.Clone
