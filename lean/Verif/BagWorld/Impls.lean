import Verif.BagWorld.Spec
/-
Lemmas about implementations: what the operations that modify, fork and freeze
them do to the layers of the others.
-/

namespace Verif.BagWorld

open Verif.BagAttr

/-- The invariant of implementations. -/
structure ImplsOk (impls : List Impl) : Prop where
  id : ∀ (i : Nat) (m : Impl), impls[i]? = some m → m.layer.id = i
  wf : ∀ (i : Nat) (m : Impl), impls[i]? = some m → m.layer.WF
  par : ∀ (i : Nat) (m : Impl) (p : Nat), impls[i]? = some m → m.parent = some p →
    p < i ∧ ∃ mp : Impl, impls[p]? = some mp ∧ mp.frozen = true

/-- `Bag.lookup` in terms of layers. -/
def lookLayers (ls : List Layer) (x : Obj) (attr : Attr) : Cell :=
  if x.alloc.isSmall then lookupSmall x attr ls else lookupBig x attr ls

theorem lookup_eq (b : Bag) (x : Obj) (attr : Attr) : b.lookup x attr = lookLayers b.layers x attr := rfl

theorem layersOf_none {impls : List Impl} {i : Nat} (h : impls[i]? = none) : layersOf impls i = [] := by
  rw [layersOf.eq_def, h]

theorem layersOf_raw {impls : List Impl} {i : Nat} {m : Impl} (h : impls[i]? = some m)
    (hp : ∀ p, m.parent = some p → p < i) :
    layersOf impls i = m.layer :: parentLayers impls m.parent := by
  rw [layersOf.eq_def, h]
  simp only
  cases hm : m.parent with
  | none => rfl
  | some p => simp only [hp p hm, dite_true]; rfl

theorem layersOf_eq {impls : List Impl} (hok : ImplsOk impls) {i : Nat} {m : Impl}
    (h : impls[i]? = some m) : layersOf impls i = m.layer :: parentLayers impls m.parent :=
  layersOf_raw h fun p hp => (hok.par i m p h hp).1

theorem bagAt_some {impls : List Impl} {i : Nat} {m : Impl} (h : impls[i]? = some m) :
    bagAt impls i = some { frozen := m.frozen, top := m.layer, parents := parentLayers impls m.parent } := by
  unfold bagAt; rw [h]; rfl

theorem bagAt_inv {impls : List Impl} {i : Nat} {b : Bag} (h : bagAt impls i = some b) :
    ∃ m, impls[i]? = some m ∧
      b = { frozen := m.frozen, top := m.layer, parents := parentLayers impls m.parent } := by
  unfold bagAt at h
  cases hm : impls[i]? with
  | none => rw [hm] at h; cases h
  | some m => rw [hm] at h; exact ⟨m, rfl, (Option.some.inj h).symm⟩

theorem bagAt_layers {impls : List Impl} (hok : ImplsOk impls) {i : Nat} {b : Bag}
    (h : bagAt impls i = some b) : b.layers = layersOf impls i := by
  obtain ⟨m, hm, rfl⟩ := bagAt_inv h
  rw [layersOf_eq hok hm]; rfl

theorem layersOf_congr {impls impls' : List Impl} (P : Nat → Prop)
    (hP : ∀ (j : Nat) (m : Impl) (p : Nat), P j → impls[j]? = some m → m.parent = some p → P p)
    (hs : ∀ j, P j → (impls'[j]?).map (fun m => (m.layer, m.parent)) =
      (impls[j]?).map (fun m => (m.layer, m.parent))) :
    ∀ i, P i → layersOf impls' i = layersOf impls i := by
  intro i
  induction i using Nat.strongRecOn with
  | _ i ih =>
    intro hi
    have h := hs i hi
    rw [layersOf.eq_def, layersOf.eq_def]
    cases hm : impls[i]? with
    | none =>
      rw [hm] at h
      cases hm' : impls'[i]? with
      | none => rfl
      | some m' => rw [hm'] at h; cases h
    | some m =>
      rw [hm] at h
      cases hm' : impls'[i]? with
      | none => rw [hm'] at h; cases h
      | some m' =>
        rw [hm'] at h
        have h := Option.some.inj h
        have h1 : m'.layer = m.layer := congrArg Prod.fst h
        have h2 : m'.parent = m.parent := congrArg Prod.snd h
        simp only [h1, h2]
        cases hp : m.parent with
        | none => rfl
        | some p =>
          simp only
          by_cases hlt : p < i
          · simp only [hlt, dite_true]
            rw [ih p hlt (hP i m p hi hm hp)]
          · simp only [hlt, dite_false]

theorem layersOf_wf {impls : List Impl} (hok : ImplsOk impls) :
    ∀ i, ∀ l ∈ layersOf impls i, l.WF := by
  intro i
  induction i using Nat.strongRecOn with
  | _ i ih =>
    cases hm : impls[i]? with
    | none => rw [layersOf_none hm]; simp
    | some m =>
      rw [layersOf_eq hok hm]
      intro l hl
      rcases List.mem_cons.1 hl with rfl | hl
      · exact hok.wf i m hm
      · cases hp : m.parent with
        | none => rw [hp] at hl; cases hl
        | some p =>
          rw [hp] at hl
          exact ih p (hok.par i m p hm hp).1 l hl

theorem bagAt_wf {impls : List Impl} (hok : ImplsOk impls) {i : Nat} {b : Bag}
    (h : bagAt impls i = some b) : b.WF := by
  unfold Bag.WF
  rw [bagAt_layers hok h]
  exact layersOf_wf hok i

/-- All that is below a layer is determined by the layer. -/
theorem suffix_layersOf {impls : List Impl} (hok : ImplsOk impls) {l : Layer} {ls : List Layer} :
    ∀ i, l :: ls <:+ layersOf impls i →
      ∃ j m, impls[j]? = some m ∧ l :: ls = layersOf impls j ∧ l.id = j ∧
        (j = i ∨ m.frozen = true) := by
  intro i
  induction i using Nat.strongRecOn with
  | _ i ih =>
    intro h
    cases hm : impls[i]? with
    | none =>
      rw [layersOf_none hm] at h
      exact absurd (List.suffix_nil.1 h) (by simp)
    | some m =>
      have he := layersOf_eq hok hm
      rw [he, List.suffix_cons_iff] at h
      rcases h with h | h
      · refine ⟨i, m, hm, by rw [he]; exact h, ?_, .inl rfl⟩
        have := (List.cons.inj h).1
        rw [this]; exact hok.id i m hm
      · cases hp : m.parent with
        | none =>
          rw [hp] at h
          exact absurd (List.suffix_nil.1 h) (by simp)
        | some p =>
          rw [hp] at h
          obtain ⟨hlt, mp, h1, h2⟩ := hok.par i m p hm hp
          obtain ⟨j, mj, g1, g2, g3, g4⟩ := ih p hlt h
          refine ⟨j, mj, g1, g2, g3, .inr ?_⟩
          rcases g4 with g4 | g4
          · subst g4
            rw [h1] at g1
            exact (Option.some.inj g1) ▸ h2
          · exact g4

theorem related {impls : List Impl} (hok : ImplsOk impls) {i j : Nat} {b o : Bag}
    (hb : bagAt impls i = some b) (ho : bagAt impls j = some o) (hf : b.frozen = false) :
    Related b o := by
  constructor
  · intro l ls l' ls' h1 h2 h3
    rw [bagAt_layers hok hb] at h1
    rw [bagAt_layers hok ho] at h2
    obtain ⟨k, _, _, e1, e2, _⟩ := suffix_layersOf hok i h1
    obtain ⟨k', _, _, e1', e2', _⟩ := suffix_layersOf hok j h2
    have : k = k' := by rw [← e2, ← e2', h3]
    rw [e1, e1', this]
  · intro l hl hid
    left
    rw [bagAt_layers hok ho] at hl ⊢
    rw [bagAt_layers hok hb]
    obtain ⟨s, t, hst⟩ := List.append_of_mem hl
    obtain ⟨k, m, e0, e1, e2, e3⟩ := suffix_layersOf hok j (l := l) (ls := t) ⟨s, hst.symm⟩
    obtain ⟨mb, hmb, rfl⟩ := bagAt_inv hb
    have hki : k = i := by rw [← e2, hid]; exact hok.id i mb hmb
    subst hki
    rcases e3 with e3 | e3
    · rw [e3]
    · rw [hmb] at e0
      rw [← Option.some.inj e0] at e3
      simp only at hf
      rw [hf] at e3
      cases e3

/-- For an update the bags need not be mutable. -/
theorem shared {impls : List Impl} (hok : ImplsOk impls) {i j : Nat} {b o : Bag}
    (hb : bagAt impls i = some b) (ho : bagAt impls j = some o) :
    ∀ l ls l' ls', l :: ls <:+ b.layers → l' :: ls' <:+ o.layers → l.id = l'.id →
      l :: ls = l' :: ls' := by
  intro l ls l' ls' h1 h2 h3
  rw [bagAt_layers hok hb] at h1
  rw [bagAt_layers hok ho] at h2
  obtain ⟨k, _, _, e1, e2, _⟩ := suffix_layersOf hok i h1
  obtain ⟨k', _, _, e1', e2', _⟩ := suffix_layersOf hok j h2
  have : k = k' := by rw [← e2, ← e2', h3]
  rw [e1, e1', this]

theorem layer_id_lt {impls : List Impl} (hok : ImplsOk impls) {i : Nat} {l : Layer}
    (hl : l ∈ layersOf impls i) : l.id < impls.length := by
  obtain ⟨s, t, hst⟩ := List.append_of_mem hl
  obtain ⟨k, m, e0, _, e2, _⟩ := suffix_layersOf hok i (l := l) (ls := t) ⟨s, hst.symm⟩
  rw [e2]
  exact (List.getElem?_eq_some_iff.1 e0).1

/-! ### Freezing -/

theorem length_freeze (impls : List Impl) (i : Nat) : (freezeImpl impls i).length = impls.length := by
  unfold freezeImpl; rw [List.length_modify]

theorem get_freeze (impls : List Impl) (i j : Nat) : (freezeImpl impls i)[j]? =
    (impls[j]?).map fun m => if i = j then { m with frozen := true } else m := by
  unfold freezeImpl
  rw [List.getElem?_modify]
  cases impls[j]? with
  | none => rfl
  | some m => by_cases h : i = j <;> simp [h]

theorem layersOf_freeze (impls : List Impl) (i j : Nat) :
    layersOf (freezeImpl impls i) j = layersOf impls j := by
  refine layersOf_congr (fun _ => True) (fun _ _ _ _ _ _ => trivial) ?_ j trivial
  intro k _
  rw [get_freeze]
  cases impls[k]? with
  | none => rfl
  | some m => by_cases h : i = k <;> simp [h]

theorem freeze_ok {impls : List Impl} (hok : ImplsOk impls) (i : Nat) : ImplsOk (freezeImpl impls i) := by
  have key : ∀ (j : Nat) (m : Impl), (freezeImpl impls i)[j]? = some m → ∃ m0, impls[j]? = some m0 ∧
      m.layer = m0.layer ∧ m.parent = m0.parent := by
    intro j m h
    rw [get_freeze] at h
    cases hm : impls[j]? with
    | none => rw [hm] at h; cases h
    | some m0 =>
      rw [hm] at h
      have := (Option.some.inj h).symm
      refine ⟨m0, rfl, ?_, ?_⟩ <;> rw [this] <;> by_cases h : i = j <;> simp [h]
  constructor
  · intro j m h
    obtain ⟨m0, h0, h1, _⟩ := key j m h
    rw [h1]; exact hok.id j m0 h0
  · intro j m h
    obtain ⟨m0, h0, h1, _⟩ := key j m h
    rw [h1]; exact hok.wf j m0 h0
  · intro j m p h hp
    obtain ⟨m0, h0, _, h2⟩ := key j m h
    obtain ⟨hlt, mp, g1, g2⟩ := hok.par j m0 p h0 (h2 ▸ hp)
    refine ⟨hlt, _, by rw [get_freeze, g1]; rfl, ?_⟩
    by_cases h : i = p <;> simp [h, g2]

theorem frozen_freeze {impls : List Impl} {i : Nat} (h : i < impls.length) :
    ∃ m, (freezeImpl impls i)[i]? = some m ∧ m.frozen = true := by
  rw [get_freeze, List.getElem?_eq_getElem h]
  exact ⟨_, rfl, by simp⟩

/-! ### New implementations -/

theorem get_append_lt {impls : List Impl} (ms : List Impl) {j : Nat} (h : j < impls.length) :
    (impls ++ ms)[j]? = impls[j]? := List.getElem?_append_left h

theorem layersOf_append {impls : List Impl} (hok : ImplsOk impls) (ms : List Impl) {j : Nat}
    (h : j < impls.length) : layersOf (impls ++ ms) j = layersOf impls j := by
  refine layersOf_congr (fun j => j < impls.length) ?_ ?_ j h
  · intro j m p hj hm hp
    exact Nat.lt_trans (hok.par j m p hm hp).1 hj
  · intro j hj
    rw [get_append_lt ms hj]

theorem parentLayers_append {impls : List Impl} (hok : ImplsOk impls) (ms : List Impl)
    {p : Option Nat} (h : ∀ q, p = some q → q < impls.length) :
    parentLayers (impls ++ ms) p = parentLayers impls p := by
  cases p with
  | none => rfl
  | some q => exact layersOf_append hok ms (h q rfl)

theorem append_ok {impls : List Impl} (hok : ImplsOk impls) {m : Impl}
    (hid : m.layer.id = impls.length) (hwf : m.layer.WF)
    (hp : ∀ p, m.parent = some p → ∃ mp : Impl, impls[p]? = some mp ∧ mp.frozen = true) :
    ImplsOk (impls ++ [m]) := by
  have key : ∀ (j : Nat) (m' : Impl), (impls ++ [m])[j]? = some m' →
      (j < impls.length ∧ impls[j]? = some m') ∨ (j = impls.length ∧ m' = m) := by
    intro j m' h
    by_cases hj : j < impls.length
    · rw [get_append_lt _ hj] at h; exact .inl ⟨hj, h⟩
    · rw [List.getElem?_append_right (Nat.le_of_not_lt hj)] at h
      have hlt := (List.getElem?_eq_some_iff.1 h).1
      simp only [List.length_singleton] at hlt
      have hj' : j = impls.length := by omega
      subst hj'
      simp at h
      exact .inr ⟨rfl, h.symm⟩
  constructor
  · intro j m' h
    rcases key j m' h with ⟨_, h⟩ | ⟨rfl, rfl⟩
    · exact hok.id j m' h
    · exact hid
  · intro j m' h
    rcases key j m' h with ⟨_, h⟩ | ⟨rfl, rfl⟩
    · exact hok.wf j m' h
    · exact hwf
  · intro j m' p h hpar
    have lift : ∀ mp, impls[p]? = some mp → p < impls.length ∧ (impls ++ [m])[p]? = some mp := by
      intro mp h
      have hlt := (List.getElem?_eq_some_iff.1 h).1
      exact ⟨hlt, by rw [get_append_lt _ hlt]; exact h⟩
    rcases key j m' h with ⟨_, h⟩ | ⟨rfl, rfl⟩
    · obtain ⟨h1, mp, h2, h3⟩ := hok.par j m' p h hpar
      exact ⟨h1, mp, (lift mp h2).2, h3⟩
    · obtain ⟨mp, h2, h3⟩ := hp p hpar
      exact ⟨(lift mp h2).1, mp, (lift mp h2).2, h3⟩

theorem get_append_last (impls : List Impl) (m : Impl) : (impls ++ [m])[impls.length]? = some m := by
  rw [List.getElem?_append_right (Nat.le_refl _)]; simp

theorem bagAt_append_last {impls : List Impl} (hok : ImplsOk impls) {m : Impl}
    (hp : ∀ p, m.parent = some p → p < impls.length) :
    bagAt (impls ++ [m]) impls.length =
      some { frozen := m.frozen, top := m.layer, parents := parentLayers impls m.parent } := by
  rw [bagAt_some (get_append_last impls m), parentLayers_append hok _ hp]

theorem bagAt_append_lt {impls : List Impl} (hok : ImplsOk impls) (ms : List Impl) {j : Nat}
    (h : j < impls.length) : bagAt (impls ++ ms) j = bagAt impls j := by
  unfold bagAt
  rw [get_append_lt ms h]
  cases hm : impls[j]? with
  | none => rfl
  | some m =>
    simp only [Option.map_some]
    rw [parentLayers_append hok ms]
    intro q hq
    exact Nat.lt_trans (hok.par j m q hm hq).1 h

theorem emptyLayer_ok (n : Nat) : (emptyBag n).top.WF := emptyBag_wf n _ (by simp [Bag.layers])

theorem empty_ok {impls : List Impl} (hok : ImplsOk impls) (frozen : Bool) :
    ImplsOk (impls ++ [{ emptyImpl impls.length with frozen := frozen }]) :=
  append_ok hok rfl (emptyLayer_ok _) (fun p hp => by cases hp)

/-! ### Forks -/

theorem length_fork (impls : List Impl) (i : Nat) : (forkImpl impls i).length = impls.length + 1 := by
  unfold forkImpl; simp

/-- The new implementation of a fork. -/
theorem fork_parent {impls : List Impl} {i : Nat} {m : Impl} (hm : impls[i]? = some m) :
    forkImpl impls i = impls ++ [{ emptyImpl impls.length with
      parent := if m.layer.isPristine then m.parent else some i }] := by
  unfold forkImpl; rw [hm]

theorem fork_ok {impls : List Impl} (hok : ImplsOk impls) {i : Nat} {m : Impl}
    (hm : impls[i]? = some m) (hf : m.frozen = true) : ImplsOk (forkImpl impls i) := by
  rw [fork_parent hm]
  refine append_ok hok rfl (emptyLayer_ok _) ?_
  intro p hp
  simp only at hp
  split at hp
  · exact (hok.par i m p hm hp).2
  · cases hp; exact ⟨m, hm, hf⟩

theorem bagAt_fork {impls : List Impl} (hok : ImplsOk impls) {i : Nat} {b : Bag}
    (hb : bagAt impls i = some b) :
    bagAt (forkImpl impls i) impls.length = some (b.fork impls.length) := by
  obtain ⟨m, hm, rfl⟩ := bagAt_inv hb
  rw [fork_parent hm, bagAt_append_last hok]
  · unfold Bag.fork Bag.layers emptyImpl emptyBag
    simp only
    split
    · rfl
    · rw [show parentLayers impls (some i) = layersOf impls i from rfl, layersOf_eq hok hm]
  · intro p hp
    have hlt := (List.getElem?_eq_some_iff.1 hm).1
    simp only at hp
    split at hp
    · exact Nat.lt_trans (hok.par i m p hm hp).1 hlt
    · cases hp; exact hlt

theorem fork_eq (impls : List Impl) (i : Nat) : ∃ m, forkImpl impls i = impls ++ [m] := ⟨_, rfl⟩

/-- The order of forking and freezing does not matter. -/
theorem freeze_fork {impls : List Impl} {i : Nat} (hi : i < impls.length) :
    freezeImpl (forkImpl impls i) i = forkImpl (freezeImpl impls i) i := by
  have hm : impls[i]? = some impls[i] := List.getElem?_eq_getElem hi
  rw [fork_parent hm]
  have hm' : (freezeImpl impls i)[i]? = some { impls[i] with frozen := true } := by
    rw [get_freeze, hm]; simp
  rw [fork_parent hm', length_freeze]
  unfold freezeImpl
  apply List.ext_getElem?
  intro j
  rw [List.getElem?_modify]
  by_cases hj : j < impls.length
  · rw [List.getElem?_append_left hj, List.getElem?_append_left (by simpa using hj),
      List.getElem?_modify]
  · rw [List.getElem?_append_right (Nat.le_of_not_lt hj),
      List.getElem?_append_right (by simpa using Nat.le_of_not_lt hj), List.length_modify]
    have hne : i ≠ j := by omega
    simp [hne]

/-! ### Modifications -/

theorem length_store (impls : List Impl) (i : Nat) (b : Bag) : (store impls i b).length = impls.length := by
  unfold store; rw [List.length_modify]

theorem get_store_ne {impls : List Impl} {i j : Nat} (b : Bag) (h : i ≠ j) :
    (store impls i b)[j]? = impls[j]? := by
  unfold store; rw [List.getElem?_modify]; simp [h]

theorem get_store_eq {impls : List Impl} {i : Nat} {m : Impl} (b : Bag) (hm : impls[i]? = some m) :
    (store impls i b)[i]? = some { m with layer := b.top } := by
  unfold store; rw [List.getElem?_modify, hm]; simp

/-- A modification is not seen by any other implementation. -/
theorem layersOf_store {impls : List Impl} (hok : ImplsOk impls) {i : Nat} {m : Impl}
    (hm : impls[i]? = some m) (hf : m.frozen = false) (b : Bag) {j : Nat} (hj : j ≠ i) :
    layersOf (store impls i b) j = layersOf impls j := by
  refine layersOf_congr (fun j => j ≠ i) ?_ ?_ j hj
  · intro j m' p _ hm' hp hpi
    obtain ⟨_, mp, h1, h2⟩ := hok.par j m' p hm' hp
    rw [hpi, hm] at h1
    rw [← Option.some.inj h1, hf] at h2
    cases h2
  · intro k hk
    rw [get_store_ne b (Ne.symm hk)]

theorem bagAt_store_ne {impls : List Impl} (hok : ImplsOk impls) {i : Nat} {m : Impl}
    (hm : impls[i]? = some m) (hf : m.frozen = false) (b : Bag) {j : Nat} (hj : j ≠ i) :
    bagAt (store impls i b) j = bagAt impls j := by
  unfold bagAt
  rw [get_store_ne b (Ne.symm hj)]
  cases hm' : impls[j]? with
  | none => rfl
  | some m' =>
    simp only [Option.map_some]
    cases hp : m'.parent with
    | none => rfl
    | some p =>
      simp only [parentLayers]
      rw [layersOf_store hok hm hf]
      intro hpi
      obtain ⟨_, mp, h1, h2⟩ := hok.par j m' p hm' hp
      rw [hpi, hm] at h1
      rw [← Option.some.inj h1, hf] at h2
      cases h2

theorem bagAt_store_eq {impls : List Impl} (hok : ImplsOk impls) {i : Nat} {b b' : Bag}
    (hb : bagAt impls i = some b) (hf : b.frozen = false) (hmod : Modified b b') :
    bagAt (store impls i b') i = some b' := by
  obtain ⟨m, hm, rfl⟩ := bagAt_inv hb
  rw [bagAt_some (get_store_eq b' hm)]
  simp only at hf
  have hp : parentLayers (store impls i b') m.parent = b'.parents := by
    rw [hmod.parents]
    simp only
    cases hp : m.parent with
    | none => rfl
    | some p =>
      simp only [parentLayers]
      exact layersOf_store hok hm hf b' (Nat.ne_of_lt (hok.par i m p hm hp).1)
  have h1 := hmod.frozen
  simp only [hp, hf]
  cases b'
  simp only at h1
  rw [h1]

theorem store_ok {impls : List Impl} (hok : ImplsOk impls) {i : Nat} {b b' : Bag}
    (hb : bagAt impls i = some b) (hmod : Modified b b') : ImplsOk (store impls i b') := by
  obtain ⟨m, hm, rfl⟩ := bagAt_inv hb
  have key : ∀ (j : Nat) (m' : Impl), (store impls i b')[j]? = some m' → ∃ m0, impls[j]? = some m0 ∧
      m'.parent = m0.parent ∧ m'.frozen = m0.frozen ∧
      (m'.layer = m0.layer ∨ (j = i ∧ m'.layer = b'.top)) := by
    intro j m' h
    by_cases hj : i = j
    · subst hj
      rw [get_store_eq b' hm] at h
      rw [← Option.some.inj h]
      exact ⟨m, hm, rfl, rfl, .inr ⟨rfl, rfl⟩⟩
    · rw [get_store_ne b' hj] at h
      exact ⟨m', h, rfl, rfl, .inl rfl⟩
  constructor
  · intro j m' h
    obtain ⟨m0, h0, _, _, h1 | ⟨h1, h2⟩⟩ := key j m' h
    · rw [h1]; exact hok.id j m0 h0
    · rw [h2, hmod.id, h1]; exact hok.id i m hm
  · intro j m' h
    obtain ⟨m0, h0, _, _, h1 | ⟨h1, h2⟩⟩ := key j m' h
    · rw [h1]; exact hok.wf j m0 h0
    · rw [h2]; exact hmod.wf _ (by simp [Bag.layers])
  · intro j m' p h hp
    obtain ⟨m0, h0, h1, _, _⟩ := key j m' h
    obtain ⟨hlt, mp, g1, g2⟩ := hok.par j m0 p h0 (h1 ▸ hp)
    by_cases hip : i = p
    · subst hip
      rw [hm] at g1
      refine ⟨hlt, _, get_store_eq b' hm, ?_⟩
      rw [← Option.some.inj g1] at g2; exact g2
    · exact ⟨hlt, mp, by rw [get_store_ne b' hip]; exact g1, g2⟩

end Verif.BagWorld
