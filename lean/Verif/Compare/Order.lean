import Verif.Compare.Keys
import Verif.Uuid.Lemmas

/-!
The two sorted lists of keys are merged: what is on one side only, and what is on both sides.
-/

namespace Verif.Compare

open Verif.Uuid

/-- A comparison of keys orders the names of parts. -/
structure OrderOk (cmp : TKey → TKey → Ordering) (K : TKey → Prop) : Prop where
  eq : ∀ a b, K a → K b → (cmp a b = .eq ↔ labelOf a = labelOf b)
  swap : ∀ a b, K a → K b → (cmp a b = .lt ↔ cmp b a = .gt)
  trans : ∀ a b c, K a → K b → K c → cmp a b = .lt → cmp b c = .lt → cmp a c = .lt

/-- Strictly sorted. -/
def Sorted (cmp : TKey → TKey → Ordering) (l : List TKey) : Prop :=
  l.Pairwise (fun a b => cmp a b = .lt)

section
variable {cmp : TKey → TKey → Ordering} {K : TKey → Prop}

theorem OrderOk.ne (o : OrderOk cmp K) {a b : TKey} (ha : K a) (hb : K b) (h : cmp a b = .lt) :
    labelOf a ≠ labelOf b := by
  intro he
  rw [(o.eq a b ha hb).mpr he] at h
  cases h

theorem insertBy_sorted (o : OrderOk cmp K) {x : TKey} (hx : K x) : ∀ (l : List TKey),
    (∀ a ∈ l, K a) → (∀ a ∈ l, labelOf a ≠ labelOf x) → Sorted cmp l →
    Sorted cmp (insertBy (fun a b => cmp a b == .lt) x l)
  | [], _, _, _ => by simp [insertBy, Sorted]
  | y :: l, hK, hne, hs => by
    have hy : K y := hK y (by simp)
    have hs' := List.pairwise_cons.mp hs
    have ih := insertBy_sorted o hx l (fun a h => hK a (by simp [h]))
      (fun a h => hne a (by simp [h])) hs'.2
    simp only [insertBy]
    split
    · rename_i h
      have h : cmp y x = .lt := by simpa using h
      refine List.pairwise_cons.mpr ⟨?_, ih⟩
      intro a ha
      rcases List.mem_cons.mp ((insertBy_perm _ x l).subset ha) with rfl | ha
      · exact h
      · exact hs'.1 a ha
    · rename_i h
      have h : cmp y x ≠ .lt := by simpa using h
      have hlt : cmp x y = .lt := by
        cases hc : cmp x y with
        | lt => rfl
        | eq => exact absurd ((o.eq _ _ hx hy).mp hc).symm (hne y (by simp))
        | gt => exact absurd ((o.swap _ _ hy hx).mpr hc) h
      refine List.pairwise_cons.mpr ⟨?_, hs⟩
      intro a ha
      rcases List.mem_cons.mp ha with rfl | ha
      · exact hlt
      · exact o.trans _ _ _ hx hy (hK a (by simp [ha])) hlt (hs'.1 a ha)

theorem sortKeys_sorted (o : OrderOk cmp K) : ∀ (l : List TKey), (∀ a ∈ l, K a) →
    (l.map labelOf).Nodup → Sorted cmp (sortKeys cmp l)
  | [], _, _ => by simp [sortKeys, sortBy, Sorted]
  | x :: l, hK, hn => by
    simp only [List.map_cons, List.nodup_cons, List.mem_map, not_exists, not_and] at hn
    have ih := sortKeys_sorted o l (fun a h => hK a (by simp [h])) hn.2
    have hp := sortBy_perm (fun a b => cmp a b == .lt) l
    simp only [sortKeys, sortBy]
    exact insertBy_sorted o (hK x (by simp)) _ (fun a h => hK a (by simp [hp.subset h]))
      (fun a h => hn.1 a (hp.subset h)) ih

theorem mem_sortKeys (k : TKey) (l : List TKey) : k ∈ sortKeys cmp l ↔ k ∈ l :=
  (sortBy_perm _ l).mem_iff

/-- What a step of the merge should be. -/
def StepIs (kl kr : List TKey) : Step → Prop
  | .left k => k ∈ kl ∧ ∀ k' ∈ kr, labelOf k' ≠ labelOf k
  | .right k => k ∈ kr ∧ ∀ k' ∈ kl, labelOf k' ≠ labelOf k
  | .both k k' => k ∈ kl ∧ k' ∈ kr ∧ labelOf k = labelOf k'

theorem mem_stepsWith (o : OrderOk cmp K) {l : TKey} {ls : List TKey} (hl : K l)
    (hls : ∀ a ∈ ls, K a) (hlt : ∀ a ∈ ls, cmp l a = .lt) {rest : List TKey → List Step}
    (hrest : ∀ rs, (∀ a ∈ rs, K a) → Sorted cmp rs → ∀ s, s ∈ rest rs ↔ StepIs ls rs s) (s : Step) :
    ∀ (rs : List TKey), (∀ a ∈ rs, K a) → Sorted cmp rs →
      (s ∈ stepsWith cmp l rest rs ↔ StepIs (l :: ls) rs s)
  | [], hK, hs => by
    simp only [stepsWith, List.mem_cons, hrest [] hK hs]
    cases s <;> simp [StepIs]
  | r :: rs, hK, hs => by
    have hr : K r := hK r (by simp)
    have hs' := List.pairwise_cons.mp hs
    have hrs : ∀ a ∈ rs, K a := fun a h => hK a (by simp [h])
    have hne1 : ∀ a ∈ ls, labelOf l ≠ labelOf a := fun a h => o.ne hl (hls a h) (hlt a h)
    have hne2 : ∀ a ∈ rs, labelOf r ≠ labelOf a := fun a h => o.ne hr (hrs a h) (hs'.1 a h)
    simp only [stepsWith]
    split
    · rename_i h
      have h1 : ∀ a ∈ r :: rs, labelOf l ≠ labelOf a := by
        intro a ha
        rcases List.mem_cons.mp ha with rfl | ha
        · exact o.ne hl hr h
        · exact o.ne hl (hrs a ha) (o.trans _ _ _ hl hr (hrs a ha) h (hs'.1 a ha))
      rw [List.mem_cons, hrest _ hK hs]
      cases s with
      | left k => simp only [StepIs, List.mem_cons, Step.left.injEq]; grind
      | right k => simp only [StepIs, List.mem_cons]; grind
      | both k k' => simp only [StepIs, List.mem_cons]; grind
    · rename_i h
      have h' := (o.swap _ _ hr hl).mpr h
      have h1 : ∀ a ∈ l :: ls, labelOf r ≠ labelOf a := by
        intro a ha
        rcases List.mem_cons.mp ha with rfl | ha
        · exact o.ne hr hl h'
        · exact o.ne hr (hls a ha) (o.trans _ _ _ hr hl (hls a ha) h' (hlt a ha))
      rw [List.mem_cons, mem_stepsWith o hl hls hlt hrest s rs hrs hs'.2]
      cases s with
      | left k => simp only [StepIs, List.mem_cons]; grind
      | right k => simp only [StepIs, List.mem_cons, Step.right.injEq]; grind
      | both k k' => simp only [StepIs, List.mem_cons]; grind
    · rename_i h
      have h1 := (o.eq _ _ hl hr).mp h
      rw [List.mem_cons, hrest _ hrs hs'.2]
      cases s with
      | left k => simp only [StepIs, List.mem_cons]; grind
      | right k => simp only [StepIs, List.mem_cons]; grind
      | both k k' => simp only [StepIs, List.mem_cons, Step.both.injEq]; grind

theorem mem_steps (o : OrderOk cmp K) : ∀ (ls rs : List TKey), (∀ a ∈ ls, K a) → (∀ a ∈ rs, K a) →
    Sorted cmp ls → Sorted cmp rs → ∀ s, s ∈ steps cmp ls rs ↔ StepIs ls rs s
  | [], rs, _, _, _, _, s => by
    cases s <;> simp [steps, StepIs]
  | l :: ls, rs, hl, hr, hsl, hsr, s => by
    have hs' := List.pairwise_cons.mp hsl
    have hls : ∀ a ∈ ls, K a := fun a h => hl a (by simp [h])
    exact mem_stepsWith o (hl l (by simp)) hls hs'.1
      (fun rs h1 h2 s => mem_steps o ls rs hls h1 hs'.2 h2 s) s rs hr hsr

/-- The merge of the sorted keys. -/
theorem mem_steps_sort (o : OrderOk cmp K) {kl kr : List TKey} (hl : ∀ a ∈ kl, K a)
    (hr : ∀ a ∈ kr, K a) (nl : (kl.map labelOf).Nodup) (nr : (kr.map labelOf).Nodup) (s : Step) :
    s ∈ steps cmp (sortKeys cmp kl) (sortKeys cmp kr) ↔ StepIs kl kr s := by
  rw [mem_steps o _ _ (fun a h => hl a ((mem_sortKeys _ _).mp h))
    (fun a h => hr a ((mem_sortKeys _ _).mp h)) (sortKeys_sorted o _ hl nl)
    (sortKeys_sorted o _ hr nr)]
  cases s <;> simp [StepIs, mem_sortKeys]

end

/-! ### The two orders -/

/-- The keys that are made. -/
def KeyOk (k : TKey) : Prop :=
  match k.type with
  | .listItem => True
  | .attr | .schemaAttr => ∃ n, k.value = .text n
  | .dictKey | .dictValue => True
  | _ => k.value = .missing

theorem keyOk_of_mem (t : Traverse.Transitions) {k : TKey} (h : k ∈ transitionKeys t) : KeyOk k := by
  cases t with
  | none => simp [transitionKeys] at h
  | list it l =>
    simp only [transitionKeys] at h
    split at h
    · simp at h; subst h; simp [KeyOk]
    · obtain ⟨j, _, _, rfl⟩ := (mem_listKeys _ _ _).mp h
      simp [KeyOk]
  | dict kt vt l =>
    simp only [transitionKeys] at h
    split at h
    · simp at h; rcases h with rfl | rfl <;> simp [KeyOk]
    · obtain ⟨j, x, _, rfl | rfl⟩ := (mem_dictKeys _ _ _).mp h <;> simp [KeyOk]
  | entity names =>
    simp only [transitionKeys, List.mem_map] at h
    obtain ⟨n, _, rfl⟩ := h
    simp [KeyOk]
  | schema names =>
    simp only [transitionKeys, List.mem_map] at h
    obtain ⟨n, _, rfl⟩ := h
    simp [KeyOk]

theorem label_eq_iff {a b : TKey} (ha : KeyOk a) (hb : KeyOk b) : labelOf a = labelOf b ↔
    a.type = b.type ∧ (if a.type = .listItem then a.index = b.index else a.value = b.value) := by
  obtain ⟨ta, ia, va⟩ := a
  obtain ⟨tb, ib, vb⟩ := b
  cases ta <;> cases tb <;> simp [KeyOk, labelOf] at ha hb ⊢ <;> try (simp [ha, hb])
  all_goals
    obtain ⟨n, rfl⟩ := ha
    obtain ⟨m, rfl⟩ := hb
    simp [TKey.name]

theorem rank_inj {a b : KeyType} (h : a.rank = b.rank) : a = b := by
  cases a <;> cases b <;> simp [KeyType.rank] at h ⊢

theorem ValueOrder.asymm {lt : Item → Item → Bool} (v : ValueOrder lt) {a b : Item}
    (h : lt a b = true) : lt b a = false := by
  cases h' : lt b a with
  | false => rfl
  | true => have := v.trans _ _ _ h h'; rw [v.irrefl] at this; cases this

theorem compareOrder_ok {lt : Item → Item → Bool} (v : ValueOrder lt) :
    OrderOk (compareOrder lt) KeyOk where
  eq a b ha hb := by
    rw [label_eq_iff ha hb]
    unfold compareOrder
    have := @rank_inj a.type b.type
    grind
  swap a b ha hb := by
    unfold compareOrder
    have := @rank_inj a.type b.type
    have := @ValueOrder.asymm lt v
    have := v.total
    grind
  trans a b c ha hb hc := by
    unfold compareOrder
    have := @rank_inj a.type b.type
    have := @ValueOrder.asymm lt v
    have := v.total
    have := v.trans
    grind

/-- The keys of attributes of schemas. -/
def NameKey (k : TKey) : Prop := k.type = .schemaAttr ∧ ∃ n, k.value = .text n

theorem compareNames_ok {lt : Item → Item → Bool} (v : ValueOrder lt) :
    OrderOk (compareNames lt) NameKey where
  eq a b ha hb := by
    have ha' : KeyOk a := by simp [KeyOk, ha.1, ha.2]
    have hb' : KeyOk b := by simp [KeyOk, hb.1, hb.2]
    rw [label_eq_iff ha' hb', ha.1, hb.1]
    unfold compareNames
    grind
  swap a b ha hb := by
    unfold compareNames
    have := @ValueOrder.asymm lt v
    have := v.total
    grind
  trans a b c ha hb hc := by
    unfold compareNames
    have := @ValueOrder.asymm lt v
    have := v.total
    have := v.trans
    grind

end Verif.Compare
