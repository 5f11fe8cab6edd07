import Verif.SliceManager.Bags

/-
What a manager shows, in terms of the bags selected by its metadata; and what an update does to it.
-/

namespace Verif.SliceManager

variable {I Sch Snn B SB U : Type}

/-- The view given by the initial data, the initial DICT, and a selection of bags of each kind. -/
def viewFrom (api : Api I Sch Snn B SB U) (i : I) (f : SnnMap Snn)
    (sel : (k : Kind) → List (Name × Content Snn B SB k)) : View I Sch Snn B :=
  ⟨i, ((sel .schema).map Prod.snd).foldl api.updSchema (api.schemaOf i),
    ((sel .snn).map Prod.snd).foldl applyMap f, sel .data⟩

/-- Every data bag that belongs to a schema node is there. -/
def Closed (v : View I Sch Snn B) : Prop :=
  ∀ s ns, v.map s = some ns → ∀ n ∈ ns, n ∈ namesIn v.data

theorem bagNames_eq (f : SnnMap Snn) (snns : List Snn) :
    bagNames f snns =
      if ∀ s ∈ snns, (f s).isSome then some (snns.flatMap fun s => (f s).getD []) else none := by
  induction snns with
  | nil => simp [bagNames]
  | cons s ss ih =>
    unfold bagNames
    rw [ih]
    cases hs : f s with
    | none => simp [hs]
    | some ns =>
      by_cases hc : ∀ s ∈ ss, (f s).isSome
      · rw [if_pos hc, if_pos]
        · simp [hs]
        · intro t ht
          rcases List.mem_cons.1 ht with h | h
          · rw [h, hs]; rfl
          · exact hc t h
      · rw [if_neg hc, if_neg]
        intro h
        exact hc fun t ht => h t (List.mem_cons_of_mem _ ht)

/-- A manager shows the view given by the bags its metadata names. -/
theorem shows_of_sees {api : Api I Sch Snn B SB U} {m : Mgr I Sch Snn B SB U}
    {disk : (k : Kind) → Option (BagDir (Content Snn B SB k))} {v : View I Sch Snn B}
    (hs : ∀ k, Sees (disk k) (namesOf m.meta_.revs k) (m.bags k))
    (hn : ∀ k, (namesIn (bagsIn (disk k))).Nodup)
    (hsch : m.schema =
      ((pick (namesOf m.meta_.revs .schema) (m.bags .schema).bags).map Prod.snd).foldl
        api.updSchema (api.schemaOf m.initial))
    (hv : v = viewFrom api m.initial m.map fun k => pick (namesOf m.meta_.revs k) (bagsIn (disk k)))
    (hc : Closed v) : Shows m v ∧ m.fullMap = some v.map := by
  have hp : ∀ k, pick (namesOf m.meta_.revs k) (m.bags k).bags =
      pick (namesOf m.meta_.revs k) (bagsIn (disk k)) := fun k => (hs k).pick (hn k)
  have hf : m.fullMap = some v.map := by
    unfold Mgr.fullMap
    rw [minimal_some (hs .snn).2, hp .snn, hv]
    rfl
  refine ⟨⟨by rw [hv]; rfl, ?_, ?_⟩, hf⟩
  · rw [Mgr.getSchema, hsch, hp .schema, hv]; rfl
  · intro snns
    unfold Mgr.load
    rw [hf]
    simp only
    rw [bagNames_eq]
    unfold View.load
    by_cases hall : ∀ s ∈ snns, (v.map s).isSome
    · rw [if_pos hall, if_pos hall]
      simp only
      have hsub : ∀ n ∈ snns.flatMap (fun s => (v.map s).getD []), n ∈ namesIn v.data := by
        intro n hn
        obtain ⟨s, hs1, hs2⟩ := List.mem_flatMap.1 hn
        obtain ⟨ns, hns⟩ := Option.isSome_iff_exists.1 (hall s hs1)
        rw [hns] at hs2
        exact hc s ns hns n hs2
      have hdata : v.data = pick (namesOf m.meta_.revs .data) (m.bags .data).bags := by
        rw [hp .data, hv]; rfl
      rw [hdata] at hsub
      rw [minimal_some fun n hn => (namesIn_pick.1 (hsub n hn)).1, hdata]
      simp only [Option.map_some]
      congr 2
      have : ∀ bags : List (Name × B), pick (snns.flatMap fun s => (v.map s).getD [])
          (pick (namesOf m.meta_.revs .data) bags) =
          List.filter (fun e => snns.any fun s => ((v.map s).getD []).contains e.1)
          (pick (namesOf m.meta_.revs .data) bags) := by
        intro bags
        conv => lhs; unfold pick
        apply List.filter_congr
        intro e _
        rw [Bool.eq_iff_iff]
        simp only [List.contains_iff_mem, List.mem_flatMap, List.any_eq_true]
      rw [← this, pick_pick]
      intro n hn
      exact (namesIn_pick.1 (hsub n hn)).2
    · rw [if_neg hall, if_neg hall]

theorem newNames_eq (q : Nat) (f : SnnMap Snn) (p : Plan Snn B SB) (base : Nat) (k : Kind) :
    namesIn (newBags q f p base k) = newNames q p base k := by
  cases k with
  | data =>
    apply List.ext_getElem
    · simp [newBags, newNames]
    · intro i h1 h2
      simp [newBags, newNames, namesIn]
  | schema => rfl
  | snn => rfl

theorem newNames_mem {q : Nat} {p : Plan Snn B SB} {base : Nat} {k : Kind} {n : Name}
    (h : n ∈ newNames q p base k) :
    n.owner = q ∧ base ≤ n.seq ∧ n.seq < base + p.data.length + 2 := by
  cases k with
  | data =>
    simp only [newNames, List.mem_map, List.mem_range] at h
    obtain ⟨i, hi, rfl⟩ := h
    exact ⟨rfl, by simp, by simp; omega⟩
  | schema =>
    simp only [newNames, List.mem_singleton] at h
    subst h
    exact ⟨rfl, by simp, by simp⟩
  | snn =>
    simp only [newNames, List.mem_singleton] at h
    subst h
    exact ⟨rfl, by simp; omega, by simp⟩

theorem newNames_nodup (q : Nat) (p : Plan Snn B SB) (base : Nat) (k : Kind) :
    (newNames q p base k).Nodup := by
  cases k with
  | data =>
    unfold newNames List.Nodup
    rw [List.pairwise_map]
    exact List.Pairwise.imp (fun h he => h (by simpa using he)) List.nodup_range
  | schema => simp [newNames]
  | snn => simp [newNames]

/-- The view after the new bags of an update have been added to the selection is the updated view. -/
theorem viewFrom_update {api : Api I Sch Snn B SB U} {i : I} {f : SnnMap Snn}
    {sel : (k : Kind) → List (Name × Content Snn B SB k)} {v : View I Sch Snn B}
    (hv : v = viewFrom api i f sel) {q : Nat} {u : U} {p : Plan Snn B SB} {base : Nat}
    (hp : api.plan v.initial v.schema v.load u = some p) :
    v.update api u (newNames q p base .data) =
      some (viewFrom api i f fun k => sel k ++ newBags q v.map p base k) := by
  unfold View.update
  rw [hp]
  simp only [Option.map_some, Option.some.injEq]
  have h1 : v.initial = i := by rw [hv]; rfl
  have h2 : v.schema = ((sel .schema).map Prod.snd).foldl api.updSchema (api.schemaOf i) := by
    rw [hv]; rfl
  have h3 : v.map = ((sel .snn).map Prod.snd).foldl applyMap f := by rw [hv]; rfl
  have h4 : v.data = sel .data := by rw [hv]; rfl
  unfold viewFrom
  simp only [h1, h2, h4, View.mk.injEq, true_and, List.map_append, List.foldl_append]
  refine ⟨rfl, ?_, ?_⟩
  · funext s
    simp only [newBags, List.map_cons, List.map_nil, List.foldl_cons, List.foldl_nil]
    rw [← h3]
    unfold applyMap
    cases ha : p.added s with
    | none => simp [ha]
    | some idxs =>
      have : (idxs.filterMap fun i => (newNames q p base Kind.data)[i]?) =
          idxs.filterMap fun i => if i < p.data.length then some (⟨q, base + i⟩ : Name) else none := by
        congr 1
        funext i
        simp only [newNames, List.getElem?_map]
        by_cases hi : i < p.data.length
        · rw [if_pos hi, List.getElem?_range hi]; rfl
        · rw [if_neg hi, List.getElem?_eq_none (by simpa using hi)]; rfl
      simp only [this, ha]
      cases v.map s with
      | none => simp
      | some ns => simp
  · congr 1
    apply List.ext_getElem
    · simp [newBags, newNames]
    · intro j h5 h6
      simp [newBags, newNames]

/-- Updating keeps every data bag that belongs to a schema node present. -/
theorem closed_update {api : Api I Sch Snn B SB U} {v v' : View I Sch Snn B} {u : U}
    {names : List Name} (hc : Closed v)
    (hlen : ∀ p, api.plan v.initial v.schema v.load u = some p → names.length = p.data.length)
    (h : v.update api u names = some v') : Closed v' := by
  unfold View.update at h
  cases hp : api.plan v.initial v.schema v.load u with
  | none => rw [hp] at h; simp at h
  | some p =>
    rw [hp] at h
    simp only [Option.map_some, Option.some.injEq] at h
    subst h
    intro s ns hs n hn
    have hz : namesIn (names.zip p.data) = names := by
      rw [namesIn, List.map_fst_zip]
      exact Nat.le_of_eq (hlen p hp)
    simp only [namesIn, List.map_append, List.mem_append] at *
    rw [hz]
    cases ha : p.added s with
    | none =>
      rw [ha] at hs
      exact .inl (hc s ns hs n hn)
    | some idxs =>
      rw [ha] at hs
      simp only [Option.some.injEq] at hs
      subst hs
      rcases List.mem_append.1 hn with h1 | h1
      · cases hm : v.map s with
        | none => rw [hm] at h1; simp at h1
        | some ms =>
          rw [hm] at h1
          exact .inl (hc s ms hm n h1)
      · obtain ⟨j, _, hj⟩ := List.mem_filterMap.1 h1
        exact .inr (List.mem_of_getElem? hj)

theorem closed_first [DecidableEq Snn] (api : Api I Sch Snn B SB U) (i : I) :
    Closed (View.first api i) := by
  intro s ns hs n hn
  unfold View.first at hs
  simp only at hs
  split at hs
  · simp only [Option.some.injEq] at hs
    subst hs
    simp at hn
  · simp at hs

end Verif.SliceManager
