import Verif.BagSave.Load
/-
What is written of a bag is what a reader of the bag sees.
-/

namespace Verif.BagSave

open Verif.BagAttr

theorem mem_dedup {α : Type} [DecidableEq α] {x : α} {l : List α} : x ∈ dedup l ↔ x ∈ l := by
  induction l with
  | nil => simp [dedup]
  | cons y l ih =>
    rw [dedup, List.mem_cons, List.mem_cons, List.mem_filter, ih]
    by_cases h : x = y
    · simp [h]
    · simp [h]

theorem nodup_dedup {α : Type} [DecidableEq α] (l : List α) : (dedup l).Nodup := by
  induction l with
  | nil => simp [dedup]
  | cons y l ih =>
    rw [dedup, List.nodup_cons]
    refine ⟨?_, ih.sublist List.filter_sublist⟩
    intro h
    have := (List.mem_filter.1 h).2
    simp at this

theorem get?_perm {α β : Type} [DecidableEq α] {d d' : PyDict α β} (h : d.Perm d')
    (hnd : (PyDict.keys d').Nodup) (k : α) : PyDict.get? d k = PyDict.get? d' k := by
  have hk : (PyDict.keys d).Perm (PyDict.keys d') := h.map _
  have hnd' : (PyDict.keys d).Nodup := hk.nodup_iff.2 hnd
  cases hg : PyDict.get? d' k with
  | some v => exact PyDict.get?_of_mem hnd' (h.mem_iff.2 (PyDict.mem_of_get? hg))
  | none =>
    rw [PyDict.get?_none_iff] at hg ⊢
    exact fun hm => hg (hk.mem_iff.1 hm)

/-! ### The sources of an allocation -/

theorem bigSources_size (a : Alloc) (attr : Attr) (layers : List Layer) (size : Nat) :
    (bigSources a attr layers size).2.1 = [] ∧ (bigSources a attr layers size).1 = size ∨
    ∃ d, (bigSources a attr layers size).2.1 = [d] ∧
      (bigSources a attr layers size).1 = d.rep.size ∧ InArray layers a attr := by
  induction layers with
  | nil => exact .inl ⟨rfl, rfl⟩
  | cons l ls ih =>
    have up : InArray ls a attr → InArray (l :: ls) a attr := by
      rintro ⟨l', hl', h⟩
      exact ⟨l', List.mem_cons_of_mem _ hl', h⟩
    rw [bigSources]
    cases hg : l.big.get? (a, attr) with
    | none =>
      rcases ih with h | ⟨d, h1, h2, h3⟩
      · exact .inl h
      · exact .inr ⟨d, h1, h2, up h3⟩
    | some c =>
      simp only
      cases hm : c.mutDense with
      | some d => exact .inr ⟨d, rfl, rfl, l, List.mem_cons_self, c, d, hg, .inl hm⟩
      | none =>
        cases hcd : c.constDense with
        | some d => exact .inr ⟨d, rfl, rfl, l, List.mem_cons_self, c, d, hg, .inr hcd⟩
        | none =>
          simp only
          by_cases hlp : c.lookupParent = true
          · rw [if_pos hlp]
            rcases ih with h | ⟨d, h1, h2, h3⟩
            · exact .inl h
            · exact .inr ⟨d, h1, h2, up h3⟩
          · rw [if_neg hlp]
            exact .inl ⟨rfl, rfl⟩

theorem sparseItems_eq (ss : List Sparse) : sparseItems ss = mergedEntries ss := by
  unfold sparseItems
  split
  · simp [mergedEntries]
  · rfl

theorem fromSources_get {a : Alloc} {d : Dense} (hd : d.WF a) (ss : List Sparse) (i : Nat)
    (hi : i < d.rep.size) :
    (fromSources a d.rep.size [d] ss).cells[i]? = some (cellOf ([d], ss) ⟨a, i⟩) := by
  unfold fromSources build
  simp only
  rw [mask_eq, fillAll_cellsOf]
  unfold cellsOf
  rw [List.getElem?_map, List.getElem?_map, List.getElem?_range hi]
  simp only [Option.map_some, Option.elim_some, Option.none_or]
  congr 1
  rw [List.findSome?_append, List.findSome?_map, List.findSome?_map]
  unfold cellOf
  congr 1
  simp only [List.findSome?_cons, List.findSome?_nil, Function.comp]
  rw [hd.inserts_lt ⟨a, i⟩ rfl hi]

theorem fromSources_length (a : Alloc) (n : Nat) (ds : List Dense) (ss : List Sparse) :
    (fromSources a n ds ss).cells.length = n := by
  unfold fromSources build
  simp only
  rw [mask_eq, fillAll_cellsOf]
  simp [cellsOf]

/-- What the content of one allocation looks like. -/
theorem allocContent_cases (layers : List Layer) (h : ∀ l ∈ layers, l.WF) (attr : Attr)
    {a : Alloc} (ha : a.WF) (hs : a.isSmall = false) :
    ((allocContent layers attr a).allocs = [] ∧
      (PyDict.keys (allocContent layers attr a).items).Nodup ∧
      (∀ e ∈ (allocContent layers attr a).items, e.1.Valid ∧ e.1.alloc = a) ∧
      ∀ x : Obj, x.Valid → x.alloc = a →
        PyDict.get? (allocContent layers attr a).items x = lookupBig x attr layers) ∨
    ∃ s, (allocContent layers attr a).items = [] ∧
      (allocContent layers attr a).allocs = [(a, s)] ∧ Fits a s ∧ InArray layers a attr ∧
      ∀ x : Obj, x.Valid → x.alloc = a → (s.cells[x.off]?).getD none = lookupBig x attr layers := by
  obtain ⟨w1, w2, w3⟩ := bigSources_wf a attr layers a.capacity h
  have hcell : ∀ x : Obj, x.alloc = a →
      cellOf (bigSources a attr layers a.capacity).2 x = lookupBig x attr layers := by
    intro x hx
    have := bigSources_cell x attr layers a.capacity h
    rw [hx] at this
    exact this
  unfold allocContent
  rw [dataSources_big hs]
  simp only
  rcases bigSources_size a attr layers a.capacity with ⟨hd, hsz⟩ | ⟨d, hd, hsz, harr⟩
  · have hcap : a.capacity ≠ 0 := by
      unfold Alloc.capacity
      exact Nat.ne_of_gt (Nat.two_pow_pos _)
    rw [hsz, if_neg hcap, hd]
    simp only [List.isEmpty_nil, if_true]
    rw [sparseItems_eq]
    refine .inl ⟨trivial, mergedEntries_nodup _ (fun s hs' => (w2 s hs').nodup), ?_, ?_⟩
    · intro e he
      have hk : e.1 ∈ PyDict.keys (mergedEntries (bigSources a attr layers a.capacity).2.2) :=
        List.mem_map_of_mem he
      have hsome := (PyDict.get?_isSome_iff _ _).2 hk
      rw [mergedEntries_get] at hsome
      obtain ⟨v, hv⟩ := Option.isSome_iff_exists.1 hsome
      obtain ⟨s, hs', hv'⟩ := List.exists_of_findSome?_eq_some hv
      have hk' : e.1 ∈ s.map.keys := (PyDict.get?_isSome_iff _ _).1 (by
        show (s.get e.1).isSome = true
        rw [hv']; rfl)
      have := (w2 s hs').keys e.1 hk'
      refine ⟨this.2, ?_⟩
      have hb := this.1
      rw [(w2 s hs').belongs_some] at hb
      simpa using hb
    · intro x _ hx
      rw [mergedEntries_get, ← hcell x hx]
      unfold cellOf
      rw [hd]
      simp
  · have hdw : d.WF a := w1 d (by rw [hd]; simp)
    rw [hsz, hd]
    by_cases hz : d.rep.size = 0
    · rw [if_pos hz]
      refine .inl ⟨rfl, by simp [PyDict.keys], by simp, ?_⟩
      intro x hxv hx
      have h1 := hdw.rep.size
      have h2 := hxv.off
      rw [hx] at h2
      omega
    · rw [if_neg hz]
      simp only [List.isEmpty_cons, Bool.false_eq_true, if_false]
      have hlen := fromSources_length a d.rep.size [d] (bigSources a attr layers a.capacity).2.2
      have hget := fromSources_get hdw (bigSources a attr layers a.capacity).2.2
      have hcd : ∀ x : Obj, x.alloc = a →
          cellOf ([d], (bigSources a attr layers a.capacity).2.2) x = lookupBig x attr layers := by
        intro x hx
        rw [← hcell x hx]
        unfold cellOf
        rw [hd]
      refine .inr ⟨_, trivial, rfl, ⟨ha, hs, build_wf _, ?_, ?_, ?_⟩, harr, ?_⟩
      · rw [hlen]; exact hdw.rep.size
      · rw [hlen]; exact hdw.size
      · intro i v hi hc
        by_cases hlt : i < d.rep.size
        · rw [hget i hlt] at hc
          have hc := Option.some.inj hc
          unfold cellOf at hc
          cases hsp : (bigSources a attr layers a.capacity).2.2.findSome? (·.get ⟨a, i⟩) with
          | some w =>
            obtain ⟨s, hs', hv'⟩ := List.exists_of_findSome?_eq_some hsp
            have := ((w2 s hs').get_valid (o := ⟨a, i⟩) (by rw [hv']; simp)).2.off
            simp only at this
            omega
          | none =>
            rw [hsp] at hc
            simp only [List.findSome?_cons, List.findSome?_nil, Option.none_or] at hc
            refine hdw.rep.beyond i v hi ?_
            show d.get ⟨a, i⟩ = _
            cases hdg : d.get ⟨a, i⟩ with
            | none => rw [hdg] at hc; cases hc
            | some w => rw [hdg] at hc; exact hc
        · rw [List.getElem?_eq_none (by omega)] at hc
          cases hc
      · intro x hxv hx
        have h1 := hdw.rep.size
        have h2 := hxv.off
        rw [hx] at h2
        rw [hget x.off (by omega), ← hcd x hx]
        obtain ⟨xa, xo⟩ := x
        simp only at hx
        rw [hx]
        rfl

/-! ### All allocations -/

theorem get?_append' {κ V : Type} [DecidableEq κ] (d d' : PyDict κ V) (k : κ) :
    PyDict.get? (d ++ d') k = (PyDict.get? d k).or (PyDict.get? d' k) := by
  induction d with
  | nil => rfl
  | cons e d ih =>
    show (if e.1 = k then some e.2 else PyDict.get? (d ++ d') k) =
      (if e.1 = k then some e.2 else PyDict.get? d k).or _
    by_cases h : e.1 = k
    · rw [if_pos h, if_pos h]; rfl
    · rw [if_neg h, if_neg h, ih]

theorem flatMap_get {κ V : Type} [DecidableEq κ] (p : κ → Alloc) (f : Alloc → PyDict κ V)
    (A : List Alloc) (h : ∀ a ∈ A, ∀ e ∈ f a, p e.1 = a) (k : κ) :
    PyDict.get? (A.flatMap f) k = if p k ∈ A then PyDict.get? (f (p k)) k else none := by
  have hother : ∀ a ∈ A, p k ≠ a → PyDict.get? (f a) k = none := by
    intro a ha hne
    rw [PyDict.get?_none_iff]
    intro hm
    obtain ⟨e, he, rfl⟩ := List.mem_map.1 hm
    exact hne (h a ha e he)
  induction A with
  | nil => simp [PyDict.get?]
  | cons a A ih =>
    have ih := ih (fun a' ha => h a' (List.mem_cons_of_mem _ ha))
      (fun a' ha => hother a' (List.mem_cons_of_mem _ ha))
    rw [List.flatMap_cons, get?_append', ih]
    by_cases he : p k = a
    · rw [if_pos (show p k ∈ a :: A by rw [he]; exact List.mem_cons_self), he]
      by_cases hm : a ∈ A
      · rw [if_pos hm]
        cases PyDict.get? (f a) k <;> rfl
      · rw [if_neg hm, Option.or_none]
    · rw [hother a List.mem_cons_self he, Option.none_or]
      by_cases hm : p k ∈ A
      · rw [if_pos hm, if_pos (List.mem_cons_of_mem _ hm)]
      · rw [if_neg hm, if_neg]
        intro hm'
        rcases List.mem_cons.1 hm' with h1 | h1
        · exact he h1
        · exact hm h1

theorem flatMap_nodup {κ V : Type} [DecidableEq κ] (p : κ → Alloc) (f : Alloc → PyDict κ V)
    (A : List Alloc) (hA : A.Nodup) (h : ∀ a ∈ A, ∀ e ∈ f a, p e.1 = a)
    (hn : ∀ a ∈ A, (PyDict.keys (f a)).Nodup) : (PyDict.keys (A.flatMap f)).Nodup := by
  induction A with
  | nil => simp [PyDict.keys]
  | cons a A ih =>
    have hA' := List.nodup_cons.1 hA
    have ih := ih hA'.2 (fun a' ha => h a' (List.mem_cons_of_mem _ ha))
      (fun a' ha => hn a' (List.mem_cons_of_mem _ ha))
    unfold PyDict.keys at ih ⊢
    rw [List.flatMap_cons, List.map_append, List.nodup_append]
    refine ⟨hn a List.mem_cons_self, ih, ?_⟩
    intro k hk k' hk' he
    subst he
    obtain ⟨e, he, rfl⟩ := List.mem_map.1 hk
    obtain ⟨e', he', hee⟩ := List.mem_map.1 hk'
    obtain ⟨a', ha', he'⟩ := List.mem_flatMap.1 he'
    have h1 := h a List.mem_cons_self e he
    have h2 := h a' (List.mem_cons_of_mem _ ha') e' he'
    rw [hee, h1] at h2
    rw [h2] at hA'
    exact hA'.1 ha'

/-! ### The index -/

theorem mem_indexAllocs {K : Order} (hK : K.WF) (layers : List Layer) (attr : Attr) (a : Alloc) :
    a ∈ (attrIndex K layers attr).allocs ↔ ∃ l ∈ layers, (l.big.get? (a, attr)).isSome := by
  unfold attrIndex
  simp only
  rw [(hK.allocs _).mem_iff, mem_dedup, List.mem_flatMap]
  constructor
  · rintro ⟨l, hl, h⟩
    obtain ⟨k, hk, hk'⟩ := List.mem_filterMap.1 h
    by_cases he : k.2 = attr
    · rw [if_pos he] at hk'
      have := Option.some.inj hk'
      refine ⟨l, hl, (PyDict.get?_isSome_iff _ _).2 ?_⟩
      rw [← this, ← he]
      exact hk
    · rw [if_neg he] at hk'; cases hk'
  · rintro ⟨l, hl, h⟩
    refine ⟨l, hl, List.mem_filterMap.2 ⟨(a, attr), (PyDict.get?_isSome_iff _ _).1 h, ?_⟩⟩
    rw [if_pos rfl]

theorem nodup_indexAllocs {K : Order} (hK : K.WF) (layers : List Layer) (attr : Attr) :
    (attrIndex K layers attr).allocs.Nodup :=
  (hK.allocs _).nodup_iff.2 (nodup_dedup _)

theorem mem_indexAttrs (layers : List Layer) (attr : Attr) :
    attr ∈ indexAttrs layers ↔
      ∃ l ∈ layers, (∃ a, (l.big.get? (a, attr)).isSome) ∨ (l.small.get? attr).isSome := by
  unfold indexAttrs
  rw [mem_dedup, List.mem_flatMap]
  constructor
  · rintro ⟨l, hl, h⟩
    rcases List.mem_append.1 h with h | h
    · obtain ⟨k, hk, rfl⟩ := List.mem_map.1 h
      exact ⟨l, hl, .inl ⟨k.1, (PyDict.get?_isSome_iff _ _).2 hk⟩⟩
    · exact ⟨l, hl, .inr ((PyDict.get?_isSome_iff _ _).2 h)⟩
  · rintro ⟨l, hl, ⟨a, h⟩ | h⟩
    · exact ⟨l, hl, List.mem_append.2 (.inl (List.mem_map.2
        ⟨(a, attr), (PyDict.get?_isSome_iff _ _).1 h, rfl⟩))⟩
    · exact ⟨l, hl, List.mem_append.2 (.inr ((PyDict.get?_isSome_iff _ _).1 h))⟩

theorem lookupBig_none (layers : List Layer) (x : Obj) (attr : Attr)
    (h : ∀ l ∈ layers, l.big.get? (x.alloc, attr) = none) : lookupBig x attr layers = none := by
  induction layers with
  | nil => rfl
  | cons l ls ih =>
    rw [lookupBig_cons, h l List.mem_cons_self]
    exact ih (fun l hl => h l (List.mem_cons_of_mem _ hl))

theorem lookupSmall_none (layers : List Layer) (x : Obj) (attr : Attr)
    (h : ∀ l ∈ layers, l.small.get? attr = none) : lookupSmall x attr layers = none := by
  induction layers with
  | nil => rfl
  | cons l ls ih =>
    rw [lookupSmall, h l List.mem_cons_self]
    exact ih (fun l hl => h l (List.mem_cons_of_mem _ hl))

/-! ### One attribute -/

/-- The items of an attribute before they are sorted. -/
def rawItems (K : Order) (layers : List Layer) (attr : Attr) : List (Obj × Item) :=
  (if (attrIndex K layers attr).small then mergedEntries (smallSources attr layers) else []) ++
    (attrIndex K layers attr).allocs.flatMap fun a => (allocContent layers attr a).items

theorem smallItems_key {layers : List Layer} (h : ∀ l ∈ layers, l.WF) (attr : Attr)
    {e : Obj × Item} (he : e ∈ mergedEntries (smallSources attr layers)) :
    e.1.Valid ∧ e.1.alloc.isSmall = true := by
  have w := smallSources_wf attr layers h
  have hk : e.1 ∈ PyDict.keys (mergedEntries (smallSources attr layers)) := List.mem_map_of_mem he
  have hsome := (PyDict.get?_isSome_iff _ _).2 hk
  rw [mergedEntries_get] at hsome
  obtain ⟨v, hv⟩ := Option.isSome_iff_exists.1 hsome
  obtain ⟨s, hs, hv'⟩ := List.exists_of_findSome?_eq_some hv
  have := (w s hs).get_valid (o := e.1) (by rw [hv']; simp)
  refine ⟨this.2, ?_⟩
  have hb := this.1
  rw [(w s hs).belongs_none] at hb
  exact hb

theorem extract_ok {K : Order} (hK : K.WF) {layers : List Layer} (h : ∀ l ∈ layers, l.WF)
    (attr : Attr) :
    (extractAttr K layers attr (attrIndex K layers attr)).WF ∧
    ∀ x : Obj, x.Valid →
      ((x.alloc.isSmall = true ∧
        (extractAttr K layers attr (attrIndex K layers attr)).cell x =
          lookupSmall x attr layers) ∨
      (x.alloc.isSmall = false ∧
        ((extractAttr K layers attr (attrIndex K layers attr)).cell x = lookupBig x attr layers ∨
        ((extractAttr K layers attr (attrIndex K layers attr)).cell x = none ∧
          InArray layers x.alloc attr ∧
          ∀ y : Obj, y.Valid → y.alloc = x.alloc → ∀ v, lookupBig y attr layers ≠ some (some v))))) := by
  have hA : ∀ a ∈ (attrIndex K layers attr).allocs, a.WF ∧ a.isSmall = false := by
    intro a ha
    obtain ⟨l, hl, hs⟩ := (mem_indexAllocs hK layers attr a).1 ha
    obtain ⟨c, hc⟩ := Option.isSome_iff_exists.1 hs
    have := (h l hl).big a attr c hc
    exact ⟨this.1, this.2.1⟩
  have hcase := fun a ha => allocContent_cases layers h attr (hA a ha).1 (hA a ha).2
  have hitem : ∀ a ∈ (attrIndex K layers attr).allocs,
      ∀ e ∈ (allocContent layers attr a).items, e.1.Valid ∧ e.1.alloc = a := by
    intro a ha e he
    rcases hcase a ha with ⟨_, _, h3, _⟩ | ⟨s, h1, _⟩
    · exact h3 e he
    · rw [h1] at he; cases he
  have hitemN : ∀ a ∈ (attrIndex K layers attr).allocs,
      (PyDict.keys (allocContent layers attr a).items).Nodup := by
    intro a ha
    rcases hcase a ha with ⟨_, h2, _⟩ | ⟨s, h1, _⟩
    · exact h2
    · rw [h1]; simp [PyDict.keys]
  have hall : ∀ a ∈ (attrIndex K layers attr).allocs,
      ∀ e ∈ (allocContent layers attr a).allocs, e.1 = a ∧ Fits e.1 e.2 ∧
        (allocContent layers attr a).items = [] := by
    intro a ha e he
    rcases hcase a ha with ⟨h1, _⟩ | ⟨s, h1, h2, h3, _⟩
    · rw [h1] at he; cases he
    · rw [h2] at he
      have : e = (a, s) := by simpa using he
      rw [this]
      exact ⟨rfl, h3, h1⟩
  have hallN : ∀ a ∈ (attrIndex K layers attr).allocs,
      (PyDict.keys (allocContent layers attr a).allocs).Nodup := by
    intro a ha
    rcases hcase a ha with ⟨h1, _⟩ | ⟨s, _, h2, _⟩
    · rw [h1]; simp [PyDict.keys]
    · rw [h2]; simp [PyDict.keys]
  have hAn := nodup_indexAllocs hK layers attr
  have hsmallN : (PyDict.keys (if (attrIndex K layers attr).small = true then
      mergedEntries (smallSources attr layers) else [])).Nodup := by
    split
    · exact mergedEntries_nodup _ fun s hs => (smallSources_wf attr layers h s hs).nodup
    · simp [PyDict.keys]
  have hsmallK : ∀ e ∈ (if (attrIndex K layers attr).small = true then
      mergedEntries (smallSources attr layers) else []),
      e.1.Valid ∧ e.1.alloc.isSmall = true := by
    intro e he
    split at he
    · exact smallItems_key h attr he
    · cases he
  have hrawN : (PyDict.keys (rawItems K layers attr)).Nodup := by
    unfold rawItems
    have h1 := hsmallN
    have h2 := flatMap_nodup (fun o : Obj => o.alloc)
      (fun a => (allocContent layers attr a).items) _ hAn
      (fun a ha e he => (hitem a ha e he).2) hitemN
    unfold PyDict.keys at h1 h2 ⊢
    rw [List.map_append, List.nodup_append]
    refine ⟨h1, h2, ?_⟩
    intro k hk k' hk' he
    subst he
    obtain ⟨e, he, rfl⟩ := List.mem_map.1 hk
    obtain ⟨e', he', hee⟩ := List.mem_map.1 hk'
    obtain ⟨a, ha, he'⟩ := List.mem_flatMap.1 he'
    have q1 := (hsmallK e he).2
    rw [← hee, (hitem a ha e' he').2, (hA a ha).2] at q1
    cases q1
  have hperm : (extractAttr K layers attr (attrIndex K layers attr)).items.Perm
      (rawItems K layers attr) := hK.items _
  have hsmallGet : ∀ x : Obj, PyDict.get? (if (attrIndex K layers attr).small = true then
      mergedEntries (smallSources attr layers) else []) x = lookupSmall x attr layers := by
    intro x
    by_cases hs : (attrIndex K layers attr).small = true
    · rw [if_pos hs, mergedEntries_get, smallSources_cell]
    · rw [if_neg hs, lookupSmall_none]
      · rfl
      · intro l hl
        cases hg : l.small.get? attr with
        | none => rfl
        | some s =>
          exact absurd (List.any_eq_true.2 ⟨l, hl, by rw [hg]; rfl⟩) hs
  have hsliceGet : ∀ a, PyDict.get? (extractAttr K layers attr (attrIndex K layers attr)).allocs a =
      if a ∈ (attrIndex K layers attr).allocs then
        PyDict.get? (allocContent layers attr a).allocs a else none :=
    flatMap_get (fun a : Alloc => a) (fun a => (allocContent layers attr a).allocs) _
      (fun a ha e he => (hall a ha e he).1)
  have hitemGet := flatMap_get (fun o : Obj => o.alloc)
    (fun a => (allocContent layers attr a).items) (attrIndex K layers attr).allocs
    (fun a ha e he => (hitem a ha e he).2)
  refine ⟨⟨?_, ?_, ?_, ?_, ?_⟩, ?_⟩
  · exact (hperm.map _).nodup_iff.2 hrawN
  · intro e he
    rcases List.mem_append.1 (hperm.mem_iff.1 he) with h1 | h1
    · exact (hsmallK e h1).1
    · obtain ⟨a, ha, he'⟩ := List.mem_flatMap.1 h1
      exact (hitem a ha e he').1
  · exact flatMap_nodup (fun a : Alloc => a) (fun a => (allocContent layers attr a).allocs) _ hAn
      (fun a ha e he => (hall a ha e he).1) hallN
  · intro e he
    obtain ⟨a, ha, he'⟩ := List.mem_flatMap.1 he
    exact (hall a ha e he').2.1
  · intro e he e' he' heq
    obtain ⟨a', ha', he'⟩ := List.mem_flatMap.1 he'
    have q := hall a' ha' e' he'
    rcases List.mem_append.1 (hperm.mem_iff.1 he) with h1 | h1
    · have := (hsmallK e h1).2
      rw [heq, q.1, (hA a' ha').2] at this
      cases this
    · obtain ⟨a, ha, he2⟩ := List.mem_flatMap.1 h1
      have q2 := (hitem a ha e he2).2
      have : a = a' := by rw [← q2, heq, q.1]
      rw [this, q.2.2] at he2
      cases he2
  · intro x hx
    have hraw : PyDict.get? (extractAttr K layers attr (attrIndex K layers attr)).items x =
        (lookupSmall x attr layers).or (if x.alloc ∈ (attrIndex K layers attr).allocs then
          PyDict.get? (allocContent layers attr x.alloc).items x else none) := by
      rw [get?_perm hperm hrawN]
      unfold rawItems
      rw [get?_append', hsmallGet, hitemGet]
    unfold Content.cell
    rw [hsliceGet, hraw]
    cases hs : x.alloc.isSmall with
    | true =>
      refine .inl ⟨rfl, ?_⟩
      have hn : x.alloc ∉ (attrIndex K layers attr).allocs := by
        intro hm
        have := (hA _ hm).2
        rw [hs] at this
        cases this
      rw [if_neg hn, if_neg hn, Option.or_none]
      rfl
    | false =>
      refine .inr ⟨rfl, ?_⟩
      have hsm : lookupSmall x attr layers = none := by
        rw [← hsmallGet, PyDict.get?_none_iff]
        intro hm
        obtain ⟨e, he, hee⟩ := List.mem_map.1 hm
        have := (hsmallK e he).2
        rw [hee, hs] at this
        cases this
      rw [hsm, Option.none_or]
      by_cases hm : x.alloc ∈ (attrIndex K layers attr).allocs
      · rw [if_pos hm, if_pos hm]
        rcases hcase x.alloc hm with ⟨h1, _, _, h4⟩ | ⟨s, _, h2, h3, h5, h6⟩
        · left
          rw [h1, ← h4 x hx rfl]
          rfl
        · rw [h2]
          have hg : PyDict.get? [(x.alloc, s)] x.alloc = some s := by
            show (if x.alloc = x.alloc then some s else none) = _
            rw [if_pos rfl]
          rw [hg]
          show sliceCell s x = _ ∨ sliceCell s x = none ∧ _
          unfold sliceCell
          by_cases ht : s.types = []
          · rw [if_pos ht]
            refine .inr ⟨rfl, h5, ?_⟩
            intro y hy hya v hv
            rw [← h6 y hy hya] at hv
            have := (h3.wf.typesNil.1 ht) v
            apply this
            cases hc : s.cells[y.off]? with
            | none => rw [hc] at hv; cases hv
            | some c =>
              rw [hc] at hv
              have hv : c = some (some v) := hv
              rw [hv] at hc
              exact List.mem_of_getElem? hc
          · rw [if_neg ht]
            exact .inl (h6 x hx rfl)
      · rw [if_neg hm, if_neg hm, lookupBig_none]
        · exact .inl rfl
        · intro l hl
          cases hg : l.big.get? (x.alloc, attr) with
          | none => rfl
          | some c =>
            exact absurd ((mem_indexAllocs hK layers attr x.alloc).2 ⟨l, hl, by rw [hg]; rfl⟩) hm

end Verif.BagSave
