import Verif.Coalesce.Spec
import Verif.SliceBuilder.Theorems

/-!
C99: `coalesce` and `disjoint_coalesce`.
-/

namespace Verif.Coalesce

open Verif.SliceBuilder

variable {T V : Type} [DecidableEq T]

set_option linter.unusedSectionVars false

theorem join_some {x : Option (Option V)} {v : V} : x.join = some v ↔ x = some (some v) := by
  cases x with
  | none => simp
  | some y => simp

theorem get_has {l : List (T × List (Option V))} {j : Nat} {v : V} (h : get l j = some v) : Has l j v := by
  obtain ⟨a, ha, hv⟩ := List.exists_of_findSome?_eq_some h
  exact ⟨a, ha, join_some.1 hv⟩

theorem get_none {l : List (T × List (Option V))} {j : Nat} (h : get l j = none) (v : V) : ¬ Has l j v := by
  rintro ⟨a, ha, hv⟩
  have := List.findSome?_eq_none_iff.1 h a ha
  rw [join_some.2 hv] at this
  cases this

theorem get_some_iff {l : List (T × List (Option V))} {j : Nat} :
    (get l j).isSome = true ↔ ∃ v, Has l j v := by
  cases h : get l j with
  | none =>
    exact ⟨fun h => (by cases h), fun ⟨v, hv⟩ => (get_none h v hv).elim⟩
  | some v => exact ⟨fun _ => ⟨v, get_has h⟩, fun _ => rfl⟩

theorem get_iff {tyOf : V → T} {s : DS T V} (h : Ok tyOf s) {j : Nat} {v : V} :
    get s.values j = some v ↔ Has s.values j v := by
  refine ⟨get_has, fun hv => ?_⟩
  cases hg : get s.values j with
  | none => exact (get_none hg v hv).elim
  | some w => rw [h.uniq j v w hv (get_has hg)]

theorem has_lt {tyOf : V → T} {s : DS T V} (h : Ok tyOf s) {j : Nat} {v : V} (hv : Has s.values j v) :
    j < s.size := by
  obtain ⟨a, ha, hj⟩ := hv
  rw [← h.len a ha]
  exact (List.getElem?_eq_some_iff.1 hj).1

theorem offered_batch (junk : T → V) (a : T × List (Option V)) (j : Nat) :
    offered (batchOf junk a) j = ((a.2[j]?).join).map some := by
  unfold batchOf offered
  simp only [List.getElem?_map]
  cases a.2[j]? with
  | none => rfl
  | some x => cases x <;> rfl

theorem outcome_batches (junk : T → V) (l : List (T × List (Option V))) (j : Nat) :
    outcome (l.map (batchOf junk)) j = (get l j).map some := by
  unfold outcome get
  induction l with
  | nil => rfl
  | cons a l ih =>
    rw [List.map_cons, List.findSome?_cons, List.findSome?_cons, offered_batch, ih]
    cases (a.2[j]?).join <;> rfl

/-- A slice from arrays that do not overlap. -/
theorem from_spec {tyOf : V → T} {junk : T → V} (hjunk : ∀ t, tyOf (junk t) = t) {size : Nat}
    {l : List (T × List (Option V))} (hlen : ∀ a ∈ l, a.2.length = size)
    (hty : ∀ a ∈ l, ∀ (j : Nat) v, a.2[j]? = some (some v) → tyOf v = a.1)
    (hu : ∀ j v w, Has l j v → Has l j w → v = w) :
    ∃ s, fromArrays tyOf junk size l = some s ∧ Ok tyOf s ∧ s.size = size ∧
      ∀ j v, Has s.values j v ↔ Has l j v := by
  have hf : ∀ op ∈ l.map (batchOf junk), Fits tyOf size op := by
    intro op hop
    obtain ⟨a, ha, rfl⟩ := List.mem_map.1 hop
    refine ⟨by rw [List.length_map]; exact hlen a ha, by rw [List.length_map]; exact hlen a ha, ?_⟩
    intro v hv
    obtain ⟨x, hx, rfl⟩ := List.mem_map.1 hv
    cases x with
    | none => exact hjunk _
    | some v =>
      obtain ⟨j, hj⟩ := List.getElem?_of_mem hx
      exact hty a ha j v hj
  obtain ⟨b, hb, _, _, _, _, hn, _⟩ := C97_build tyOf size _ hf
  obtain ⟨b1, hb1, _, hcodes⟩ := C97_codes tyOf size _ hf
  obtain ⟨b2, hb2, harr⟩ := C97_arrays tyOf size _ hf
  rw [hb] at hb1 hb2
  cases hb1
  cases hb2
  have hfwd : ∀ j v, Has (build b).values j v → get l j = some v := by
    rintro j v ⟨x, hx, hj⟩
    have := ((harr x hx).2 j v hj).1
    rw [outcome_batches] at this
    cases hg : get l j with
    | none => rw [hg] at this; cases this
    | some w => rw [hg] at this; cases this; rfl
  refine ⟨{ size := size, values := (build b).values }, by unfold fromArrays; rw [hb],
    ⟨hn, fun x hx => (harr x hx).1, fun x hx j v hj => ((harr x hx).2 j v hj).2, ?_⟩, rfl, ?_⟩
  · intro j v w h1 h2
    have e1 := hfwd j v h1
    rw [hfwd j w h2] at e1
    exact (Option.some.inj e1).symm
  · intro j v
    constructor
    · exact fun h => get_has (hfwd j v h)
    · intro h
      have hg : get l j = some v := by
        cases hg : get l j with
        | none => exact (get_none hg v h).elim
        | some w => rw [hu j v w h (get_has hg)]
      have hj : j < size := by
        obtain ⟨a, ha, hj⟩ := h
        rw [← hlen a ha]
        exact (List.getElem?_eq_some_iff.1 hj).1
      have ho : outcome (l.map (batchOf junk)) j = some (some v) := by
        rw [outcome_batches, hg]
        rfl
      obtain ⟨k, x, _, h2, _, h4⟩ := (hcodes j hj).2.2 v ho
      exact ⟨x, List.mem_of_getElem? h2, h4⟩

theorem and_get (a : List (Option V)) (mask : List Bool) (j : Nat) (v : V) :
    (andArray a mask)[j]? = some (some v) ↔ a[j]? = some (some v) ∧ mask[j]? = some true := by
  unfold andArray
  rw [List.getElem?_zipWith]
  cases a[j]? with
  | none => simp
  | some x =>
    cases mask[j]? with
    | none => simp
    | some k => cases k <;> simp

theorem or_get (a b : List (Option V)) (j : Nat) (v : V) :
    (orArray a b)[j]? = some (some v) ↔
      (a[j]? = some (some v) ∧ j < b.length) ∨ (a[j]? = some none ∧ b[j]? = some (some v)) := by
  unfold orArray
  rw [List.getElem?_zipWith]
  cases ha : a[j]? with
  | none => simp
  | some x =>
    cases hb : b[j]? with
    | none =>
      have : ¬ j < b.length := Nat.not_lt.2 (List.getElem?_eq_none_iff.1 hb)
      simp [this]
    | some y =>
      have : j < b.length := (List.getElem?_eq_some_iff.1 hb).1
      cases x <;> simp [this]

theorem and_spec {tyOf : V → T} {junk : T → V} (hjunk : ∀ t, tyOf (junk t) = t) {s : DS T V}
    (h : Ok tyOf s) {mask : List Bool} (hm : mask.length = s.size) :
    ∃ f, presenceAnd tyOf junk s mask = some f ∧ Ok tyOf f ∧ f.size = s.size ∧
      ∀ j v, Has f.values j v ↔ Has s.values j v ∧ mask[j]? = some true := by
  have hmem : ∀ x ∈ s.values.filterMap (andOne mask), ∃ a ∈ s.values, x = (a.1, andArray a.2 mask) := by
    intro x hx
    obtain ⟨a, ha, he⟩ := List.mem_filterMap.1 hx
    unfold andOne at he
    by_cases hc : (andArray a.2 mask).any Option.isSome = true
    · rw [if_pos hc] at he
      cases he
      exact ⟨a, ha, rfl⟩
    · rw [if_neg hc] at he
      cases he
  have hhas : ∀ j v, Has (s.values.filterMap (andOne mask)) j v ↔
      Has s.values j v ∧ mask[j]? = some true := by
    intro j v
    constructor
    · rintro ⟨x, hx, hj⟩
      obtain ⟨a, ha, rfl⟩ := hmem x hx
      obtain ⟨h1, h2⟩ := (and_get _ _ _ _).1 hj
      exact ⟨⟨a, ha, h1⟩, h2⟩
    · rintro ⟨⟨a, ha, hj⟩, hk⟩
      have hv := (and_get a.2 mask j v).2 ⟨hj, hk⟩
      refine ⟨(a.1, andArray a.2 mask), List.mem_filterMap.2 ⟨a, ha, ?_⟩, hv⟩
      unfold andOne
      rw [if_pos (List.any_eq_true.2 ⟨_, List.mem_of_getElem? hv, rfl⟩)]
  have hfrom := from_spec (tyOf := tyOf) hjunk (size := s.size)
    (l := s.values.filterMap (andOne mask)) ?_ ?_ ?_
  · obtain ⟨f, hf, ho, hs, hh⟩ := hfrom
    exact ⟨f, hf, ho, hs, fun j v => (hh j v).trans (hhas j v)⟩
  · intro x hx
    obtain ⟨a, ha, rfl⟩ := hmem x hx
    simp only [andArray, List.length_zipWith, h.len a ha, hm, Nat.min_self]
  · intro x hx j v hj
    obtain ⟨a, ha, rfl⟩ := hmem x hx
    exact h.typed a ha j v ((and_get _ _ _ _).1 hj).1
  · intro j v w h1 h2
    exact h.uniq j v w ((hhas j v).1 h1).1 ((hhas j w).1 h2).1

theorem presence_fold {n : Nat} (l : List (T × List (Option V))) (hl : ∀ a ∈ l, a.2.length = n)
    (init : List Bool) (hi : init.length = n) :
    (l.foldl (fun r b => List.zipWith (fun x y => x || y) (b.2.map Option.isSome) r) init).length = n ∧
    ∀ j : Nat, (l.foldl (fun r b => List.zipWith (fun x y => x || y) (b.2.map Option.isSome) r) init)[j]? = some true ↔
      init[j]? = some true ∨ ∃ v, Has l j v := by
  induction l generalizing init with
  | nil =>
    refine ⟨hi, fun j => ⟨.inl, ?_⟩⟩
    rintro (h | ⟨v, a, ha, _⟩)
    · exact h
    · cases ha
  | cons a l ih =>
    rw [List.foldl_cons]
    have hal : a.2.length = n := hl a List.mem_cons_self
    obtain ⟨h1, h2⟩ := ih (fun b hb => hl b (List.mem_cons_of_mem _ hb))
      (List.zipWith (fun x y => x || y) (a.2.map Option.isSome) init)
      (by rw [List.length_zipWith, List.length_map, hal, hi, Nat.min_self])
    refine ⟨h1, fun j => ?_⟩
    rw [h2 j, List.getElem?_zipWith, List.getElem?_map]
    have hcons : (∃ v, Has (a :: l) j v) ↔ (∃ v, a.2[j]? = some (some v)) ∨ ∃ v, Has l j v := by
      constructor
      · rintro ⟨v, b, hb, hj⟩
        rcases List.mem_cons.1 hb with rfl | hb
        · exact .inl ⟨v, hj⟩
        · exact .inr ⟨v, b, hb, hj⟩
      · rintro (⟨v, hj⟩ | ⟨v, b, hb, hj⟩)
        · exact ⟨v, a, List.mem_cons_self, hj⟩
        · exact ⟨v, b, List.mem_cons_of_mem _ hb, hj⟩
    rw [hcons, ← or_assoc]
    refine or_congr ?_ Iff.rfl
    by_cases hj : j < n
    · rw [List.getElem?_eq_getElem (by rw [hal]; exact hj), List.getElem?_eq_getElem (by rw [hi]; exact hj)]
      cases a.2[j]'(by rw [hal]; exact hj) with
      | none => simp
      | some w => simp
    · rw [List.getElem?_eq_none (l := a.2) (by omega), List.getElem?_eq_none (l := init) (by omega)]
      simp

theorem presence_spec {tyOf : V → T} {s : DS T V} (h : Ok tyOf s) : (presence s).length = s.size ∧
    ∀ j : Nat, (presence s)[j]? = some true ↔ ∃ v, Has s.values j v := by
  unfold presence
  cases hv : s.values with
  | nil =>
    refine ⟨List.length_replicate, fun j => ⟨fun h => ?_, fun ⟨v, a, ha, _⟩ => (by cases ha)⟩⟩
    have := List.eq_of_mem_replicate (List.mem_of_getElem? h)
    cases this
  | cons a l =>
    have hlen := h.len
    rw [hv] at hlen
    obtain ⟨h1, h2⟩ := presence_fold l (fun b hb => hlen b (List.mem_cons_of_mem _ hb))
      (a.2.map Option.isSome) (by rw [List.length_map]; exact hlen a List.mem_cons_self)
    refine ⟨h1, fun j => ?_⟩
    rw [h2 j]
    constructor
    · rintro (hj | ⟨v, b, hb, hj⟩)
      · rw [List.getElem?_map] at hj
        cases hx : a.2[j]? with
        | none => rw [hx] at hj; cases hj
        | some x =>
          cases x with
          | none => rw [hx] at hj; cases hj
          | some v => exact ⟨v, a, List.mem_cons_self, hx⟩
      · exact ⟨v, b, List.mem_cons_of_mem _ hb, hj⟩
    · rintro ⟨v, b, hb, hj⟩
      rcases List.mem_cons.1 hb with rfl | hb
      · exact .inl (by rw [List.getElem?_map, hj]; rfl)
      · exact .inr ⟨v, b, hb, hj⟩

theorem missing_get {tyOf : V → T} {s : DS T V} (h : Ok tyOf s) {j : Nat} : (missing s)[j]? = some true ↔
    j < s.size ∧ ∀ v, ¬ Has s.values j v := by
  obtain ⟨h1, h2⟩ := presence_spec h
  unfold missing
  rw [List.getElem?_map]
  by_cases hj : j < s.size
  · have := h2 j
    rw [List.getElem?_eq_getElem (by rw [h1]; exact hj)] at this ⊢
    cases hx : (presence s)[j]'(by rw [h1]; exact hj) with
    | false =>
      rw [hx] at this
      exact ⟨fun _ => ⟨hj, fun v hv => (by cases this.2 ⟨v, hv⟩)⟩, fun _ => rfl⟩
    | true =>
      rw [hx] at this
      obtain ⟨v, hv⟩ := this.1 rfl
      exact ⟨fun h => (by cases h), fun h => (h.2 v hv).elim⟩
  · rw [List.getElem?_eq_none (by omega)]
    exact ⟨fun h => (by cases h), fun h => (hj h.1).elim⟩

theorem present_zero {tyOf : V → T} {s : DS T V} (h : Ok tyOf s) :
    presentCount s = 0 ↔ ∀ j v, ¬ Has s.values j v := by
  unfold presentCount
  rw [List.countP_eq_zero]
  constructor
  · intro hc j v hv
    exact hc j (List.mem_range.2 (has_lt h hv)) (get_some_iff.2 ⟨v, hv⟩)
  · intro hc j _ hs
    obtain ⟨v, hv⟩ := get_some_iff.1 hs
    exact hc j v hv

theorem countP_split {X : Type} (l : List X) (p q r : X → Bool) (hq : ∀ x, q x = (p x && !r x)) :
    l.countP p = l.countP q + l.countP fun x => p x && r x := by
  induction l with
  | nil => rfl
  | cons x l ih =>
    rw [List.countP_cons, List.countP_cons, List.countP_cons, ih, hq x]
    cases p x <;> cases r x <;> simp <;> omega

/-- A count finds an overlap. -/
theorem filter_count {tyOf : V → T} {l r f : DS T V} (hl : Ok tyOf l) (hr : Ok tyOf r)
    (hs : l.size = r.size) (hfs : f.size = r.size)
    (hf : ∀ j v, Has f.values j v ↔ Has r.values j v ∧ (missing l)[j]? = some true) :
    presentCount r ≠ presentCount f ↔ Overlap l r := by
  have hsplit := countP_split (List.range r.size) (fun j => (get r.values j).isSome)
    (fun j => (get f.values j).isSome) (fun j => (get l.values j).isSome) ?_
  · unfold presentCount
    rw [hfs, hsplit]
    constructor
    · intro hne
      have hpos : (List.range r.size).countP
          (fun j => (get r.values j).isSome && (get l.values j).isSome) ≠ 0 := by omega
      rw [Ne, List.countP_eq_zero] at hpos
      obtain ⟨j, hj⟩ := Classical.not_forall.1 hpos
      obtain ⟨_, hj⟩ := Classical.not_imp.1 hj
      rw [Classical.not_not, Bool.and_eq_true] at hj
      obtain ⟨w, hw⟩ := get_some_iff.1 hj.1
      obtain ⟨v, hv⟩ := get_some_iff.1 hj.2
      exact ⟨j, v, w, hv, hw⟩
    · rintro ⟨j, v, w, hv, hw⟩
      have : 0 < (List.range r.size).countP
          (fun j => (get r.values j).isSome && (get l.values j).isSome) := by
        rw [List.countP_pos_iff]
        refine ⟨j, List.mem_range.2 (has_lt hr hw), ?_⟩
        rw [Bool.and_eq_true]
        exact ⟨get_some_iff.2 ⟨w, hw⟩, get_some_iff.2 ⟨v, hv⟩⟩
      omega
  · intro j
    rw [Bool.eq_iff_iff, Bool.and_eq_true, Bool.not_eq_true', get_some_iff, get_some_iff]
    constructor
    · rintro ⟨v, hv⟩
      obtain ⟨h1, h2⟩ := (hf j v).1 hv
      refine ⟨⟨v, h1⟩, ?_⟩
      cases hg : get l.values j with
      | none => rfl
      | some w => exact (((missing_get hl).1 h2).2 w (get_has hg)).elim
    · rintro ⟨⟨v, hv⟩, hn⟩
      refine ⟨v, (hf j v).2 ⟨hv, (missing_get hl).2 ⟨by rw [hs]; exact has_lt hr hv, ?_⟩⟩⟩
      cases hg : get l.values j with
      | none => exact get_none hg
      | some w => rw [hg] at hn; cases hn

/-- The array of a type. -/
theorem mixed_has {tyOf : V → T} {l f : DS T V} (hl : Ok tyOf l) (hf : Ok tyOf f)
    (hs : f.size = l.size) (hd : ∀ j v w, Has l.values j v → ¬ Has f.values j w) (j : Nat) (v : V) :
    Has (mixedArrays l.values f.values) j v ↔ Has l.values j v ∨ Has f.values j v := by
  unfold mixedArrays
  constructor
  · rintro ⟨x, hx, hj⟩
    rcases List.mem_append.1 hx with hx | hx
    · obtain ⟨a, ha, rfl⟩ := List.mem_map.1 hx
      unfold mergeOne at hj
      cases hb : f.values.lookup a.1 with
      | none =>
        rw [hb] at hj
        exact .inl ⟨a, ha, hj⟩
      | some b =>
        rw [hb] at hj
        rcases (or_get _ _ _ _).1 hj with h1 | h1
        · exact .inl ⟨a, ha, h1.1⟩
        · exact .inr ⟨(a.1, b), lookup_mem hb, h1.2⟩
    · exact .inr ⟨x, (List.mem_filter.1 hx).1, hj⟩
  · rintro (h | h)
    · have hlt : j < l.size := has_lt hl h
      obtain ⟨a, ha, hj⟩ := h
      refine ⟨mergeOne f.values a, List.mem_append_left _ (List.mem_map_of_mem ha), ?_⟩
      unfold mergeOne
      cases hb : f.values.lookup a.1 with
      | none => exact hj
      | some b =>
        refine (or_get _ _ _ _).2 (.inl ⟨hj, ?_⟩)
        rw [hf.len _ (lookup_mem hb), hs]
        exact hlt
    · have hlt : j < f.size := has_lt hf h
      have hno : ∀ w, ¬ Has l.values j w := fun w hw => hd j w v hw h
      obtain ⟨b, hb, hj⟩ := h
      by_cases hk : b.1 ∈ l.values.map Prod.fst
      · obtain ⟨a, ha, he⟩ := List.mem_map.1 hk
        refine ⟨mergeOne f.values a, List.mem_append_left _ (List.mem_map_of_mem ha), ?_⟩
        unfold mergeOne
        rw [he, mem_lookup hf.nodup hb]
        refine (or_get _ _ _ _).2 (.inr ⟨?_, hj⟩)
        have hal : j < a.2.length := by rw [hl.len a ha, ← hs]; exact hlt
        rw [List.getElem?_eq_getElem hal]
        cases hx : a.2[j] with
        | none => rfl
        | some w =>
          exact (hno w ⟨a, ha, by rw [List.getElem?_eq_getElem hal, hx]⟩).elim
      · exact ⟨b, List.mem_append_right _ (List.mem_filter.2 ⟨hb, by simpa using hk⟩), hj⟩

theorem mixed_mem {tyOf : V → T} {l f : DS T V} (hl : Ok tyOf l) (hf : Ok tyOf f)
    (hs : f.size = l.size) {x : T × List (Option V)} (hx : x ∈ mixedArrays l.values f.values) :
    x.2.length = l.size ∧ ∀ (j : Nat) v, x.2[j]? = some (some v) → tyOf v = x.1 := by
  unfold mixedArrays at hx
  rcases List.mem_append.1 hx with hx | hx
  · obtain ⟨a, ha, rfl⟩ := List.mem_map.1 hx
    unfold mergeOne
    cases hb : f.values.lookup a.1 with
    | none => exact ⟨hl.len a ha, hl.typed a ha⟩
    | some b =>
      have hm := lookup_mem hb
      refine ⟨?_, ?_⟩
      · simp only [orArray, List.length_zipWith]
        rw [hl.len a ha, hf.len _ hm, hs, Nat.min_self]
      · intro j v hj
        rcases (or_get _ _ _ _).1 hj with h1 | h1
        · exact hl.typed a ha j v h1.1
        · exact hf.typed _ hm j v h1.2
  · have hm := (List.mem_filter.1 hx).1
    exact ⟨by rw [hf.len x hm, hs], hf.typed x hm⟩

/-- What an operator should do. -/
def Right (tyOf : V → T) (disjoint : Bool) (l r : DS T V) (res : Res T V) : Prop :=
  (disjoint = true ∧ Overlap l r ∧ res = .overlap) ∨
  ((disjoint = true → ¬ Overlap l r) ∧ ∃ s, res = .ok s ∧ Coalesced tyOf l r s)

theorem mixed_right {tyOf : V → T} {junk : T → V} (hjunk : ∀ t, tyOf (junk t) = t) {l r : DS T V}
    (hl : Ok tyOf l) (hr : Ok tyOf r) (hs : l.size = r.size) (disjoint : Bool) :
    Right tyOf disjoint l r (mixedCase tyOf junk disjoint l r) := by
  obtain ⟨f, hf, hfo, hfs, hfh⟩ := and_spec hjunk hr (mask := missing l) (by rw [missing, List.length_map, (presence_spec hl).1, hs])
  have hcount := filter_count hl hr hs hfs hfh
  unfold mixedCase
  simp only [hf]
  have hno : (disjoint && (presentCount r != presentCount f)) = false → disjoint = true → ¬ Overlap l r := by
    intro h hd ho
    rw [hd, Bool.true_and] at h
    have := hcount.2 ho
    simp [this] at h
  by_cases hc : (disjoint && (presentCount r != presentCount f)) = true
  · rw [if_pos hc]
    rw [Bool.and_eq_true] at hc
    exact .inl ⟨hc.1, hcount.1 (by simpa using hc.2), rfl⟩
  · rw [if_neg hc]
    refine .inr ⟨hno (by simpa using hc), ?_⟩
    have hsame : ∀ j v, Has f.values j v ↔ (∀ w, ¬ Has l.values j w) ∧ Has r.values j v := by
      intro j v
      rw [hfh j v, missing_get hl]
      constructor
      · exact fun h => ⟨h.2.2, h.1⟩
      · exact fun h => ⟨h.2, by rw [hs]; exact has_lt hr h.2, h.1⟩
    by_cases hz : presentCount f = 0
    · rw [if_pos hz]
      refine ⟨l, rfl, hl, rfl, fun j v => ⟨.inl, ?_⟩⟩
      rintro (h | h)
      · exact h
      · exact ((present_zero hfo).1 hz j v ((hsame j v).2 h)).elim
    · rw [if_neg hz]
      have hsz : f.size = l.size := by rw [hfs, hs]
      have hd : ∀ j v w, Has l.values j v → ¬ Has f.values j w :=
        fun j v w h1 h2 => ((hsame j w).1 h2).1 v h1
      have hm := mixed_has hl hfo hsz hd
      have hfrom := from_spec hjunk (size := l.size)
        (l := mixedArrays l.values f.values) (fun a ha => (mixed_mem hl hfo hsz ha).1)
        (fun a ha => (mixed_mem hl hfo hsz ha).2) ?_
      · obtain ⟨s, h1, h2, h3, h4⟩ := hfrom
        rw [h1]
        exact ⟨s, rfl, h2, h3, fun j v => by rw [h4, hm, hsame]⟩
      · intro j v w hv hw
        rcases (hm j v).1 hv with hv | hv <;> rcases (hm j w).1 hw with hw | hw
        · exact hl.uniq j v w hv hw
        · exact (hd j v w hv hw).elim
        · exact (hd j w v hw hv).elim
        · exact hfo.uniq j v w hv hw

theorem or_count (a b : List (Option V)) (h : a.length = b.length) :
    a.countP Option.isSome + b.countP Option.isSome =
      (orArray a b).countP Option.isSome + (a.zip b).countP fun p => p.1.isSome && p.2.isSome := by
  unfold orArray
  induction a generalizing b with
  | nil =>
    cases b with
    | nil => rfl
    | cons => cases h
  | cons x a ih =>
    cases b with
    | nil => cases h
    | cons y b =>
      have := ih b (by simpa using h)
      rw [List.countP_cons, List.countP_cons, List.zipWith_cons_cons, List.zip_cons_cons, List.countP_cons,
        List.countP_cons]
      cases x <;> cases y <;> simp <;> omega

theorem has_one {t : T} {a : List (Option V)} {j : Nat} {v : V} :
    Has [(t, a)] j v ↔ a[j]? = some (some v) := by
  constructor
  · rintro ⟨x, hx, hj⟩
    rw [List.mem_singleton] at hx
    subst hx
    exact hj
  · exact fun h => ⟨_, List.mem_singleton.2 rfl, h⟩

theorem single_right {tyOf : V → T} {junk : T → V} (hjunk : ∀ t, tyOf (junk t) = t) {l r : DS T V}
    (hl : Ok tyOf l) (hr : Ok tyOf r) (hs : l.size = r.size) (disjoint : Bool) {t : T}
    {a b : List (Option V)} (ha : l.values = [(t, a)]) (hb : r.values = [(t, b)]) :
    Right tyOf disjoint l r (singleCase tyOf junk disjoint l.size t a b) := by
  have hal : a.length = l.size := hl.len (t, a) (by rw [ha]; exact List.mem_singleton.2 rfl)
  have hbl : b.length = l.size := by
    rw [hs]; exact hr.len (t, b) (by rw [hb]; exact List.mem_singleton.2 rfl)
  have hcount := or_count a b (by rw [hal, hbl])
  have hover : a.countP Option.isSome + b.countP Option.isSome ≠ (orArray a b).countP Option.isSome ↔
      Overlap l r := by
    rw [hcount]
    unfold Overlap
    simp only [ha, hb, has_one]
    constructor
    · intro h
      have hpos : 0 < (a.zip b).countP fun p => p.1.isSome && p.2.isSome := by omega
      obtain ⟨p, hp, hpp⟩ := List.countP_pos_iff.1 hpos
      obtain ⟨j, hj⟩ := List.getElem?_of_mem hp
      rw [Bool.and_eq_true] at hpp
      obtain ⟨v, hv⟩ := Option.isSome_iff_exists.1 hpp.1
      obtain ⟨w, hw⟩ := Option.isSome_iff_exists.1 hpp.2
      obtain ⟨h1, h2⟩ := List.getElem?_zip_eq_some.1 hj
      exact ⟨j, v, w, by rw [h1, hv], by rw [h2, hw]⟩
    · rintro ⟨j, v, w, hv, hw⟩
      have : 0 < (a.zip b).countP fun p => p.1.isSome && p.2.isSome :=
        List.countP_pos_iff.2 ⟨(some v, some w),
          List.mem_of_getElem? (List.getElem?_zip_eq_some.2 ⟨hv, hw⟩), rfl⟩
      omega
  unfold singleCase
  by_cases hc : (disjoint && (a.countP Option.isSome + b.countP Option.isSome !=
      (orArray a b).countP Option.isSome)) = true
  · rw [if_pos hc]
    rw [Bool.and_eq_true] at hc
    exact .inl ⟨hc.1, hover.1 (by simpa using hc.2), rfl⟩
  · rw [if_neg hc]
    refine .inr ⟨?_, ?_⟩
    · intro hd ho
      apply hc
      rw [hd, Bool.true_and]
      simpa using hover.2 ho
    · have hty : ∀ (j : Nat) v, (orArray a b)[j]? = some (some v) → tyOf v = t := by
        intro j v hj
        rcases (or_get _ _ _ _).1 hj with h1 | h1
        · exact hl.typed (t, a) (by rw [ha]; exact List.mem_singleton.2 rfl) j v h1.1
        · exact hr.typed (t, b) (by rw [hb]; exact List.mem_singleton.2 rfl) j v h1.2
      have hfrom := from_spec (tyOf := tyOf) hjunk (size := l.size) (l := [(t, orArray a b)]) ?_ ?_ ?_
      · obtain ⟨s, h1, h2, h3, h4⟩ := hfrom
        rw [h1]
        refine ⟨s, rfl, h2, h3, fun j v => ?_⟩
        rw [h4, has_one, or_get, ha, hb]
        simp only [has_one]
        constructor
        · rintro (h | h)
          · exact .inl h.1
          · exact .inr ⟨fun w hw => (by rw [h.1] at hw; cases hw), h.2⟩
        · rintro (h | h)
          · refine .inl ⟨h, ?_⟩
            rw [hbl, ← hal]
            exact (List.getElem?_eq_some_iff.1 h).1
          · refine .inr ⟨?_, h.2⟩
            have hja : j < a.length := by rw [hal, ← hbl]; exact (List.getElem?_eq_some_iff.1 h.2).1
            rw [List.getElem?_eq_getElem hja]
            cases hx : a[j] with
            | none => rfl
            | some w => exact (h.1 w (by rw [List.getElem?_eq_getElem hja, hx])).elim
      · intro x hx
        rw [List.mem_singleton] at hx
        subst hx
        simp only [orArray, List.length_zipWith, hal, hbl, Nat.min_self]
      · intro x hx
        rw [List.mem_singleton] at hx
        subst hx
        exact hty
      · intro j v w h1 h2
        rw [has_one] at h1 h2
        rw [h1] at h2
        cases h2
        rfl

theorem or_right {tyOf : V → T} {junk : T → V} (hjunk : ∀ t, tyOf (junk t) = t) {l r : DS T V}
    (hl : Ok tyOf l) (hr : Ok tyOf r) (hs : l.size = r.size) (disjoint : Bool) :
    Right tyOf disjoint l r (presenceOr tyOf junk disjoint l r) := by
  unfold presenceOr
  rw [if_neg (fun h => h hs)]
  by_cases hz : presentCount r = 0
  · rw [if_pos hz]
    have hno := (present_zero hr).1 hz
    refine .inr ⟨fun _ ⟨j, _, w, _, hw⟩ => hno j w hw, l, rfl, hl, rfl, fun j v => ⟨.inl, ?_⟩⟩
    rintro (h | h)
    · exact h
    · exact (hno j v h.2).elim
  · rw [if_neg hz]
    split
    · rename_i hlv
      have hno : ∀ j v, ¬ Has l.values j v := by
        rintro j v ⟨a, ha, _⟩
        rw [hlv] at ha
        cases ha
      refine .inr ⟨fun _ ⟨j, v, _, hv, _⟩ => hno j v hv, r, rfl, hr, hs.symm, fun j v => ⟨?_, ?_⟩⟩
      · exact fun h => .inr ⟨hno j, h⟩
      · rintro (h | h)
        · exact (hno j v h).elim
        · exact h.2
    · rename_i t a u b h1 h2
      by_cases htu : t = u
      · subst htu
        rw [if_pos rfl]
        exact single_right hjunk hl hr hs disjoint h1 h2
      · rw [if_neg htu]
        exact mixed_right hjunk hl hr hs disjoint
    · exact mixed_right hjunk hl hr hs disjoint

/-- **C99**: `coalesce` of slices of the same size always succeeds, whatever types are on both sides, and has
the values of the left slice, and where it has none those of the right one. -/
theorem C99_coalesce {tyOf : V → T} {junk : T → V} (hjunk : ∀ t, tyOf (junk t) = t) {l r : DS T V}
    (hl : Ok tyOf l) (hr : Ok tyOf r) (hs : l.size = r.size) :
    ∃ s, presenceOr tyOf junk false l r = .ok s ∧ Coalesced tyOf l r s ∧
      ∀ j, get s.values j = (get l.values j).or (get r.values j) := by
  rcases or_right hjunk hl hr hs false with ⟨h, _⟩ | ⟨_, s, h1, h2⟩
  · cases h
  · refine ⟨s, h1, h2, fun j => ?_⟩
    cases hg : get l.values j with
    | some v =>
      rw [Option.some_or]
      exact (get_iff h2.1).2 ((h2.2.2 j v).2 (.inl (get_has hg)))
    | none =>
      rw [Option.none_or]
      cases hg' : get r.values j with
      | some v => exact (get_iff h2.1).2 ((h2.2.2 j v).2 (.inr ⟨get_none hg, get_has hg'⟩))
      | none =>
        cases hgs : get s.values j with
        | none => rfl
        | some v =>
          rcases (h2.2.2 j v).1 (get_has hgs) with h | h
          · exact (get_none hg v h).elim
          · exact (get_none hg' v h.2).elim

/-- **C99**, `disjoint_coalesce` of slices: it fails exactly if an element has a value on both sides, and
otherwise gives what `coalesce` should give. -/
theorem C99_disjoint {tyOf : V → T} {junk : T → V} (hjunk : ∀ t, tyOf (junk t) = t) {l r : DS T V}
    (hl : Ok tyOf l) (hr : Ok tyOf r) (hs : l.size = r.size) :
    (Overlap l r → presenceOr tyOf junk true l r = .overlap) ∧
    (¬ Overlap l r → ∃ s, presenceOr tyOf junk true l r = .ok s ∧ Coalesced tyOf l r s) := by
  rcases or_right hjunk hl hr hs true with ⟨_, h1, h2⟩ | ⟨h1, h2⟩
  · exact ⟨fun _ => h2, fun h => (h h1).elim⟩
  · exact ⟨fun h => (h1 rfl h).elim, fun _ => h2⟩

/-- **C99**, slices of different sizes are an error. -/
theorem C99_sizes (tyOf : V → T) (junk : T → V) (disjoint : Bool) (l r : DS T V) (hs : l.size ≠ r.size) :
    presenceOr tyOf junk disjoint l r = .sizes := by
  unfold presenceOr
  rw [if_pos hs]

theorem const_ok (tyOf : V → T) (size : Nat) (v : V) : Ok tyOf (const tyOf size v) := by
  have hg : ∀ (j : Nat) w, (List.replicate size (some v))[j]? = some (some w) → w = v := by
    intro j w h
    rw [List.getElem?_replicate] at h
    by_cases hj : j < size
    · rw [if_pos hj] at h
      cases h
      rfl
    · rw [if_neg hj] at h
      cases h
  refine ⟨by simp [const], ?_, ?_, ?_⟩
  · intro a ha
    rw [const, List.mem_singleton] at ha
    subst ha
    simp [const]
  · intro a ha j w h
    rw [const, List.mem_singleton] at ha
    subst ha
    rw [hg j w h]
  · intro j w x h1 h2
    rw [hg j w (has_one.1 h1), hg j x (has_one.1 h2)]

/-- **C99**, a slice and an item: `coalesce` puts the item at all elements that are missing.
`disjoint_coalesce` fails if the slice has any value; it succeeds if the slice has no values and no type. -/
theorem C99_item {tyOf : V → T} {junk : T → V} (hjunk : ∀ t, tyOf (junk t) = t) {l : DS T V}
    (hl : Ok tyOf l) (v : V) :
    (∃ s, orItem tyOf junk false l (some v) = .ok s ∧ Coalesced tyOf l (const tyOf l.size v) s) ∧
    ((∃ j w, Has l.values j w) → orItem tyOf junk true l (some v) = .overlap) ∧
    (l.values = [] → ∃ s, orItem tyOf junk true l (some v) = .ok s ∧
      Coalesced tyOf l (const tyOf l.size v) s) ∧
    ∀ disjoint, orItem tyOf junk disjoint l none = .ok l := by
  have hfull : l.size = presentCount l → Coalesced tyOf l (const tyOf l.size v) l := by
    intro hc
    refine ⟨hl, rfl, fun j w => ⟨.inl, ?_⟩⟩
    rintro (h | h)
    · exact h
    · have hj : j < l.size := has_lt (const_ok tyOf l.size v) h.2
      have hall : (List.range l.size).countP (fun j => (get l.values j).isSome) =
          (List.range l.size).length := by
        rw [List.length_range]
        exact hc.symm
      obtain ⟨x, hx⟩ := get_some_iff.1 (List.countP_eq_length.1 hall j (List.mem_range.2 hj))
      exact (h.1 x hx).elim
  have hboth : ∀ disjoint, (disjoint && !l.values.isEmpty) = false → (disjoint = true → l.values = []) →
      ∃ s, orItem tyOf junk disjoint l (some v) = .ok s ∧ Coalesced tyOf l (const tyOf l.size v) s := by
    intro disjoint hd he
    unfold orItem
    simp only [hd, Bool.false_eq_true, if_false]
    by_cases hc : l.size = presentCount l
    · rw [if_pos hc]
      exact ⟨l, rfl, hfull hc⟩
    · rw [if_neg hc]
      rcases or_right hjunk hl (const_ok tyOf l.size v) rfl disjoint with ⟨h1, ⟨j, w, _, hw, _⟩, _⟩ | ⟨_, h⟩
      · obtain ⟨a, ha, _⟩ := hw
        rw [he h1] at ha
        cases ha
      · exact h
  refine ⟨hboth false rfl (fun h => (by cases h)), ?_, ?_, fun _ => rfl⟩
  · rintro ⟨j, w, a, ha, _⟩
    unfold orItem
    have : l.values.isEmpty = false := by
      cases hv : l.values with
      | nil => rw [hv] at ha; cases ha
      | cons => rfl
    simp [this]
  · intro h
    exact hboth true (by rw [h]; rfl) fun _ => h

theorem get_eq {tyOf : V → T} {s : DS T V} (h : Ok tyOf s) {j : Nat} {x : Option V}
    (hx : ∀ v, Has s.values j v ↔ x = some v) : get s.values j = x := by
  cases hg : get s.values j with
  | some v => exact ((hx v).1 (get_has hg)).symm
  | none =>
    cases x with
    | none => rfl
    | some v => exact (get_none hg v ((hx v).2 rfl)).elim

/-- **C100**: a slice with a mask of the same size has exactly its values at the elements of the mask; other
sizes are an error. -/
theorem C100_mask {tyOf : V → T} {junk : T → V} (hjunk : ∀ t, tyOf (junk t) = t) {s : DS T V}
    (h : Ok tyOf s) (mask : List Bool) :
    (mask.length = s.size → ∃ f, andSlice tyOf junk s mask = .ok f ∧ Ok tyOf f ∧ f.size = s.size ∧
      ∀ j, get f.values j = if mask[j]? = some true then get s.values j else none) ∧
    (mask.length ≠ s.size → andSlice tyOf junk s mask = .sizes) := by
  unfold andSlice
  refine ⟨fun hm => ?_, fun hm => by rw [if_pos (Ne.symm hm)]⟩
  obtain ⟨f, h1, h2, h3, h4⟩ := and_spec hjunk h hm
  rw [if_neg (fun hn => hn hm.symm), h1]
  refine ⟨f, rfl, h2, h3, fun j => get_eq h2 fun v => ?_⟩
  rw [h4 j v]
  by_cases hk : mask[j]? = some true
  · rw [if_pos hk, get_iff h]
    exact ⟨fun h => h.1, fun h => ⟨h, hk⟩⟩
  · rw [if_neg hk]
    exact ⟨fun h => (hk h.2).elim, fun h => (by cases h)⟩

/-- **C100**, the mask of a slice has its size, and the elements with values. -/
theorem C100_has {tyOf : V → T} {s : DS T V} (h : Ok tyOf s) : (presence s).length = s.size ∧
    ∀ j : Nat, (presence s)[j]? = some true ↔ (get s.values j).isSome = true := by
  obtain ⟨h1, h2⟩ := presence_spec h
  exact ⟨h1, fun j => by rw [h2 j, get_some_iff]⟩

/-- **C100**: attributes with a default. An element has the value of the attribute, or else the default if
the object is present; a missing object does not get the default. -/
theorem C100_default {tyOf : V → T} {junk : T → V} (hjunk : ∀ t, tyOf (junk t) = t) {objs attrs dflt : DS T V}
    (ho : Ok tyOf objs) (ha : Ok tyOf attrs) (hd : Ok tyOf dflt) (h1 : attrs.size = objs.size)
    (h2 : dflt.size = objs.size) :
    ∃ s, withFiltered tyOf junk objs attrs dflt = .ok s ∧ Ok tyOf s ∧ s.size = objs.size ∧
      ∀ j, get s.values j = (get attrs.values j).or
        (if (get objs.values j).isSome then get dflt.values j else none) := by
  obtain ⟨hpl, hpg⟩ := C100_has ho
  obtain ⟨f, e1, e2, e3, e4⟩ := (C100_mask hjunk hd (presence objs)).1 (by rw [hpl, h2])
  obtain ⟨s, e5, e6, e7⟩ := C99_coalesce hjunk ha e2 (by rw [h1, e3, h2])
  refine ⟨s, by unfold withFiltered; rw [e1]; exact e5, e6.1, by rw [e6.2.1, h1], fun j => ?_⟩
  rw [e7 j, e4 j]
  congr 1
  simp only [hpg j]

/-- **C100**, the same for items: the operators agree with those of slices at each element. -/
theorem C100_items (filter l r : Option V) :
    itemOr false l r = some (l.or r) ∧
    (itemOr true l r = none ↔ l.isSome = true ∧ r.isSome = true) ∧
    (∀ x, itemOr true l r = some x → x = l.or r) ∧
    itemWithFiltered filter l r = some (l.or (if filter.isSome then r else none)) := by
  cases filter <;> cases l <;> cases r <;> simp [itemOr, itemWithFiltered]

/-- The type of an example value. -/
def exTy : Nat ⊕ String → Bool
  | .inl _ => false
  | .inr _ => true

/-- Any values of the types. -/
def exJunk : Bool → Nat ⊕ String
  | false => .inl 99
  | true => .inr "junk"

/-- A slice with numbers and strings. -/
def exL : DS Bool (Nat ⊕ String) :=
  { size := 4, values := [(false, [some (.inl 1), none, none, none]), (true, [none, some (.inr "a"), none, none])] }

/-- A slice of strings. -/
def exR : DS Bool (Nat ⊕ String) := { size := 4, values := [(true, [some (.inr "x"), none, some (.inr "z"), none])] }

/-- A slice of strings without values. -/
def exE : DS Bool (Nat ⊕ String) := { size := 2, values := [(true, [none, none])] }

/-- **C99**, finding: if the slice has a type but no value, `disjoint_coalesce` with an item fails although
nothing overlaps, while the same item as a slice is no error. The operator is not affected: an item is
broadcast to a slice, as there is no `PresenceOrOp` of an item and a slice (data_slice_op.h:31-43, 84-96). -/
theorem C99_item_overlap_finding :
    Ok exTy exE ∧ (∀ j v, ¬ Has exE.values j v) ∧
    orItem exTy exJunk true exE (some (.inl 7)) = .overlap ∧
    ∃ s, presenceOr exTy exJunk true exE (const exTy 2 (.inl 7)) = .ok s := by
  have hno : ∀ (j : Nat) v, ([none, none] : List (Option (Nat ⊕ String)))[j]? ≠ some (some v) := by
    intro j v
    match j with
    | 0 => exact fun h => (by cases h)
    | 1 => exact fun h => (by cases h)
    | j + 2 => exact fun h => (by cases h)
  refine ⟨⟨by decide, ?_, ?_, ?_⟩, ?_, rfl, ?_⟩
  · intro a ha
    rw [exE, List.mem_singleton] at ha
    subst ha
    rfl
  · intro a ha j v h
    rw [exE, List.mem_singleton] at ha
    subst ha
    exact (hno j v h).elim
  · intro j v w h
    exact (hno j v (has_one.1 h)).elim
  · intro j v h
    exact hno j v (has_one.1 h)
  · exact ⟨_, rfl⟩

/-- Values of a result. -/
def exValues : Res Bool (Nat ⊕ String) → Option (List (Bool × List (Option (Nat ⊕ String))))
  | .ok s => some s.values
  | _ => none

example : Ok exTy exL := by
  refine ⟨by decide, by decide, ?_, ?_⟩
  · intro a ha j v h
    simp only [exL, List.mem_cons, List.not_mem_nil, or_false] at ha
    rcases ha with rfl | rfl <;> rcases j with _ | _ | _ | _ | j <;> simp at h <;> subst h <;> rfl
  · rintro j v w ⟨a, ha, h⟩ ⟨b, hb, h'⟩
    simp only [exL, List.mem_cons, List.not_mem_nil, or_false] at ha hb
    rcases ha with rfl | rfl <;> rcases hb with rfl | rfl <;> rcases j with _ | _ | _ | _ | j <;>
      simp at h h' <;> rw [← h, ← h']

example : exValues (presenceOr exTy exJunk false exL exR) =
    some [(false, [some (.inl 1), none, none, none]), (true, [none, some (.inr "a"), some (.inr "z"), none])] :=
  rfl

example : presenceOr exTy exJunk true exL exR = .overlap := rfl

example : presence exL = [true, true, false, false] := rfl

/-- Objects, of which the third is missing, so that the value of `exR` there is not used. -/
def exO : DS Bool (Nat ⊕ String) := { size := 4, values := [(false, [some (.inl 5), some (.inl 6), none, some (.inl 8)])] }

example : exValues (withFiltered exTy exJunk exO exL (const exTy 4 (.inr "d"))) =
    some [(false, [some (.inl 1), none, none, none]), (true, [none, some (.inr "a"), none, some (.inr "d")])] :=
  rfl

end Verif.Coalesce
