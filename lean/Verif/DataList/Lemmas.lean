import Verif.DataList.Spec

namespace Verif.DataList

set_option linter.unusedSectionVars false

variable {Ty : Type} [DecidableEq Ty] {Val : Ty → Type}

theorem ofOpt_eq_item {t : Ty} (v : Option (Val t)) : DataItem.ofOpt v = item v := by
  cases v <;> rfl

/-! ### Vectors -/

theorem fillRange_eq {α : Type} (d : α) (vec : List α) (start n : Nat)
    (h : start + n ≤ vec.length) :
    fillRange d vec start (start + n) =
      vec.take start ++ List.replicate n d ++ vec.drop (start + n) := by
  unfold fillRange
  rw [Nat.add_sub_cancel_left]
  induction n generalizing vec start with
  | zero => simp
  | succ n ih =>
    rw [List.range'_succ, List.foldl_cons, ih _ _ (by rw [List.length_set]; omega)]
    rw [List.set_eq_take_append_cons_drop, if_pos (by omega)]
    have hl : (vec.take start).length = start := by rw [List.length_take]; omega
    have e1 : (vec.take start ++ d :: vec.drop (start + 1)).take (start + 1) =
        vec.take start ++ [d] := by
      rw [List.take_append, hl, Nat.add_sub_cancel_left, List.take_of_length_le (by omega)]
      rfl
    have e2 : (vec.take start ++ d :: vec.drop (start + 1)).drop (start + 1 + n) =
        vec.drop (start + (n + 1)) := by
      rw [List.drop_append, hl, List.drop_eq_nil_of_le (by omega), List.nil_append,
        show start + 1 + n - start = n + 1 by omega, List.drop_succ_cons, List.drop_drop]
      congr 1
      omega
    rw [e1, e2, List.replicate_succ]
    simp

theorem getElem?_shiftLoop {α : Type} (d : α) (start count k : Nat) (vec : List α) (hc : 0 < count)
    (h : start + k + count ≤ vec.length) (i : Nat) :
    (shiftLoop d start count k vec)[i]? =
      if start + count ≤ i ∧ i < start + count + k then vec[i - count]? else vec[i]? := by
  induction k generalizing vec i with
  | zero =>
    rw [shiftLoop, if_neg (by omega)]
  | succ k ih =>
    rw [shiftLoop, ih _ (by rw [List.length_set]; omega), List.getElem?_set, List.getElem?_set]
    have hd : vec[start + k]? = some (vec.getD (start + k) d) := by
      rw [List.getD_eq_getElem?_getD, List.getElem?_eq_getElem (by omega)]
      rfl
    by_cases h1 : start + count ≤ i ∧ i < start + count + k
    · rw [if_pos h1, if_neg (by omega), if_pos (by omega)]
    · rw [if_neg h1]
      by_cases h2 : start + k + count = i
      · subst h2
        rw [if_pos rfl, if_pos (by omega), if_pos (by omega), Nat.add_sub_cancel, hd]
      · rw [if_neg h2, if_neg (by omega)]

theorem length_shiftLoop {α : Type} (d : α) (start count k : Nat) (vec : List α) :
    (shiftLoop d start count k vec).length = vec.length := by
  induction k generalizing vec with
  | zero => rfl
  | succ k ih =>
    rw [shiftLoop, ih, List.length_set]

theorem length_resizeVec {α : Type} (d : α) (vec : List α) (n : Nat) :
    (resizeVec d vec n).length = n := by
  unfold resizeVec
  rw [List.length_append, List.length_take, List.length_replicate]
  omega

theorem insertMissingVec_eq {α : Type} (d : α) (start count : Nat) (vec : List α)
    (h : start ≤ vec.length) (hc : 0 < count) :
    insertMissingVec d vec.length start count vec =
      vec.take start ++ List.replicate count d ++ vec.drop start := by
  unfold insertMissingVec
  simp only
  have hl : (shiftLoop d start count (vec.length - start)
      (resizeVec d vec (vec.length + count))).length = vec.length + count := by
    rw [length_shiftLoop, length_resizeVec]
  rw [fillRange_eq _ _ _ _ (by omega)]
  have key : ∀ i : Nat, (shiftLoop d start count (vec.length - start)
      (resizeVec d vec (vec.length + count)))[i]? =
      if start + count ≤ i then vec[i - count]? else
        (resizeVec d vec (vec.length + count))[i]? := by
    intro i
    rw [getElem?_shiftLoop d _ _ _ _ hc (by rw [length_resizeVec]; omega)]
    by_cases h1 : start + count ≤ i
    · rw [if_pos h1]
      by_cases h2 : i < vec.length + count
      · rw [if_pos (by omega)]
        unfold resizeVec
        rw [List.take_of_length_le (by omega), List.getElem?_append_left (by omega)]
      · rw [if_neg (by omega), List.getElem?_eq_none (by rw [length_resizeVec]; omega),
          List.getElem?_eq_none (by omega)]
    · rw [if_neg h1, if_neg (by omega)]
  congr 1
  · congr 1
    apply List.ext_getElem?
    intro i
    rw [List.getElem?_take, List.getElem?_take, key]
    by_cases h1 : i < start
    · rw [if_pos h1, if_pos h1, if_neg (by omega)]
      unfold resizeVec
      rw [List.take_of_length_le (by omega), List.getElem?_append_left (by omega)]
    · rw [if_neg h1, if_neg h1]
  · apply List.ext_getElem?
    intro i
    rw [List.getElem?_drop, List.getElem?_drop, key, if_pos (by omega)]
    congr 1
    omega

theorem writeFrom_eq {α : Type} (vs : List α) (vec : List α) (start : Nat)
    (h : start + vs.length ≤ vec.length) :
    writeFrom vec start vs = vec.take start ++ vs ++ vec.drop (start + vs.length) := by
  induction vs generalizing vec start with
  | nil => simp [writeFrom]
  | cons v vs ih =>
    rw [List.length_cons] at h
    rw [writeFrom, ih _ _ (by rw [List.length_set]; omega), List.set_eq_take_append_cons_drop,
      if_pos (by omega)]
    have hl : (vec.take start).length = start := by rw [List.length_take]; omega
    have e1 : (vec.take start ++ v :: vec.drop (start + 1)).take (start + 1) =
        vec.take start ++ [v] := by
      rw [List.take_append, hl, Nat.add_sub_cancel_left, List.take_of_length_le (by omega)]
      rfl
    have e2 : (vec.take start ++ v :: vec.drop (start + 1)).drop (start + 1 + vs.length) =
        vec.drop (start + (vs.length + 1)) := by
      rw [List.drop_append, hl, List.drop_eq_nil_of_le (by omega), List.nil_append,
        show start + 1 + vs.length - start = vs.length + 1 by omega, List.drop_succ_cons,
        List.drop_drop]
      congr 1
      omega
    rw [e1, e2, List.length_cons]
    simp

theorem range_map_getD {α β : Type} (f : α → β) (d : α) (vec : List α) :
    (List.range vec.length).map (fun i => f (vec.getD i d)) = vec.map f := by
  apply List.ext_getElem?
  intro i
  rw [List.getElem?_map, List.getElem?_map]
  by_cases h : i < vec.length
  · rw [List.getElem?_range h, List.getElem?_eq_getElem h]
    simp [List.getD_eq_getElem?_getD, h]
  · rw [List.getElem?_eq_none (by simpa using h), List.getElem?_eq_none (by omega)]
    rfl

/-! ### Arrays -/

theorem DenseArray.get_eq {T : Type} (a : DenseArray T) (ha : a.Valid) (i : Nat) :
    a.optionals[i]? = if i < a.values.length then some (a.get i) else none := by
  unfold DenseArray.optionals DenseArray.get
  by_cases hb : a.bitmap = []
  · rw [if_pos hb, hb, List.getElem?_map]
    by_cases h : i < a.values.length
    · rw [if_pos h, List.getElem?_eq_getElem h]
      rfl
    · rw [if_neg h, List.getElem?_eq_none (by omega)]
      rfl
  · have hl := ha.resolve_left hb
    rw [if_neg hb, List.getElem?_zipWith]
    by_cases h : i < a.values.length
    · have h' : i < a.bitmap.length := by omega
      rw [if_pos h, List.getElem?_eq_getElem h, List.getElem?_eq_getElem h',
        List.getD_eq_getElem?_getD, List.getElem?_eq_getElem h']
      have : a.bitmap.isEmpty = false := by simpa using hb
      rw [this]
      cases a.bitmap[i] <;> rfl
    · rw [if_neg h, List.getElem?_eq_none (by omega)]

theorem DenseArray.optionals_length {T : Type} (a : DenseArray T) (ha : a.Valid) :
    a.optionals.length = a.values.length := by
  unfold DenseArray.optionals
  split
  · simp
  · rename_i hb
    have hl := ha.resolve_left hb
    simp
    omega

theorem DenseArray.range_map_get {T : Type} (a : DenseArray T) (ha : a.Valid) (start stop : Nat)
    (h : stop ≤ a.values.length) :
    (List.range (stop - start)).map (fun i => a.get (start + i)) =
      (a.optionals.take stop).drop start := by
  apply List.ext_getElem?
  intro i
  rw [List.getElem?_map, List.getElem?_drop, List.getElem?_take]
  by_cases hi : i < stop - start
  · rw [List.getElem?_range hi, if_pos (by omega), a.get_eq ha, if_pos (by omega)]
    rfl
  · rw [List.getElem?_eq_none (by simpa using hi), if_neg (by omega)]
    rfl

theorem DenseArray.toOptionals_eq {T : Type} (a : DenseArray T) (ha : a.Valid) :
    a.toOptionals = a.optionals := by
  unfold DenseArray.toOptionals
  split
  · rename_i h
    rw [List.isEmpty_iff] at h
    unfold DenseArray.optionals
    rw [if_pos h]
  · have := a.range_map_get ha 0 a.values.length (Nat.le_refl _)
    rw [Nat.sub_zero, ← a.optionals_length ha, List.take_length, List.drop_zero] at this
    rw [← a.optionals_length ha]
    simpa using this

/-! ### Slices -/

theorem mem_sliceTypes (xs : List (DataItem Val)) (t : Ty) :
    t ∈ sliceTypes xs ↔ ∃ v, DataItem.val t v ∈ xs := by
  unfold sliceTypes
  induction xs with
  | nil => simp
  | cons x xs ih =>
    rw [List.foldr_cons]
    cases x with
    | missing =>
      simp only [List.mem_cons, reduceCtorEq, false_or]
      exact ih
    | val t' v' =>
      simp only
      split
      · rename_i hm
        rw [ih]
        constructor
        · rintro ⟨v, hv⟩
          exact ⟨v, List.mem_cons_of_mem _ hv⟩
        · rintro ⟨v, hv⟩
          rcases List.mem_cons.1 hv with e | hv
          · obtain rfl : t = t' := by injection e
            exact ih.1 hm
          · exact ⟨v, hv⟩
      · rw [List.mem_cons, ih]
        constructor
        · rintro (rfl | ⟨v, hv⟩)
          · exact ⟨v', List.mem_cons_self⟩
          · exact ⟨v, List.mem_cons_of_mem _ hv⟩
        · rintro ⟨v, hv⟩
          rcases List.mem_cons.1 hv with e | hv
          · left
            injection e
          · exact .inr ⟨v, hv⟩

theorem range_map_slice (xs : List (DataItem Val)) (start stop : Nat) (h : stop ≤ xs.length)
    {β : Type} (f : DataItem Val → β) :
    (List.range (stop - start)).map (fun i => f (xs.getD (start + i) .missing)) =
      ((xs.take stop).drop start).map f := by
  apply List.ext_getElem?
  intro i
  rw [List.getElem?_map, List.getElem?_map, List.getElem?_drop, List.getElem?_take]
  by_cases hi : i < stop - start
  · rw [List.getElem?_range hi, if_pos (by omega), List.getElem?_eq_getElem (by omega)]
    simp [List.getD_eq_getElem?_getD, List.getElem?_eq_getElem (show start + i < xs.length by omega)]
  · rw [List.getElem?_eq_none (by simpa using hi), if_neg (by omega)]
    rfl

theorem asT_item (x : DataItem Val) (t : Ty) (h : x = .missing ∨ ∃ v, x = .val t v) :
    item (x.asT t) = x := by
  rcases h with rfl | ⟨v, rfl⟩
  · rfl
  · simp [DataItem.asT, item]

/-! ### Contents -/

/-- The contents, by representation. -/
def repr (l : DataList Val) : List (DataItem Val) :=
  match l.data with
  | .allMissing => List.replicate l.size .missing
  | .typed _ vec => vec.map item
  | .items vec => vec

/-- The vector has the size of the list. -/
def WF (l : DataList Val) : Prop :=
  match l.data with
  | .allMissing => True
  | .typed _ vec => vec.length = l.size
  | .items vec => vec.length = l.size

theorem repr_length (l : DataList Val) (h : WF l) : (repr l).length = l.size := by
  unfold repr WF at *
  split <;> simp_all

theorem get_repr (l : DataList Val) (i : Nat) (hi : i < l.size) (h : WF l) :
    (repr l)[i]? = some (l.get i) := by
  have hl := repr_length l h
  unfold repr WF DataList.get at *
  obtain ⟨size, data⟩ := l
  cases data with
  | allMissing =>
    simp only at hi ⊢
    rw [List.getElem?_replicate, if_pos hi]
  | typed t vec =>
    simp only [List.length_map] at hl hi ⊢
    rw [List.getElem?_map, List.getD_eq_getElem?_getD, List.getElem?_eq_getElem (by omega)]
    simp [ofOpt_eq_item]
  | items vec =>
    simp only at hl hi ⊢
    rw [List.getD_eq_getElem?_getD, List.getElem?_eq_getElem (by omega)]
    simp

theorem convert_eq (l : DataList Val) (h : WF l) : l.convertToDataItems = repr l := by
  obtain ⟨size, data⟩ := l
  unfold DataList.convertToDataItems repr WF at *
  cases data with
  | allMissing => rfl
  | typed t vec =>
    simp only at h ⊢
    rw [← h, range_map_getD]
    apply List.map_congr_left
    intro v _
    exact ofOpt_eq_item v
  | items vec =>
    simp only at h ⊢
    rw [← h]
    have := range_map_getD id DataItem.missing vec
    simpa using this

theorem apply_repr (l : DataList Val) (h : WF l) (t : Ty)
    (fnT : List (Option (Val t)) → List (Option (Val t)))
    (fnItem : List (DataItem Val) → List (DataItem Val))
    (hfn : ∀ vec : List (Option (Val t)), vec.length = l.size →
      (fnT vec).map item = fnItem (vec.map item)) :
    WF (l.applyDataItemOrT t fnT fnItem) ∧
      repr (l.applyDataItemOrT t fnT fnItem) = fnItem (repr l) := by
  have hfresh : ∀ xs : List (DataItem Val), xs = List.replicate l.size .missing →
      (fnT (List.replicate l.size none)).map item = fnItem xs := by
    rintro xs rfl
    rw [hfn _ (by simp), List.map_replicate]
    rfl
  unfold DataList.applyDataItemOrT
  simp only
  split
  · rename_i h0
    refine ⟨rfl, ?_⟩
    apply hfresh
    have := repr_length l h
    rw [h0] at this ⊢
    exact List.eq_nil_of_length_eq_zero this
  · obtain ⟨size, data⟩ := l
    cases data with
    | allMissing => exact ⟨rfl, hfresh _ rfl⟩
    | typed t' vec =>
      simp only
      split
      · rename_i e
        subst e
        exact ⟨rfl, hfn vec h⟩
      · refine ⟨rfl, ?_⟩
        rw [convert_eq _ h]
        rfl
    | items vec => exact ⟨rfl, rfl⟩

theorem made_repr {l : DataList Val} {xs : List (DataItem Val)} (h : Made l xs) :
    WF l ∧ repr l = xs := by
  have hslice : ∀ (xs : List (DataItem Val)) (start stop : Nat) (o : Option Nat),
      start ≤ stop → stop ≤ xs.length → o.getD xs.length = stop →
      WF (.ofSlice xs start o) ∧ repr (.ofSlice xs start o) = (xs.take stop).drop start := by
    intro xs start stop o h1 h2 ho
    have hlen : ((xs.take stop).drop start).length = stop - start := by
      rw [List.length_drop, List.length_take]
      omega
    unfold DataList.ofSlice
    simp only [ho]
    have hmem : ∀ x ∈ (xs.take stop).drop start, x ∈ xs := fun x hx =>
      List.mem_of_mem_take (List.mem_of_mem_drop hx)
    split
    · rename_i hts
      refine ⟨trivial, ?_⟩
      unfold repr
      simp only
      symm
      rw [List.eq_replicate_iff]
      refine ⟨hlen, ?_⟩
      intro x hx
      cases x with
      | missing => rfl
      | val t v =>
        have := (mem_sliceTypes xs t).2 ⟨v, hmem _ hx⟩
        rw [hts] at this
        cases this
    · rename_i t hts
      refine ⟨by simp [WF], ?_⟩
      unfold repr
      simp only
      rw [range_map_slice xs start stop h2 (fun x => x.asT t), List.map_map]
      conv => rhs; rw [← List.map_id ((xs.take stop).drop start)]
      apply List.map_congr_left
      intro x hx
      apply asT_item
      cases x with
      | missing => exact .inl rfl
      | val t' v =>
        have := (mem_sliceTypes xs t').2 ⟨v, hmem _ hx⟩
        rw [hts, List.mem_singleton] at this
        subst this
        exact .inr ⟨v, rfl⟩
    · refine ⟨by simp [WF], ?_⟩
      unfold repr
      simp only
      have := range_map_slice xs start stop h2 id
      simpa using this
  have harr : ∀ (t : Ty) (a : DenseArray (Val t)) (start stop : Nat) (o : Option Nat), a.Valid →
      stop ≤ a.values.length → o.getD a.values.length = stop →
      WF (.ofDenseArray t a start o) ∧ repr (.ofDenseArray t a start o) =
        ((a.optionals.map item).take stop).drop start := by
    intro t a start stop o ha h2 ho
    unfold DataList.ofDenseArray
    simp only [ho]
    refine ⟨by simp [WF], ?_⟩
    unfold repr
    simp only
    rw [a.range_map_get ha start stop h2, List.map_drop, List.map_take]
  cases h with
  | empty => exact ⟨trivial, rfl⟩
  | ofVec t vec => exact ⟨rfl, rfl⟩
  | ofItems vec => exact ⟨rfl, rfl⟩
  | ofArray t a start stop ha h1 h2 => exact harr t a start stop _ ha h2 rfl
  | ofWholeArray t a ha =>
    have := harr t a 0 _ none ha (Nat.le_refl _) rfl
    rw [List.drop_zero, List.take_of_length_le (by rw [List.length_map, a.optionals_length ha]; exact Nat.le_refl _)] at this
    exact this
  | ofSlice xs start stop h1 h2 => exact hslice xs start stop _ h1 h2 rfl
  | ofWholeSlice xs =>
    have := hslice xs 0 _ none (Nat.zero_le _) (Nat.le_refl _) rfl
    rw [List.drop_zero, List.take_length] at this
    exact this

/-! ### Calls -/

theorem set_missing_repr (l : DataList Val) (h : WF l) (i : Nat) :
    WF (l.setToMissing i) ∧ repr (l.setToMissing i) = (repr l).set i .missing := by
  obtain ⟨size, data⟩ := l
  unfold WF repr DataList.setToMissing at *
  cases data with
  | allMissing =>
    refine ⟨trivial, ?_⟩
    simp only
    symm
    rw [List.eq_replicate_iff]
    refine ⟨by simp, ?_⟩
    intro x hx
    rcases List.mem_or_eq_of_mem_set hx with hx | hx
    · exact List.eq_of_mem_replicate hx
    · exact hx
  | typed t vec =>
    simp only at h ⊢
    refine ⟨by simpa using h, ?_⟩
    rw [List.map_set]
    rfl
  | items vec =>
    simp only at h ⊢
    refine ⟨by simpa using h, trivial⟩

theorem setT_repr (l : DataList Val) (h : WF l) (i : Nat) (t : Ty) (v : Option (Val t)) :
    WF (l.setT i t v) ∧ repr (l.setT i t v) = (repr l).set i (item v) := by
  have := apply_repr l h t (fun vec => vec.set i v) (fun vec => vec.set i (.ofOpt v)) (by
    intro vec _
    rw [List.map_set, ofOpt_eq_item])
  rw [ofOpt_eq_item] at this
  unfold DataList.setT
  rw [ofOpt_eq_item]
  exact this

theorem insertMissing_repr (l : DataList Val) (h : WF l) (i n : Nat) (hi : i ≤ l.size)
    (hn : 0 < n) : WF (l.insertMissing i n) ∧
      repr (l.insertMissing i n) =
        (repr l).take i ++ List.replicate n .missing ++ (repr l).drop i := by
  obtain ⟨size, data⟩ := l
  unfold WF repr DataList.insertMissing at *
  cases data with
  | allMissing =>
    refine ⟨trivial, ?_⟩
    simp only at hi ⊢
    rw [List.take_replicate, List.drop_replicate, List.replicate_append_replicate,
      List.replicate_append_replicate]
    congr 1
    omega
  | typed t vec =>
    simp only at h hi ⊢
    subst h
    rw [insertMissingVec_eq _ _ _ _ hi hn]
    refine ⟨by simp; omega, ?_⟩
    simp [item]
  | items vec =>
    simp only at h hi ⊢
    subst h
    rw [insertMissingVec_eq _ _ _ _ hi hn]
    exact ⟨by simp; omega, rfl⟩

theorem insertT_repr (l : DataList Val) (h : WF l) (i : Nat) (t : Ty) (v : Option (Val t)) :
    WF (l.insertT i t v) ∧ repr (l.insertT i t v) =
      (repr l).take i ++ [item v] ++ (repr l).drop i := by
  have := apply_repr l h t (fun vec => insertAt vec i v) (fun vec => insertAt vec i (.ofOpt v)) (by
    intro vec _
    unfold insertAt
    simp [ofOpt_eq_item])
  unfold DataList.insertT
  refine ⟨this.1, this.2.trans ?_⟩
  unfold insertAt
  simp [ofOpt_eq_item]

theorem op_repr (l : DataList Val) (h : WF l) (op : Op Val) (hv : op.Valid l.size) :
    WF (op.onDataList l) ∧ repr (op.onDataList l) = op.onList (repr l) := by
  have hlen := repr_length l h
  cases op with
  | set i x =>
    show WF (l.set i x) ∧ repr (l.set i x) = _
    have key : ∀ x : DataItem Val, WF (match x with
        | .missing => l.setToMissing i
        | .val t v => l.setT i t (some v)) ∧ repr (match x with
        | .missing => l.setToMissing i
        | .val t v => l.setT i t (some v)) = (repr l).set i x := by
      intro x
      cases x with
      | missing => exact set_missing_repr l h i
      | val t v => exact setT_repr l h i t (some v)
    obtain ⟨size, data⟩ := l
    cases data with
    | allMissing => exact key x
    | typed t vec => exact key x
    | items vec =>
      have h' : vec.length = size := h
      refine ⟨?_, rfl⟩
      show (vec.set i x).length = size
      rw [List.length_set, h']
  | setT i t v => exact setT_repr l h i t v
  | setToMissing i => exact set_missing_repr l h i
  | setMissingRange start stop =>
    obtain ⟨h1, h2⟩ : start ≤ stop ∧ stop ≤ l.size := hv
    obtain ⟨n, rfl⟩ := Nat.exists_eq_add_of_le h1
    show WF (l.setMissingRange _ _) ∧ repr (l.setMissingRange _ _) = _ ++ _ ++ _
    rw [Nat.add_sub_cancel_left]
    obtain ⟨size, data⟩ := l
    unfold WF repr DataList.setMissingRange at *
    cases data with
    | allMissing =>
      refine ⟨trivial, ?_⟩
      simp only at h2 ⊢
      rw [List.take_replicate, List.drop_replicate, List.replicate_append_replicate,
        List.replicate_append_replicate]
      congr 1
      omega
    | typed t vec =>
      simp only at h h2 ⊢
      rw [fillRange_eq _ _ _ _ (by omega)]
      refine ⟨by simp; omega, ?_⟩
      simp [item]
    | items vec =>
      simp only at h h2 ⊢
      rw [fillRange_eq _ _ _ _ (by omega)]
      exact ⟨by simp; omega, rfl⟩
  | setN start t data =>
    obtain ⟨h1, h2⟩ : start + data.values.length ≤ l.size ∧ data.Valid := hv
    have hl := data.optionals_length h2
    have e : data.toOptionals.map DataItem.ofOpt = data.optionals.map item := by
      rw [data.toOptionals_eq h2]
      apply List.map_congr_left
      intro v _
      exact ofOpt_eq_item v
    have := apply_repr l h t (fun vec => writeFrom vec start data.toOptionals)
      (fun vec => writeFrom vec start (data.toOptionals.map .ofOpt)) (by
        intro vec hvec
        rw [e, data.toOptionals_eq h2, writeFrom_eq _ _ _ (by omega),
          writeFrom_eq _ _ _ (by simp; omega)]
        simp)
    refine ⟨this.1, this.2.trans ?_⟩
    show writeFrom _ _ _ = _ ++ _ ++ _
    rw [e, writeFrom_eq _ _ _ (by simp; omega), List.length_map, hl]
  | insert i x =>
    have key : ∀ x : DataItem Val, WF (match x with
        | .missing => l.insertMissing i 1
        | .val t v => l.insertT i t (some v)) ∧ repr (match x with
        | .missing => l.insertMissing i 1
        | .val t v => l.insertT i t (some v)) = (repr l).take i ++ [x] ++ (repr l).drop i := by
      intro x
      cases x with
      | missing => exact insertMissing_repr l h i 1 hv (by omega)
      | val t v => exact insertT_repr l h i t (some v)
    obtain ⟨size, data⟩ := l
    cases data with
    | allMissing => exact key x
    | typed t vec => exact key x
    | items vec =>
      refine ⟨rfl, ?_⟩
      show insertAt vec i x = vec.take i ++ [x] ++ vec.drop i
      unfold insertAt
      simp
  | insertT i t v => exact insertT_repr l h i t v
  | insertMissing start count => exact insertMissing_repr l h start count hv.1 hv.2
  | remove start count =>
    obtain ⟨h1, h2⟩ : start + count ≤ l.size ∧ 0 < count := hv
    show WF (l.remove _ _) ∧ repr (l.remove _ _) = _ ++ _
    obtain ⟨size, data⟩ := l
    unfold WF repr DataList.remove at *
    cases data with
    | allMissing =>
      refine ⟨trivial, ?_⟩
      simp only at h1 ⊢
      rw [List.take_replicate, List.drop_replicate, List.replicate_append_replicate]
      congr 1
      omega
    | typed t vec =>
      simp only at h h1 ⊢
      unfold eraseRange
      refine ⟨by simp; omega, by simp⟩
    | items vec =>
      simp only at h h1 ⊢
      unfold eraseRange
      exact ⟨by simp; omega, rfl⟩
  | resize n =>
    show WF (l.resize n) ∧ repr (l.resize n) = _ ++ _
    rw [hlen]
    obtain ⟨size, data⟩ := l
    unfold WF repr DataList.resize at *
    cases data with
    | allMissing =>
      refine ⟨trivial, ?_⟩
      simp only
      rw [List.take_replicate, List.replicate_append_replicate]
      congr 1
      omega
    | typed t vec =>
      simp only at h ⊢
      refine ⟨length_resizeVec _ _ _, ?_⟩
      unfold resizeVec
      rw [h]
      simp [item]
    | items vec =>
      simp only at h ⊢
      refine ⟨length_resizeVec _ _ _, ?_⟩
      unfold resizeVec
      rw [h]

theorem onList_ops (ops : List (Op Val)) (l : DataList Val) (h : WF l)
    (hv : ValidOps (repr l) ops) :
    WF (ops.foldl Op.onDataList l) ∧
      repr (ops.foldl Op.onDataList l) = ops.foldl Op.onList (repr l) := by
  induction ops generalizing l with
  | nil => exact ⟨h, rfl⟩
  | cons op ops ih =>
    obtain ⟨h1, h2⟩ := hv
    rw [repr_length l h] at h1
    obtain ⟨h3, h4⟩ := op_repr l h op h1
    rw [← h4] at h2
    have := ih _ h3 h2
    rw [List.foldl_cons, List.foldl_cons, ← h4]
    exact this

/-! ### Reading into a slice builder -/

open Classical in
theorem insertIfNotSet_get (bldr : List (Option (DataItem Val))) (id : Nat) (v : DataItem Val)
    (j : Nat) : (insertIfNotSet bldr id v)[j]? =
      if j = id ∧ bldr[j]? = some none then some (some v) else bldr[j]? := by
  unfold insertIfNotSet
  split
  · rename_i h
    rw [List.getElem?_set]
    by_cases hj : j = id
    · subst hj
      have hlt : j < bldr.length := by
        rw [List.getElem?_eq_some_iff] at h
        exact h.1
      rw [if_pos rfl, if_pos hlt, if_pos ⟨rfl, h⟩]
    · rw [if_neg (fun e => hj e.symm), if_neg (fun e => hj e.1)]
  · rename_i h
    rw [if_neg]
    rintro ⟨rfl, h'⟩
    exact h h'

open Classical in
theorem addLoop_get (get : Nat → DataItem Val) (k i offset : Nat)
    (bldr : List (Option (DataItem Val))) (j : Nat) :
    (addLoop get k i offset bldr)[j]? =
      if offset ≤ j ∧ j < offset + k ∧ bldr[j]? = some none then some (some (get (i + (j - offset))))
      else bldr[j]? := by
  induction k generalizing i offset bldr with
  | zero => rw [addLoop, if_neg (by omega)]
  | succ k ih =>
    rw [addLoop, ih, insertIfNotSet_get]
    by_cases hj : j = offset
    · subst hj
      rw [if_neg (by omega)]
      by_cases hb : bldr[j]? = some none
      · rw [if_pos ⟨rfl, hb⟩, if_pos ⟨by omega, by omega, hb⟩, Nat.sub_self]
        rfl
      · rw [if_neg (fun h => hb h.2), if_neg (fun h => hb h.2.2)]
    · have e : ¬ (j = offset ∧ bldr[j]? = some none) := fun h => hj h.1
      simp only [if_neg e]
      by_cases hb : offset ≤ j ∧ j < offset + (k + 1) ∧ bldr[j]? = some none
      · rw [if_pos hb, if_pos ⟨by omega, by omega, hb.2.2⟩]
        congr 3
        omega
      · rw [if_neg hb, if_neg]
        intro h
        exact hb ⟨by omega, by omega, h.2.2⟩

end Verif.DataList
