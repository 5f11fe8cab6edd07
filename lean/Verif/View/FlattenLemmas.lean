import Verif.View.MapTheorems

namespace Verif.View

set_option linter.unusedSectionVars false

variable {A E : Type}

theorem shapeEq_cons {n : Nat} {x y : Obj A} {xs ys : List (Obj A)}
    (h : ShapeEq (n + 1) (.tup (x :: xs)) (.tup (y :: ys))) :
    ShapeEq n x y ∧ ShapeEq (n + 1) (.tup xs) (.tup ys) := by
  obtain ⟨xs', ys', e1, e2, hl, hi⟩ := h
  simp only [Obj.tup.injEq] at e1 e2
  subst e1; subst e2
  refine ⟨hi 0 x y rfl rfl, xs, ys, rfl, rfl, by simpa using hl, ?_⟩
  intro i a b ha hb
  exact hi (i + 1) a b (by simpa using ha) (by simpa using hb)

/-- Objects of the same shape with the same leaves are equal. -/
theorem shapeEq_ext {n : Nat} {o o' : Obj A} (h : ShapeEq n o o') (hl : leaves n o = leaves n o') :
    o = o' := by
  induction n generalizing o o' with
  | zero => simpa [leaves] using hl
  | succ n ih =>
    have h0 := h
    obtain ⟨xs, ys, rfl, rfl, hlen, hx⟩ := h0
    clear hx
    congr 1
    induction xs generalizing ys with
    | nil =>
      simp only [List.length_nil] at hlen
      exact (List.length_eq_zero_iff.1 hlen.symm).symm
    | cons x xs ihx =>
      cases ys with
      | nil => simp at hlen
      | cons y ys =>
        obtain ⟨h1, h2⟩ := shapeEq_cons h
        simp only [leaves, List.flatMap_cons] at hl
        obtain ⟨e1, e2⟩ := List.append_inj hl (shapeEq_leaves_length h1)
        rw [ih h1 e1, ihx ys h2 (by simpa [leaves] using e2) (by simpa using hlen)]

theorem shapeEq_at {n : Nat} {o o' : Obj A} (h : ShapeEq n o o') (g : Obj A → Obj A)
    (hl : leaves n o = (leaves n o').map g) (p : List Nat) (hp : p.length = n) (x : Obj A)
    (hx : o'.at? p = some x) : o.at? p = some (g x) := by
  have hn' := shapeEq_nested (shapeEq_symm h)
  have hn := shapeEq_nested h
  obtain ⟨j, hj⟩ := List.mem_iff_getElem?.1 ((mem_positions hn' p).2 ⟨hp, x, hx⟩)
  have e1 := at?_of_index hn' hj
  rw [← shapeEq_positions h] at hj
  rw [at?_of_index hn hj, hl, List.getElem?_map, ← e1, hx]
  rfl

theorem seqM_same {α β : Type} (f : β → M A E α) (g : β → α) (h : Heap A) (cs : List β)
    (hf : ∀ c ∈ cs, f c h = .ok (g c, h)) : seqM (cs.map f) h = .ok (cs.map g, h) := by
  induction cs with
  | nil => rfl
  | cons c cs ih =>
    simp only [List.map_cons, seqM]
    rw [hf c (by simp)]
    simp only [ih fun d hd => hf d (List.mem_cons_of_mem _ hd)]

theorem toTuple_eq (iterAtom : A → Option (List (Obj A))) (h : Heap A) (x : Obj A) :
    toTuple (E := E) iterAtom x h = match iterate iterAtom h x with
      | some xs => .ok (.tup xs, h)
      | none => .error .typeError := by
  unfold toTuple iterate
  cases x with
  | ref r => simp only; all_goals (cases h[r]? <;> rfl)
  | atom a => simp only; all_goals (cases iterAtom a <;> rfl)
  | _ => rfl

theorem explode_one (iterAtom : A → Option (List (Obj A))) (v : View A) (hv : v.Wf) (h : Heap A)
    (g : Obj A → List (Obj A)) (hg : ∀ x ∈ leaves v.depth v.obj, iterate iterAtom h x = some (g x)) :
    ∃ r, explode (E := E) iterAtom v 1 h = .ok (r, h) ∧ r.depth = v.depth + 1 ∧ r.Wf ∧
      ShapeEq v.depth r.obj v.obj ∧
      leaves v.depth r.obj = (leaves v.depth v.obj).map fun x => .tup (g x) := by
  have hs := map1_spec (E := E) (toTuple iterAtom) v hv h
  rw [seqM_same (toTuple iterAtom) (fun x => .tup (g x)) h (leaves v.depth v.obj) (by
    intro c hc
    rw [toTuple_eq, hg c hc])] at hs
  obtain ⟨r, h1, h2, h3, h4, h5⟩ := hs
  refine ⟨{ r with depth := r.depth + 1 }, ?_, by simp [h2], ?_, ?_, ?_⟩
  · simp [explode, explodeLoop, h1]
  · have := nested_of_leaves (n := v.depth) (m := 1) (o := r.obj) (by
      have := h3; unfold View.Wf at this; rw [h2] at this; exact this) (by
      rw [← h2, h4]
      intro x hx
      obtain ⟨y, _, rfl⟩ := List.mem_map.1 hx
      exact ⟨_, rfl, fun _ _ => trivial⟩)
    unfold View.Wf
    simp only [h2]
    exact this
  · have := h5.2; rw [h2] at this; exact this
  · rw [← h2]; rw [h4, h2]
where
  nested_of_leaves {n m : Nat} {o : Obj A} (hn : Nested n o)
      (hl : ∀ x ∈ leaves n o, Nested m x) : Nested (n + m) o := by
    induction n generalizing o with
    | zero => rw [Nat.zero_add]; exact hl o (by simp [leaves])
    | succ n ih =>
      obtain ⟨xs, rfl, hx⟩ := hn
      rw [show n + 1 + m = (n + m) + 1 by omega]
      refine ⟨xs, rfl, fun x hxm => ih (hx x hxm) ?_⟩
      intro y hy
      exact hl y (by simp only [leaves, List.mem_flatMap]; exact ⟨x, hxm, hy⟩)

theorem nested_leaves {n m : Nat} {o : Obj A} (h : Nested (n + m) o) :
    ∀ x ∈ leaves n o, Nested m x := by
  induction n generalizing o with
  | zero =>
    rw [Nat.zero_add] at h
    intro x hx
    simp only [leaves, List.mem_singleton] at hx
    subst hx; exact h
  | succ n ih =>
    rw [show n + 1 + m = (n + m) + 1 by omega] at h
    obtain ⟨xs, rfl, hx⟩ := h
    intro x hxm
    simp only [leaves, List.mem_flatMap] at hxm
    obtain ⟨y, hy, hxy⟩ := hxm
    exact ih (hx y hy) x hxy

theorem leaves_leaves {n m : Nat} (o : Obj A) :
    leaves (n + m) o = (leaves n o).flatMap (leaves m) := by
  induction n generalizing o with
  | zero => simp [leaves]
  | succ n ih =>
    rw [show n + 1 + m = (n + m) + 1 by omega]
    cases o with
    | tup xs =>
      simp only [leaves, List.flatMap_assoc]
      exact flatMap_congr' fun x _ => ih x
    | _ => simp [leaves]

theorem explode_fails (iterAtom : A → Option (List (Obj A))) (v : View A) (hv : v.Wf) (h : Heap A)
    {x : Obj A} (hx : x ∈ leaves v.depth v.obj) (hi : iterate iterAtom h x = none) :
    explode (E := E) iterAtom v 1 h = .error .typeError := by
  have hs := map1_spec (E := E) (toTuple iterAtom) v hv h
  have hfail : ∀ cs : List (Obj A), x ∈ cs →
      seqM (E := E) (cs.map (toTuple iterAtom)) h = .error .typeError := by
    intro cs
    induction cs with
    | nil => simp
    | cons c cs ih =>
      intro hm
      simp only [List.map_cons, seqM, toTuple_eq]
      cases hc : iterate iterAtom h c with
      | none => rfl
      | some xs =>
        rcases List.mem_cons.1 hm with rfl | hm
        · rw [hi] at hc; cases hc
        · simp only [ih hm]
  rw [hfail _ hx] at hs
  simp [explode, explodeLoop, hs]

theorem explodeLoop_add (iterAtom : A → Option (List (Obj A))) (m n : Nat) (v : View A)
    (h : Heap A) :
    explodeLoop (E := E) iterAtom (m + n) v h = match explodeLoop iterAtom m v h with
      | .error e => .error e
      | .ok (r, h') => explodeLoop iterAtom n r h' := by
  induction m generalizing v h with
  | zero => simp [explodeLoop]
  | succ m ih =>
    rw [show m + 1 + n = (m + n) + 1 by omega]
    simp only [explodeLoop]
    cases map1 (toTuple iterAtom) v true h with
    | error e => rfl
    | ok r => simp only [ih]

/-! ### flatten -/

theorem seqM_newList (l : List (Obj A)) (h : Heap A) :
    seqM (E := E) (l.map fun _ => newList) h =
      .ok ((List.range' h.length l.length).map .ref, h ++ List.replicate l.length []) := by
  induction l generalizing h with
  | nil => simp [seqM]
  | cons x l ih =>
    simp only [List.map_cons, seqM, newList]
    have := ih (h ++ [[]])
    rw [this]
    simp [List.range'_succ, List.replicate_succ]

theorem seqM_append_one (pre rest : Heap A) (acc vs : List (Obj A)) :
    seqM (E := E) (vs.map fun v => append (.ref pre.length) v) (pre ++ acc :: rest) =
      .ok (vs.map fun _ => .none, pre ++ (acc ++ vs) :: rest) := by
  induction vs generalizing acc with
  | nil => simp [seqM]
  | cons v vs ih =>
    simp only [List.map_cons, seqM, append]
    have h1 : (pre ++ acc :: rest)[pre.length]? = some acc := by simp
    have h2 : (pre ++ acc :: rest).set pre.length (acc ++ [v]) = pre ++ (acc ++ [v]) :: rest := by
      simp
    rw [h1]
    simp only [h2]
    rw [ih (acc ++ [v])]
    simp

theorem seqM_appends (k : Nat) (pre : Heap A) (ls : List (Obj A)) :
    ∃ rs, seqM (E := E) (((((List.range' pre.length ls.length).map Obj.ref).zip ls).flatMap
      fun uw => (leaves k uw.2).map fun v => [uw.1, v]).map (binary append))
      (pre ++ List.replicate ls.length []) = .ok (rs, pre ++ ls.map (leaves k)) := by
  induction ls generalizing pre with
  | nil => exact ⟨[], by simp [seqM]⟩
  | cons l ls ih =>
    simp only [List.length_cons, List.range'_succ, List.map_cons, List.zip_cons_cons,
      List.flatMap_cons, List.map_append, List.map_map, List.replicate_succ]
    rw [seqM_append]
    have e : (binary append ∘ fun v => [Obj.ref pre.length, v]) =
        fun v => append (E := E) (A := A) (.ref pre.length) v := by funext v; rfl
    rw [e, seqM_append_one pre (List.replicate ls.length []) [] (leaves k l)]
    simp only [List.nil_append]
    obtain ⟨rs, hrs⟩ := ih (pre ++ [leaves k l])
    simp only [List.length_append, List.length_singleton, List.append_assoc,
      List.singleton_append] at hrs
    rw [hrs]
    exact ⟨_, rfl⟩

theorem callFn_true (fn : List (Obj A) → M A E (Obj A)) : callFn fn true = fn := by
  funext c h; simp [callFn]

theorem flatten_spec (iterAtom : A → Option (List (Obj A))) (v : View A) (hv : v.Wf)
    (fromDim : Int) (toDim : Option Int) (h : Heap A) (f t : Nat)
    (hf : clampFrom v.depth fromDim = f) (ht : clampTo v.depth f toDim = t) (hft : f ≤ t)
    (htd : t ≤ v.depth) :
    ∃ r new, flatten (E := E) iterAtom v fromDim toDim h = .ok (r, h ++ new) ∧
      r.depth = v.depth - (t - f) + 1 ∧ ShapeEq f r.obj v.obj ∧
      leaves f r.obj = (leaves f v.obj).map fun x => .tup (leaves (t - f) x) := by
  have hnf : Nested f v.obj := nested_le (by omega) hv
  unfold flatten
  simp only [hf, ht]
  by_cases h1 : f + 1 = t
  · rw [if_pos h1]
    refine ⟨v, [], by simp, by omega, shapeEq_refl hnf, ?_⟩
    have : Nested (f + 1) v.obj := nested_le (by omega) hv
    have := nested_leaves this
    rw [show t - f = 1 by omega]
    conv => lhs; rw [← List.map_id (leaves f v.obj)]
    apply List.map_congr_left
    intro x hx
    obtain ⟨xs, rfl, _⟩ := this x hx
    simp [leaves]
  · rw [if_neg h1]
    have i1 : implode (E := E) v ((v.depth : Int) - f) = .ok ⟨v.obj, f⟩ := by
      unfold implode
      rw [if_neg (by omega), if_pos (by omega)]
      congr 2; omega
    have i2 : implode (E := E) v ((v.depth : Int) - t) = .ok ⟨v.obj, t⟩ := by
      unfold implode
      rw [if_neg (by omega), if_pos (by omega)]
      congr 2; omega
    simp only [i1, i2]
    have hs1 := map1_spec (E := E) (fun _ => newList) ⟨v.obj, f⟩ hnf h
    simp only [seqM_newList] at hs1
    obtain ⟨res, a1, a2, a3, a4, a5⟩ := hs1
    rw [a1]
    simp only
    have hsh : ShapeEq f res.obj v.obj := by have := a5.2; rw [a2] at this; exact this
    rw [a2] at a4
    have hnt : Nested t v.obj := nested_le htd hv
    -- the appends
    have hs2 := mapStructures_spec (E := E) (binary append) true
      [(f, res.obj), (t, v.obj)] (by simp)
      (by
        intro a ha
        simp only [List.mem_cons, List.not_mem_nil, or_false] at ha
        rcases ha with rfl | rfl
        · exact shapeEq_nested hsh
        · exact hnt)
      (by
        have := (compatAt_iff (A := A) [⟨res.obj, f⟩, ⟨v.obj, t⟩]).2 (by
          have hab : Agree (A := A) ⟨res.obj, f⟩ ⟨v.obj, t⟩ :=
            agree_of_shapeEq (shapeEq_le (by simp; omega) hsh)
          have hsym : Agree (A := A) ⟨v.obj, t⟩ ⟨res.obj, f⟩ :=
            fun p xs ys h1 h2 h3 h4 => (hab p ys xs h2 h1 h4 h3).symm
          have hself : ∀ u : View A, Agree u u := fun u p xs ys _ _ h3 h4 => by
            rw [h3] at h4; simp only [Option.some.injEq, Obj.tup.injEq] at h4; rw [h4]
          intro a ha b hb
          simp only [List.mem_cons, List.not_mem_nil, or_false] at ha hb
          rcases ha with rfl | rfl <;> rcases hb with rfl | rfl
          · exact hself _
          · exact hab
          · exact hsym
          · exact hself _)
        exact this)
      (h ++ List.replicate (leaves f v.obj).length [])
    rw [maxDepth_two, callFn_true] at hs2
    simp only [Nat.max_eq_right hft] at hs2
    rw [calls_two (k := f) (n := t) (cur := 0) (by omega) (by omega) hft hnt hsh, a4] at hs2
    obtain ⟨rs, hrs⟩ := seqM_appends (E := E) (t - f) h (leaves f v.obj)
    rw [hrs] at hs2
    obtain ⟨o2, b1, _⟩ := hs2
    have hm2 : map2 (E := E) append res ⟨v.obj, t⟩ true
        (h ++ List.replicate (leaves f v.obj).length []) =
        .ok (⟨o2, t⟩, h ++ (leaves f v.obj).map (leaves (t - f))) := by
      unfold map2 mkView
      simp only [View.arg, a2]
      rw [b1]
      simp only [Nat.max_eq_right hft]
    simp only [hm2]
    -- the explode
    have hres : res.Wf := a3
    obtain ⟨r, c1, c2, c3, c4, c5⟩ := explode_one (E := E) iterAtom res hres
      (h ++ (leaves f v.obj).map (leaves (t - f)))
      (fun x => (iterate iterAtom (h ++ (leaves f v.obj).map (leaves (t - f))) x).getD [])
      (by
        rw [a2, a4]
        intro x hx
        obtain ⟨i, hi, rfl⟩ := List.mem_map.1 hx
        rw [List.mem_range'_1] at hi
        simp only [iterate]
        rw [List.getElem?_eq_getElem (by simp; omega)]
        rfl)
    rw [c1]
    rw [a2] at c4 c5
    refine ⟨_, _, rfl, rfl, shapeEq_trans c4 hsh, ?_⟩
    rw [c5, a4]
    apply List.ext_getElem?
    intro i
    simp only [List.getElem?_map]
    by_cases hi : i < (leaves f v.obj).length
    · rw [List.getElem?_range' hi]
      simp only [Option.map_some, iterate]
      rw [List.getElem?_append_right (by omega)]
      simp [List.getElem?_eq_getElem hi]
    · rw [List.getElem?_eq_none (by simpa using hi), List.getElem?_eq_none (by simpa using hi)]
      rfl

end Verif.View
