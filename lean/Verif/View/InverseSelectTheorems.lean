import Verif.View.SelectTheorems

/-! C21: `inverse_select`. -/
namespace Verif.View

set_option linter.unusedSectionVars false

variable {A E : Type}

theorem keep_cons (x f : Obj A) (xs fs : List (Obj A)) :
    keep (x :: xs) (f :: fs) = if isPresent f then x :: keep xs fs else keep xs fs := by
  unfold keep
  simp only [List.zip_cons_cons, List.filter_cons]
  cases isPresent f <;> simp

theorem inverseSelectImpl_ok (fs xs : List (Obj A)) (hm : ∀ f ∈ fs, isMask f)
    (hc : xs.length = (fs.filter isPresent).length) :
    ∃ ys, inverseSelectImpl (E := E) xs fs = .ok ys ∧ ys.length = fs.length ∧ keep ys fs = xs ∧
      ∀ i : Nat, fs[i]? = some .none → ys[i]? = some .none := by
  induction fs generalizing xs with
  | nil =>
    simp only [List.filter_nil, List.length_nil, List.length_eq_zero_iff] at hc
    subst hc
    exact ⟨[], rfl, rfl, rfl, by simp⟩
  | cons f fs ih =>
    have h1 := hm f (by simp)
    have hm' : ∀ g ∈ fs, isMask g := fun g hg => hm g (List.mem_cons_of_mem _ hg)
    cases f <;> simp [isMask] at h1
    · obtain ⟨ys, e, e1, e2, e3⟩ := ih xs hm' (by simpa [isPresent] using hc)
      refine ⟨.none :: ys, ?_, by simp [e1], by rw [keep_cons]; simpa [isPresent] using e2, ?_⟩
      · cases xs <;> simp [inverseSelectImpl, e]
      · intro i hi
        cases i with
        | zero => rfl
        | succ i => simpa using e3 i (by simpa using hi)
    · cases xs with
      | nil => simp [List.filter_cons, isPresent] at hc
      | cons x xs =>
        obtain ⟨ys, e, e1, e2, e3⟩ := ih xs hm' (by simpa [List.filter_cons, isPresent] using hc)
        refine ⟨x :: ys, by simp [inverseSelectImpl, e], by simp [e1],
          by rw [keep_cons]; simpa [isPresent] using e2, ?_⟩
        intro i hi
        cases i with
        | zero => simp at hi
        | succ i => simpa using e3 i (by simpa using hi)

theorem inverseSelectImpl_error (fs xs : List (Obj A))
    (hb : (∃ f ∈ fs, isMask f = false) ∨ xs.length ≠ (fs.filter isPresent).length) :
    inverseSelectImpl (E := E) xs fs = .error .valueError := by
  induction fs generalizing xs with
  | nil =>
    cases xs with
    | nil => simp at hb
    | cons x xs => rfl
  | cons f fs ih =>
    by_cases hf : isMask f = true
    · have hb' : (∃ f ∈ fs, isMask f = false) ∨
          xs.length ≠ ((f :: fs).filter isPresent).length := by
        rcases hb with ⟨g, hg, hgm⟩ | hb
        · rcases List.mem_cons.1 hg with rfl | hg
          · rw [hf] at hgm; cases hgm
          · exact Or.inl ⟨g, hg, hgm⟩
        · exact Or.inr hb
      cases f <;> simp [isMask] at hf
      · have := ih xs (by simpa [isPresent] using hb')
        cases xs <;> simp [inverseSelectImpl, this]
      · cases xs with
        | nil => simp [inverseSelectImpl]
        | cons x xs =>
          have := ih xs (by simpa [List.filter_cons, isPresent] using hb')
          simp [inverseSelectImpl, this]
    · cases f <;> simp [isMask] at hf <;> cases xs <;> simp [inverseSelectImpl]

theorem inverseSelect_unfold (v fltr : View A) (k : Nat) (hv : v.depth = k + 1)
    (hf : fltr.depth = k + 1) (h : Heap A) :
    inverseSelect (E := E) v fltr h =
      match map2 (E := E) (onTuples inverseSelectImpl) ⟨v.obj, k⟩ ⟨fltr.obj, k⟩ false h with
      | .error e => .error e
      | .ok (r, h') => .ok ({ obj := r.obj, depth := v.depth }, h') := by
  unfold inverseSelect
  rw [if_neg (by omega), if_neg (by omega), implode_nat v k (by omega) 1 (by omega),
    implode_nat fltr k (by omega) 1 (by omega)]
  simp only
  all_goals (cases map2 (onTuples inverseSelectImpl) ⟨v.obj, k⟩ ⟨fltr.obj, k⟩ false h <;> rfl)

/-- `inverse_select` puts the items of each innermost tuple, in order, where the filter is
present, and `None` where the filter is `None`. -/
theorem C21_inverse_select (v fltr : View A) (hv : v.Wf) (hf : fltr.Wf) (k : Nat)
    (hvd : v.depth = k + 1) (hfd : fltr.depth = k + 1)
    (ha : Agree (⟨v.obj, k⟩ : View A) ⟨fltr.obj, k⟩)
    (hm : ∀ p f, p.length = fltr.depth → fltr.obj.at? p = some f → isMask f)
    (hc : ∀ p xs fs, p.length = k → v.obj.at? p = some (.tup xs) →
      fltr.obj.at? p = some (.tup fs) → xs.length = (fs.filter isPresent).length) (h : Heap A) :
    ∃ r, inverseSelect (E := E) v fltr h = .ok (r, h) ∧ SameShape r fltr ∧
      ∀ p xs fs, p.length = k → v.obj.at? p = some (.tup xs) → fltr.obj.at? p = some (.tup fs) →
        ∃ ys, r.obj.at? p = some (.tup ys) ∧ ys.length = fs.length ∧ keep ys fs = xs ∧
          ∀ i : Nat, fs[i]? = some .none → ys[i]? = some .none := by
  have hv1 : Nested (k + 1) v.obj := by rw [← hvd]; exact hv
  have hf1 : Nested (k + 1) fltr.obj := by rw [← hfd]; exact hf
  have hvk := nested_le (Nat.le_succ k) hv1
  have hfk := nested_le (Nat.le_succ k) hf1
  have hmask : ∀ p fs, p.length = k → fltr.obj.at? p = some (.tup fs) → ∀ f ∈ fs, isMask f := by
    intro p fs hp hfs f hfm
    obtain ⟨i, hi⟩ := List.mem_iff_getElem?.1 hfm
    exact hm (p ++ [i]) f (by simp [hp, hfd]) (by rw [at?_snoc hfs, hi])
  rw [inverseSelect_unfold v fltr k hvd hfd]
  rcases map2_pointwise (E := E) (onTuples inverseSelectImpl) ⟨v.obj, k⟩ ⟨fltr.obj, k⟩ false hvk hfk
    ha h (fun x y => match x, y with
        | .tup xs, .tup ys => (inverseSelectImpl xs ys).map .tup
        | _, _ => .error .typeError)
      (by intro p x y _ _ _; cases x <;> cases y <;> rfl) with
      ⟨r, h1, h2, hd, hs1, hs2, h3, h4⟩ | ⟨e, _, p, x, y, hp, hx, hy, he⟩
  · have hd' : r.depth = k := by simpa using hd
    rw [h1]
    have hshf : ShapeEq k r.obj fltr.obj := by
      have := (hs2 hd'.symm).2; rw [hd'] at this; exact this
    have hshv : ShapeEq k r.obj v.obj := by
      have := (hs1 hd'.symm).2; rw [hd'] at this; exact this
    have point : ∀ p xs fs, p.length = k → v.obj.at? p = some (.tup xs) →
        fltr.obj.at? p = some (.tup fs) →
        ∃ ys, r.obj.at? p = some (.tup ys) ∧ ys.length = fs.length ∧ keep ys fs = xs ∧
          ∀ i : Nat, fs[i]? = some .none → ys[i]? = some .none := by
      intro p xs fs hp hx hfs
      obtain ⟨w, hw, he⟩ := h3 p (.tup xs) (.tup fs) (by rw [hd']; exact hp)
        (by rw [itemAt_self (by exact hp)]; exact hx) (by rw [itemAt_self (by exact hp)]; exact hfs)
      obtain ⟨ys, e1, e2, e3, e4⟩ := inverseSelectImpl_ok (E := E) fs xs (hmask p fs hp hfs)
        (hc p xs fs hp hx hfs)
      simp only [orMissing, Obj.isNone, List.any_cons, List.any_nil, Bool.or_false,
        Bool.and_false, Bool.false_eq_true, if_false, e1] at he
      injection he with he
      exact ⟨ys, by rw [hw, ← he], e2, e3, e4⟩
    refine ⟨⟨r.obj, v.depth⟩, rfl, ⟨by simp only; omega, ?_⟩, point⟩
    simp only [hvd]
    apply shapeEq_snoc hshf
    intro p x y hp hx hy
    obtain ⟨fs, rfl⟩ := tup_at hf1 hp hy
    obtain ⟨_, z, hz⟩ := (mem_positions hvk p).1 (by
      rw [← shapeEq_positions hshv]
      exact (mem_positions (shapeEq_nested hshf) p).2 ⟨hp, x, hx⟩)
    obtain ⟨xs, rfl⟩ := tup_at hv1 hp hz
    obtain ⟨ys, e1, e2, _⟩ := point p xs fs hp hz hy
    rw [hx] at e1
    injection e1 with e1
    exact ⟨ys, fs, e1, rfl, e2⟩
  · exfalso
    simp only [Nat.max_self] at hp
    rw [itemAt_self (by exact hp)] at hx hy
    obtain ⟨xs, rfl⟩ := tup_at hv1 hp hx
    obtain ⟨fs, rfl⟩ := tup_at hf1 hp hy
    obtain ⟨ys, e1, _⟩ := inverseSelectImpl_ok (E := E) fs xs (hmask p fs hp hy)
      (hc p xs fs hp hx hy)
    simp only [orMissing, Obj.isNone, List.any_cons, List.any_nil, Bool.or_false,
      Bool.and_false, Bool.false_eq_true, if_false, e1] at he
    cases he
where
  shapeEq_snoc {n : Nat} {o o' : Obj A} (h : ShapeEq n o o')
      (hl : ∀ p x y, p.length = n → o.at? p = some x → o'.at? p = some y →
        ∃ xs ys, x = .tup xs ∧ y = .tup ys ∧ xs.length = ys.length) : ShapeEq (n + 1) o o' := by
    induction n generalizing o o' with
    | zero =>
      obtain ⟨xs, ys, rfl, rfl, e⟩ := hl [] o o' rfl (by simp) (by simp)
      exact ⟨xs, ys, rfl, rfl, e, fun _ _ _ _ _ => trivial⟩
    | succ n ih =>
      obtain ⟨xs, ys, rfl, rfl, hlen, hi⟩ := h
      refine ⟨xs, ys, rfl, rfl, hlen, fun i x y hx hy => ih (hi i x y hx hy) ?_⟩
      intro p a b hp ha hb
      exact hl (i :: p) a b (by simp [hp]) (by rw [at?_tup, hx]; exact ha)
        (by rw [at?_tup, hy]; exact hb)

/-- `inverse_select` raises `ValueError` if the number of items of an innermost tuple is not
the number of present filter items there, or if a filter item is not a mask. -/
theorem C21_inverse_select_rejects (v fltr : View A) (hv : v.Wf) (hf : fltr.Wf) (k : Nat)
    (hvd : v.depth = k + 1) (hfd : fltr.depth = k + 1)
    (ha : Agree (⟨v.obj, k⟩ : View A) ⟨fltr.obj, k⟩) (p : List Nat) (xs fs : List (Obj A))
    (hp : p.length = k) (hx : v.obj.at? p = some (.tup xs)) (hfs : fltr.obj.at? p = some (.tup fs))
    (hb : (∃ f ∈ fs, isMask f = false) ∨ xs.length ≠ (fs.filter isPresent).length) (h : Heap A) :
    inverseSelect (E := E) v fltr h = .error .valueError := by
  have hv1 : Nested (k + 1) v.obj := by rw [← hvd]; exact hv
  have hf1 : Nested (k + 1) fltr.obj := by rw [← hfd]; exact hf
  rw [inverseSelect_unfold v fltr k hvd hfd]
  rcases map2_pointwise (E := E) (onTuples inverseSelectImpl) ⟨v.obj, k⟩ ⟨fltr.obj, k⟩ false
    (nested_le (Nat.le_succ k) hv1) (nested_le (Nat.le_succ k) hf1)
    ha h (fun x y => match x, y with
        | .tup xs, .tup ys => (inverseSelectImpl xs ys).map .tup
        | _, _ => .error .typeError)
      (by intro p x y _ _ _; cases x <;> cases y <;> rfl) with
      ⟨r, h1, h2, hd, hs1, hs2, h3, h4⟩ | ⟨e, h1, q, x, y, hq, hx', hy, he⟩
  · exfalso
    obtain ⟨w, hw, he⟩ := h3 p (.tup xs) (.tup fs) (by rw [hd]; simp [hp])
      (by rw [itemAt_self (by exact hp)]; exact hx) (by rw [itemAt_self (by exact hp)]; exact hfs)
    simp only [orMissing, Obj.isNone, List.any_cons, List.any_nil, Bool.or_false,
      Bool.and_false, Bool.false_eq_true, if_false, inverseSelectImpl_error (E := E) fs xs hb] at he
    cases he
  · rw [h1]
    simp only [Nat.max_self] at hq
    rw [itemAt_self (by exact hq)] at hx' hy
    obtain ⟨xs', rfl⟩ := tup_at hv1 hq hx'
    obtain ⟨fs', rfl⟩ := tup_at hf1 hq hy
    simp only [orMissing, Obj.isNone, List.any_cons, List.any_nil, Bool.or_false,
      Bool.and_false, Bool.false_eq_true, if_false] at he
    by_cases hok : (∀ f ∈ fs', isMask f) ∧ xs'.length = (fs'.filter isPresent).length
    · obtain ⟨ys, e1, _⟩ := inverseSelectImpl_ok (E := E) fs' xs' hok.1 hok.2
      rw [e1] at he; cases he
    · rw [inverseSelectImpl_error (E := E) fs' xs' (by
        by_cases hl : xs'.length = (fs'.filter isPresent).length
        · left
          have : ¬ ∀ f ∈ fs', isMask f := fun hh => hok ⟨hh, hl⟩
          simp only [Classical.not_forall] at this
          obtain ⟨f, hf, hm⟩ := this
          exact ⟨f, hf, by simpa using hm⟩
        · exact Or.inr hl)] at he
      injection he with he
      simp only [← he]

/-- Views of different depth, scalars, and different outer shapes are rejected. -/
theorem C21_inverse_select_rejects_shapes (v fltr : View A) (hv : v.Wf) (hf : fltr.Wf) (h : Heap A) :
    (v.depth ≠ fltr.depth ∨ v.depth = 0 → inverseSelect (E := E) v fltr h = .error .valueError) ∧
    (∀ k, v.depth = k + 1 → fltr.depth = k + 1 → ¬ Agree (⟨v.obj, k⟩ : View A) ⟨fltr.obj, k⟩ →
      ∃ e, inverseSelect (E := E) v fltr h = .error e) := by
  constructor
  · intro hb
    unfold inverseSelect
    by_cases hd : fltr.depth ≠ v.depth
    · rw [if_pos hd]
    · rw [if_neg hd, if_pos (by omega)]
  · intro k hvd hfd hne
    rw [inverseSelect_unfold v fltr k hvd hfd]
    obtain ⟨e, he⟩ := map2_error_of_disagree (E := E) (onTuples inverseSelectImpl) ⟨v.obj, k⟩
      ⟨fltr.obj, k⟩ false (nested_le (by simp only; omega) hv) (nested_le (by simp only; omega) hf) hne h
    exact ⟨e, by rw [he]⟩

theorem keep_length (xs fs : List (Obj A)) (hl : xs.length = fs.length) :
    (keep xs fs).length = (fs.filter isPresent).length := by
  induction xs generalizing fs with
  | nil =>
    cases fs with
    | nil => rfl
    | cons f fs => simp at hl
  | cons x xs ih =>
    cases fs with
    | nil => simp at hl
    | cons f fs =>
      rw [keep_cons, List.filter_cons]
      have := ih fs (by simpa using hl)
      cases isPresent f <;> simp [this]

theorem keep_eq_at {xs ys fs : List (Obj A)} (h1 : xs.length = fs.length)
    (h2 : ys.length = fs.length) (hk : keep xs fs = keep ys fs) (i : Nat)
    (hi : fs[i]? = some .present) : xs[i]? = ys[i]? := by
  induction fs generalizing xs ys i with
  | nil => simp at hi
  | cons f fs ih =>
    cases xs with
    | nil => simp at h1
    | cons x xs =>
      cases ys with
      | nil => simp at h2
      | cons y ys =>
        rw [keep_cons, keep_cons] at hk
        cases i with
        | zero =>
          simp only [List.getElem?_cons_zero, Option.some.injEq] at hi
          subst hi
          simp only [isPresent, if_true, List.cons.injEq] at hk
          simp [hk.1]
        | succ i =>
          simp only [List.getElem?_cons_succ]
          refine ih (by simpa using h1) (by simpa using h2) ?_ i (by simpa using hi)
          cases hf : isPresent f
          · rw [hf] at hk; simpa using hk
          · rw [hf] at hk
            simp only [if_true, List.cons.injEq] at hk
            exact hk.2

/-- `v.select(fltr).inverse_select(fltr)` has the items of `v` where the filter is present,
and `None` elsewhere. -/
theorem C21_inverse_select_undoes_select (v fltr : View A) (hv : v.Wf) (hf : fltr.Wf)
    (hd : v.depth = fltr.depth) (h0 : 0 < v.depth) (ha : Agree v fltr)
    (hm : ∀ p f, p.length = fltr.depth → fltr.obj.at? p = some f → isMask f) (ex : Bool)
    (h : Heap A) :
    ∃ r w, select (E := E) v fltr ex h = .ok (r, h) ∧ inverseSelect (E := E) r fltr h = .ok (w, h) ∧
      SameShape w fltr ∧
      ∀ p, p.length = v.depth →
        (fltr.obj.at? p = some .present → w.obj.at? p = v.obj.at? p) ∧
        (fltr.obj.at? p = some .none → w.obj.at? p = some .none) := by
  obtain ⟨k, hk⟩ : ∃ k, v.depth = k + 1 := ⟨v.depth - 1, by omega⟩
  have hv1 : Nested (k + 1) v.obj := by rw [← hk]; exact hv
  have hf1 : Nested (k + 1) fltr.obj := by rw [← hk, hd]; exact hf
  have hvk := nested_le (Nat.le_succ k) hv1
  obtain ⟨r, h1, hrd, hrw, hsh, hr⟩ := C21_select (E := E) v fltr hv hf ex k (by omega)
    (by cases ex <;> simp <;> omega) ha hm h
  have hpos : ∀ p xs fs, p.length = k → v.obj.at? p = some (.tup xs) →
      fltr.obj.at? p = some (.tup fs) → xs.length = fs.length ∧
        r.obj.at? p = some (.tup (keep xs fs)) := by
    intro p xs fs hp hx hfs
    have hl := ha p xs fs (by omega) (by omega) hx hfs
    exact ⟨hl, by rw [hr p xs hp hx, kept_eq_keep (by omega) hfs hl]⟩
  have hvr : ∀ p x, p.length = k → r.obj.at? p = some x → ∃ xs, v.obj.at? p = some (.tup xs) := by
    intro p x hp hx
    obtain ⟨_, y, hy⟩ := (mem_positions hvk p).1 (by
      rw [← shapeEq_positions hsh]; exact (mem_positions (shapeEq_nested hsh) p).2 ⟨hp, x, hx⟩)
    obtain ⟨xs, rfl⟩ := tup_at hv1 hp hy
    exact ⟨xs, hy⟩
  obtain ⟨w, g1, g2, g3⟩ := C21_inverse_select (E := E) r fltr hrw hf k (by omega) (by omega)
    (by
      have a1 : Agree (⟨r.obj, k⟩ : View A) ⟨v.obj, k⟩ :=
        agree_of_shapeEq (shapeEq_le (by simp) hsh)
      intro p xs ys q1 q2 q3 q4
      simp only at q1
      obtain ⟨zs, hz⟩ : ∃ zs, v.obj.at? p = some (.tup zs) := by
        have hn' := nested_le (Nat.le_of_lt q1) (shapeEq_nested hsh)
        obtain ⟨_, y, hy⟩ := (mem_positions (nested_le (Nat.le_of_lt q1) hvk) p).1 (by
          rw [← shapeEq_positions (shapeEq_le (Nat.le_of_lt q1) hsh)]
          exact (mem_positions hn' p).2 ⟨rfl, _, q3⟩)
        obtain ⟨zs, rfl⟩ := tup_at (nested_le (n := k) (by omega) hvk) rfl hy
        exact ⟨zs, hy⟩
      rw [a1 p xs zs q1 q1 q3 hz]
      exact ha p zs ys (by omega) (by omega) hz q4)
    hm
    (by
      intro p xs fs hp hx hfs
      obtain ⟨zs, hz⟩ := hvr p _ hp hx
      obtain ⟨hl, e⟩ := hpos p zs fs hp hz hfs
      rw [hx] at e
      simp only [Option.some.injEq, Obj.tup.injEq] at e
      rw [e, keep_length zs fs hl]) h
  refine ⟨r, w, h1, g1, g2, ?_⟩
  intro p hp
  obtain ⟨q, i, rfl⟩ : ∃ q i, p = q ++ [i] := by
    rcases List.eq_nil_or_concat p with rfl | ⟨q, i, rfl⟩
    · simp at hp; omega
    · exact ⟨q, i, by simp⟩
  have hq : q.length = k := by simp at hp; omega
  have main : ∀ f, fltr.obj.at? (q ++ [i]) = some f → ∃ xs ys fs : List (Obj A), fs[i]? = some f ∧
      v.obj.at? q = some (.tup xs) ∧ w.obj.at? q = some (.tup ys) ∧ xs.length = fs.length ∧
      ys.length = fs.length ∧ keep ys fs = keep xs fs ∧
      ∀ i : Nat, fs[i]? = some .none → ys[i]? = some .none := by
    intro f hfi
    obtain ⟨fs, hfs, hfi'⟩ := at?_split hfi
    have hwk : ShapeEq k w.obj fltr.obj := by
      have := g2.2; rw [g2.1] at this; exact shapeEq_le (by omega) this
    -- the data has a tuple there
    obtain ⟨x, hx⟩ := itemAt_of_agree (v := ⟨v.obj, k⟩) (w := ⟨fltr.obj, k⟩) hvk
      (nested_le (Nat.le_succ k) hf1) (agree_le ha (by omega) (by omega)) (Nat.le_refl _) hq hfs
    rw [itemAt_self (by exact hq)] at hx
    obtain ⟨xs, rfl⟩ := tup_at hv1 hq hx
    obtain ⟨hl, hrx⟩ := hpos q xs fs hq hx hfs
    obtain ⟨ys, e1, e2, e3, e4⟩ := g3 q _ fs hq hrx hfs
    exact ⟨xs, ys, fs, hfi', hx, e1, hl, e2, e3, e4⟩
  constructor
  · intro hfi
    obtain ⟨xs, ys, fs, e0, e1, e2, e3, e4, e5, _⟩ := main _ hfi
    rw [at?_snoc e2, at?_snoc e1]
    exact keep_eq_at e4 e3 e5 i e0
  · intro hfi
    obtain ⟨xs, ys, fs, e0, e1, e2, e3, e4, e5, e6⟩ := main _ hfi
    rw [at?_snoc e2]
    exact e6 i e0

/-! ### Examples -/

/-- The filter `[[present, None], [], [None]]` for `[[1, 2], [], [3]]`. -/
def sampleFilter : View Nat := ⟨.tup [.tup [.present, .none], .tup [], .tup [.none]], 2⟩

example : (select (E := Unit) sample sampleFilter true []).toOption.map (·.1) =
    some ⟨.tup [.tup [.atom 1], .tup [], .tup []], 2⟩ := rfl

example : (inverseSelect (E := Unit) ⟨.tup [.tup [.atom 1], .tup [], .tup []], 2⟩ sampleFilter
    []).toOption.map (·.1) =
    some ⟨.tup [.tup [.atom 1, .none], .tup [], .tup [.none]], 2⟩ := rfl

/-- A filter of depth 1, expanded or not. -/
example : (select (E := Unit) sample ⟨.tup [.present, .none, .none], 1⟩ true []).toOption.map (·.1) =
    some ⟨.tup [.tup [.atom 1, .atom 2], .tup [], .tup []], 2⟩ := rfl

example : (select (E := Unit) sample ⟨.tup [.present, .none, .none], 1⟩ false []).toOption.map (·.1) =
    some ⟨.tup [.tup [.atom 1, .atom 2]], 2⟩ := rfl

/-- The hypotheses of `C21_select` hold for the sample. -/
example : Agree sample sampleFilter ∧
    (∀ p f, p.length = sampleFilter.depth → sampleFilter.obj.at? p = some f → isMask f) := by
  constructor
  · apply agree_of_shapeEq
    exact ⟨_, _, rfl, rfl, rfl, fun i x y hx hy => by
      match i, hx, hy with
      | 0, hx, hy =>
        simp at hx hy; subst hx; subst hy
        exact ⟨_, _, rfl, rfl, rfl, fun _ _ _ _ _ => trivial⟩
      | 1, hx, hy =>
        simp at hx hy; subst hx; subst hy
        exact ⟨_, _, rfl, rfl, rfl, fun _ _ _ _ _ => trivial⟩
      | 2, hx, hy =>
        simp at hx hy; subst hx; subst hy
        exact ⟨_, _, rfl, rfl, rfl, fun _ _ _ _ _ => trivial⟩
      | n + 3, hx, hy => simp at hx⟩
  · intro p f hp hf
    have hwf : sampleFilter.Wf := by simp [View.Wf, sampleFilter, Nested]
    have := (mem_leaves hwf f).2 ⟨p, hp, hf⟩
    simp [sampleFilter, leaves] at this
    rcases this with rfl | rfl | rfl <;> rfl

end Verif.View
