import Verif.View.FlattenTheorems

/-! C21: `select` keeps the items whose filter item is present; `inverse_select` undoes it. -/
namespace Verif.View

set_option linter.unusedSectionVars false

variable {A E : Type}

/-! ### Specification -/

/-- The filter item is `kv.present`. -/
def isPresent : Obj A → Bool
  | .present => true
  | _ => false

/-- The filter item is `kv.present` or `None`. -/
def isMask : Obj A → Bool
  | .present => true
  | .none => true
  | _ => false

/-- The items of the tuple at path `p` whose filter item, broadcast, is present. -/
def kept (fltr : View A) (p : List Nat) (xs : List (Obj A)) : List (Obj A) :=
  (xs.zipIdx.filter fun xi => ((fltr.itemAt (p ++ [xi.2])).map isPresent).getD false).map (·.1)

/-- The items whose filter item is present. -/
def keep (xs fs : List (Obj A)) : List (Obj A) := ((xs.zip fs).filter fun xf => isPresent xf.2).map (·.1)

/-! ### Lemmas -/

theorem at?_snoc {o : Obj A} {p : List Nat} {fs : List (Obj A)} (h : o.at? p = some (.tup fs))
    (i : Nat) : o.at? (p ++ [i]) = fs[i]? := by
  induction p generalizing o with
  | nil =>
    simp only [at?_nil, Option.some.injEq] at h
    subst h
    rw [List.nil_append, at?_tup]
    cases fs[i]? <;> simp
  | cons j q ih =>
    cases o with
    | tup ys =>
      rw [at?_tup] at h
      rw [List.cons_append, at?_tup]
      cases hy : ys[j]? with
      | none => rw [hy] at h; simp at h
      | some y =>
        rw [hy] at h
        simp only [Option.bind_some] at h ⊢
        exact ih h
    | _ => simp [Obj.at?] at h

theorem at?_split {o x : Obj A} {q : List Nat} {i : Nat} (ho : o.at? (q ++ [i]) = some x) :
    ∃ ys : List (Obj A), o.at? q = some (.tup ys) ∧ ys[i]? = some x := by
  induction q generalizing o with
  | nil =>
    cases o with
    | tup ys =>
      rw [List.nil_append, at?_tup] at ho
      refine ⟨ys, by simp, ?_⟩
      cases hy : ys[i]? with
      | none => rw [hy] at ho; simp at ho
      | some y => rw [hy] at ho; simpa using ho
    | _ => simp [Obj.at?] at ho
  | cons j q ih =>
    cases o with
    | tup ys =>
      rw [List.cons_append, at?_tup] at ho
      rw [at?_tup]
      cases hy : ys[j]? with
      | none => rw [hy] at ho; simp at ho
      | some y =>
        rw [hy] at ho
        simp only [Option.bind_some] at ho ⊢
        exact ih ho
    | _ => simp [Obj.at?] at ho

theorem mem_leaves {n : Nat} {o : Obj A} (h : Nested n o) (x : Obj A) :
    x ∈ leaves n o ↔ ∃ p, p.length = n ∧ o.at? p = some x := by
  constructor
  · intro hx
    obtain ⟨j, hj⟩ := List.mem_iff_getElem?.1 hx
    have hlt := (List.getElem?_eq_some_iff.1 hj).1
    have hp := List.getElem?_eq_getElem (l := positions n o) (i := j)
      (by rw [length_positions h]; exact hlt)
    refine ⟨_, ((mem_positions h _).1 (List.mem_of_getElem? hp)).1, ?_⟩
    rw [at?_of_index h hp, hj]
  · rintro ⟨p, hp, hx⟩
    obtain ⟨j, hj⟩ := List.mem_iff_getElem?.1 ((mem_positions h p).2 ⟨hp, x, hx⟩)
    have := at?_of_index h hj
    rw [hx] at this
    exact List.mem_of_getElem? this.symm

theorem selectImpl_ok (xs fs : List (Obj A)) (hl : xs.length = fs.length)
    (hm : ∀ f ∈ fs, isMask f) : selectImpl (E := E) xs fs = .ok (keep xs fs) := by
  induction xs generalizing fs with
  | nil =>
    cases fs with
    | nil => rfl
    | cons f fs => simp at hl
  | cons x xs ih =>
    cases fs with
    | nil => simp at hl
    | cons f fs =>
      have h1 := hm f (by simp)
      have h2 := ih fs (by simpa using hl) fun g hg => hm g (List.mem_cons_of_mem _ hg)
      cases f <;> simp [isMask] at h1
      · simp [selectImpl, h2, keep, isPresent]
      · simp [selectImpl, h2, keep, isPresent]

theorem selectImpl_error (xs fs : List (Obj A))
    (hb : xs.length ≠ fs.length ∨ ∃ f ∈ fs, isMask f = false) :
    selectImpl (E := E) xs fs = .error .valueError := by
  induction xs generalizing fs with
  | nil =>
    cases fs with
    | nil => simp at hb
    | cons f fs => rfl
  | cons x xs ih =>
    cases fs with
    | nil => rfl
    | cons f fs =>
      by_cases hf : isMask f = true
      · have := ih fs (by
          rcases hb with hb | ⟨g, hg, hgm⟩
          · left; simpa using hb
          · rcases List.mem_cons.1 hg with rfl | hg
            · rw [hf] at hgm; cases hgm
            · exact Or.inr ⟨g, hg, hgm⟩)
        cases f <;> simp [isMask] at hf <;> simp [selectImpl, this]
      · cases f <;> simp [isMask] at hf <;> simp [selectImpl]

theorem selectImpl_cases (xs fs : List (Obj A)) :
    (xs.length = fs.length ∧ ∀ f ∈ fs, isMask f) ∨
    (xs.length ≠ fs.length ∨ ∃ f ∈ fs, isMask f = false) := by
  by_cases h : xs.length = fs.length
  · by_cases h2 : ∀ f ∈ fs, isMask f = true
    · exact Or.inl ⟨h, h2⟩
    · right; right
      simp only [Classical.not_forall] at h2
      obtain ⟨f, hf, hm⟩ := h2
      exact ⟨f, hf, by simpa using hm⟩
  · exact Or.inr (Or.inl h)

theorem kept_eq_keep {fltr : View A} {p : List Nat} {xs fs : List (Obj A)}
    (hd : fltr.depth = p.length + 1) (hfs : fltr.obj.at? p = some (.tup fs))
    (hl : xs.length = fs.length) : kept fltr p xs = keep xs fs := by
  have hitem : ∀ i : Nat, fltr.itemAt (p ++ [i]) = fs[i]? := by
    intro i
    unfold View.itemAt
    rw [List.take_of_length_le (by simp [hd])]
    exact at?_snoc hfs i
  unfold kept keep
  simp only [hitem]
  clear hitem hfs
  have gen : ∀ (k : Nat) (gs : List (Obj A)), gs.length = k →
      ((xs.zipIdx k).filter fun xi => (((gs ++ fs)[xi.2]?).map isPresent).getD false).map (·.1) =
      ((xs.zip fs).filter fun xf => isPresent xf.2).map (·.1) := by
    induction xs generalizing fs with
    | nil => simp
    | cons x xs ih =>
      intro k gs hg
      cases fs with
      | nil => simp at hl
      | cons f fs =>
        simp only [List.zipIdx_cons, List.zip_cons_cons, List.filter_cons]
        have hk : (gs ++ f :: fs)[k]? = some f := by simp [← hg]
        have := ih (fs := fs) (by simpa using hl) (k + 1) (gs ++ [f]) (by simp [hg])
        simp only [List.append_assoc, List.singleton_append] at this
        rw [hk]
        simp only [Option.map_some, Option.getD_some]
        split
        · simp only [List.map_cons, this]
        · exact this
  have := gen 0 [] rfl
  simpa using this

theorem kept_const {fltr : View A} {p : List Nat} {xs : List (Obj A)} {f : Obj A}
    (hd : fltr.depth ≤ p.length) (hf : fltr.itemAt p = some f) :
    kept fltr p xs = if isPresent f then xs else [] := by
  have hitem : ∀ i : Nat, fltr.itemAt (p ++ [i]) = some f := by
    intro i
    unfold View.itemAt at hf ⊢
    rw [List.take_append_of_le_length hd]
    exact hf
  unfold kept
  simp only [hitem, Option.map_some, Option.getD_some]
  cases isPresent f
  · simp
  · rw [List.filter_eq_self.2 (fun _ _ => rfl)]
    exact List.zipIdx_map_fst 0 xs

/-- All imploded views agree if the views do. -/
theorem agree_le {v w : View A} (h : Agree v w) {a b : Nat} (ha : a ≤ v.depth) (hb : b ≤ w.depth) :
    Agree (⟨v.obj, a⟩ : View A) ⟨w.obj, b⟩ := fun p xs ys h1 h2 h3 h4 =>
  h p xs ys (Nat.lt_of_lt_of_le h1 ha) (Nat.lt_of_lt_of_le h2 hb) h3 h4

theorem map2_error_of_disagree (f : Obj A → Obj A → M A E (Obj A)) (v w : View A) (im : Bool)
    (hv : v.Wf) (hw : w.Wf) (hc : ¬ Agree v w) (h : Heap A) : ∃ e, map2 f v w im h = .error e := by
  have hnc : ¬ CompatAt 0 [v.arg, w.arg] := by
    intro hh
    exact hc ((compatAt_iff [v, w]).1 hh v (by simp) w (by simp))
  obtain ⟨e, he⟩ := mapImpl_error (binary f) im (maxDepth [v.arg, w.arg]) 0 [v.arg, w.arg]
    (fun a ha => by have := le_maxDepth ha; omega)
    (by
      intro a ha
      simp only [List.mem_cons, List.not_mem_nil, or_false] at ha
      rcases ha with rfl | rfl
      · exact hv
      · exact hw) hnc h
  exact ⟨e, by simp only [map2, mkView, mapStructures, he]⟩

theorem tup_at {n : Nat} {o : Obj A} (h : Nested (n + 1) o) {p : List Nat} (hp : p.length = n)
    {x : Obj A} (hx : o.at? p = some x) : ∃ xs, x = .tup xs := by
  have hn := nested_le (Nat.le_succ n) h
  obtain ⟨j, hj⟩ := List.mem_iff_getElem?.1 ((mem_positions hn p).2 ⟨hp, x, hx⟩)
  have hl := at?_of_index hn hj
  rw [hx] at hl
  obtain ⟨xs, e, _⟩ := nested_leaves h x (List.mem_of_getElem? hl.symm)
  exact ⟨xs, e⟩

theorem implode_nat (v : View A) (k : Nat) (hk : k ≤ v.depth) (n : Int)
    (hn : n = (v.depth : Int) - k) : implode (E := E) v n = .ok ⟨v.obj, k⟩ := by
  subst hn
  unfold implode
  rw [if_neg (by omega), if_pos (by omega)]
  congr 2
  omega

/-- The two branches of `select`, with the number `k` of dimensions above the selected one. -/
theorem select_unfold (v fltr : View A) (ex : Bool) (k : Nat) (hfd : fltr.depth ≤ v.depth)
    (hk : k + 1 = if ex then v.depth else fltr.depth) (h : Heap A) :
    select (E := E) v fltr ex h =
      match (if fltr.depth > k then map2 (E := E) (onTuples selectImpl) ⟨v.obj, k⟩ ⟨fltr.obj, k⟩ false h
        else map2 selectConst ⟨v.obj, k⟩ fltr true h) with
      | .error e => .error e
      | .ok (r, h') => .ok ({ obj := r.obj, depth := v.depth }, h') := by
  have hkv : k ≤ v.depth := by cases ex <;> simp at hk <;> omega
  unfold select
  rw [if_neg (by omega)]
  simp only [← hk]
  rw [implode_nat v k hkv _ rfl]
  simp only
  by_cases hf : fltr.depth > k
  · have hfk : fltr.depth = k + 1 := by cases ex <;> simp at hk <;> omega
    rw [if_pos hf, if_pos hf, implode_nat fltr k (by omega) 1 (by omega)]
    all_goals (simp only)
    all_goals (cases map2 (onTuples selectImpl) ⟨v.obj, k⟩ ⟨fltr.obj, k⟩ false h <;> rfl)
  · rw [if_neg hf, if_neg hf]
    all_goals (cases map2 selectConst ⟨v.obj, k⟩ fltr true h <;> rfl)

/-! ### Theorems -/

/-- `select` keeps the items whose filter item is present. With `expand_filter` the filter is
broadcast to all dimensions of the data; without it, the selection is in the last dimension
of the filter. -/
theorem C21_select (v fltr : View A) (hv : v.Wf) (hf : fltr.Wf) (ex : Bool) (k : Nat)
    (hfd : fltr.depth ≤ v.depth) (hk : k + 1 = if ex then v.depth else fltr.depth)
    (ha : Agree v fltr)
    (hm : ∀ p f, p.length = fltr.depth → fltr.obj.at? p = some f → isMask f) (h : Heap A) :
    ∃ r, select (E := E) v fltr ex h = .ok (r, h) ∧ r.depth = v.depth ∧ r.Wf ∧
      ShapeEq k r.obj v.obj ∧
      ∀ p xs, p.length = k → v.obj.at? p = some (.tup xs) →
        r.obj.at? p = some (.tup (kept fltr p xs)) := by
  have hkv : k + 1 ≤ v.depth := by cases ex <;> simp at hk <;> omega
  have hvk : Nested k v.obj := nested_le (by omega) hv
  have hvk1 : Nested (k + 1) v.obj := nested_le hkv hv
  have hlast : ∀ r : Obj A, ShapeEq k r v.obj →
      (∀ p xs, p.length = k → v.obj.at? p = some (.tup xs) →
        r.at? p = some (.tup (kept fltr p xs))) → Nested v.depth r := by
    intro r hs hp
    rw [show v.depth = k + (v.depth - k) by omega]
    apply explode_one.nested_of_leaves (shapeEq_nested hs)
    intro x hx
    obtain ⟨p, hpl, hr⟩ := (mem_leaves (shapeEq_nested hs) x).1 hx
    obtain ⟨_, y, hy⟩ := (mem_positions hvk p).1 (by
      rw [← shapeEq_positions hs]; exact (mem_positions (shapeEq_nested hs) p).2 ⟨hpl, x, hr⟩)
    obtain ⟨xs, rfl⟩ := tup_at hvk1 hpl hy
    have e := hp p xs hpl hy
    rw [hr] at e
    injection e with e
    subst e
    rw [show v.depth - k = (v.depth - k - 1) + 1 by omega]
    refine ⟨_, rfl, ?_⟩
    intro z hz
    have hzx : z ∈ xs := by
      unfold kept at hz
      obtain ⟨zi, hzi, rfl⟩ := List.mem_map.1 hz
      have h3 := (List.mem_filter.1 hzi).1
      have h4 := List.mem_zipIdx_iff_getElem?.1 h3
      exact List.mem_of_getElem? h4
    have hyl : (Obj.tup xs) ∈ leaves k v.obj := (mem_leaves hvk _).2 ⟨p, hpl, hy⟩
    have := nested_leaves (n := k) (m := (v.depth - k - 1) + 1) (o := v.obj)
      (by rw [show k + (v.depth - k - 1 + 1) = v.depth by omega]; exact hv) _ hyl
    obtain ⟨xs', e, hxs⟩ := this
    injection e with e
    subst e
    exact hxs z hzx
  have fin : ∀ r : View A, (ShapeEq k r.obj v.obj) →
      (∀ p xs, p.length = k → v.obj.at? p = some (.tup xs) →
        r.obj.at? p = some (.tup (kept fltr p xs))) →
      select (E := E) v fltr ex h = .ok (⟨r.obj, v.depth⟩, h) →
      ∃ r, select (E := E) v fltr ex h = .ok (r, h) ∧ r.depth = v.depth ∧ r.Wf ∧
        ShapeEq k r.obj v.obj ∧
        ∀ p xs, p.length = k → v.obj.at? p = some (.tup xs) →
          r.obj.at? p = some (.tup (kept fltr p xs)) := by
    intro r h1 h2 h3
    exact ⟨⟨r.obj, v.depth⟩, h3, rfl, hlast r.obj h1 h2, h1, h2⟩
  rw [select_unfold v fltr ex k hfd hk h] at fin ⊢
  by_cases hfk : fltr.depth > k
  · have hfk1 : fltr.depth = k + 1 := by cases ex <;> simp at hk <;> omega
    simp only [if_pos hfk] at fin ⊢
    have hf1 : Nested (k + 1) fltr.obj := by rw [← hfk1]; exact hf
    -- tuples at the same path have the same length
    have hlen : ∀ p xs fs, p.length = k → v.obj.at? p = some (.tup xs) →
        fltr.obj.at? p = some (.tup fs) → xs.length = fs.length := fun p xs fs hp h1 h2 =>
      ha p xs fs (by omega) (by omega) h1 h2
    have hmask : ∀ p fs, p.length = k → fltr.obj.at? p = some (.tup fs) → ∀ f ∈ fs, isMask f := by
      intro p fs hp hfs f hfm
      obtain ⟨i, hi⟩ := List.mem_iff_getElem?.1 hfm
      have : fltr.obj.at? (p ++ [i]) = some f := by
        rw [at?_snoc hfs, hi]
      exact hm (p ++ [i]) f (by simp [hp, hfk1]) this
    rcases map2_pointwise (E := E) (onTuples selectImpl) ⟨v.obj, k⟩ ⟨fltr.obj, k⟩ false hvk
      (nested_le (by simp only; omega) hf) (agree_le ha (by omega) (by omega)) h
      (fun x y => match x, y with
        | .tup xs, .tup ys => (selectImpl xs ys).map .tup
        | _, _ => .error .typeError)
      (by intro p x y _ _ _; cases x <;> cases y <;> rfl) with
      ⟨r, h1, h2, hd, hs1, _, h3, h4⟩ | ⟨e, _, p, x, y, hp, hx, hy, he⟩
    · have hd' : r.depth = k := by simpa using hd
      have hsh : ShapeEq k r.obj v.obj := by
        have := (hs1 hd'.symm).2
        rw [hd'] at this; exact this
      rw [h1] at fin ⊢
      refine fin r hsh ?_ rfl
      intro p xs hp hx
      have hpm := (mem_positions hvk p).2 ⟨hp, _, hx⟩
      obtain ⟨_, z, hz⟩ := (mem_positions (shapeEq_nested hsh) p).1
        (by rw [shapeEq_positions hsh]; exact hpm)
      obtain ⟨x', y, hx', hy⟩ := h4 p (by rw [hd']; exact hp) ⟨z, hz⟩
      rw [itemAt_self (by exact hp)] at hx' hy
      simp only at hx' hy
      rw [hx] at hx'
      injection hx' with hx'
      subst hx'
      obtain ⟨fs, rfl⟩ := tup_at hf1 hp hy
      obtain ⟨w, hw, he⟩ := h3 p (.tup xs) (.tup fs) (by rw [hd']; exact hp)
        (by rw [itemAt_self (by exact hp)]; exact hx) (by rw [itemAt_self (by exact hp)]; exact hy)
      have hl := hlen p xs fs hp hx hy
      simp only [orMissing, Obj.isNone, List.any_cons, List.any_nil, Bool.or_false,
        Bool.and_false, Bool.false_eq_true, if_false,
        selectImpl_ok (E := E) xs fs hl (hmask p fs hp hy)] at he
      injection he with he
      rw [hw, ← he, kept_eq_keep (by omega) hy hl]
    · exfalso
      simp only [Nat.max_self] at hp
      rw [itemAt_self (by exact hp)] at hx hy
      obtain ⟨xs, rfl⟩ := tup_at hvk1 hp hx
      obtain ⟨fs, rfl⟩ := tup_at hf1 hp hy
      simp only [orMissing, Obj.isNone, List.any_cons, List.any_nil, Bool.or_false,
        Bool.and_false, Bool.false_eq_true, if_false,
        selectImpl_ok (E := E) xs fs (hlen p xs fs hp hx hy) (hmask p fs hp hy)] at he
      cases he
  · simp only [if_neg hfk] at fin ⊢
    rcases map2_pointwise (E := E) selectConst ⟨v.obj, k⟩ fltr true hvk hf
      (agree_le ha (by omega) (Nat.le_refl _)) h
      (fun x y => match y with
        | .present => .ok x
        | .none => .ok (.tup [])
        | _ => .error .valueError)
      (by intro p x y _ _ _; cases y <;> rfl) with
      ⟨r, h1, h2, hd, hs1, _, h3, h4⟩ | ⟨e, _, p, x, y, hp, hx, hy, he⟩
    · have hd' : r.depth = k := by
        rw [hd]; simp only; omega
      have hsh : ShapeEq k r.obj v.obj := by
        have := (hs1 hd'.symm).2
        rw [hd'] at this; exact this
      rw [h1] at fin ⊢
      refine fin r hsh ?_ rfl
      intro p xs hp hx
      have hpm := (mem_positions hvk p).2 ⟨hp, _, hx⟩
      obtain ⟨_, z, hz⟩ := (mem_positions (shapeEq_nested hsh) p).1
        (by rw [shapeEq_positions hsh]; exact hpm)
      obtain ⟨x', y, hx', hy⟩ := h4 p (by rw [hd']; exact hp) ⟨z, hz⟩
      rw [itemAt_self (by exact hp)] at hx'
      simp only at hx'
      rw [hx] at hx'
      injection hx' with hx'
      subst hx'
      obtain ⟨w, hw, he⟩ := h3 p (.tup xs) y (by rw [hd']; exact hp)
        (by rw [itemAt_self (by exact hp)]; exact hx) hy
      have hmy : isMask y = true :=
        hm (p.take fltr.depth) y (by rw [List.length_take]; omega) hy
      rw [hw, kept_const (by omega) hy]
      simp only [orMissing, Bool.not_true, Bool.false_and, Bool.false_eq_true, if_false] at he
      cases y <;> simp [isMask] at hmy <;> simp only [isPresent] at he ⊢ <;> injection he with he <;>
        rw [← he] <;> rfl
    · exfalso
      have hmy : isMask y = true :=
        hm (p.take fltr.depth) y (by rw [List.length_take]; simp only at hp; omega) hy
      simp only [orMissing, Bool.not_true, Bool.false_and, Bool.false_eq_true, if_false] at he
      cases y <;> simp [isMask] at hmy <;> cases he

/-- A filter item other than `kv.present` and `None` at a position of the data raises
`ValueError`. -/
theorem C21_select_rejects_other_filter_items (v fltr : View A) (hv : v.Wf) (hf : fltr.Wf)
    (ex : Bool) (k : Nat) (hfd : fltr.depth ≤ v.depth)
    (hk : k + 1 = if ex then v.depth else fltr.depth) (ha : Agree v fltr)
    (p : List Nat) (x f : Obj A) (hp : p.length = k + 1) (hx : v.obj.at? p = some x)
    (hfp : fltr.itemAt p = some f) (hbad : isMask f = false) (h : Heap A) :
    select (E := E) v fltr ex h = .error .valueError := by
  have hkv : k + 1 ≤ v.depth := by cases ex <;> simp at hk <;> omega
  have hvk : Nested k v.obj := nested_le (by omega) hv
  obtain ⟨q, i, rfl⟩ : ∃ q i, p = q ++ [i] := by
    rcases List.eq_nil_or_concat p with rfl | ⟨q, i, rfl⟩
    · simp at hp
    · exact ⟨q, i, by simp⟩
  have hq : q.length = k := by simpa using hp
  obtain ⟨xs, hxs, _⟩ := at?_split hx
  rw [select_unfold v fltr ex k hfd hk h]
  by_cases hfk : fltr.depth > k
  · have hfk1 : fltr.depth = k + 1 := by cases ex <;> simp at hk <;> omega
    simp only [if_pos hfk]
    rw [itemAt_self (by simp [hq, hfk1])] at hfp
    obtain ⟨fs, hfs, hfi⟩ := at?_split hfp
    rcases map2_pointwise (E := E) (onTuples selectImpl) ⟨v.obj, k⟩ ⟨fltr.obj, k⟩ false hvk
      (nested_le (by simp only; omega) hf) (agree_le ha (by omega) (by omega)) h
      (fun x y => match x, y with
        | .tup xs, .tup ys => (selectImpl xs ys).map .tup
        | _, _ => .error .typeError)
      (by intro p x y _ _ _; cases x <;> cases y <;> rfl) with
      ⟨r, h1, h2, hd, hs1, _, h3, h4⟩ | ⟨e, h1, p, x, y, hp, hx, hy, he⟩
    · exfalso
      obtain ⟨w, _, he⟩ := h3 q (.tup xs) (.tup fs) (by rw [hd]; simp [hq])
        (by rw [itemAt_self (by exact hq)]; exact hxs) (by rw [itemAt_self (by exact hq)]; exact hfs)
      simp only [orMissing, Obj.isNone, List.any_cons, List.any_nil, Bool.or_false,
        Bool.and_false, Bool.false_eq_true, if_false,
        selectImpl_error (E := E) xs fs (Or.inr ⟨f, List.mem_of_getElem? hfi, hbad⟩)] at he
      cases he
    · rw [h1]
      simp only [Nat.max_self] at hp
      rw [itemAt_self (by exact hp)] at hx hy
      obtain ⟨xs', rfl⟩ := tup_at (nested_le hkv hv) hp hx
      obtain ⟨fs', rfl⟩ := tup_at (n := k) (by rw [← hfk1]; exact hf) hp hy
      simp only [orMissing, Obj.isNone, List.any_cons, List.any_nil, Bool.or_false,
        Bool.and_false, Bool.false_eq_true, if_false] at he
      rcases selectImpl_cases xs' fs' with ⟨c1, c2⟩ | c
      · rw [selectImpl_ok xs' fs' c1 c2] at he; cases he
      · rw [selectImpl_error xs' fs' c] at he
        injection he with he
        simp only [← he]
  · simp only [if_neg hfk]
    have hfq : fltr.itemAt q = some f := by
      unfold View.itemAt at hfp ⊢
      rw [List.take_append_of_le_length (by omega)] at hfp
      exact hfp
    rcases map2_pointwise (E := E) selectConst ⟨v.obj, k⟩ fltr true hvk hf
      (agree_le ha (by omega) (Nat.le_refl _)) h
      (fun x y => match y with
        | .present => .ok x
        | .none => .ok (.tup [])
        | _ => .error .valueError)
      (by intro p x y _ _ _; cases y <;> rfl) with
      ⟨r, h1, h2, hd, hs1, _, h3, h4⟩ | ⟨e, h1, p, x, y, hp, hx, hy, he⟩
    · exfalso
      obtain ⟨w, _, he⟩ := h3 q (.tup xs) f (by rw [hd]; simp only; omega)
        (by rw [itemAt_self (by exact hq)]; exact hxs) hfq
      simp only [orMissing, Bool.not_true, Bool.false_and, Bool.false_eq_true, if_false] at he
      cases f <;> simp [isMask] at hbad <;> cases he
    · rw [h1]
      simp only [orMissing, Bool.not_true, Bool.false_and, Bool.false_eq_true, if_false] at he
      cases y <;> first | (injection he with he; simp only [← he]) | cases he

/-- Data and filter with different shapes: `select` raises. -/
theorem C21_select_rejects_different_shapes (v fltr : View A) (hv : v.Wf) (hf : fltr.Wf)
    (ex : Bool) (hne : ¬ Agree v fltr) (h : Heap A) : ∃ e, select (E := E) v fltr ex h = .error e := by
  by_cases hfd : fltr.depth ≤ v.depth
  · cases hkk : (if ex then v.depth else fltr.depth) with
    | zero =>
      refine ⟨.valueError, ?_⟩
      unfold select
      rw [if_neg (by omega)]
      simp only [hkk]
    | succ k =>
      rw [select_unfold v fltr ex k hfd hkk.symm h]
      have hkv : k + 1 ≤ v.depth := by cases ex <;> simp at hkk <;> omega
      have hvk : Nested k v.obj := nested_le (by omega) hv
      by_cases hfk : fltr.depth > k
      · have hfk1 : fltr.depth = k + 1 := by cases ex <;> simp at hkk <;> omega
        simp only [if_pos hfk]
        by_cases hag : Agree (⟨v.obj, k⟩ : View A) ⟨fltr.obj, k⟩
        · rcases map2_pointwise (E := E) (onTuples selectImpl) ⟨v.obj, k⟩ ⟨fltr.obj, k⟩ false hvk
            (nested_le (by simp only; omega) hf) hag h
            (fun x y => match x, y with
              | .tup xs, .tup ys => (selectImpl xs ys).map .tup
              | _, _ => .error .typeError)
            (by intro p x y _ _ _; cases x <;> cases y <;> rfl) with
            ⟨r, h1, h2, hd, hs1, _, h3, h4⟩ | ⟨e, h1, _⟩
          · exfalso
            apply hne
            intro p xs fs q1 q2 q3 q4
            by_cases hpk : p.length < k
            · exact hag p xs fs hpk hpk q3 q4
            · have hpk : p.length = k := by omega
              obtain ⟨w, _, he⟩ := h3 p (.tup xs) (.tup fs) (by rw [hd]; simp [hpk])
                (by rw [itemAt_self (by exact hpk)]; exact q3)
                (by rw [itemAt_self (by exact hpk)]; exact q4)
              simp only [orMissing, Obj.isNone, List.any_cons, List.any_nil, Bool.or_false,
                Bool.and_false, Bool.false_eq_true, if_false] at he
              rcases selectImpl_cases xs fs with ⟨c1, _⟩ | c
              · exact c1
              · rw [selectImpl_error xs fs c] at he; cases he
          · exact ⟨e, by rw [h1]⟩
        · obtain ⟨e, he⟩ := map2_error_of_disagree (E := E) (onTuples selectImpl) ⟨v.obj, k⟩
            ⟨fltr.obj, k⟩ false hvk (nested_le (by simp only; omega) hf) hag h
          exact ⟨e, by rw [he]⟩
      · simp only [if_neg hfk]
        have hag : ¬ Agree (⟨v.obj, k⟩ : View A) fltr := by
          intro hh
          apply hne
          intro p xs fs q1 q2 q3 q4
          exact hh p xs fs (by simp only; omega) q2 q3 q4
        obtain ⟨e, he⟩ := map2_error_of_disagree (E := E) selectConst ⟨v.obj, k⟩ fltr true hvk hf hag h
        exact ⟨e, by rw [he]⟩
  · exact ⟨.valueError, by unfold select; rw [if_pos (by omega)]⟩

/-- `select` of a scalar, with a filter deeper than the data, or with a scalar filter that
is not expanded, raises `ValueError`. -/
theorem C21_select_checks_depths (v fltr : View A) (ex : Bool) (h : Heap A)
    (hb : fltr.depth > v.depth ∨ v.depth = 0 ∨ (ex = false ∧ fltr.depth = 0)) :
    select (E := E) v fltr ex h = .error .valueError := by
  unfold select
  by_cases hd : fltr.depth > v.depth
  · rw [if_pos hd]
  · rw [if_neg hd]
    have : (if ex then v.depth else fltr.depth) = 0 := by
      rcases hb with hb | hb | ⟨rfl, hb⟩
      · exact absurd hb hd
      · cases ex <;> simp <;> omega
      · simpa using hb
    simp only [this]

end Verif.View
