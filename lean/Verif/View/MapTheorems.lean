import Verif.View.MapLemmas

/-! C19: `map` broadcasts and maps pointwise; `expand_to` and `align`. -/
namespace Verif.View

set_option linter.unusedSectionVars false

variable {A E : Type}

theorem itemsAt_views (vs : List (View A)) (p : List Nat) :
    itemsAt (vs.map View.arg) p = vs.map fun v => v.itemAt p := by
  simp [itemsAt, View.arg, View.itemAt, Function.comp_def]

theorem nested_args {vs : List (View A)} (hw : ∀ v ∈ vs, v.Wf) :
    ∀ a ∈ vs.map View.arg, Nested a.1 a.2 := by
  intro a ha
  obtain ⟨v, hv, rfl⟩ := List.mem_map.1 ha
  exact hw v hv

theorem map_zero (fn : List (Obj A) → M A E (Obj A)) {args : List (View A)} (hne : args ≠ [])
    (im : Option Bool) (h : Heap A) :
    map_ fn args 0 im h =
      mkView (maxDepth (args.map View.arg))
        (mapStructures fn (im.getD false) (args.map View.arg)) h := by
  simp [map_, hne]

theorem maxDepth_views {vs : List (View A)} :
    (∀ v ∈ vs, v.depth ≤ maxDepth (vs.map View.arg)) ∧
    (vs ≠ [] → ∃ v ∈ vs, v.depth = maxDepth (vs.map View.arg)) := by
  refine ⟨fun v hv => le_maxDepth (a := v.arg) (List.mem_map.2 ⟨v, hv, rfl⟩), fun hne => ?_⟩
  obtain ⟨a, ha, he⟩ := maxDepth_mem (args := vs.map View.arg) (by simpa using hne)
  obtain ⟨v, hv, rfl⟩ := List.mem_map.1 ha
  exact ⟨v, hv, he⟩

theorem any_isNone_iff (items : List (Obj A)) :
    items.any Obj.isNone = true ↔ ∃ x ∈ items, x = .none := by
  rw [List.any_eq_true]
  constructor
  · rintro ⟨x, hx, h⟩; refine ⟨x, hx, ?_⟩; cases x <;> simp [Obj.isNone] at h ⊢
  · rintro ⟨x, hx, rfl⟩; exact ⟨_, hx, rfl⟩

/-- Mapping a function over compatible views gives a view of the largest depth. It has the
shape of the deepest view. Its item at `p` is the function of the items at `p`, broadcast,
or `None` if one of them is `None` and missing items are not included. -/
theorem C19_map_pointwise (g : List (Obj A) → Obj A) (args : List (View A)) (hne : args ≠ [])
    (hw : ∀ v ∈ args, v.Wf) (hc : Compatible args) (im : Option Bool) (h : Heap A) :
    ∃ r, map_ (E := E) (fun xs => pureM (.ok (g xs))) args 0 im h = .ok (r, h) ∧ r.Wf ∧
      (∀ v ∈ args, v.depth ≤ r.depth) ∧ (∃ v ∈ args, v.depth = r.depth) ∧
      (∀ v ∈ args, v.depth = r.depth → SameShape r v) ∧
      (∀ p (items : List (Obj A)), p.length = r.depth → (args.map fun v => v.itemAt p) = items.map some →
        ((im ≠ some true ∧ ∃ x ∈ items, x = .none) → r.obj.at? p = some .none) ∧
        (¬ (im ≠ some true ∧ ∃ x ∈ items, x = .none) → r.obj.at? p = some (g items))) ∧
      (∀ p, p.length = r.depth → (∃ x, r.obj.at? p = some x) →
        ∃ items : List (Obj A), (args.map fun v => v.itemAt p) = items.map some) := by
  rcases mapStructures_pointwise (E := E) (fun xs => pureM (.ok (g xs))) (im.getD false)
    (args.map View.arg) (by simpa using hne) (nested_args hw) ((compatAt_iff args).2 hc) h
    (fun xs => .ok (g xs)) (fun p items _ _ => rfl) with ⟨r, h1, h2, h3, h4, h5⟩ | ⟨e, _, p, items, _, _, he⟩
  · refine ⟨⟨r, maxDepth (args.map View.arg)⟩, ?_, h2, maxDepth_views.1, maxDepth_views.2 hne, ?_, ?_, ?_⟩
    · rw [map_zero _ hne]; simp only [mkView, h1]
    · intro v hv hd
      exact ⟨hd.symm, h3 v.arg (List.mem_map.2 ⟨v, hv, rfl⟩) hd⟩
    · intro p items hp hi
      obtain ⟨x, hx1, hx2⟩ := h4 p items hp (by rw [itemsAt_views]; exact hi)
      have him : (!im.getD false) = true ↔ im ≠ some true := by
        cases im with
        | none => simp
        | some b => cases b <;> simp
      unfold orMissing at hx2
      rw [hx1]
      constructor
      · rintro ⟨c1, c2⟩
        rw [if_pos (by rw [Bool.and_eq_true]; exact ⟨him.2 c1, (any_isNone_iff _).2 c2⟩)] at hx2
        injection hx2 with hx2
        rw [hx2]
      · intro c
        rw [if_neg (by
          rw [Bool.and_eq_true]
          exact fun hh => c ⟨him.1 hh.1, (any_isNone_iff _).1 hh.2⟩)] at hx2
        injection hx2 with hx2
        rw [hx2]
    · intro p hp hx
      obtain ⟨items, hi⟩ := h5 p hp hx
      exact ⟨items, by rw [← itemsAt_views]; exact hi⟩
  · exfalso
    unfold orMissing at he
    split at he <;> cases he

/-- Views whose shapes differ: `map` raises, whatever the function is. -/
theorem C19_map_raises_on_incompatible_shapes (fn : List (Obj A) → M A E (Obj A))
    (args : List (View A)) (hw : ∀ v ∈ args, v.Wf) (hc : ¬ Compatible args)
    (im : Option Bool) (h : Heap A) : ∃ e, map_ fn args 0 im h = .error e := by
  have hne : args ≠ [] := by
    rintro rfl; exact hc fun v hv => by simp at hv
  rw [map_zero _ hne]
  obtain ⟨e, he⟩ := mapImpl_error fn (im.getD false) (maxDepth (args.map View.arg)) 0
    (args.map View.arg) (fun a ha => by have := le_maxDepth ha; omega)
    (fun a ha => by simpa using nested_args hw a ha) (fun h => hc ((compatAt_iff args).1 h)) h
  exact ⟨e, by simp only [mkView, mapStructures, he]⟩

/-- No arguments: `ValueError`. -/
theorem C19_map_needs_an_argument (fn : List (Obj A) → M A E (Obj A)) (im : Option Bool)
    (h : Heap A) : map_ fn [] 0 im h = .error .valueError := by
  simp [map_]

/-- The function is called once for every position, from left to right, with the items at
that position (not at all for a missing item unless missing items are included); its side
effects happen in this order. The first exception is raised; otherwise the result holds
the returned values in this order. -/
theorem C19_calls_in_order (fn : List (Obj A) → M A E (Obj A)) (args : List (View A))
    (hw : ∀ v ∈ args, v.Wf) (hc : Compatible args) (im : Option Bool) (h : Heap A)
    {ref : View A} (href : ref ∈ args) (hdeep : ∀ v ∈ args, v.depth ≤ ref.depth) :
    ∃ items : List (List (Obj A)),
      (positions ref.depth ref.obj).map (fun p => args.map fun v => v.itemAt p) =
        items.map (fun c => c.map some) ∧
      match seqM (items.map fun c => if im ≠ some true ∧ c.any Obj.isNone then
          pureM (.ok .none) else fn c) h with
      | .error e => map_ fn args 0 im h = .error e
      | .ok (rs, h') => ∃ r, map_ fn args 0 im h = .ok (r, h') ∧ SameShape r ref ∧
          leaves r.depth r.obj = rs := by
  have hne : args ≠ [] := by rintro rfl; simp at href
  have hd : ref.depth = maxDepth (args.map View.arg) := by
    obtain ⟨v, hv, e⟩ := maxDepth_views.2 hne
    have := hdeep v hv
    have := maxDepth_views.1 ref href
    omega
  have hca := calls_at (maxDepth (args.map View.arg)) 0 (args.map View.arg)
    (fun a ha => by have := le_maxDepth ha; omega)
    (fun a ha => by simpa using nested_args hw a ha) ((compatAt_iff args).2 hc) ref.arg
    (List.mem_map.2 ⟨ref, href, rfl⟩) (by rw [Nat.zero_add]; exact hd)
  refine ⟨calls (maxDepth (args.map View.arg)) 0 (args.map View.arg), ?_, ?_⟩
  · rw [hd, ← hca]
    apply List.map_congr_left
    intro p _
    exact (itemsAt_views args p).symm
  · have hs := mapStructures_spec fn (im.getD false) (args.map View.arg) (by simpa using hne)
      (nested_args hw) ((compatAt_iff args).2 hc) h
    have e : (callFn fn (im.getD false)) = fun c =>
        if im ≠ some true ∧ c.any Obj.isNone = true then pureM (.ok .none) else fn c := by
      funext c h
      unfold callFn
      cases im with
      | none => cases c.any Obj.isNone <;> simp [pureM]
      | some b => cases b <;> cases c.any Obj.isNone <;> simp [pureM]
    rw [e] at hs
    unfold Matches at hs
    rw [map_zero _ hne]
    generalize seqM ((calls (maxDepth (args.map View.arg)) 0 (args.map View.arg)).map fun c =>
      if im ≠ some true ∧ c.any Obj.isNone = true then pureM (.ok .none) else fn c) h = res at hs ⊢
    cases res with
    | error e => simp only [mkView] at hs ⊢; rw [hs]
    | ok r =>
      obtain ⟨rs, h'⟩ := r
      obtain ⟨r, h1, h2, h3, h4⟩ := hs
      simp only [mkView, h1]
      exact ⟨_, rfl, ⟨hd.symm, h4 ref.arg (List.mem_map.2 ⟨ref, href, rfl⟩) hd⟩, h3⟩

/-! ### expand_to and align -/

theorem agree_of_shapeEq {v w : View A}
    (h : ShapeEq (min v.depth w.depth) v.obj w.obj) : Agree v w := by
  intro p xs ys h1 h2 h3 h4
  have := shapeEq_at? h (p := p) (by omega) h3 h4
  obtain ⟨k, hk⟩ : ∃ k, min v.depth w.depth - p.length = k + 1 :=
    ⟨min v.depth w.depth - p.length - 1, by omega⟩
  rw [hk] at this
  obtain ⟨xs', ys', e1, e2, hl, _⟩ := this
  injection e1 with e1; injection e2 with e2
  subst e1; subst e2
  exact hl

/-- `map2` of a pure function, pointwise. -/
theorem map2_pointwise (f : Obj A → Obj A → M A E (Obj A)) (v w : View A) (im : Bool)
    (hv : v.Wf) (hw : w.Wf) (hc : Agree v w) (h : Heap A)
    (g : Obj A → Obj A → Except (Err E) (Obj A))
    (hf : ∀ p x y, p.length = max v.depth w.depth → v.itemAt p = some x → w.itemAt p = some y →
      f x y h = pureM (g x y) h) :
    (∃ r, map2 f v w im h = .ok (r, h) ∧ r.Wf ∧ r.depth = max v.depth w.depth ∧
      (v.depth = r.depth → SameShape r v) ∧ (w.depth = r.depth → SameShape r w) ∧
      (∀ p x y, p.length = r.depth → v.itemAt p = some x → w.itemAt p = some y →
        ∃ z, r.obj.at? p = some z ∧ orMissing im [x, y] (.ok .none) (g x y) = .ok z) ∧
      (∀ p, p.length = r.depth → (∃ z, r.obj.at? p = some z) →
        ∃ x y, v.itemAt p = some x ∧ w.itemAt p = some y)) ∨
    (∃ e, map2 f v w im h = .error e ∧ ∃ p x y, p.length = max v.depth w.depth ∧
      v.itemAt p = some x ∧ w.itemAt p = some y ∧
      orMissing im [x, y] (.ok .none) (g x y) = .error e) := by
  have hcomp : CompatAt 0 [v.arg, w.arg] := by
    have : Compatible [v, w] := by
      have hsym : Agree w v := fun p xs ys h1 h2 h3 h4 => (hc p ys xs h2 h1 h4 h3).symm
      have hself : ∀ u : View A, Agree u u := fun u p xs ys _ _ h3 h4 => by
        rw [h3] at h4; simp only [Option.some.injEq, Obj.tup.injEq] at h4; rw [h4]
      intro a ha b hb
      simp only [List.mem_cons, List.not_mem_nil, or_false] at ha hb
      rcases ha with rfl | rfl <;> rcases hb with rfl | rfl
      · exact hself _
      · exact hc
      · exact hsym
      · exact hself _
    exact (compatAt_iff [v, w]).2 this
  have hnest : ∀ a ∈ [v.arg, w.arg], Nested a.1 a.2 := by
    intro a ha
    simp only [List.mem_cons, List.not_mem_nil, or_false] at ha
    rcases ha with rfl | rfl
    · exact hv
    · exact hw
  have hia : ∀ p, itemsAt [v.arg, w.arg] p = [v.itemAt p, w.itemAt p] := fun p => by
    simp [itemsAt, View.arg, View.itemAt]
  have hitems : ∀ (p : List Nat) (items : List (Obj A)), itemsAt [v.arg, w.arg] p = items.map some →
      ∃ x y, items = [x, y] ∧ v.itemAt p = some x ∧ w.itemAt p = some y := by
    intro p items hi
    rw [hia] at hi
    match items, hi with
    | [], hi => simp at hi
    | [x], hi => simp at hi
    | [x, y], hi =>
      simp only [List.map_cons, List.map_nil, List.cons.injEq, and_true] at hi
      exact ⟨x, y, rfl, hi.1, hi.2⟩
    | x :: y :: z :: t, hi => simp at hi
  have hmd : maxDepth [v.arg, w.arg] = max v.depth w.depth := maxDepth_two _ _
  have key := mapStructures_pointwise (binary f) im [v.arg, w.arg] (by simp) hnest hcomp h
    (fun items => match items with | [x, y] => g x y | _ => .error .typeError)
    (by
      intro p items hp hi
      obtain ⟨x, y, rfl, hx, hy⟩ := hitems p items hi
      exact hf p x y (by rw [← hmd]; exact hp) hx hy)
  rw [hmd] at key
  rcases key with ⟨r, h1, h2, h3, h4, h5⟩ | ⟨e, h1, p, items, hp, hi, he⟩
  · left
    refine ⟨⟨r, max v.depth w.depth⟩, by simp only [map2, mkView, h1], h2, rfl, ?_, ?_, ?_, ?_⟩
    · intro hd; exact ⟨hd.symm, h3 v.arg (by simp) hd⟩
    · intro hd; exact ⟨hd.symm, h3 w.arg (by simp) hd⟩
    · intro p x y hp hx hy
      exact h4 p [x, y] hp (by rw [hia, hx, hy]; rfl)
    · intro p hp hz
      obtain ⟨items, hi⟩ := h5 p hp hz
      obtain ⟨x, y, _, hx, hy⟩ := hitems p items hi
      exact ⟨x, y, hx, hy⟩
  · right
    obtain ⟨x, y, rfl, hx, hy⟩ := hitems p items hi
    exact ⟨e, by simp only [map2, mkView, h1], p, x, y, hp, hx, hy, he⟩

theorem itemAt_self {v : View A} {p : List Nat} (hp : p.length = v.depth) :
    v.itemAt p = v.obj.at? p := by
  unfold View.itemAt
  rw [List.take_of_length_le (by omega)]

/-- A well-formed view has an item at every prefix of a position of a view that it agrees
with and that is at least as deep. -/
theorem itemAt_of_agree {v w : View A} (hv : v.Wf) (hw : w.Wf) (hc : Agree v w)
    (hd : v.depth ≤ w.depth) {p : List Nat} {y : Obj A} (hp : p.length = w.depth)
    (hy : w.obj.at? p = some y) : ∃ x, v.itemAt p = some x := by
  rcases map2_pointwise (E := Unit) (fun x _ => pureM (.ok x)) v w true hv hw hc []
      (fun x _ => .ok x) (fun _ _ _ _ _ _ => rfl) with
    ⟨r, _, hrw, hrd, _, hsw, _, h2⟩ | ⟨e, _, p, x, y, _, _, _, he⟩
  · have hrd' : w.depth = r.depth := by omega
    have hsh := (hsw hrd').2
    have hm : p ∈ positions r.depth r.obj := by
      rw [shapeEq_positions hsh, ← hrd']
      exact (mem_positions hw p).2 ⟨hp, y, hy⟩
    obtain ⟨_, z, hz⟩ := (mem_positions hrw p).1 hm
    obtain ⟨x, y', hx, _⟩ := h2 p (by omega) ⟨z, hz⟩
    exact ⟨x, hx⟩
  · simp [orMissing] at he

/-- `expand_to` repeats the items of a view so that it gets the shape of the other view. -/
theorem C19_expand_to (v other : View A) (hv : v.Wf) (ho : other.Wf) (hc : Agree v other)
    (h : Heap A) :
    (v.depth ≤ other.depth → ∃ r, expandTo (E := E) v other 0 h = .ok (r, h) ∧
      SameShape r other ∧ ∀ p, p.length = other.depth → ∀ y, other.obj.at? p = some y →
        r.obj.at? p = v.itemAt p) ∧
    (other.depth < v.depth → expandTo (E := E) v other 0 h = .error .valueError) := by
  constructor
  · intro hd
    rcases map2_pointwise (E := E) (fun x _ => pureM (.ok x)) v other true hv ho hc h
      (fun x _ => .ok x) (fun _ _ _ _ _ _ => rfl) with
      ⟨r, h1, _, hrd, _, hsw, hp1, _⟩ | ⟨e, _, p, x, y, _, _, _, he⟩
    · refine ⟨r, ?_, hsw (by omega), ?_⟩
      · simp [expandTo, hd, h1]
      · intro p hp y hy
        obtain ⟨x, hx⟩ := itemAt_of_agree hv ho hc hd hp hy
        obtain ⟨z, hz, he⟩ := hp1 p x y (by omega) hx (by rw [itemAt_self hp]; exact hy)
        simp only [orMissing, Bool.not_true, Bool.false_and, Bool.false_eq_true, if_false] at he
        injection he with he
        rw [hz, hx, he]
    · simp [orMissing] at he
  · intro hd
    simp [expandTo, show ¬ v.depth ≤ other.depth by omega]

theorem deepest_spec (v : View A) (ws : List (View A)) :
    deepest v ws ∈ v :: ws ∧ ∀ w ∈ v :: ws, w.depth ≤ (deepest v ws).depth := by
  induction ws generalizing v with
  | nil => simp [deepest]
  | cons w ws ih =>
    have := ih (if w.depth > v.depth then w else v)
    simp only [deepest]
    refine ⟨?_, ?_⟩
    · rcases List.mem_cons.1 this.1 with h | h
      · rw [h]; split <;> simp
      · simp [h]
    · intro u hu
      have hx := this.2 (if w.depth > v.depth then w else v) (by simp)
      rcases List.mem_cons.1 hu with rfl | hu
      · split at hx <;> rename_i hh <;> simp only [hh, if_true, if_false] <;> omega
      · rcases List.mem_cons.1 hu with rfl | hu
        · split at hx <;> rename_i hh <;> simp only [hh, if_true, if_false] <;> omega
        · exact this.2 u (List.mem_cons_of_mem _ hu)

/-- `align` expands all views to the shape of a deepest one. -/
theorem C19_align (args : List (View A)) (hw : ∀ v ∈ args, v.Wf) (hc : Compatible args)
    (h : Heap A) {ref : View A} (href : ref ∈ args) (hdeep : ∀ v ∈ args, v.depth ≤ ref.depth) :
    ∃ rs, align (E := E) args h = .ok (rs, h) ∧ rs.length = args.length ∧
      ∀ (i : Nat) v r, args[i]? = some v → rs[i]? = some r → SameShape r ref ∧
        ∀ p, p.length = ref.depth → ∀ y, ref.obj.at? p = some y → r.obj.at? p = v.itemAt p := by
  match args, hw, hc, href, hdeep with
  | [], _, _, href, _ => simp at href
  | [v], hw, hc, href, _ =>
    simp only [List.mem_singleton] at href
    subst href
    refine ⟨[ref], rfl, rfl, ?_⟩
    intro i v r hv hr
    cases i with
    | zero =>
      simp only [List.getElem?_cons_zero, Option.some.injEq] at hv hr
      subst hv; subst hr
      exact ⟨⟨rfl, shapeEq_refl (hw ref (by simp))⟩, fun p hp y _ => (itemAt_self hp).symm⟩
    | succ i => simp at hv
  | v0 :: w0 :: rest, hw, hc, href, hdeep =>
    simp only [align]
    obtain ⟨hm, hmax⟩ := deepest_spec v0 (w0 :: rest)
    generalize deepest v0 (w0 :: rest) = d at hm hmax
    have hdd : d.depth = ref.depth := by
      have h1 := hmax ref href
      have h2 := hdeep d hm
      omega
    -- the deepest views have the same shape
    have hsh : SameShape d ref := by
      rcases map2_pointwise (E := E) (fun x _ => pureM (.ok x)) d ref true (hw d hm) (hw ref href)
        (hc d hm ref href) h (fun x _ => .ok x) (fun _ _ _ _ _ _ => rfl) with
        ⟨r, _, _, hrd, h1, h2, _⟩ | ⟨e, _, p, x, y, _, _, _, he⟩
      · refine ⟨hdd, ?_⟩
        have e1 := (h1 (by omega)).2
        have e2 := (h2 (by omega)).2
        have e3 : r.depth = d.depth := by omega
        rw [e3] at e1 e2
        exact shapeEq_trans (shapeEq_symm e1) e2
      · simp [orMissing] at he
    generalize hargs : v0 :: w0 :: rest = args at *
    clear hargs
    have gen : ∀ l : List (View A), (∀ v ∈ l, v ∈ args) →
        ∃ rs, seqM (E := E) (l.map fun x => expandTo x d 0) h = .ok (rs, h) ∧ rs.length = l.length ∧
          ∀ (i : Nat) v r, l[i]? = some v → rs[i]? = some r → SameShape r ref ∧
            ∀ p, p.length = ref.depth → ∀ y, ref.obj.at? p = some y → r.obj.at? p = v.itemAt p := by
      intro l
      induction l with
      | nil => intro _; exact ⟨[], rfl, rfl, by simp⟩
      | cons v l ih =>
        intro hl
        obtain ⟨rs, h1, h2, h3⟩ := ih fun u hu => hl u (List.mem_cons_of_mem _ hu)
        have hva := hl v (by simp)
        obtain ⟨r, g1, g2, g3⟩ := (C19_expand_to (E := E) v d (hw v hva) (hw d hm)
          (hc v hva d hm) h).1 (hmax v hva)
        refine ⟨r :: rs, ?_, by simp [h2], ?_⟩
        · simp only [List.map_cons, seqM, g1, h1]
        · intro i u s hu hs
          cases i with
          | zero =>
            simp only [List.getElem?_cons_zero, Option.some.injEq] at hu hs
            subst hu; subst hs
            refine ⟨⟨g2.1.trans hdd, ?_⟩, ?_⟩
            · have e1 := g2.2
              rw [g2.1, hdd] at e1
              have e2 := hsh.2
              rw [hdd] at e2
              rw [g2.1, hdd]
              exact shapeEq_trans e1 e2
            · intro p hp y hy
              have hm2 : p ∈ positions d.depth d.obj := by
                rw [shapeEq_positions hsh.2, hdd]
                exact (mem_positions (hw ref href) p).2 ⟨hp, y, hy⟩
              obtain ⟨_, z, hz⟩ := (mem_positions (hw d hm) p).1 hm2
              exact g3 p (by omega) z hz
          | succ i => exact h3 i u s (by simpa using hu) (by simpa using hs)
    exact gen args fun v hv => hv

/-- `map` with `ndim > 0`: the views are aligned, and the function gets the tuples that are
`ndim` dimensions deep. -/
theorem C19_map_ndim (g : List (Obj A) → Obj A) (args : List (View A)) (hw : ∀ v ∈ args, v.Wf)
    (hc : Compatible args) (ndim : Nat) (hnd : 0 < ndim) (im : Option Bool) (him : im ≠ some false)
    (h : Heap A) {ref : View A} (href : ref ∈ args) (hdeep : ∀ v ∈ args, v.depth ≤ ref.depth) :
    (ndim ≤ ref.depth → ∃ es r, align (E := E) args h = .ok (es, h) ∧
      map_ (E := E) (fun xs => pureM (.ok (g xs))) args ndim im h = .ok (r, h) ∧
      r.depth = ref.depth - ndim ∧ r.Wf ∧ ShapeEq r.depth r.obj ref.obj ∧
      ∀ p (items : List (Obj A)), p.length = r.depth → (es.map fun e => e.obj.at? p) = items.map some →
        r.obj.at? p = some (g items)) ∧
    (ref.depth < ndim →
      map_ (E := E) (fun xs => pureM (.ok (g xs))) args ndim im h = .error .valueError) := by
  obtain ⟨es, h1, hlen, h2⟩ := C19_align (E := E) args hw hc h href hdeep
  have hne : args ≠ [] := by rintro rfl; simp at href
  have hes : es ≠ [] := by
    intro e; rw [e] at hlen; exact hne (List.length_eq_zero_iff.1 hlen.symm)
  have hshape : ∀ e ∈ es, SameShape e ref := by
    intro e he
    obtain ⟨i, hi⟩ := List.mem_iff_getElem?.1 he
    have hlt := (List.getElem?_eq_some_iff.1 hi).1
    exact (h2 i _ e (List.getElem?_eq_getElem (by omega)) hi).1
  have him' : im.getD true = true := by
    cases im with
    | none => rfl
    | some b => cases b <;> simp at him ⊢
  have hmd : maxDepth (es.map View.arg) = ref.depth := by
    obtain ⟨e, he, hd⟩ := (maxDepth_views (vs := es)).2 hes
    rw [← hd]; exact (hshape e he).1
  have hb : ((ndim : Int) != 0) = true := by simp; omega
  have hz : (ndim : Int) ≠ 0 := by omega
  constructor
  · intro hle
    have hnest : ∀ a ∈ es.map (fun v => (ref.depth - ndim, v.obj)), Nested a.1 a.2 := by
      intro a ha
      obtain ⟨e, he, rfl⟩ := List.mem_map.1 ha
      have := shapeEq_nested (hshape e he).2
      rw [(hshape e he).1] at this
      exact nested_le (by simp) this
    have hcompat : CompatAt 0 (es.map (fun v => (ref.depth - ndim, v.obj))) := by
      intro a ha b hb
      obtain ⟨e, he, rfl⟩ := List.mem_map.1 ha
      obtain ⟨f, hf, rfl⟩ := List.mem_map.1 hb
      have e1 := (hshape e he).2
      have e2 := (hshape f hf).2
      rw [(hshape e he).1] at e1
      rw [(hshape f hf).1] at e2
      have := agree_of_shapeEq (v := ⟨e.obj, ref.depth - ndim⟩)
        (w := ⟨f.obj, ref.depth - ndim⟩)
        (shapeEq_le (n := ref.depth) (by simp) (shapeEq_trans e1 (shapeEq_symm e2)))
      intro p xs ys q1 q2 q3 q4
      exact this p xs ys (by simpa using q1) (by simpa using q2) q3 q4
    have hmd2 : maxDepth (es.map (fun v => (ref.depth - ndim, v.obj))) = ref.depth - ndim := by
      obtain ⟨a, ha, hd⟩ := maxDepth_mem (args := es.map (fun v => (ref.depth - ndim, v.obj)))
        (by simpa using hes)
      obtain ⟨e, he, rfl⟩ := List.mem_map.1 ha
      exact hd.symm
    rcases mapStructures_pointwise (E := E) (fun xs => pureM (.ok (g xs))) true
      (es.map (fun v => (ref.depth - ndim, v.obj))) (by simpa using hes) hnest hcompat h
      (fun xs => .ok (g xs)) (fun p items _ _ => rfl) with
      ⟨r, k1, k2, k3, k4, k5⟩ | ⟨e, _, p, items, _, _, he⟩
    · rw [hmd2] at k2 k3 k4 k5
      refine ⟨es, ⟨r, ref.depth - ndim⟩, h1, ?_, rfl, k2, ?_, ?_⟩
      · unfold map_
        simp only [hb, him', hz, ne_eq, not_false_eq_true, Bool.true_eq_false, and_false, if_false,
          show ¬ ((ndim : Int) < 0) by omega, if_true, h1, hes, hmd,
          show ¬ ((ndim : Int) > (ref.depth : Int)) by omega, Int.toNat_natCast, mkView, k1]
      · obtain ⟨e, he⟩ : ∃ e, e ∈ es := by
          cases es with
          | nil => exact absurd rfl hes
          | cons e es => exact ⟨e, by simp⟩
        have e1 := k3 _ (List.mem_map.2 ⟨e, he, rfl⟩) rfl
        have e2 := (hshape e he).2
        rw [(hshape e he).1] at e2
        exact shapeEq_trans e1 (shapeEq_le (by simp) e2)
      · intro p items hp hi
        simp only at hp
        obtain ⟨x, hx1, hx2⟩ := k4 p items hp (by
          rw [← hi]
          simp only [itemsAt, List.map_map, Function.comp_def]
          apply List.map_congr_left
          intro e _
          rw [List.take_of_length_le (by omega)])
        simp only [orMissing, Bool.not_true, Bool.false_and, Bool.false_eq_true, if_false] at hx2
        injection hx2 with hx2
        rw [hx1, hx2]
    · simp [orMissing] at he
  · intro hlt
    unfold map_
    simp only [hb, him', hz, ne_eq, not_false_eq_true, Bool.true_eq_false, and_false, if_false,
      show ¬ ((ndim : Int) < 0) by omega, if_true, h1, hes, hmd,
      show ((ndim : Int) > (ref.depth : Int)) by omega]

/-- A negative `ndim`, or missing items excluded together with `ndim ≠ 0`: `ValueError`. -/
theorem C19_map_rejects_bad_ndim (fn : List (Obj A) → M A E (Obj A)) (args : List (View A))
    (ndim : Int) (im : Option Bool) (hb : ndim < 0 ∨ (ndim ≠ 0 ∧ im = some false)) (h : Heap A) :
    map_ fn args ndim im h = .error .valueError := by
  unfold map_
  rcases hb with hb | ⟨h1, rfl⟩
  · simp only [hb, if_true]
    split <;> rfl
  · simp [h1]

/-! ### Examples -/

/-- `map(f, [[1, None], [3]], [10, 20])` broadcasts the second view. -/
example :
    let v : View Nat := ⟨.tup [.tup [.atom 1, .none], .tup [.atom 3]], 2⟩
    let w : View Nat := ⟨.tup [.atom 10, .atom 20], 1⟩
    let plus : List (Obj Nat) → Obj Nat := fun xs =>
      match xs with | [.atom a, .atom b] => .atom (a + b) | _ => .none
    v.Wf ∧ w.Wf ∧ (map_ (E := Unit) (fun xs => pureM (.ok (plus xs))) [v, w] 0 none []).toOption =
      some (⟨.tup [.tup [.atom 11, .none], .tup [.atom 23]], 2⟩, []) := by
  refine ⟨?_, ?_, ?_⟩
  · simp [View.Wf, Nested]
  · simp [View.Wf, Nested]
  · rfl

/-- Incompatible shapes. -/
example :
    let v : View Nat := ⟨.tup [.atom 1, .atom 2], 1⟩
    let w : View Nat := ⟨.tup [.atom 10], 1⟩
    ¬ Agree v w ∧ map_ (E := Unit) (fun _ => pureM (.ok .none)) [v, w] 0 none [] = .error .typeError := by
  refine ⟨?_, rfl⟩
  intro h
  have := h [] [.atom 1, .atom 2] [.atom 10] (by simp) (by simp) rfl rfl
  simp at this

end Verif.View
