import Verif.View.Spec

namespace Verif.View

set_option linter.unusedSectionVars false

variable {A E : Type}

theorem at?_tup (xs : List (Obj A)) (i : Nat) (p : List Nat) :
    (Obj.tup xs).at? (i :: p) = xs[i]?.bind fun x => x.at? p := by
  simp only [Obj.at?]; cases xs[i]? <;> rfl

@[simp] theorem at?_nil (o : Obj A) : o.at? [] = some o := by cases o <;> rfl

theorem flatMap_congr' {α β : Type} {f g : α → List β} {l : List α} (h : ∀ a ∈ l, f a = g a) :
    l.flatMap f = l.flatMap g := by
  induction l with
  | nil => rfl
  | cons a as ih =>
    simp only [List.flatMap_cons]
    rw [h a (by simp), ih fun b hb => h b (List.mem_cons_of_mem _ hb)]

theorem positions_leaves {n : Nat} {o : Obj A} (h : Nested n o) :
    (positions n o).map o.at? = (leaves n o).map some := by
  induction n generalizing o with
  | zero => simp [positions, leaves]
  | succ n ih =>
    obtain ⟨xs, rfl, hx⟩ := h
    simp only [positions, leaves, List.map_flatMap]
    have : ∀ (k : Nat) (ys : List (Obj A)), (∀ y ∈ ys, Nested n y) →
        (∀ j : Nat, ys[j]? = xs[k + j]? ∨ ys[j]? = none) →
        ((ys.zipIdx k).flatMap fun a => List.map (Obj.tup xs).at? (List.map (fun x => a.2 :: x) (positions n a.1))) =
          ys.flatMap fun a => List.map some (leaves n a) := by
      intro k ys
      induction ys generalizing k with
      | nil => intro _ _; rfl
      | cons y ys ih2 =>
        intro h1 h2
        rw [List.zipIdx_cons, List.flatMap_cons, List.flatMap_cons, ih2 (k + 1)
          (fun z hz => h1 z (List.mem_cons_of_mem _ hz))]
        · congr 1
          rw [← ih (h1 y (by simp)), List.map_map]
          apply List.map_congr_left
          intro p _
          have := h2 0
          simp only [List.getElem?_cons_zero, Nat.add_zero, reduceCtorEq, or_false] at this
          simp only [Function.comp_apply, at?_tup, ← this, Option.bind_some]
        · intro j
          have := h2 (j + 1)
          simp only [List.getElem?_cons_succ] at this
          rw [show k + 1 + j = k + (j + 1) by omega]
          exact this
    exact this 0 xs hx fun j => by simp

theorem mem_positions {n : Nat} {o : Obj A} (h : Nested n o) (p : List Nat) :
    p ∈ positions n o ↔ p.length = n ∧ ∃ x, o.at? p = some x := by
  induction n generalizing o p with
  | zero =>
    simp only [positions, List.mem_singleton, List.length_eq_zero_iff]
    constructor
    · rintro rfl; exact ⟨rfl, o, by simp⟩
    · exact fun h => h.1
  | succ n ih =>
    obtain ⟨xs, rfl, hx⟩ := h
    simp only [positions, List.mem_flatMap, List.mem_map]
    constructor
    · rintro ⟨⟨x, i⟩, hxi, q, hq, rfl⟩
      rw [List.mem_zipIdx_iff_getElem?] at hxi
      obtain ⟨h1, y, h2⟩ := (ih (hx x (List.mem_of_getElem? hxi)) q).1 hq
      exact ⟨by simp [h1], y, by rw [at?_tup, hxi]; exact h2⟩
    · rintro ⟨hl, y, hy⟩
      cases p with
      | nil => simp at hl
      | cons i q =>
        rw [at?_tup] at hy
        cases hxi : xs[i]? with
        | none => rw [hxi] at hy; simp at hy
        | some x =>
          rw [hxi] at hy
          exact ⟨(x, i), List.mem_zipIdx_iff_getElem?.2 hxi, q,
            (ih (hx x (List.mem_of_getElem? hxi)) q).2 ⟨by simpa using hl, y, hy⟩, rfl⟩

/-- Objects with the same positions and the same leaves. -/
theorem at?_of_index {n : Nat} {o : Obj A} (h : Nested n o) {j : Nat} {p : List Nat}
    (hp : (positions n o)[j]? = some p) : o.at? p = (leaves n o)[j]? := by
  have := congrArg (fun l => l[j]?) (positions_leaves h)
  simp only [List.getElem?_map, hp, Option.map_some] at this
  cases hl : (leaves n o)[j]? with
  | none => rw [hl] at this; simp at this
  | some x => rw [hl] at this; simpa using this

theorem length_positions {n : Nat} {o : Obj A} (h : Nested n o) :
    (positions n o).length = (leaves n o).length := by
  have := congrArg List.length (positions_leaves h)
  simpa using this

/-! ### Shapes -/

theorem shapeEq_positions {n : Nat} {o o' : Obj A} (h : ShapeEq n o o') :
    positions n o = positions n o' := by
  induction n generalizing o o' with
  | zero => rfl
  | succ n ih =>
    obtain ⟨xs, ys, rfl, rfl, hl, hi⟩ := h
    simp only [positions]
    have gen : ∀ (k : Nat) (os xs : List (Obj A)), os.length = xs.length →
        (∀ (j : Nat) o x, os[j]? = some o → xs[j]? = some x → ShapeEq n o x) →
        ((os.zipIdx k).flatMap fun xi => (positions n xi.1).map (xi.2 :: ·)) =
        ((xs.zipIdx k).flatMap fun xi => (positions n xi.1).map (xi.2 :: ·)) := by
      intro k os
      induction os generalizing k with
      | nil => intro xs he _; cases xs with
        | nil => rfl
        | cons x xs => simp at he
      | cons o os ih3 => intro xs he hp; cases xs with
        | nil => simp at he
        | cons x xs =>
          simp only [List.zipIdx_cons, List.flatMap_cons]
          rw [ih (hp 0 o x rfl rfl), ih3 (k + 1) xs (by simpa using he)
            fun j o x ho hx => hp (j + 1) o x (by simpa using ho) (by simpa using hx)]
    exact gen 0 xs ys hl hi

theorem shapeEq_symm {n : Nat} {o o' : Obj A} (h : ShapeEq n o o') : ShapeEq n o' o := by
  induction n generalizing o o' with
  | zero => trivial
  | succ n ih =>
    obtain ⟨xs, ys, rfl, rfl, hl, hi⟩ := h
    exact ⟨ys, xs, rfl, rfl, hl.symm, fun i x y hx hy => ih (hi i y x hy hx)⟩

theorem shapeEq_trans {n : Nat} {o o' o'' : Obj A} (h : ShapeEq n o o') (h' : ShapeEq n o' o'') :
    ShapeEq n o o'' := by
  induction n generalizing o o' o'' with
  | zero => trivial
  | succ n ih =>
    obtain ⟨xs, ys, rfl, rfl, hl, hi⟩ := h
    obtain ⟨ys', zs, e, rfl, hl', hi'⟩ := h'
    injection e with e
    subst e
    refine ⟨xs, zs, rfl, rfl, by omega, fun i x z hx hz => ?_⟩
    have hlt : i < ys.length := by have := (List.getElem?_eq_some_iff.1 hx).1; omega
    exact ih (hi i x _ hx (List.getElem?_eq_getElem hlt))
      (hi' i _ z (List.getElem?_eq_getElem hlt) hz)

theorem shapeEq_refl {n : Nat} {o : Obj A} (h : Nested n o) : ShapeEq n o o := by
  induction n generalizing o with
  | zero => trivial
  | succ n ih =>
    obtain ⟨xs, rfl, hx⟩ := h
    refine ⟨xs, xs, rfl, rfl, rfl, fun i x y h1 h2 => ?_⟩
    rw [h1] at h2
    injection h2 with h2
    subst h2
    exact ih (hx x (List.mem_of_getElem? h1))

theorem shapeEq_nested {n : Nat} {o o' : Obj A} (h : ShapeEq n o o') : Nested n o := by
  induction n generalizing o o' with
  | zero => trivial
  | succ n ih =>
    obtain ⟨xs, ys, rfl, rfl, hl, hi⟩ := h
    refine ⟨xs, rfl, fun x hx => ?_⟩
    obtain ⟨i, hxi⟩ := List.mem_iff_getElem?.1 hx
    have hlt : i < ys.length := by have := (List.getElem?_eq_some_iff.1 hxi).1; omega
    exact ih (hi i x _ hxi (List.getElem?_eq_getElem hlt))

theorem shapeEq_le {n m : Nat} (hm : m ≤ n) {o o' : Obj A} (h : ShapeEq n o o') :
    ShapeEq m o o' := by
  induction m generalizing n o o' with
  | zero => trivial
  | succ m ih =>
    cases n with
    | zero => omega
    | succ n =>
      obtain ⟨xs, ys, rfl, rfl, hl, hi⟩ := h
      exact ⟨xs, ys, rfl, rfl, hl, fun i x y hx hy => ih (n := n) (by omega) (hi i x y hx hy)⟩

theorem nested_le {n m : Nat} (hm : m ≤ n) {o : Obj A} (h : Nested n o) : Nested m o :=
  shapeEq_nested (shapeEq_le hm (shapeEq_refl h))

/-- Objects of the same shape agree on lengths. -/
theorem shapeEq_at? {n : Nat} {o o' : Obj A} (h : ShapeEq n o o') {p : List Nat}
    (hp : p.length ≤ n) {x y : Obj A} (hx : o.at? p = some x) (hy : o'.at? p = some y) :
    ShapeEq (n - p.length) x y := by
  induction p generalizing n o o' with
  | nil =>
    simp only [at?_nil, Option.some.injEq] at hx hy
    subst hx; subst hy
    exact h
  | cons i p ih =>
    cases n with
    | zero => simp at hp
    | succ n =>
      obtain ⟨xs, ys, rfl, rfl, hl, hi⟩ := h
      rw [at?_tup] at hx hy
      cases hxi : xs[i]? with
      | none => rw [hxi] at hx; simp at hx
      | some u =>
        cases hyi : ys[i]? with
        | none => rw [hyi] at hy; simp at hy
        | some w =>
          rw [hxi] at hx; rw [hyi] at hy
          have := ih (n := n) (hi i u w hxi hyi) (by simpa using hp) hx hy
          simpa using this

/-! ### seqM -/

theorem seqM_append {α : Type} (as bs : List (M A E α)) (h : Heap A) :
    seqM (as ++ bs) h = match seqM as h with
      | .error e => .error e
      | .ok (r1, h1) => match seqM bs h1 with
        | .error e => .error e
        | .ok (r2, h2) => .ok (r1 ++ r2, h2) := by
  induction as generalizing h with
  | nil =>
    simp only [List.nil_append, seqM]
    cases seqM bs h <;> rfl
  | cons a as ih =>
    simp only [List.cons_append, seqM]
    cases a h with
    | error e => rfl
    | ok r =>
      simp only [ih]
      cases seqM as r.2 with
      | error e => rfl
      | ok r1 =>
        simp only []
        cases seqM bs r1.2 <;> rfl

theorem seqM_pure {α β : Type} (g : β → α) (cs : List β) (h : Heap A) :
    seqM (E := E) (cs.map fun c h => .ok (g c, h)) h = .ok (cs.map g, h) := by
  induction cs with
  | nil => rfl
  | cons c cs ih => simp only [List.map_cons, seqM, ih]

/-! ### mapImpl -/

/-- What is done at a leaf. -/
def callFn (fn : List (Obj A) → M A E (Obj A)) (im : Bool) (xs : List (Obj A)) : M A E (Obj A) :=
  fun h => if !im && xs.any Obj.isNone then .ok (.none, h) else fn xs h

/-- Lengths at the current level. -/
def commonLen (cur : Nat) : List (Nat × Obj A) → Nat
  | [] => 0
  | (d, o) :: rest => if d ≤ cur then commonLen cur rest else (o.items?.getD []).length

/-- The argument lists of the calls, in order. -/
def calls : Nat → Nat → List (Nat × Obj A) → List (List (Obj A))
  | 0, _, args => [args.map (·.2)]
  | n + 1, cur, args =>
    (List.range (commonLen cur args)).flatMap fun i => calls n (cur + 1) (descend cur i args)

/-- Two arguments agree below the current level. -/
def AgreeAt (cur : Nat) (a b : Nat × Obj A) : Prop :=
  ∀ (p : List Nat) (xs ys : List (Obj A)), cur + p.length < a.1 → cur + p.length < b.1 →
    a.2.at? p = some (.tup xs) → b.2.at? p = some (.tup ys) → xs.length = ys.length

def CompatAt (cur : Nat) (args : List (Nat × Obj A)) : Prop :=
  ∀ a ∈ args, ∀ b ∈ args, AgreeAt cur a b

theorem checkLens_scalars {cur : Nat} {args : List (Nat × Obj A)} (h : ∀ a ∈ args, a.1 ≤ cur)
    (m : Option Nat) : checkLens (E := E) cur args m = .ok m := by
  induction args with
  | nil => rfl
  | cons a as ih =>
    obtain ⟨d, o⟩ := a
    simp only [checkLens, h (d, o) (by simp), if_true]
    exact ih fun b hb => h b (List.mem_cons_of_mem _ hb)

/-- All the tuples at this level have length `l`. -/
def AllLen (cur l : Nat) (args : List (Nat × Obj A)) : Prop :=
  ∀ a ∈ args, cur < a.1 → ∃ xs, a.2 = .tup xs ∧ xs.length = l

theorem checkLens_some {cur l : Nat} {args : List (Nat × Obj A)} (h : AllLen cur l args) :
    checkLens (E := E) cur args (some l) = .ok (some l) := by
  induction args with
  | nil => rfl
  | cons a as ih =>
    obtain ⟨d, o⟩ := a
    have ih := ih fun b hb => h b (List.mem_cons_of_mem _ hb)
    by_cases hd : d ≤ cur
    · simp only [checkLens, hd, if_true]; exact ih
    · obtain ⟨xs, hx, hl⟩ := h (d, o) (by simp) (by simp; omega)
      simp only at hx
      subst hx
      simp only [checkLens, hd, if_false, hl, ne_eq, not_true_eq_false]
      exact ih

theorem checkLens_none {cur l : Nat} {args : List (Nat × Obj A)} (h : AllLen cur l args)
    (hex : ∃ a ∈ args, cur < a.1) : checkLens (E := E) cur args none = .ok (some l) := by
  induction args with
  | nil => obtain ⟨a, ha, _⟩ := hex; simp at ha
  | cons a as ih =>
    obtain ⟨d, o⟩ := a
    have hs : AllLen cur l as := fun b hb => h b (List.mem_cons_of_mem _ hb)
    by_cases hd : d ≤ cur
    · simp only [checkLens, hd, if_true]
      refine ih hs ?_
      obtain ⟨b, hb, hb2⟩ := hex
      rcases List.mem_cons.1 hb with rfl | hb
      · simp only at hb2; omega
      · exact ⟨b, hb, hb2⟩
    · obtain ⟨xs, hx, hl⟩ := h (d, o) (by simp) (by simp; omega)
      simp only at hx
      subst hx
      simp only [checkLens, hd, if_false, hl]
      exact checkLens_some hs

theorem commonLen_eq {cur l : Nat} {args : List (Nat × Obj A)} (h : AllLen cur l args)
    (hex : ∃ a ∈ args, cur < a.1) : commonLen cur args = l := by
  induction args with
  | nil => obtain ⟨a, ha, _⟩ := hex; simp at ha
  | cons a as ih =>
    obtain ⟨d, o⟩ := a
    by_cases hd : d ≤ cur
    · simp only [commonLen, hd, if_true]
      refine ih (fun b hb => h b (List.mem_cons_of_mem _ hb)) ?_
      obtain ⟨b, hb, hb2⟩ := hex
      rcases List.mem_cons.1 hb with rfl | hb
      · simp only at hb2; omega
      · exact ⟨b, hb, hb2⟩
    · obtain ⟨xs, hx, hl⟩ := h (d, o) (by simp) (by simp; omega)
      simp only at hx
      subst hx
      simp only [commonLen, hd, if_false, Obj.items?, Option.getD_some, hl]

/-- With nested arguments the lengths either all agree or two differ. -/
theorem lens_cases {cur : Nat} {args : List (Nat × Obj A)}
    (hn : ∀ a ∈ args, Nested (a.1 - cur) a.2) (hex : ∃ a ∈ args, cur < a.1) :
    (∃ l, AllLen cur l args) ∨
    (∃ a ∈ args, ∃ b ∈ args, ∃ xs ys, cur < a.1 ∧ cur < b.1 ∧ a.2 = .tup xs ∧ b.2 = .tup ys ∧
      xs.length ≠ ys.length) := by
  have htup : ∀ a ∈ args, cur < a.1 → ∃ xs, a.2 = .tup xs := by
    intro a ha hlt
    have := hn a ha
    obtain ⟨k, hk⟩ : ∃ k, a.1 - cur = k + 1 := ⟨a.1 - cur - 1, by omega⟩
    rw [hk] at this
    obtain ⟨xs, h1, _⟩ := this
    exact ⟨xs, h1⟩
  obtain ⟨a, ha, hlt⟩ := hex
  obtain ⟨xs, hxs⟩ := htup a ha hlt
  by_cases hall : AllLen cur xs.length args
  · exact Or.inl ⟨_, hall⟩
  · right
    unfold AllLen at hall
    simp only [Classical.not_forall] at hall
    obtain ⟨b, hb, hb2, hb3⟩ := hall
    obtain ⟨ys, hys⟩ := htup b hb hb2
    refine ⟨a, ha, b, hb, xs, ys, hlt, hb2, hxs, hys, ?_⟩
    intro he
    exact hb3 ⟨ys, hys, he.symm⟩

theorem checkLens_error {cur : Nat} {args : List (Nat × Obj A)}
    (hn : ∀ a ∈ args, Nested (a.1 - cur) a.2)
    (hd : ∃ a ∈ args, ∃ b ∈ args, ∃ xs ys, cur < a.1 ∧ cur < b.1 ∧ a.2 = .tup xs ∧
      b.2 = .tup ys ∧ xs.length ≠ ys.length) :
    checkLens (E := E) cur args none = .error .typeError := by
  have htup : ∀ a ∈ args, cur < a.1 → ∃ xs, a.2 = .tup xs := by
    intro a ha hlt
    have := hn a ha
    obtain ⟨k, hk⟩ : ∃ k, a.1 - cur = k + 1 := ⟨a.1 - cur - 1, by omega⟩
    rw [hk] at this
    obtain ⟨xs, h1, _⟩ := this
    exact ⟨xs, h1⟩
  clear hn
  have hsome : ∀ (l : Nat) (as : List (Nat × Obj A)), (∀ a ∈ as, cur < a.1 → ∃ xs, a.2 = .tup xs) →
      (∃ a ∈ as, ∃ xs, cur < a.1 ∧ a.2 = .tup xs ∧ xs.length ≠ l) →
      checkLens (E := E) cur as (some l) = .error .typeError := by
    intro l as
    induction as with
    | nil => rintro _ ⟨a, ha, _⟩; simp at ha
    | cons a as ih =>
      intro h1 h2
      obtain ⟨d, o⟩ := a
      by_cases hd : d ≤ cur
      · simp only [checkLens, hd, if_true]
        refine ih (fun b hb => h1 b (List.mem_cons_of_mem _ hb)) ?_
        obtain ⟨b, hb, xs, hb2, hb3⟩ := h2
        rcases List.mem_cons.1 hb with rfl | hb
        · simp only at hb2; omega
        · exact ⟨b, hb, xs, hb2, hb3⟩
      · obtain ⟨xs, hx⟩ := h1 (d, o) (by simp) (by simp; omega)
        simp only at hx
        subst hx
        simp only [checkLens, hd, if_false]
        by_cases hl : xs.length = l
        · simp only [hl, ne_eq, not_true_eq_false, if_false]
          refine ih (fun b hb => h1 b (List.mem_cons_of_mem _ hb)) ?_
          obtain ⟨b, hb, ys, hb2, hb3, hb4⟩ := h2
          rcases List.mem_cons.1 hb with rfl | hb
          · simp only [Obj.tup.injEq] at hb3; subst hb3; exact absurd hl hb4
          · exact ⟨b, hb, ys, hb2, hb3, hb4⟩
        · simp [hl]
  induction args with
  | nil => obtain ⟨a, ha, _⟩ := hd; simp at ha
  | cons a as ih =>
    obtain ⟨d, o⟩ := a
    have h1' := fun b hb => htup b (List.mem_cons_of_mem _ hb)
    by_cases hdc : d ≤ cur
    · simp only [checkLens, hdc, if_true]
      refine ih ?_ h1'
      obtain ⟨a, ha, b, hb, xs, ys, ha2, hb2, h3⟩ := hd
      rcases List.mem_cons.1 ha with rfl | ha
      · simp only at ha2; omega
      · rcases List.mem_cons.1 hb with rfl | hb
        · simp only at hb2; omega
        · exact ⟨a, ha, b, hb, xs, ys, ha2, hb2, h3⟩
    · obtain ⟨xs0, hx⟩ := htup (d, o) (by simp) (by simp; omega)
      simp only at hx
      subst hx
      simp only [checkLens, hdc, if_false]
      apply hsome _ _ h1'
      obtain ⟨a, ha, b, hb, xs, ys, ha2, hb2, ha3, hb3, hne⟩ := hd
      have key : ∀ (c : Nat × Obj A) zs, c ∈ (d, Obj.tup xs0) :: as → cur < c.1 → c.2 = .tup zs →
          zs.length ≠ xs0.length → ∃ a ∈ as, ∃ xs, cur < a.1 ∧ a.2 = .tup xs ∧ xs.length ≠ xs0.length := by
        intro c zs hc hc2 hc3 hc4
        rcases List.mem_cons.1 hc with rfl | hc
        · simp only [Obj.tup.injEq] at hc3; subst hc3; exact absurd rfl hc4
        · exact ⟨c, hc, zs, hc2, hc3, hc4⟩
      by_cases hxl : xs.length = xs0.length
      · exact key b ys hb hb2 hb3 (by omega)
      · exact key a xs ha ha2 ha3 hxl

theorem mem_descend {cur i : Nat} {args : List (Nat × Obj A)} {c : Nat × Obj A}
    (h : c ∈ descend cur i args) :
    ∃ a ∈ args, c.1 = a.1 ∧ (a.1 ≤ cur → c.2 = a.2) ∧ (cur < a.1 → c.2 = getItem a.2 i) := by
  obtain ⟨a, ha, rfl⟩ := List.mem_map.1 h
  refine ⟨a, ha, ?_⟩
  split
  · rename_i hle; exact ⟨rfl, fun _ => rfl, fun hlt => by omega⟩
  · rename_i hle; exact ⟨rfl, fun h => absurd h hle, fun _ => rfl⟩

theorem nested_descend {cur i l : Nat} {args : List (Nat × Obj A)}
    (hn : ∀ a ∈ args, Nested (a.1 - cur) a.2) (hl : AllLen cur l args) (hi : i < l) :
    ∀ c ∈ descend cur i args, Nested (c.1 - (cur + 1)) c.2 := by
  intro c hc
  obtain ⟨a, ha, h1, h2, h3⟩ := mem_descend hc
  rw [h1]
  by_cases hle : a.1 ≤ cur
  · rw [show a.1 - (cur + 1) = 0 by omega]; trivial
  · obtain ⟨xs, hx, hlen⟩ := hl a ha (by omega)
    rw [h3 (by omega), hx]
    have := hn a ha
    rw [show a.1 - cur = a.1 - (cur + 1) + 1 by omega, hx] at this
    obtain ⟨ys, hy, hy2⟩ := this
    injection hy with hy; subst hy
    apply hy2
    simp only [getItem, List.getD_eq_getElem?_getD, List.getElem?_eq_getElem (hlen ▸ hi), Option.getD_some]
    exact List.getElem_mem _

theorem compat_descend {cur i l : Nat} {args : List (Nat × Obj A)}
    (hl : AllLen cur l args) (hi : i < l) (hc : CompatAt cur args) :
    CompatAt (cur + 1) (descend cur i args) := by
  intro c hcm c' hcm' p xs ys h1 h2 h3 h4
  obtain ⟨a, ha, e1, _, e3⟩ := mem_descend hcm
  obtain ⟨b, hb, f1, _, f3⟩ := mem_descend hcm'
  obtain ⟨us, hu, hul⟩ := hl a ha (by omega)
  obtain ⟨vs, hv, hvl⟩ := hl b hb (by omega)
  rw [e3 (by omega), hu] at h3
  rw [f3 (by omega), hv] at h4
  refine hc a ha b hb (i :: p) xs ys (by simp; omega) (by simp; omega) ?_ ?_
  · rw [hu, at?_tup, List.getElem?_eq_getElem (hul ▸ hi)]
    simpa [getItem, List.getD_eq_getElem?_getD, List.getElem?_eq_getElem (hul ▸ hi)] using h3
  · rw [hv, at?_tup, List.getElem?_eq_getElem (hvl ▸ hi)]
    simpa [getItem, List.getD_eq_getElem?_getD, List.getElem?_eq_getElem (hvl ▸ hi)] using h4

/-- The outcome of a sequence of calls, compared to that of a map. -/
def Matches (n : Nat) (res : Except (Err E) (List (Obj A) × Heap A))
    (out : Except (Err E) (Obj A × Heap A)) (shape : Obj A → Prop) : Prop :=
  match res with
  | .error e => out = .error e
  | .ok (rs, h') => ∃ r, out = .ok (r, h') ∧ Nested n r ∧ leaves n r = rs ∧ shape r

theorem mapImpl_spec (fn : List (Obj A) → M A E (Obj A)) (im : Bool) :
    ∀ (n cur : Nat) (args : List (Nat × Obj A)), (∀ a ∈ args, a.1 ≤ cur + n) →
    (0 < n → ∃ a ∈ args, a.1 = cur + n) → (∀ a ∈ args, Nested (a.1 - cur) a.2) →
    CompatAt cur args → ∀ h,
    Matches n (seqM ((calls n cur args).map (callFn fn im)) h) (mapImpl fn im n cur args h)
      fun r => ∀ a ∈ args, a.1 = cur + n → ShapeEq n r a.2 := by
  intro n
  induction n with
  | zero =>
    intro cur args hle _ hn hc h
    have hs := checkLens_scalars (E := E) (cur := cur) (m := none) hle
    simp only [calls, List.map_cons, List.map_nil, seqM]
    rw [mapImpl, hs]
    simp only [callFn, List.any_map, Function.comp_def]
    by_cases hb : (!im && args.any fun x => x.2.isNone) = true
    · simp only [hb, if_true]
      exact ⟨.none, rfl, trivial, rfl, fun a _ _ => trivial⟩
    · simp only [hb, Bool.false_eq_true, if_false]
      cases fn (List.map (fun x => x.2) args) h with
      | error e => rfl
      | ok r => exact ⟨r.1, rfl, trivial, rfl, fun a _ _ => trivial⟩
  | succ n ih =>
    intro cur args hle hex hn hc h
    obtain ⟨a0, ha0, ha0d⟩ := hex (by omega)
    have hex' : ∃ a ∈ args, cur < a.1 := ⟨a0, ha0, by omega⟩
    obtain ⟨l, hl⟩ : ∃ l, AllLen cur l args := by
      rcases lens_cases hn hex' with h1 | ⟨a, ha, b, hb, xs, ys, h1, h2, h3, h4, h5⟩
      · exact h1
      · exact absurd (hc a ha b hb [] xs ys (by simpa using h1) (by simpa using h2)
          (by simp [h3]) (by simp [h4])) h5
    rw [mapImpl, checkLens_none hl hex']
    simp only [calls, commonLen_eq hl hex']
    -- the loop over the items
    have loop : ∀ (is : List Nat), (∀ i ∈ is, i < l) → ∀ h : Heap A,
        match seqM ((is.flatMap fun i => calls n (cur + 1) (descend cur i args)).map (callFn fn im)) h with
        | .error e => seqM (is.map fun i => mapImpl fn im n (cur + 1) (descend cur i args)) h = .error e
        | .ok (rs, h') => ∃ os, seqM (is.map fun i => mapImpl fn im n (cur + 1) (descend cur i args)) h =
            .ok (os, h') ∧ os.length = is.length ∧ (∀ o ∈ os, Nested n o) ∧ os.flatMap (leaves n) = rs ∧
            ∀ (j i : Nat) o, is[j]? = some i → os[j]? = some o → ∀ a ∈ args, a.1 = cur + (n + 1) →
              ShapeEq n o (getItem a.2 i) := by
      intro is
      induction is with
      | nil => intro _ h; exact ⟨[], rfl, rfl, by simp, rfl, by simp⟩
      | cons i is ih2 =>
        intro hi h
        have hil := hi i (by simp)
        have h1 := ih (cur + 1) (descend cur i args)
          (by
            intro c hcm
            obtain ⟨a, ha, e1, _⟩ := mem_descend hcm
            have := hle a ha; omega)
          (by
            intro _
            refine ⟨(a0.1, getItem a0.2 i), List.mem_map.2 ⟨a0, ha0, ?_⟩, by simp only; omega⟩
            rw [if_neg (by omega)])
          (nested_descend hn hl hil) (compat_descend hl hil hc) h
        simp only [List.flatMap_cons, List.map_append, seqM_append, List.map_cons, seqM]
        unfold Matches at h1
        cases hs1 : seqM ((calls n (cur + 1) (descend cur i args)).map (callFn fn im)) h with
        | error e => rw [hs1] at h1; simp only [] at h1 ⊢; rw [h1]
        | ok r1 =>
          obtain ⟨r1, h1'⟩ := r1
          rw [hs1] at h1
          obtain ⟨o, ho1, ho2, ho3, ho4⟩ := h1
          simp only [ho1]
          have h2 := ih2 (fun j hj => hi j (List.mem_cons_of_mem _ hj)) h1'
          cases hs2 : seqM ((is.flatMap fun i => calls n (cur + 1) (descend cur i args)).map
              (callFn fn im)) h1' with
          | error e => rw [hs2] at h2; simp only [] at h2 ⊢; rw [h2]
          | ok r2 =>
            obtain ⟨r2, h2'⟩ := r2
            rw [hs2] at h2
            obtain ⟨os, hos1, hos2, hos3, hos4, hos5⟩ := h2
            simp only [hos1]
            refine ⟨o :: os, rfl, by simp [hos2], ?_, by simp [ho3, hos4], ?_⟩
            · intro x hx
              rcases List.mem_cons.1 hx with rfl | hx
              · exact ho2
              · exact hos3 x hx
            · intro j k x hk hx a ha hd
              cases j with
              | zero =>
                simp only [List.getElem?_cons_zero, Option.some.injEq] at hk hx
                subst hk; subst hx
                refine ho4 (a.1, getItem a.2 i) (List.mem_map.2 ⟨a, ha, ?_⟩) (by simp only; omega)
                rw [if_neg (by omega)]
              | succ j => exact hos5 j k x (by simpa using hk) (by simpa using hx) a ha hd
    have hloop := loop (List.range l) (fun i hi => List.mem_range.1 hi) h
    unfold Matches
    cases hs : seqM (((List.range l).flatMap fun i => calls n (cur + 1) (descend cur i args)).map
        (callFn fn im)) h with
    | error e => rw [hs] at hloop; simp only [] at hloop ⊢; rw [hloop]
    | ok r =>
      obtain ⟨rs, h'⟩ := r
      rw [hs] at hloop
      obtain ⟨os, h1, h2, h3, h4, h5⟩ := hloop
      simp only [h1]
      refine ⟨.tup os, rfl, ⟨os, rfl, h3⟩, h4, ?_⟩
      intro a ha hd
      obtain ⟨xs, hx, hxl⟩ := hl a ha (by omega)
      rw [hx]
      refine ⟨os, xs, rfl, rfl, by rw [h2, List.length_range, hxl], ?_⟩
      intro j o x ho hxj
      have hj : j < l := by
        have := (List.getElem?_eq_some_iff.1 hxj).1; omega
      have := h5 j j o (by simp [hj]) ho a ha hd
      rw [hx] at this
      simpa [getItem, List.getD_eq_getElem?_getD, hxj] using this

/-- Incompatible arguments: the map raises. -/
theorem mapImpl_error (fn : List (Obj A) → M A E (Obj A)) (im : Bool) :
    ∀ (n cur : Nat) (args : List (Nat × Obj A)), (∀ a ∈ args, a.1 ≤ cur + n) →
    (∀ a ∈ args, Nested (a.1 - cur) a.2) →
    ¬ CompatAt cur args → ∀ h, ∃ e, mapImpl fn im n cur args h = .error e := by
  intro n
  induction n with
  | zero =>
    intro cur args hle hn hc h
    refine absurd ?_ hc
    intro a ha b hb p xs ys h1
    have := hle a ha; omega
  | succ n ih =>
    intro cur args hle hn hc h
    have hex' : ∃ a ∈ args, cur < a.1 := by
      unfold CompatAt AgreeAt at hc
      simp only [Classical.not_forall] at hc
      obtain ⟨a, ha, b, hb, p, xs, ys, h1, _⟩ := hc
      exact ⟨a, ha, by omega⟩
    rcases lens_cases hn hex' with ⟨l, hl⟩ | hd
    · rw [mapImpl, checkLens_none hl hex']
      simp only []
      obtain ⟨i, hi, hci⟩ : ∃ i, i < l ∧ ¬ CompatAt (cur + 1) (descend cur i args) := by
        unfold CompatAt AgreeAt at hc
        simp only [Classical.not_forall] at hc
        obtain ⟨a, ha, b, hb, p, xs, ys, h1, h2, h3, h4, h5⟩ := hc
        obtain ⟨us, hu, hul⟩ := hl a ha (by omega)
        obtain ⟨vs, hv, hvl⟩ := hl b hb (by omega)
        cases p with
        | nil =>
          rw [hu] at h3; rw [hv] at h4
          simp only [at?_nil, Option.some.injEq, Obj.tup.injEq] at h3 h4
          subst h3; subst h4
          omega
        | cons i q =>
          rw [hu, at?_tup] at h3
          rw [hv, at?_tup] at h4
          have hi : i < l := by
            refine Nat.lt_of_not_le fun hle => ?_
            rw [List.getElem?_eq_none (by omega)] at h3
            simp at h3
          refine ⟨i, hi, fun hcc => h5 ?_⟩
          have ma : (a.1, getItem a.2 i) ∈ descend cur i args :=
            List.mem_map.2 ⟨a, ha, by rw [if_neg (by omega)]⟩
          have mb : (b.1, getItem b.2 i) ∈ descend cur i args :=
            List.mem_map.2 ⟨b, hb, by rw [if_neg (by omega)]⟩
          simp only [List.length_cons] at h1 h2
          refine hcc _ ma _ mb q xs ys (by simp only; omega) (by simp only; omega) ?_ ?_
          · rw [List.getElem?_eq_getElem (by omega)] at h3
            simpa [hu, getItem, List.getD_eq_getElem?_getD, List.getElem?_eq_getElem (hul ▸ hi)] using h3
          · rw [List.getElem?_eq_getElem (by omega)] at h4
            simpa [hv, getItem, List.getD_eq_getElem?_getD, List.getElem?_eq_getElem (hvl ▸ hi)] using h4
      have hbad : ∀ h, ∃ e, mapImpl fn im n (cur + 1) (descend cur i args) h = .error e :=
        ih (cur + 1) (descend cur i args)
          (by
            intro c hcm
            obtain ⟨a, ha, e1, _⟩ := mem_descend hcm
            have := hle a ha; omega)
          (nested_descend hn hl hi) hci
      have hseq : ∀ (is : List Nat) (h : Heap A), i ∈ is →
          ∃ e, seqM (is.map fun i => mapImpl fn im n (cur + 1) (descend cur i args)) h = .error e := by
        intro is
        induction is with
        | nil => intro h hm; simp at hm
        | cons j js ih2 =>
          intro h hm
          simp only [List.map_cons, seqM]
          cases hj : mapImpl fn im n (cur + 1) (descend cur j args) h with
          | error e => exact ⟨e, rfl⟩
          | ok r =>
            simp only []
            rcases List.mem_cons.1 hm with rfl | hm
            · obtain ⟨e, he⟩ := hbad h; rw [hj] at he; cases he
            · obtain ⟨e, he⟩ := ih2 r.2 hm
              rw [he]; exact ⟨e, rfl⟩
      obtain ⟨e, he⟩ := hseq (List.range l) h (List.mem_range.2 hi)
      rw [he]
      exact ⟨e, rfl⟩
    · rw [mapImpl, checkLens_error hn hd]
      exact ⟨_, rfl⟩

/-- The arguments of the calls are the items of the arguments at the positions of the
deepest argument. -/
theorem calls_at : ∀ (n cur : Nat) (args : List (Nat × Obj A)), (∀ a ∈ args, a.1 ≤ cur + n) →
    (∀ a ∈ args, Nested (a.1 - cur) a.2) → CompatAt cur args → ∀ a ∈ args, a.1 = cur + n →
    (positions n a.2).map (fun p => args.map fun b => b.2.at? (p.take (b.1 - cur))) =
      (calls n cur args).map fun c => c.map some := by
  intro n
  induction n with
  | zero =>
    intro cur args hle hn hc a ha hd
    simp only [positions, calls, List.map_cons, List.map_nil, List.map_map]
    congr 1
    apply List.map_congr_left
    intro b hb
    simp
  | succ n ih =>
    intro cur args hle hn hc a ha hd
    have hex' : ∃ a ∈ args, cur < a.1 := ⟨a, ha, by omega⟩
    obtain ⟨l, hl⟩ : ∃ l, AllLen cur l args := by
      rcases lens_cases hn hex' with h1 | ⟨a, ha, b, hb, xs, ys, h1, h2, h3, h4, h5⟩
      · exact h1
      · exact absurd (hc a ha b hb [] xs ys (by simpa using h1) (by simpa using h2)
          (by simp [h3]) (by simp [h4])) h5
    obtain ⟨xs, hx, hxl⟩ := hl a ha (by omega)
    simp only [calls, commonLen_eq hl hex', hx, positions, List.map_flatMap]
    have e : xs.zipIdx = (List.range l).map fun i => (xs.getD i .none, i) := by
      apply List.ext_getElem?
      intro j
      simp only [List.getElem?_zipIdx, List.getElem?_map, Nat.zero_add]
      by_cases hj : j < l
      · simp [List.getElem?_eq_getElem (hxl ▸ hj : j < xs.length), List.getElem?_range hj,
          List.getD_eq_getElem?_getD]
      · rw [List.getElem?_eq_none (by omega), List.getElem?_eq_none (by simp; omega)]
        rfl
    rw [e, List.flatMap_map]
    apply flatMap_congr'
    intro i hi
    have hil := List.mem_range.1 hi
    have ma : (a.1, getItem a.2 i) ∈ descend cur i args :=
      List.mem_map.2 ⟨a, ha, by rw [if_neg (by omega)]⟩
    rw [← ih (cur + 1) (descend cur i args)
      (by
        intro c hcm
        obtain ⟨a, ha, e1, _⟩ := mem_descend hcm
        have := hle a ha; omega)
      (nested_descend hn hl hil) (compat_descend hl hil hc) _ ma (by simp only; omega)]
    simp only [List.map_map, hx, getItem]
    apply List.map_congr_left
    intro q hq
    simp only [Function.comp_apply, descend, List.map_map]
    apply List.map_congr_left
    intro b hb
    simp only [Function.comp_apply]
    by_cases hbc : b.1 ≤ cur
    · simp [hbc, show b.1 - cur = 0 by omega, show b.1 - (cur + 1) = 0 by omega]
    · obtain ⟨ys, hy, hyl⟩ := hl b hb (by omega)
      rw [if_neg hbc, show b.1 - cur = b.1 - (cur + 1) + 1 by omega, List.take_succ_cons, hy, at?_tup,
        List.getElem?_eq_getElem (hyl ▸ hil)]
      simp [getItem, List.getD_eq_getElem?_getD, List.getElem?_eq_getElem (hyl ▸ hil)]

/-! ### maxDepth and mapStructures -/

theorem foldl_max_ge (l : List Nat) (m : Nat) : m ≤ l.foldl max m ∧ ∀ x ∈ l, x ≤ l.foldl max m := by
  induction l generalizing m with
  | nil => simp
  | cons a as ih =>
    have h1 := ih (max m a)
    simp only [List.foldl_cons, List.mem_cons]
    refine ⟨by omega, ?_⟩
    rintro x (rfl | hx)
    · omega
    · exact h1.2 x hx

theorem foldl_max_mem (l : List Nat) (m : Nat) : l.foldl max m = m ∨ l.foldl max m ∈ l := by
  induction l generalizing m with
  | nil => simp
  | cons a as ih =>
    simp only [List.foldl_cons, List.mem_cons]
    rcases ih (max m a) with h | h
    · rw [h]
      rcases Nat.le_total m a with hma | hma
      · right; left; omega
      · left; omega
    · exact Or.inr (Or.inr h)

theorem le_maxDepth {args : List (Nat × Obj A)} {a : Nat × Obj A} (h : a ∈ args) :
    a.1 ≤ maxDepth args := (foldl_max_ge _ 0).2 _ (List.mem_map.2 ⟨a, h, rfl⟩)

theorem maxDepth_mem {args : List (Nat × Obj A)} (h : args ≠ []) :
    ∃ a ∈ args, a.1 = maxDepth args := by
  unfold maxDepth
  rcases foldl_max_mem (args.map (·.1)) 0 with h0 | hm
  · cases args with
    | nil => exact absurd rfl h
    | cons a as =>
      refine ⟨a, by simp, ?_⟩
      have := (foldl_max_ge (((a :: as).map (·.1))) 0).2 a.1 (by simp)
      omega
  · obtain ⟨a, ha, he⟩ := List.mem_map.1 hm
    exact ⟨a, ha, he⟩

/-- `mapStructures` does the calls in order and puts the results in the shape of the
deepest argument. -/
theorem mapStructures_spec (fn : List (Obj A) → M A E (Obj A)) (im : Bool)
    (args : List (Nat × Obj A)) (hne : args ≠ []) (hn : ∀ a ∈ args, Nested a.1 a.2)
    (hc : CompatAt 0 args) (h : Heap A) :
    Matches (maxDepth args) (seqM ((calls (maxDepth args) 0 args).map (callFn fn im)) h)
      (mapStructures fn im args h)
      fun r => ∀ a ∈ args, a.1 = maxDepth args → ShapeEq (maxDepth args) r a.2 := by
  have := mapImpl_spec fn im (maxDepth args) 0 args (fun a ha => by have := le_maxDepth ha; omega)
    (fun _ => by obtain ⟨a, ha, e⟩ := maxDepth_mem hne; exact ⟨a, ha, by omega⟩)
    (fun a ha => by simpa using hn a ha) hc h
  unfold mapStructures
  simpa using this

end Verif.View
