import Verif.Compare.Place

/-! The loop of the comparison. -/

namespace Verif.Compare

open Verif.ObjectId
open Verif.Uuid
open Verif.Traverse (Bag Name Pair Transitions getTransitions)

/-- A place was compared. -/
def Done (ρ : Rules) (st : State) (x : Pair × Pair) : Prop :=
  x ∈ st.tokens ∧ ρ.deep x.1 x.2 ∧ x ∉ st.stack

/-- The invariant of the loop. -/
structure Inv (ρ : Rules) (bl br : Bag) (start : Nat → Pair → Pair → Prop) (st : State) : Prop where
  ok : StackOk st
  deep : ∀ x ∈ st.stack, ρ.deep x.1 x.2
  sound : ∀ x ∈ st.tokens, Together ρ bl br start x.1 x.2
  started : ∀ i l r, start i l r → ρ.alike l r → (l, r) ∈ st.tokens
  read : ∀ x, Done ρ st x → CanRead bl x.1 ∧ CanRead br x.2
  closed : ∀ x, Done ρ st x → ∀ y, TokenAt ρ bl br x y → y ∈ st.tokens
  edges : ∀ E, E ∈ st.edges.map seeEdge ↔ Done ρ st E.1 ∧ EdgeAt ρ bl br E
  diffs : ∀ D, D ∈ st.diffs.map see ↔ (∃ i l r, start i l r ∧ ¬ ρ.alike l r ∧ D = .slice i l r) ∨
    ∃ x, Done ρ st x ∧ DiffAt ρ bl br x D

section
variable {c : Comparator} {ρ : Rules} (F : Follows c ρ) {bl br : Bag} (hbl : BagOk bl) (hbr : BagOk br)
  {K : TKey → Prop} (O : OrderOk c.order K) {start : Nat → Pair → Pair → Prop}
  (hK : ∀ l r, Together ρ bl br start l r → ρ.deep l r → KeysIn K bl l ∧ KeysIn K br r)
include F hbl hbr O hK

/-- One iteration: it succeeds when the place can be read. -/
theorem Inv.step {st : State} {place : Pair × Pair} {rest : List (Pair × Pair)}
    (h : Inv ρ bl br start st) (hst : st.stack = place :: rest) (hl : CanRead bl place.1)
    (hr : CanRead br place.2) : ∃ st', compareAt c bl br place { st with stack := rest } = .ok st' ∧
      Inv ρ bl br start st' ∧ Done ρ st' place ∧ (∀ x, Done ρ st x → Done ρ st' x) := by
  have hp : place ∈ st.stack := by rw [hst]; simp
  have hpt := h.ok.2 _ hp
  have hpd := h.deep _ hp
  have hT := h.sound _ hpt
  obtain ⟨k1, k2⟩ := hK _ _ hT hpd
  obtain ⟨st', h1, a1, a2, a3, a4⟩ := compareAt_ok F hbl hbr O hl hr k1 k2 { st with stack := rest }
  simp only at a1 a2 a3 a4
  have hnr : place ∉ rest := by
    have := h.ok.1
    rw [hst] at this
    exact (List.nodup_cons.mp this).1
  have hin : ∀ x, x ∈ rest → x ∈ st.stack := fun x hx => by rw [hst]; simp [hx]
  have hdone : ∀ x, Done ρ st' x ↔ Done ρ st x ∨ x = place := by
    intro x
    unfold Done
    rw [a1, a4, hst]
    simp only [List.mem_cons, not_or, not_and]
    constructor
    · rintro ⟨h2, h3, h4, h5⟩
      by_cases hx : x = place
      · exact .inr hx
      · refine .inl ⟨?_, h3, hx, h4⟩
        rcases h2 with h2 | h2
        · exact h2
        · exact Classical.byContradiction fun h6 => h5 h6 h2 h3
    · rintro (⟨h2, h3, h4, h5⟩ | rfl)
      · exact ⟨.inl h2, h3, h5, fun h6 => absurd h2 h6⟩
      · exact ⟨.inl hpt, hpd, hnr, fun h6 => absurd hpt h6⟩
  refine ⟨st', h1, ?_, (hdone _).mpr (.inr rfl), fun x hx => (hdone x).mpr (.inl hx)⟩
  have hok : StackOk { st with stack := rest } := by
    have h2 := h.ok.1
    rw [hst] at h2
    exact ⟨(List.nodup_cons.mp h2).2, fun x hx => h.ok.2 x (hin x hx)⟩
  refine ⟨compareAt_stack hok h1, ?_, ?_, ?_, ?_, ?_, ?_, ?_⟩
  · intro x hx
    rcases (a4 x).mp hx with h2 | ⟨_, _, h2⟩
    · exact h.deep x (hin x h2)
    · exact h2
  · intro x hx
    rcases (a1 x).mp hx with h2 | ⟨n, h2, h3, h4⟩
    · exact h.sound x h2
    · exact .part hT hpd h2 h3 h4
  · intro i l r h2 h3
    exact (a1 _).mpr (.inl (h.started i l r h2 h3))
  · intro x hx
    rcases (hdone x).mp hx with h2 | rfl
    · exact h.read x h2
    · exact ⟨hl, hr⟩
  · intro x hx y hy
    rcases (hdone x).mp hx with h2 | rfl
    · exact (a1 y).mpr (.inl (h.closed x h2 y hy))
    · exact (a1 y).mpr (.inr hy)
  · intro E
    rw [a2, h.edges, hdone]
    constructor
    · rintro (⟨h2, h3⟩ | ⟨h2, h3⟩)
      · exact ⟨.inl h2, h3⟩
      · exact ⟨.inr h2, h3⟩
    · rintro ⟨h2 | h2, h3⟩
      · exact .inl ⟨h2, h3⟩
      · exact .inr ⟨h2, h3⟩
  · intro D
    rw [a3, h.diffs, or_assoc]
    refine or_congr Iff.rfl ?_
    constructor
    · rintro (⟨x, h2, h3⟩ | h2)
      · exact ⟨x, (hdone x).mpr (.inl h2), h3⟩
      · exact ⟨place, (hdone _).mpr (.inr rfl), h2⟩
    · rintro ⟨x, h2, h3⟩
      rcases (hdone x).mp h2 with h2 | rfl
      · exact .inl ⟨x, h2, h3⟩
      · exact .inr h3

/-- The end of the loop. -/
theorem deepCompare_spec : ∀ (n : Nat) (st : State), Inv ρ bl br start st →
    ∀ res, deepCompare c bl br n st = some res →
      (∃ st', res = .ok st' ∧ Inv ρ bl br start st' ∧ st'.stack = []) ∨
      ((∃ e, res = .error e) ∧ ∃ l r, Together ρ bl br start l r ∧ ρ.deep l r ∧
        ¬ (CanRead bl l ∧ CanRead br r))
  | 0, st, h, res, hres => by
    simp only [deepCompare] at hres
    split at hres
    · rename_i hst
      cases hres
      exact .inl ⟨st, rfl, h, hst⟩
    · cases hres
  | n + 1, st, h, res, hres => by
    simp only [deepCompare] at hres
    split at hres
    · rename_i hst
      cases hres
      exact .inl ⟨st, rfl, h, hst⟩
    · rename_i place rest hst
      have hp : place ∈ st.stack := by rw [hst]; simp
      by_cases hr : CanRead bl place.1 ∧ CanRead br place.2
      · obtain ⟨st', h1, h2, _, _⟩ := h.step F hbl hbr O hK hst hr.1 hr.2
        rw [h1] at hres
        exact deepCompare_spec n st' h2 res hres
      · have hT := h.sound _ (h.ok.2 _ hp)
        have hd := h.deep _ hp
        obtain ⟨k1, k2⟩ := hK _ _ hT hd
        split at hres
        · cases hres
          exact .inr ⟨⟨_, rfl⟩, _, _, hT, hd, hr⟩
        · rename_i st1 h1
          exact absurd (compareAt_reads hbl hbr O k1 k2 h1) hr

omit F hbl hbr O hK in
theorem countP_lt {α : Type} {p q : α → Bool} {l : List α} (h : ∀ x ∈ l, q x = true → p x = true)
    {a : α} (ha : a ∈ l) (hp : p a = true) (hq : q a = false) : l.countP q < l.countP p := by
  induction l with
  | nil => simp at ha
  | cons x l ih =>
    have hle : l.countP q ≤ l.countP p :=
      List.countP_mono_left (fun y hy => h y (by simp [hy]))
    rcases List.mem_cons.mp ha with rfl | ha
    · rw [List.countP_cons_of_pos hp, List.countP_cons_of_neg (by simp [hq])]
      omega
    · have := ih (fun y hy => h y (by simp [hy])) ha
      have hx := h x (by simp)
      rw [List.countP_cons, List.countP_cons]
      split <;> split
      · omega
      · rename_i h1 h2; exact absurd (hx h1) h2
      · omega
      · omega

open Classical in
/-- The loop ends if only finitely many pairs can be reached. -/
theorem deepCompare_ends {all : List (Pair × Pair)}
    (hall : ∀ l r, Together ρ bl br start l r → (l, r) ∈ all) : ∀ (n : Nat) (st : State),
    Inv ρ bl br start st → all.countP (fun x => decide (¬ Done ρ st x)) ≤ n →
    (deepCompare c bl br n st).isSome = true
  | n, st, h, hn => by
    cases hst : st.stack with
    | nil => cases n <;> simp [deepCompare, hst]
    | cons place rest =>
      have hp : place ∈ st.stack := by rw [hst]; simp
      have hT := h.sound _ (h.ok.2 _ hp)
      have hnd : ¬ Done ρ st place := fun h2 => h2.2.2 hp
      cases n with
      | zero =>
        have := List.countP_eq_zero.mp (Nat.le_zero.mp hn) _ (hall _ _ hT)
        exact absurd hnd (by simpa using this)
      | succ n =>
        simp only [deepCompare, hst]
        by_cases hr : CanRead bl place.1 ∧ CanRead br place.2
        · obtain ⟨st', h1, h2, h3, h4⟩ := h.step F hbl hbr O hK hst hr.1 hr.2
          rw [h1]
          refine deepCompare_ends hall n st' h2 ?_
          have := countP_lt (l := all) (p := fun x => decide (¬ Done ρ st x))
            (q := fun x => decide (¬ Done ρ st' x)) (a := place)
            (by intro x _ hx; simp only [decide_eq_true_eq] at hx ⊢; exact fun h5 => hx (h4 x h5))
            (hall _ _ hT) (by simpa using hnd) (by simpa using h3)
          omega
        · split
          · rfl
          · rename_i st1 h1
            obtain ⟨k1, k2⟩ := hK _ _ hT (h.deep _ hp)
            exact absurd (compareAt_reads hbl hbr O k1 k2 h1) hr

omit F hbl hbr O hK in
theorem deepCompare_more : ∀ {n m : Nat} {st : State} {res : Except Err State}, n ≤ m →
    deepCompare c bl br n st = some res → deepCompare c bl br m st = some res
  | 0, m, st, res, _, h => by
    simp only [deepCompare] at h
    split at h
    · rename_i hst
      cases m <;> simp [deepCompare, hst, h] <;> simpa using h
    · cases h
  | n + 1, 0, _, _, hnm, _ => by omega
  | n + 1, m + 1, st, res, hnm, h => by
    simp only [deepCompare] at h ⊢
    split at h
    · exact h
    · split at h
      · exact h
      · exact deepCompare_more (by omega) h

/-- The end: all pairs that are reached together have been compared. -/
theorem Inv.final {st : State} (h : Inv ρ bl br start st) (hst : st.stack = []) (l r : Pair) :
    Together ρ bl br start l r ↔ (l, r) ∈ st.tokens := by
  constructor
  · intro hT
    induction hT with
    | start h1 h2 => exact h.started _ _ _ h1 h2
    | part _ h2 h3 h4 h5 ih =>
      exact h.closed _ ⟨ih, h2, by simp [hst]⟩ (_, _) ⟨_, h3, h4, h5⟩
  · exact fun h1 => h.sound _ h1

end

/-! ### The slices -/

section
variable {c : Comparator} {ρ : Rules} (F : Follows c ρ)
include F

theorem startSlices_ok {ls rs : Item} : ∀ (l : List (Item × Item)) (i : Nat) (st : State), StackOk st →
    ∃ st', startSlices c ls rs i l st = .ok st' ∧ StackOk st' ∧ st'.edges = st.edges ∧
      (∀ x, x ∈ st'.tokens ↔ x ∈ st.tokens ∨ ∃ (j : Nat) (y : Item × Item), l[j]? = some y ∧
        x = ((y.1, ls), (y.2, rs)) ∧ ρ.alike x.1 x.2) ∧
      (∀ x, x ∈ st'.stack ↔ x ∈ st.stack ∨ (x ∉ st.tokens ∧ x ∈ st'.tokens ∧ ρ.deep x.1 x.2)) ∧
      (∀ d, d ∈ st'.diffs ↔ d ∈ st.diffs ∨ ∃ (j : Nat) (y : Item × Item), l[j]? = some y ∧
        d = .slice (i + j) (y.1, ls) (y.2, rs) ∧ ¬ ρ.alike (y.1, ls) (y.2, rs))
  | [], i, st, hs => ⟨st, rfl, hs, rfl, by simp, by
      intro x; refine ⟨.inl, ?_⟩
      rintro (h | ⟨h1, h2, _⟩)
      · exact h
      · exact absurd h2 h1, by simp⟩
  | (x, y) :: l, i, st, hs => by
    have hget : ∀ (P : Nat → Item × Item → Prop), (∃ (j : Nat) (z : Item × Item), ((x, y) :: l)[j]? = some z ∧ P j z) ↔
        P 0 (x, y) ∨ ∃ (j : Nat) (z : Item × Item), l[j]? = some z ∧ P (j + 1) z := by
      intro P
      constructor
      · rintro ⟨j, z, h1, h2⟩
        cases j with
        | zero => cases h1; exact .inl h2
        | succ j => exact .inr ⟨j, z, h1, h2⟩
      · rintro (h | ⟨j, z, h1, h2⟩)
        · exact ⟨0, _, rfl, h⟩
        · exact ⟨j + 1, z, h1, h2⟩
    have hadd : ∀ j, i + 1 + j = i + (j + 1) := by intro j; omega
    simp only [startSlices]
    by_cases he : c.equal (x, ls) (y, rs) = true
    · have ha := (F.equal _ _).mp he
      obtain ⟨st1, h1, h2, h3, h4, h5⟩ := addToCompare_ok F (st := st) ha
      obtain ⟨st2, g1, g0, g2, g3, g4, g5⟩ := startSlices_ok (ls := ls) (rs := rs) l (i + 1) st1
        (addToCompare_stack hs h1)
      rw [if_neg (by simp [he])]
      simp only [h1]
      refine ⟨st2, g1, g0, g2.trans h3, ?_, ?_, ?_⟩
      · intro z
        rw [g3, h4, hget, or_assoc]
        refine or_congr Iff.rfl (or_congr ?_ Iff.rfl)
        constructor
        · rintro rfl; exact ⟨rfl, ha⟩
        · exact fun h => h.1
      · intro z
        rw [g4, h5, h4, g3, h4]
        grind
      · intro d
        rw [g5, h2, hget]
        simp only [hadd]
        constructor
        · rintro (h | h)
          · exact .inl h
          · exact .inr (.inr h)
        · rintro (h | ⟨_, h⟩ | h)
          · exact .inl h
          · exact absurd ha h
          · exact .inr h
    · have ha : ¬ ρ.alike (x, ls) (y, rs) := fun h => he ((F.equal _ _).mpr h)
      rw [if_pos (by simpa using he)]
      obtain ⟨st2, g1, g0, g2, g3, g4, g5⟩ := startSlices_ok (ls := ls) (rs := rs) l (i + 1)
        { st with diffs := .slice i (x, ls) (y, rs) :: st.diffs } hs
      refine ⟨st2, g1, g0, g2, ?_, g4, ?_⟩
      · intro z
        rw [g3, hget]
        simp only
        constructor
        · rintro (h | h)
          · exact .inl h
          · exact .inr (.inr h)
        · rintro (h | ⟨rfl, h⟩ | h)
          · exact .inl h
          · exact absurd h ha
          · exact .inr h
      · intro d
        rw [g5, hget]
        simp only [hadd, List.mem_cons, Nat.add_zero]
        constructor
        · rintro ((h | h) | h)
          · exact .inr (.inl ⟨h, ha⟩)
          · exact .inl h
          · exact .inr (.inr h)
        · rintro (h | ⟨h, _⟩ | h)
          · exact .inl (.inr h)
          · exact .inl (.inl h)
          · exact .inr h

omit F in
/-- The pairs of items of the slices. -/
theorem start_iff {xs ys : List Item} {ls rs : Item} (hlen : xs.length = ys.length) (i : Nat)
    (l r : Pair) : Start xs ls ys rs i l r ↔
      ∃ y, ((if xs = [] then [Item.missing] else xs).zip (if ys = [] then [Item.missing] else ys))[i]?
        = some y ∧ l = (y.1, ls) ∧ r = (y.2, rs) := by
  cases xs with
  | nil =>
    have : ys = [] := by cases ys; rfl; simp at hlen
    subst this
    constructor
    · rintro (⟨x, y, h, _⟩ | ⟨_, _, rfl, rfl, rfl⟩)
      · simp at h
      · exact ⟨(.missing, .missing), rfl, rfl, rfl⟩
    · rintro ⟨y, h1, rfl, rfl⟩
      cases i with
      | zero => cases h1; exact .inr ⟨rfl, rfl, rfl, rfl, rfl⟩
      | succ i => simp at h1
  | cons x xs =>
    have hy : ys ≠ [] := by intro h; simp [h] at hlen
    rw [if_neg (by simp), if_neg hy]
    constructor
    · rintro (⟨x', y, h1, h2, rfl, rfl⟩ | ⟨h, _⟩)
      · exact ⟨(x', y), List.getElem?_zip_eq_some.mpr ⟨h1, h2⟩, rfl, rfl⟩
      · cases h
    · rintro ⟨y, h1, rfl, rfl⟩
      obtain ⟨h2, h3⟩ := List.getElem?_zip_eq_some.mp h1
      exact .inl ⟨_, _, h2, h3, rfl, rfl⟩

end

section
variable {c : Comparator} {ρ : Rules} (F : Follows c ρ) {bl br : Bag} (hbl : BagOk bl) (hbr : BagOk br)
  {K : TKey → Prop} (O : OrderOk c.order K) {xs ys : List Item} {ls rs : Item}
  (hK : ∀ l r, Together ρ bl br (Start xs ls ys rs) l r → ρ.deep l r → KeysIn K bl l ∧ KeysIn K br r)
include F

omit hbl hbr O hK in
theorem startSlices_inv (hlen : xs.length = ys.length) :
    ∃ st, startSlices c ls rs 0 ((if xs = [] then [Item.missing] else xs).zip
      (if ys = [] then [Item.missing] else ys)) ⟨[], [], [], []⟩ = .ok st ∧
      Inv ρ bl br (Start xs ls ys rs) st := by
  obtain ⟨st, h1, h2, h3, h4, h5, h6⟩ := startSlices_ok F (ls := ls) (rs := rs)
    ((if xs = [] then [Item.missing] else xs).zip (if ys = [] then [Item.missing] else ys)) 0
    ⟨[], [], [], []⟩ ⟨by simp, by simp⟩
  refine ⟨st, h1, ?_⟩
  have hst := start_iff (ls := ls) (rs := rs) hlen
  have hnd : ∀ x, ¬ Done ρ st x := by
    rintro x ⟨a, b, d⟩
    exact d ((h5 x).mpr (.inr ⟨by simp, a, b⟩))
  refine ⟨h2, ?_, ?_, ?_, ?_, ?_, ?_, ?_⟩
  · intro x hx
    rcases (h5 x).mp hx with h | ⟨_, _, h⟩
    · simp at h
    · exact h
  · intro x hx
    rcases (h4 x).mp hx with h | ⟨j, y, a, rfl, b⟩
    · simp at h
    · exact .start ((hst j _ _).mpr ⟨y, a, rfl, rfl⟩) b
  · intro i l r a b
    obtain ⟨y, a1, rfl, rfl⟩ := (hst i l r).mp a
    exact (h4 _).mpr (.inr ⟨i, y, a1, rfl, b⟩)
  · intro x hx; exact absurd hx (hnd x)
  · intro x hx; exact absurd hx (hnd x)
  · intro E
    rw [h3]
    simp only [List.map_nil, List.not_mem_nil, false_iff]
    exact fun h => hnd _ h.1
  · intro D
    simp only [List.mem_map, h6, List.not_mem_nil, false_or, Nat.zero_add]
    constructor
    · rintro ⟨d, ⟨j, y, a, rfl, b⟩, rfl⟩
      exact .inl ⟨j, _, _, (hst j _ _).mpr ⟨y, a, rfl, rfl⟩, b, rfl⟩
    · rintro (⟨i, l, r, a, b, rfl⟩ | ⟨x, hx, _⟩)
      · obtain ⟨y, a1, rfl, rfl⟩ := (hst i l r).mp a
        exact ⟨_, ⟨i, y, a1, rfl, b⟩, rfl⟩
      · exact absurd hx (hnd x)

include hbl hbr O hK

/-- What the comparison of two slices returns. -/
theorem compareSlices_spec {fuel : Nat} {res : Except Err State} (hlen : xs.length = ys.length)
    (h : compareSlices c bl br fuel xs ls ys rs = some res) :
    (∃ st, res = .ok st ∧ (∀ D, D ∈ st.diffs.map see ↔ Matters ρ bl br (Start xs ls ys rs) D) ∧
      (∀ E, E ∈ st.edges.map seeEdge ↔ Together ρ bl br (Start xs ls ys rs) E.1.1 E.1.2 ∧
        ρ.deep E.1.1 E.1.2 ∧ EdgeAt ρ bl br E) ∧
      (∀ l r, (l, r) ∈ st.tokens ↔ Together ρ bl br (Start xs ls ys rs) l r) ∧
      (∀ l r, Together ρ bl br (Start xs ls ys rs) l r → ρ.deep l r → CanRead bl l ∧ CanRead br r)) ∨
    ((∃ e, res = .error e) ∧ ∃ l r, Together ρ bl br (Start xs ls ys rs) l r ∧ ρ.deep l r ∧
      ¬ (CanRead bl l ∧ CanRead br r)) := by
  obtain ⟨st0, h0, hi⟩ := startSlices_inv F (bl := bl) (br := br) (ls := ls) (rs := rs) hlen
  unfold compareSlices at h
  rw [if_neg (by simpa using hlen)] at h
  simp only [h0] at h
  rcases deepCompare_spec F hbl hbr O hK fuel st0 hi res h with ⟨st, rfl, h1, h2⟩ | h1
  · left
    have hf := h1.final F hbl hbr O hK h2
    have hdone : ∀ x, Done ρ st x ↔ Together ρ bl br (Start xs ls ys rs) x.1 x.2 ∧ ρ.deep x.1 x.2 := by
      intro x
      rw [hf]
      simp [Done, h2]
    refine ⟨st, rfl, ?_, ?_, fun l r => (hf l r).symm, fun l r a b => h1.read (l, r) ((hdone _).mpr ⟨a, b⟩)⟩
    · intro D
      rw [h1.diffs]
      simp only [hdone]
      constructor
      · rintro (⟨i, l, r, a, b, rfl⟩ | ⟨x, ⟨a, a'⟩, ⟨n, p, b1, b2, b3, rfl⟩ | ⟨n, p, b1, b2, b3, rfl⟩ |
          ⟨n, p, q, b1, b2, b3, b4, rfl⟩⟩)
        · exact .slice a b
        · exact .left a a' b1 b2 b3
        · exact .right a a' b1 b2 b3
        · exact .both a a' b1 b2 b3 b4
      · intro h
        cases h with
        | slice a b => exact .inl ⟨_, _, _, a, b, rfl⟩
        | left a a' b1 b2 b3 => exact .inr ⟨_, ⟨a, a'⟩, .inl ⟨_, _, b1, b2, b3, rfl⟩⟩
        | right a a' b1 b2 b3 => exact .inr ⟨_, ⟨a, a'⟩, .inr (.inl ⟨_, _, b1, b2, b3, rfl⟩)⟩
        | both a a' b1 b2 b3 b4 => exact .inr ⟨_, ⟨a, a'⟩, .inr (.inr ⟨_, _, _, b1, b2, b3, b4, rfl⟩)⟩
    · intro E
      rw [h1.edges, hdone, and_assoc]
  · exact .inr h1

/-- The comparison ends if only finitely many pairs can be reached. -/
theorem compareSlices_ends {all : List (Pair × Pair)}
    (hall : ∀ l r, Together ρ bl br (Start xs ls ys rs) l r → (l, r) ∈ all) :
    ∃ n, ∀ m, n ≤ m → (compareSlices c bl br m xs ls ys rs).isSome = true := by
  by_cases hlen : xs.length = ys.length
  · obtain ⟨st0, h0, hi⟩ := startSlices_inv F (bl := bl) (br := br) (ls := ls) (rs := rs) hlen
    refine ⟨all.length, fun m hm => ?_⟩
    unfold compareSlices
    rw [if_neg (by simpa using hlen)]
    simp only [h0]
    exact deepCompare_ends F hbl hbr O hK hall m st0 hi
      (Nat.le_trans List.countP_le_length hm)
  · refine ⟨0, fun m _ => ?_⟩
    unfold compareSlices
    rw [if_pos (by simpa using hlen)]
    rfl

end

theorem compareSlices_more {c : Comparator} {bl br : Bag} {xs ys : List Item} {ls rs : Item} {n m : Nat}
    {res : Except Err State} (hnm : n ≤ m) (h : compareSlices c bl br n xs ls ys rs = some res) :
    compareSlices c bl br m xs ls ys rs = some res := by
  unfold compareSlices at h ⊢
  split
  · rename_i h1; rwa [if_pos h1] at h
  · rename_i h1
    rw [if_neg h1] at h
    simp only at h ⊢
    split at h
    · exact h
    · exact deepCompare_more hnm h

/-- No difference matters: all items of the slices agree. -/
theorem no_difference {ρ : Rules} {bl br : Bag} (hbl : BagOk bl) (hbr : BagOk br)
    {start : Nat → Pair → Pair → Prop} :
    (∀ D, ¬ Matters ρ bl br start D) ↔ ∀ i l r, start i l r → Agree ρ bl br l r := by
  constructor
  · intro h i l r hs
    refine ⟨Together ρ bl br start, ⟨?_, ?_, ?_, ?_⟩, ?_⟩
    · intro l r hT
      cases hT with
      | start _ h => exact h
      | part _ _ _ _ h => exact h
    · intro l r n p q hT hd h1 h2
      by_cases ha : ρ.alike p q
      · exact .inl (.part hT hd h1 h2 ha)
      · exact .inr ⟨ha, fun hb => h _ (.both hT hd h1 h2 ha hb)⟩
    · intro l r n p hT hd h1 h2 h3
      exact h _ (.left hT hd h1 h2 h3)
    · intro l r n p hT hd h1 h2 h3
      exact h _ (.right hT hd h1 h2 h3)
    · exact .start hs (Classical.byContradiction fun ha => h _ (.slice hs ha))
  · intro h
    have hall : ∀ l r, Together ρ bl br start l r → Agree ρ bl br l r := by
      intro l r hT
      induction hT with
      | start h1 _ => exact h _ _ _ h1
      | part _ h2 h3 h4 h5 ih =>
        obtain ⟨R, hR, hr⟩ := ih
        rcases hR.both _ _ _ _ _ hr h2 h3 h4 with h6 | ⟨h6, _⟩
        · exact ⟨R, hR, h6⟩
        · exact absurd h5 h6
    intro D hD
    cases hD with
    | slice h1 h2 =>
      obtain ⟨R, hR, hr⟩ := h _ _ _ h1
      exact h2 (hR.alike _ _ hr)
    | left h1 h2 h3 h4 h5 =>
      obtain ⟨R, hR, hr⟩ := hall _ _ h1
      exact hR.left _ _ _ _ hr h2 h3 h4 h5
    | right h1 h2 h3 h4 h5 =>
      obtain ⟨R, hR, hr⟩ := hall _ _ h1
      exact hR.right _ _ _ _ hr h2 h3 h4 h5
    | both h1 h2 h3 h4 h5 h6 =>
      obtain ⟨R, hR, hr⟩ := hall _ _ h1
      rcases hR.both _ _ _ _ _ hr h2 h3 h4 with h7 | ⟨_, h7⟩
      · exact h5 (hR.alike _ _ h7)
      · exact h7 h6

end Verif.Compare
