import Verif.EqualOp.Model
import Verif.Coalesce.Theorems

/-!
C101: `equal`.
-/

namespace Verif.EqualOp

open Verif.Coalesce

variable {T V : Type} [DecidableEq T]

/-- Some array of the pairs has equal values at an element. -/
def Hit (num : T → Bool) (eq : V → V → Bool) (a : T × List (Option V)) (r : List (T × List (Option V)))
    (j : Nat) : Prop :=
  ∃ b ∈ r, comparable num a.1 b.1 = true ∧ ∃ v w, a.2[j]? = some (some v) ∧ b.2[j]? = some (some w) ∧ eq v w = true

theorem sub_get (eq : V → V → Bool) (a b : List (Option V)) (j : Nat) :
    (subRes eq a b)[j]? = some true ↔ ∃ v w, a[j]? = some (some v) ∧ b[j]? = some (some w) ∧ eq v w = true := by
  unfold subRes
  rw [List.getElem?_zipWith]
  cases a[j]? with
  | none => simp
  | some x =>
    cases b[j]? with
    | none => simp
    | some y => cases x <;> cases y <;> simp

theorem sub_length (eq : V → V → Bool) {a b : List (Option V)} {n : Nat} (ha : a.length = n) (hb : b.length = n) :
    (subRes eq a b).length = n := by
  unfold subRes
  rw [List.length_zipWith, ha, hb, Nat.min_self]

theorem or_true {x y : List Bool} (h : x.length = y.length) (j : Nat) :
    (List.zipWith (fun x y => x || y) x y)[j]? = some true ↔ x[j]? = some true ∨ y[j]? = some true := by
  rw [List.getElem?_zipWith]
  by_cases hj : j < x.length
  · rw [List.getElem?_eq_getElem hj, List.getElem?_eq_getElem (by rw [← h]; exact hj)]
    simp
  · rw [List.getElem?_eq_none (l := x) (by omega), List.getElem?_eq_none (l := y) (by omega)]
    simp

theorem step_spec (num : T → Bool) (eq : V → V → Bool) {n : Nat} {a b : T × List (Option V)}
    (ha : a.2.length = n) (hb : b.2.length = n) {res : List Bool} (hr : res.length = n) :
    (step num eq a res b).length = n ∧
    ∀ j : Nat, (step num eq a res b)[j]? = some true ↔ res[j]? = some true ∨ Hit num eq a [b] j := by
  have hhit : ∀ j, Hit num eq a [b] j ↔
      comparable num a.1 b.1 = true ∧ (subRes eq a.2 b.2)[j]? = some true := by
    intro j
    rw [sub_get]
    constructor
    · rintro ⟨c, hc, h⟩
      rw [List.mem_singleton] at hc
      subst hc
      exact h
    · exact fun h => ⟨b, List.mem_singleton.2 rfl, h⟩
  have hsl := sub_length eq ha hb
  unfold step
  by_cases hc : comparable num a.1 b.1 = true
  · rw [if_pos hc]
    by_cases hz : res.countP id = 0
    · rw [if_pos hz]
      refine ⟨hsl, fun j => ?_⟩
      rw [hhit]
      constructor
      · exact fun h => .inr ⟨hc, h⟩
      · rintro (h | h)
        · exact (List.countP_eq_zero.1 hz true (List.mem_of_getElem? h) rfl).elim
        · exact h.2
    · rw [if_neg hz]
      refine ⟨by rw [List.length_zipWith, hr, hsl, Nat.min_self], fun j => ?_⟩
      rw [or_true (by rw [hr, hsl]), hhit]
      simp [hc]
  · rw [if_neg hc]
    refine ⟨hr, fun j => ?_⟩
    rw [hhit]
    simp [hc]

theorem inner_spec (num : T → Bool) (eq : V → V → Bool) {n : Nat} {a : T × List (Option V)}
    (ha : a.2.length = n) (r : List (T × List (Option V))) (hrl : ∀ b ∈ r, b.2.length = n) (res : List Bool)
    (hr : res.length = n) :
    (r.foldl (step num eq a) res).length = n ∧
    ∀ j : Nat, (r.foldl (step num eq a) res)[j]? = some true ↔ res[j]? = some true ∨ Hit num eq a r j := by
  induction r generalizing res with
  | nil =>
    refine ⟨hr, fun j => ⟨.inl, ?_⟩⟩
    rintro (h | ⟨b, hb, _⟩)
    · exact h
    · cases hb
  | cons b r ih =>
    obtain ⟨h1, h2⟩ := step_spec num eq ha (hrl b List.mem_cons_self) hr
    obtain ⟨h3, h4⟩ := ih (fun c hc => hrl c (List.mem_cons_of_mem _ hc)) _ h1
    rw [List.foldl_cons]
    refine ⟨h3, fun j => ?_⟩
    rw [h4 j, h2 j, or_assoc]
    refine or_congr Iff.rfl ⟨?_, ?_⟩
    · rintro (⟨c, hc, h⟩ | ⟨c, hc, h⟩)
      · rw [List.mem_singleton] at hc
        exact ⟨c, by rw [hc]; exact List.mem_cons_self, h⟩
      · exact ⟨c, List.mem_cons_of_mem _ hc, h⟩
    · rintro ⟨c, hc, h⟩
      rcases List.mem_cons.1 hc with hc | hc
      · exact .inl ⟨c, List.mem_singleton.2 hc, h⟩
      · exact .inr ⟨c, hc, h⟩

theorem outer_spec (num : T → Bool) (eq : V → V → Bool) {n : Nat} (l r : List (T × List (Option V)))
    (hll : ∀ a ∈ l, a.2.length = n) (hrl : ∀ b ∈ r, b.2.length = n) (res : List Bool) (hr : res.length = n) :
    (l.foldl (fun res a => r.foldl (step num eq a) res) res).length = n ∧
    ∀ j : Nat, (l.foldl (fun res a => r.foldl (step num eq a) res) res)[j]? = some true ↔
      res[j]? = some true ∨ ∃ a ∈ l, Hit num eq a r j := by
  induction l generalizing res with
  | nil =>
    refine ⟨hr, fun j => ⟨.inl, ?_⟩⟩
    rintro (h | ⟨b, hb, _⟩)
    · exact h
    · cases hb
  | cons a l ih =>
    obtain ⟨h1, h2⟩ := inner_spec num eq (hll a List.mem_cons_self) r hrl res hr
    obtain ⟨h3, h4⟩ := ih (fun c hc => hll c (List.mem_cons_of_mem _ hc)) _ h1
    rw [List.foldl_cons]
    refine ⟨h3, fun j => ?_⟩
    rw [h4 j, h2 j, or_assoc]
    refine or_congr Iff.rfl ⟨?_, ?_⟩
    · rintro (h | ⟨c, hc, h⟩)
      · exact ⟨a, List.mem_cons_self, h⟩
      · exact ⟨c, List.mem_cons_of_mem _ hc, h⟩
    · rintro ⟨c, hc, h⟩
      rcases List.mem_cons.1 hc with rfl | hc
      · exact .inl h
      · exact .inr ⟨c, hc, h⟩

theorem item_iff (tyOf : V → T) (num : T → Bool) (eq : V → V → Bool) (x y : Option V) :
    itemEqual tyOf num eq x y = true ↔ ∃ v w, x = some v ∧ y = some w ∧
      (tyOf v = tyOf w ∨ (num (tyOf v) = true ∧ num (tyOf w) = true)) ∧ eq v w = true := by
  cases x with
  | none => simp [itemEqual]
  | some v =>
    cases y with
    | none => simp [itemEqual]
    | some w => simp [itemEqual, comparable]

/-- **C101**: `equal` of slices of the same size, with whatever types on both sides, is `equal` of the items at
each element; other sizes are an error. -/
theorem C101_equal {tyOf : V → T} (num : T → Bool) (eq : V → V → Bool) {l r : DS T V} (hl : Ok tyOf l)
    (hr : Ok tyOf r) :
    (l.size = r.size → ∃ m, sliceEqual num eq l r = some m ∧ m.length = l.size ∧
      ∀ j : Nat, m[j]? = some true ↔ itemEqual tyOf num eq (get l.values j) (get r.values j) = true) ∧
    (l.size ≠ r.size → sliceEqual num eq l r = none) := by
  unfold sliceEqual
  refine ⟨fun hs => ?_, fun hs => by rw [if_pos hs]⟩
  rw [if_neg (fun h => h hs)]
  have hrep : ∀ j : Nat, ¬ (List.replicate l.size false)[j]? = some true := by
    intro j h
    cases List.eq_of_mem_replicate (List.mem_of_getElem? h)
  have hitem : ∀ j, itemEqual tyOf num eq (get l.values j) (get r.values j) = true ↔
      ∃ a ∈ l.values, Hit num eq a r.values j := by
    intro j
    rw [item_iff]
    constructor
    · rintro ⟨v, w, hv, hw, hc, he⟩
      obtain ⟨a, ha, h1⟩ := get_has hv
      obtain ⟨b, hb, h2⟩ := get_has hw
      refine ⟨a, ha, b, hb, ?_, v, w, h1, h2, he⟩
      rw [hl.typed a ha j v h1, hr.typed b hb j w h2] at hc
      simpa [comparable] using hc
    · rintro ⟨a, ha, b, hb, hc, v, w, h1, h2, he⟩
      refine ⟨v, w, (get_iff hl).2 ⟨a, ha, h1⟩, (get_iff hr).2 ⟨b, hb, h2⟩, ?_, he⟩
      rw [hl.typed a ha j v h1, hr.typed b hb j w h2]
      simpa [comparable] using hc
  by_cases he : (r.values.isEmpty || l.values.isEmpty) = true
  · rw [if_pos he]
    refine ⟨_, rfl, List.length_replicate, fun j => ?_⟩
    rw [hitem]
    refine ⟨fun h => (hrep j h).elim, ?_⟩
    rintro ⟨a, ha, b, hb, _⟩
    rw [Bool.or_eq_true, List.isEmpty_iff, List.isEmpty_iff] at he
    rcases he with he | he
    · rw [he] at hb; cases hb
    · rw [he] at ha; cases ha
  · rw [if_neg he]
    obtain ⟨h1, h2⟩ := outer_spec num eq (n := l.size) l.values r.values hl.len
      (fun b hb => by rw [hs]; exact hr.len b hb) (List.replicate l.size false) List.length_replicate
    refine ⟨_, rfl, h1, fun j => ?_⟩
    rw [h2 j, hitem]
    exact ⟨fun h => h.resolve_left (hrep j), .inr⟩

/-- **C101**, items: equal are only values that are present, of the same type or both numeric, and the same. -/
theorem C101_items (tyOf : V → T) (num : T → Bool) (eq : V → V → Bool) (x y : Option V) :
    itemEqual tyOf num eq x y = true ↔ ∃ v w, x = some v ∧ y = some w ∧
      (tyOf v = tyOf w ∨ (num (tyOf v) = true ∧ num (tyOf w) = true)) ∧ eq v w = true :=
  item_iff tyOf num eq x y

/-- **C101**, the order of the arguments does not matter, if it does not for values. -/
theorem C101_symm {tyOf : V → T} (num : T → Bool) {eq : V → V → Bool} (hsym : ∀ v w, eq v w = eq w v)
    {l r : DS T V} (hl : Ok tyOf l) (hr : Ok tyOf r) : sliceEqual num eq l r = sliceEqual num eq r l := by
  by_cases hs : l.size = r.size
  · obtain ⟨m, h1, h2, h3⟩ := (C101_equal num eq hl hr).1 hs
    obtain ⟨m', h4, h5, h6⟩ := (C101_equal num eq hr hl).1 hs.symm
    rw [h1, h4]
    congr 1
    have hiff : ∀ j : Nat, m[j]? = some true ↔ m'[j]? = some true := by
      intro j
      rw [h3 j, h6 j, item_iff, item_iff]
      constructor <;>
      · rintro ⟨v, w, e1, e2, e3, e4⟩
        exact ⟨w, v, e2, e1, e3.imp Eq.symm And.symm, by rw [hsym]; exact e4⟩
    apply List.ext_getElem (by omega)
    intro j hj hj'
    have := hiff j
    rw [List.getElem?_eq_getElem hj, List.getElem?_eq_getElem hj'] at this
    rw [Option.some.injEq, Option.some.injEq] at this
    exact Bool.eq_iff_iff.2 this
  · rw [(C101_equal num eq hl hr).2 hs, (C101_equal num eq hr hl).2 (Ne.symm hs)]

/-- Example types: two numeric ones and one that is not. -/
inductive ExT where
  | int
  | float
  | text
deriving DecidableEq

/-- Numeric types. -/
def exNum : ExT → Bool
  | .text => false
  | _ => true

/-- Values are a type and a number. -/
def exL : DS ExT (ExT × Nat) :=
  { size := 4, values := [(.int, [some (.int, 1), none, some (.int, 3), none]), (.text, [none, some (.text, 2), none, none])] }

/-- The other side. -/
def exR : DS ExT (ExT × Nat) :=
  { size := 4, values := [(.text, [none, some (.text, 2), some (.text, 3), none]), (.float, [some (.float, 1), none, none, some (.float, 4)])] }

example : Ok Prod.fst exL := by
  refine ⟨by decide, by decide, ?_, ?_⟩
  · intro a ha j v h
    simp only [exL, List.mem_cons, List.not_mem_nil, or_false] at ha
    rcases ha with rfl | rfl <;> rcases j with _ | _ | _ | _ | j <;> simp at h <;> subst h <;> rfl
  · rintro j v w ⟨a, ha, h⟩ ⟨b, hb, h'⟩
    simp only [exL, List.mem_cons, List.not_mem_nil, or_false] at ha hb
    rcases ha with rfl | rfl <;> rcases hb with rfl | rfl <;> rcases j with _ | _ | _ | _ | j <;>
      simp at h h' <;> rw [← h, ← h']

example : sliceEqual exNum (fun v w => v.2 == w.2) exL exR = some [true, true, false, false] := rfl

end Verif.EqualOp
