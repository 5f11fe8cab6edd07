import Verif.SliceOps.Spec

/-! Lemmas on parts of lists and on nesting. -/

namespace Verif.SliceOps

variable {α β γ : Type}

theorem chop_eq (e : Edge) (l : List α) : chop e l = parts e l := by
  induction e generalizing l with
  | nil => rfl
  | cons n ns ih => simp [chop, parts, ih]

theorem parts_length (e : List Nat) (l : List α) : (parts e l).length = e.length := by
  induction e generalizing l with
  | nil => rfl
  | cons n ns ih => simp [parts, ih]

theorem parts_map (f : α → β) (e : List Nat) (l : List α) :
    parts e (l.map f) = (parts e l).map (List.map f) := by
  induction e generalizing l with
  | nil => rfl
  | cons n ns ih => simp [parts, ← ih, List.map_take, List.map_drop]

theorem parts_zipWith (f : α → β → γ) (e : List Nat) (l : List α) (k : List β) :
    parts e (List.zipWith f l k) = List.zipWith (List.zipWith f) (parts e l) (parts e k) := by
  induction e generalizing l k with
  | nil => rfl
  | cons n ns ih => simp [parts, ← ih, List.take_zipWith, List.drop_zipWith]

theorem parts_flatten (e : List Nat) (l : List α) (h : l.length = e.sum) : (parts e l).flatten = l := by
  induction e generalizing l with
  | nil => simp at h; simp [parts, h]
  | cons n ns ih =>
    simp at h
    rw [parts, List.flatten_cons, ih _ (by simp; omega), List.take_append_drop]

theorem parts_of_flatten (ls : List (List α)) : parts (ls.map List.length) ls.flatten = ls := by
  induction ls with
  | nil => rfl
  | cons l ls ih => simp [parts, ih]

theorem parts_lengths (e : List Nat) (l : List α) (h : l.length = e.sum) :
    (parts e l).map List.length = e := by
  induction e generalizing l with
  | nil => rfl
  | cons n ns ih =>
    simp at h
    rw [parts, List.map_cons, ih _ (by simp; omega)]
    simp; omega

theorem parts_inj {e f : List Nat} {l k : List α} (hl : l.length = e.sum) (hk : k.length = f.sum)
    (h : parts e l = parts f k) : e = f ∧ l = k := by
  have he := parts_lengths e l hl
  have hf := parts_lengths f k hk
  refine ⟨by rw [← he, ← hf, h], ?_⟩
  rw [← parts_flatten e l hl, ← parts_flatten f k hk, h]

/-! ### shapes -/

theorem Fits.append {n m : Nat} {U V : List Edge} :
    Fits n (U ++ V) m ↔ ∃ k, Fits n U k ∧ Fits k V m := by
  induction U generalizing n with
  | nil => simp [Fits]
  | cons e U ih => simp only [List.cons_append, Fits, ih]; grind

theorem Fits.unique {n k m : Nat} {es : List Edge} (h : Fits n es k) (h' : Fits n es m) : k = m := by
  induction es generalizing n with
  | nil => simp [Fits] at h h'; omega
  | cons e es ih => exact ih h.2 h'.2

theorem shapeOk_of {n m : Nat} {es : List Edge} (h : Fits n es m) : shapeOk n es = true := by
  induction es generalizing n with
  | nil => rfl
  | cons e es ih => simp [shapeOk, h.1, ih h.2]

/-- The number of items of a shape. -/
def shapeSize : Nat → List Edge → Nat
  | n, [] => n
  | _, e :: es => shapeSize e.sum es

theorem shapeOk_fits {n : Nat} {es : List Edge} (h : shapeOk n es = true) :
    Fits n es (shapeSize n es) := by
  induction es generalizing n with
  | nil => rfl
  | cons e es ih =>
    simp [shapeOk] at h
    exact ⟨h.1, ih h.2⟩

theorem nest_append (U V : List Edge) (Y : List (Tree α)) :
    nest (U ++ V) Y = nest U (nest V Y) := by
  induction U with
  | nil => rfl
  | cons e U ih => simp [nest, ih]

theorem nest_length {n : Nat} {es : List Edge} {Y : List (Tree α)} (h : Fits n es Y.length) :
    (nest es Y).length = n := by
  cases es with
  | nil => exact h.symm
  | cons e es => simp [nest, parts_length, h.1]

theorem nest_map (U : List Edge) (f : Tree α → Tree β) (Y : List (Tree α)) :
    (nest U Y).map (mapAt U.length f) = nest U (Y.map f) := by
  induction U with
  | nil =>
    have : mapAt 0 f = f := by funext t; simp [mapAt]
    simp [nest, this]
  | cons e U ih =>
    simp only [nest, ← ih, parts_map, List.map_map]
    apply List.map_congr_left
    intro l _
    simp [mapAt]

theorem nest_zip (U : List Edge) (f : Tree α → Tree β → Tree γ) (Y : List (Tree α))
    (Z : List (Tree β)) :
    List.zipWith (zipAt U.length f) (nest U Y) (nest U Z) = nest U (List.zipWith f Y Z) := by
  induction U with
  | nil =>
    have : zipAt 0 f = f := by funext t u; simp [zipAt]
    simp [nest, this]
  | cons e U ih =>
    simp only [nest, ← ih, parts_zipWith, List.zipWith_map, List.map_zipWith]
    congr 1

theorem nest_inj {n : Nat} {es fs : List Edge} {X Y : List (Tree α)} (hr : es.length = fs.length)
    (hX : Fits n es X.length) (hY : Fits n fs Y.length) (h : nest es X = nest fs Y) :
    es = fs ∧ X = Y := by
  induction es generalizing n fs with
  | nil =>
    cases fs with
    | nil => exact ⟨rfl, h⟩
    | cons f fs => simp at hr
  | cons e es ih =>
    cases fs with
    | nil => simp at hr
    | cons f fs =>
      simp only [nest] at h
      have h := List.map_inj_right (f := Tree.node) (fun a b hab => by cases hab; rfl) |>.mp h
      obtain ⟨rfl, h1⟩ := parts_inj (nest_length hX.2) (nest_length hY.2) h
      obtain ⟨rfl, h2⟩ := ih (by simpa using hr) hX.2 hY.2 h1
      exact ⟨rfl, h2⟩

theorem nest_view {s : Slice α} (h : Wf s) : nest s.edges (s.items.map .leaf) = [view s] := by
  have hl : (nest s.edges (s.items.map Tree.leaf)).length = 1 := nest_length (by simpa [Wf] using h)
  unfold view
  match hn : nest s.edges (s.items.map Tree.leaf), hl with
  | [t], _ => rfl

theorem view_of {s : Slice α} {t : Tree α} (h : nest s.edges (s.items.map .leaf) = [t]) :
    view s = t := by
  simp [view, h]

theorem leaf_inj : Function.Injective (Tree.leaf : Option α → Tree α) := by
  intro a b h; cases h; rfl

end Verif.SliceOps
