import Verif.View.FlattenLemmas

/-! C20: `implode`, `explode` and `flatten` regroup dimensions without changing items. -/
namespace Verif.View

set_option linter.unusedSectionVars false

variable {A E : Type}

/-- `implode` only changes the depth: a negative number implodes everything, too large a
number raises. -/
theorem C20_implode (v : View A) (n : Int) :
    (n < 0 → implode (E := E) v n = .ok ⟨v.obj, 0⟩) ∧
    (∀ k : Nat, n = k → k ≤ v.depth → implode (E := E) v n = .ok ⟨v.obj, v.depth - k⟩) ∧
    (n > v.depth → implode (E := E) v n = .error .valueError) := by
  refine ⟨?_, ?_, ?_⟩
  · intro h; simp [implode, h]
  · rintro k rfl hk
    unfold implode
    rw [if_neg (by omega), if_pos (by omega)]
    simp
  · intro h
    unfold implode
    rw [if_neg (by omega), if_neg (by omega)]

/-- Exploding as many dimensions as were imploded gives the view back. -/
theorem C20_explode_undoes_implode (iterAtom : A → Option (List (Obj A))) (v : View A) (hv : v.Wf)
    (n : Nat) (hn : n ≤ v.depth) (h : Heap A) :
    ∃ w, implode (E := E) v n = .ok w ∧ explode (E := E) iterAtom w n h = .ok (v, h) := by
  refine ⟨⟨v.obj, v.depth - n⟩, (C20_implode v n).2.1 n rfl hn, ?_⟩
  have gen : ∀ (k d : Nat), d + k = v.depth →
      explodeLoop (E := E) iterAtom k ⟨v.obj, d⟩ h = .ok (v, h) := by
    intro k
    induction k with
    | zero =>
      intro d hd
      simp only [explodeLoop]
      rw [show d = v.depth by omega]
    | succ k ih =>
      intro d hd
      have hnest : Nested (d + 1) v.obj := nested_le (by omega) hv
      obtain ⟨r, h1, h2, h3, h4, h5⟩ := explode_one (E := E) iterAtom ⟨v.obj, d⟩
        (nested_le (Nat.le_succ d) hnest) h (fun x => (iterate iterAtom h x).getD []) (by
          intro x hx
          obtain ⟨xs, rfl, _⟩ := nested_leaves hnest x hx
          rfl)
      have hr : r = ⟨v.obj, d + 1⟩ := by
        have : r.obj = v.obj := by
          apply shapeEq_ext h4
          rw [h5]
          conv => rhs; rw [← List.map_id (leaves d v.obj)]
          apply List.map_congr_left
          intro x hx
          obtain ⟨xs, rfl, _⟩ := nested_leaves hnest x hx
          rfl
        cases r
        simp only at this h2
        subst this; subst h2; rfl
      rw [show k + 1 = 1 + k by omega, explodeLoop_add]
      have h1' : explodeLoop (E := E) iterAtom 1 ⟨v.obj, d⟩ h = .ok (r, h) := by
        simpa [explode] using h1
      rw [h1', hr]
      exact ih (d + 1) (by omega)
  have := gen n (v.depth - n) (by omega)
  simp [explode, this]

/-- `explode()` replaces every item by its iterated items: the new view has an item at
`p ++ [i]` for each of them, none below a missing item. It raises if an item cannot be
iterated over. -/
theorem C20_explode (iterAtom : A → Option (List (Obj A))) (v : View A) (hv : v.Wf) (h : Heap A) :
    ((∀ p x, p.length = v.depth → v.obj.at? p = some x → iterate iterAtom h x ≠ none) →
      ∃ r, explode (E := E) iterAtom v 1 h = .ok (r, h) ∧ r.depth = v.depth + 1 ∧ r.Wf ∧
        ShapeEq v.depth r.obj v.obj ∧
        ∀ p x xs, p.length = v.depth → v.obj.at? p = some x → iterate iterAtom h x = some xs →
          r.obj.at? p = some (.tup xs)) ∧
    (∀ p x, p.length = v.depth → v.obj.at? p = some x → iterate iterAtom h x = none →
      explode (E := E) iterAtom v 1 h = .error .typeError) := by
  have hmem : ∀ x ∈ leaves v.depth v.obj, ∃ p, p.length = v.depth ∧ v.obj.at? p = some x := by
    intro x hx
    obtain ⟨j, hj⟩ := List.mem_iff_getElem?.1 hx
    have hlt := (List.getElem?_eq_some_iff.1 hj).1
    have hp := List.getElem?_eq_getElem (l := positions v.depth v.obj) (i := j)
      (by rw [length_positions hv]; exact hlt)
    refine ⟨_, ((mem_positions hv _).1 (List.mem_of_getElem? hp)).1, ?_⟩
    rw [at?_of_index hv hp, hj]
  constructor
  · intro hall
    obtain ⟨r, h1, h2, h3, h4, h5⟩ := explode_one (E := E) iterAtom v hv h
      (fun x => (iterate iterAtom h x).getD []) (by
        intro x hx
        obtain ⟨p, hp, hpx⟩ := hmem x hx
        cases hi : iterate iterAtom h x with
        | none => exact absurd hi (hall p x hp hpx)
        | some xs => rfl)
    refine ⟨r, h1, h2, h3, h4, ?_⟩
    intro p x xs hp hx hi
    rw [shapeEq_at h4 _ h5 p hp x hx, hi]
    rfl
  · intro p x hp hx hi
    have hm := (mem_positions hv p).2 ⟨hp, x, hx⟩
    obtain ⟨j, hj⟩ := List.mem_iff_getElem?.1 hm
    have := at?_of_index hv hj
    rw [hx] at this
    exact explode_fails iterAtom v hv h (List.mem_of_getElem? this.symm) hi

/-- Exploding `m + n` dimensions is exploding `m` and then `n`; `explode(0)` does nothing;
a negative number raises. -/
theorem C20_explode_steps (iterAtom : A → Option (List (Obj A))) (v : View A) (h : Heap A) :
    explode (E := E) iterAtom v 0 h = .ok (v, h) ∧
    (∀ n : Int, n < 0 → explode (E := E) iterAtom v n h = .error .valueError) ∧
    (∀ (m n : Nat) w h', explode (E := E) iterAtom v m h = .ok (w, h') →
      explode (E := E) iterAtom v ((m + n : Nat) : Int) h = explode iterAtom w n h') ∧
    (∀ (m n : Nat) e, explode (E := E) iterAtom v m h = .error e →
      explode (E := E) iterAtom v ((m + n : Nat) : Int) h = .error e) := by
  refine ⟨rfl, ?_, ?_, ?_⟩
  · intro n hn; simp [explode, hn]
  · intro m n w h' hm
    simp only [explode, show ¬ ((m : Int) < 0) by omega, show ¬ ((n : Int) < 0) by omega,
      show ¬ (((m + n : Nat) : Int) < 0) by omega, if_false, Int.toNat_natCast] at hm ⊢
    rw [explodeLoop_add, hm]
  · intro m n e hm
    simp only [explode, show ¬ ((m : Int) < 0) by omega,
      show ¬ (((m + n : Nat) : Int) < 0) by omega, if_false, Int.toNat_natCast] at hm ⊢
    rw [explodeLoop_add, hm]

/-- `flatten(from_dim, to_dim)` always succeeds. With the dimensions `f` and `t` that the
arguments mean (as in a python slice), it replaces every object at depth `f` by the tuple
of the objects `t - f` dimensions below it, in their order. (For `t = f` that is a new
dimension of size 1.) All items stay, in order. Lists that existed before stay as they
are. -/
theorem C20_flatten (iterAtom : A → Option (List (Obj A))) (v : View A) (hv : v.Wf)
    (fromDim : Int) (toDim : Option Int) (h : Heap A) (f t : Nat)
    (hf0 : 0 ≤ fromDim → (f : Int) = min fromDim v.depth)
    (hf1 : fromDim < 0 → (f : Int) = max 0 (v.depth + fromDim))
    (ht : toDim = none → t = v.depth)
    (ht0 : ∀ x, toDim = some x → 0 ≤ x → (t : Int) = max (f : Int) (min x v.depth))
    (ht1 : ∀ x, toDim = some x → x < 0 → (t : Int) = max (f : Int) (v.depth + x)) :
    ∃ r new, flatten (E := E) iterAtom v fromDim toDim h = .ok (r, h ++ new) ∧
      r.depth = v.depth - (t - f) + 1 ∧ r.Wf ∧ ShapeEq f r.obj v.obj ∧
      (∀ p x, p.length = f → v.obj.at? p = some x →
        r.obj.at? p = some (.tup (leaves (t - f) x))) ∧
      leaves r.depth r.obj = leaves v.depth v.obj := by
  have hf : clampFrom v.depth fromDim = f := by
    unfold clampFrom
    simp only
    split
    · have := hf1 (by assumption); omega
    · have := hf0 (by omega); omega
  have hfd : f ≤ v.depth := by
    by_cases h0 : 0 ≤ fromDim
    · have := hf0 h0; omega
    · have := hf1 (by omega); omega
  have htc : clampTo v.depth f toDim = t := by
    unfold clampTo
    cases toDim with
    | none => simp [ht rfl]
    | some x =>
      simp only
      split
      · have := ht1 x rfl (by assumption); omega
      · have := ht0 x rfl (by omega); omega
  have hft : f ≤ t ∧ t ≤ v.depth := by
    cases toDim with
    | none => rw [ht rfl]; omega
    | some x =>
      by_cases h0 : 0 ≤ x
      · have := ht0 x rfl h0; omega
      · have := ht1 x rfl (by omega); omega
  obtain ⟨r, new, h1, h2, h3, h4⟩ :=
    flatten_spec (E := E) iterAtom v hv fromDim toDim h f t hf htc hft.1 hft.2
  have hd : v.depth = f + ((t - f) + (v.depth - t)) := by omega
  have hnest : ∀ x ∈ leaves f v.obj, Nested ((t - f) + (v.depth - t)) x :=
    nested_leaves (by rw [← hd]; exact hv)
  have hrd : r.depth = f + (1 + (v.depth - t)) := by omega
  refine ⟨r, new, h1, h2, ?_, h3, fun p x hp hx => ?_, ?_⟩
  · unfold View.Wf
    rw [hrd]
    apply explode_one.nested_of_leaves (shapeEq_nested h3)
    rw [h4]
    intro x hx
    obtain ⟨y, hy, rfl⟩ := List.mem_map.1 hx
    rw [show 1 + (v.depth - t) = (v.depth - t) + 1 by omega]
    refine ⟨_, rfl, fun z hz => ?_⟩
    exact nested_leaves (hnest y hy) z hz
  · exact shapeEq_at h3 _ h4 p hp x hx
  · rw [hrd, leaves_leaves, h4]
    conv => rhs; rw [hd, leaves_leaves]
    rw [List.flatMap_map]
    apply flatMap_congr'
    intro x _
    rw [show 1 + (v.depth - t) = (v.depth - t) + 1 by omega, leaves_leaves (n := t - f)]
    rfl

/-! ### Examples -/

/-- `[[1, 2], [], [3]]`. -/
def sample : View Nat := ⟨.tup [.tup [.atom 1, .atom 2], .tup [], .tup [.atom 3]], 2⟩

theorem sample_wf : sample.Wf := by
  simp [View.Wf, sample, Nested]

example : (flatten (E := Unit) (fun _ => none) sample 0 none []).toOption.map (·.1) =
    some ⟨.tup [.atom 1, .atom 2, .atom 3], 1⟩ := rfl

example : (flatten (E := Unit) (fun _ => none) sample (-1) (some 1) []).toOption.map (·.1) =
    some ⟨.tup [.tup [.tup [.atom 1, .atom 2]], .tup [.tup []], .tup [.tup [.atom 3]]], 3⟩ := rfl

example : (explode (E := Unit) (fun _ => none) ⟨.tup [.ref 0, .none], 1⟩ 1
    [[.atom 1, .atom 2]]).toOption.map (·.1) =
    some ⟨.tup [.tup [.atom 1, .atom 2], .tup []], 2⟩ := rfl

end Verif.View
