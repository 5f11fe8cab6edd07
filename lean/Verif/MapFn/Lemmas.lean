import Verif.MapFn.Spec
import Verif.SliceOps.Theorems

/-! Lemmas for the theorems about `kd.functor.map`. -/

namespace Verif.MapFn

open Verif.SliceOps (Edge Slice Compatible Wf Fits view zipAt spread alignAll C78_align)

variable {α S C R R' : Type}

theorem itemAt_eq (s : Slice α) (i : Nat) : itemAt s i = leafAt s i := by
  unfold itemAt leafAt
  rw [List.getD_eq_getElem?_getD]
  cases s.items[i]? <;> rfl

theorem someMissing_iff (inc : Bool) (args : List (Datum α S)) :
    someMissing inc args = true ↔ inc = false ∧ ∃ a ∈ args, a.1 = none := by
  induction args with
  | nil => simp [someMissing]
  | cons a args ih =>
    unfold someMissing
    cases inc with
    | true => simpa using ih
    | false =>
      obtain ⟨x, s⟩ := a
      cases x with
      | none => simp
      | some x => simpa using ih

theorem Done.nil (P : Nat → List (Call α S) → Except Err R → Prop) : Done P 0 [] [] :=
  ⟨rfl, [], rfl, rfl, by simp⟩

theorem Done.cons {P : Nat → List (Call α S) → Except Err R → Prop} {n : Nat} {c cs : List (Call α S)}
    {r : R} {rs : List R} (h : P 0 c (.ok r)) (hd : Done (fun j => P (j + 1)) n cs rs) :
    Done P (n + 1) (c ++ cs) (r :: rs) := by
  obtain ⟨h1, l, h2, h3, h4⟩ := hd
  refine ⟨by simp [h1], c :: l, by simp [h2], by simp [h3], ?_⟩
  intro i c' r' hc hr
  cases i with
  | zero =>
    simp only [List.getElem?_cons_zero, Option.some.injEq] at hc hr
    subst hc hr
    exact h
  | succ i =>
    simp only [List.getElem?_cons_succ] at hc hr
    exact h4 i c' r' hc hr

theorem Stopped.here {P : Nat → List (Call α S) → Except Err R → Prop} {n : Nat}
    {c : List (Call α S)} {e : Err} (h : P 0 c (.error e)) : Stopped P (n + 1) c e :=
  ⟨0, by omega, [], [], c, Done.nil P, h, rfl⟩

theorem Stopped.later {P : Nat → List (Call α S) → Except Err R → Prop} {n : Nat}
    {c cs : List (Call α S)} {r : R} {e : Err} (h : P 0 c (.ok r))
    (hs : Stopped (fun j => P (j + 1)) n cs e) : Stopped P (n + 1) (c ++ cs) e := by
  obtain ⟨k, hk, b, rs, c', hd, he, rfl⟩ := hs
  exact ⟨k + 1, by omega, c ++ b, r :: rs, c', hd.cons h, he, by simp⟩

/-- A callback that does `P` and keeps `post` of what it gave. -/
def Does (P : Option α → List (Datum α S) → List (Call α S) → Except Err R → Prop)
    (post : R → List R')
    (cb : Option α → List (Datum α S) → Acc α S R' → Acc α S R' × Option Err) : Prop :=
  ∀ fn args st,
    (∃ c r, P fn args c (.ok r) ∧ cb fn args st = (⟨st.results ++ post r, st.calls ++ c⟩, none)) ∨
    (∃ c e, P fn args c (.error e) ∧ cb fn args st = (⟨st.results, st.calls ++ c⟩, some e))

theorem eachItem_spec {P : Option α → List (Datum α S) → List (Call α S) → Except Err R → Prop}
    {post : R → List R'}
    {cb : Option α → List (Datum α S) → Acc α S R' → Acc α S R' × Option Err} (hcb : Does P post cb)
    (fns : Slice α) (args : List (Slice α × S)) (n i : Nat) (st : Acc α S R') :
    (∃ calls rs, Done (fun j => P (itemAt fns (i + j)) (args.map fun a => (itemAt a.1 (i + j), a.2)))
        n calls rs ∧
      eachItem cb fns args n i st = (⟨st.results ++ rs.flatMap post, st.calls ++ calls⟩, none)) ∨
    (∃ calls rs e,
      Stopped (fun j => P (itemAt fns (i + j)) (args.map fun a => (itemAt a.1 (i + j), a.2)))
        n calls e ∧
      eachItem cb fns args n i st = (⟨rs, st.calls ++ calls⟩, some e)) := by
  induction n generalizing i st with
  | zero => exact .inl ⟨[], [], Done.nil _, by simp [eachItem]⟩
  | succ n ih =>
    unfold eachItem
    rcases hcb (itemAt fns i) (args.map fun a => (itemAt a.1 i, a.2)) st with
      ⟨c, r, hp, he⟩ | ⟨c, e, hp, he⟩
    · rw [he]
      simp only
      have hshift : ∀ j, i + 1 + j = i + (j + 1) := by omega
      rcases ih (i + 1) ⟨st.results ++ post r, st.calls ++ c⟩ with ⟨cs, rs, hd, h⟩ | ⟨cs, rs, e, hs, h⟩
      · refine .inl ⟨c ++ cs, r :: rs, Done.cons hp ?_, ?_⟩
        · simpa only [hshift] using hd
        · rw [h]
          simp
      · refine .inr ⟨c ++ cs, rs, e, Stopped.later hp ?_, ?_⟩
        · simpa only [hshift] using hs
        · rw [h]
          simp
    · rw [he]
      exact .inr ⟨c, st.results, e, Stopped.here hp, rfl⟩

theorem forEachAligned_spec {P : Option α → List (Datum α S) → List (Call α S) → Except Err R → Prop}
    {post : R → List R'}
    {cb : Option α → List (Datum α S) → Acc α S R' → Acc α S R' × Option Err} (hcb : Does P post cb)
    (functors : Slice α) (args : List (Slice α × S))
    (hw : ∀ s ∈ args.map Prod.fst ++ [functors], Wf s) :
    ((∀ s ∈ args.map Prod.fst ++ [functors], ∀ t ∈ args.map Prod.fst ++ [functors],
        Compatible s.edges t.edges) →
      ∃ x ts fns, Aligned (args.map Prod.fst ++ [functors]) x (ts ++ [fns]) ∧
        ((∃ calls rs, Done (fun i => P (leafAt fns i)
            (List.zipWith (fun t a => (leafAt t i, a.2)) ts args)) x.items.length calls rs ∧
          forEachAligned functors args cb ⟨[], []⟩ = (⟨rs.flatMap post, calls⟩, .ok x.edges)) ∨
        (∃ calls rs e, Stopped (fun i => P (leafAt fns i)
            (List.zipWith (fun t a => (leafAt t i, a.2)) ts args)) x.items.length calls e ∧
          forEachAligned functors args cb ⟨[], []⟩ = (⟨rs, calls⟩, .error e)))) ∧
    (¬ (∀ s ∈ args.map Prod.fst ++ [functors], ∀ t ∈ args.map Prod.fst ++ [functors],
        Compatible s.edges t.edges) →
      forEachAligned functors args cb ⟨[], []⟩ = (⟨[], []⟩, .error .broadcast)) := by
  obtain ⟨h1, h2, _⟩ := C78_align _ hw
  refine ⟨?_, ?_⟩
  · intro hc
    obtain ⟨x, hx, hdeep, l, hl, hshape, hviews⟩ := h1 hc (by simp)
    have hne : l ≠ [] := by
      intro hn
      subst hn
      simp at hviews
    obtain ⟨ts, fns, rfl⟩ : ∃ ts fns, l = ts ++ [fns] :=
      ⟨l.dropLast, l.getLast hne, (List.dropLast_concat_getLast hne).symm⟩
    refine ⟨x, ts, fns, ⟨hx, hdeep, hshape, hviews⟩, ?_⟩
    obtain ⟨hfw, hfe⟩ := hshape fns (by simp)
    have hlen : fns.items.length = x.items.length := by
      have hxw := hw x hx
      unfold Wf at hfw hxw
      rw [hfe] at hfw
      exact Fits.unique hfw hxw
    have hargs : ∀ j, ((ts.zip (args.map Prod.snd)).map fun a => (leafAt a.1 j, a.2)) =
        List.zipWith (fun t (a : Slice α × S) => (leafAt t j, a.2)) ts args := by
      intro j
      rw [List.zip_eq_zipWith, List.map_zipWith, List.zipWith_map_right]
    have hrun : forEachAligned functors args cb ⟨[], []⟩ =
        match eachItem cb fns (ts.zip (args.map Prod.snd)) x.items.length 0 ⟨[], []⟩ with
        | (st, some e) => (st, .error e)
        | (st, none) => (st, .ok x.edges) := by
      unfold forEachAligned
      rw [hl]
      simp only [List.getLast?_append, List.getLast?_singleton, Option.some_or, List.dropLast_concat]
      by_cases hr : fns.rank = 0
      · rw [if_pos hr]
        have h1 : x.items.length = 1 := by
          unfold Slice.rank at hr
          have h0 : fns.edges = [] := List.eq_nil_of_length_eq_zero hr
          unfold Wf at hfw
          rw [h0] at hfw
          have : 1 = fns.items.length := hfw
          omega
        rw [h1]
        unfold eachItem
        generalize cb (itemAt fns 0)
          ((ts.zip (args.map Prod.snd)).map fun a => (itemAt a.1 0, a.2)) ⟨[], []⟩ = q
        obtain ⟨st, o⟩ := q
        cases o with
        | some e => rfl
        | none => simp [eachItem, hfe]
      · rw [if_neg hr, hlen, hfe]
        generalize eachItem cb fns (ts.zip (args.map Prod.snd)) x.items.length 0 ⟨[], []⟩ = q
        obtain ⟨st, o⟩ := q
        cases o <;> (try rfl)
    rw [hrun]
    rcases eachItem_spec hcb fns (ts.zip (args.map Prod.snd)) x.items.length 0 ⟨[], []⟩ with
      ⟨cs, rs, hd, h⟩ | ⟨cs, rs, e, hs, h⟩
    · refine .inl ⟨cs, rs, ?_, ?_⟩
      · simpa only [Nat.zero_add, itemAt_eq, hargs] using hd
      · rw [h]
        simp
    · refine .inr ⟨cs, rs, e, ?_, ?_⟩
      · simpa only [Nat.zero_add, itemAt_eq, hargs] using hs
      · rw [h]
        simp
  · intro hc
    unfold forEachAligned
    rw [h2 hc]

end Verif.MapFn
