import Verif.Functor.Inline
import Verif.Binding.Theorems

/-! The evaluation of an expression without variables. -/

namespace Verif.Functor

open Verif.Binding (Parameter Bound PyBinds)

variable {Op V : Type}

theorem checkTwice_ok (used : List String) : ∀ (ins : List (String × V)) (seen : List String),
    (ins.map Prod.fst).Nodup → (∀ n ∈ seen, n ∉ ins.map Prod.fst) →
      checkTwice used ins seen = .ok ()
  | [], _, _, _ => rfl
  | (name, v) :: rest, seen, hn, hs => by
    rw [List.map_cons, List.nodup_cons] at hn
    unfold checkTwice
    have hrest : ∀ n ∈ seen, n ∉ rest.map Prod.fst := fun n hm h =>
      hs n hm (List.mem_cons_of_mem _ h)
    by_cases hu : used.contains name = true
    · rw [if_pos hu, if_neg]
      · refine checkTwice_ok used rest _ hn.2 ?_
        intro n hm
        rcases List.mem_cons.1 hm with rfl | hm
        · exact hn.1
        · exact hrest n hm
      · intro hc
        rw [List.contains_iff_mem] at hc
        exact hs name hc (by simp)
    · rw [if_neg hu]
      exact checkTwice_ok used rest seen hn.2 hrest

mutual

theorem eval_ok_inputs {K : Kit Op V} {ins : List (String × V)} :
    ∀ (e : Expr Op V) (v : V), eval K ins e = .ok v → ∀ n ∈ e.inputs, n ∈ ins.map Prod.fst
  | .input name, v, h, n, hn => by
    unfold Expr.inputs at hn
    rw [List.mem_singleton] at hn
    subst hn
    unfold eval at h
    cases hl : ins.lookup n with
    | none => rw [hl] at h; cases h
    | some x =>
      have := mem_of_lookup hl
      exact List.mem_map.2 ⟨_, this, rfl⟩
  | .var name, v, h, n, hn => by
    unfold eval at h
    cases h
  | .lit x, v, h, n, hn => by
    unfold Expr.inputs at hn
    cases hn
  | .node op args, v, h, n, hn => by
    unfold Expr.inputs at hn
    unfold eval at h
    cases he : evalAll K ins args with
    | error err => rw [he] at h; cases h
    | ok vs => exact evalAll_ok_inputs args vs he n hn

theorem evalAll_ok_inputs {K : Kit Op V} {ins : List (String × V)} :
    ∀ (es : List (Expr Op V)) (vs : List V), evalAll K ins es = .ok vs →
      ∀ n ∈ inputsAll es, n ∈ ins.map Prod.fst
  | [], vs, h, n, hn => by cases hn
  | e :: es, vs, h, n, hn => by
    unfold evalAll at h
    unfold inputsAll at hn
    cases h1 : eval K ins e with
    | error err => rw [h1] at h; cases h
    | ok v =>
      rw [h1] at h
      simp only at h
      cases h2 : evalAll K ins es with
      | error err => rw [h2] at h; cases h
      | ok vs' =>
        rcases List.mem_append.1 hn with hn | hn
        · exact eval_ok_inputs e v h1 n hn
        · exact evalAll_ok_inputs es vs' h2 n hn

end

mutual

theorem eval_error {K : Kit Op V} {ins : List (String × V)} :
    ∀ (e : Expr Op V) (err : Err), e.vars = [] → (∀ n ∈ e.inputs, n ∈ ins.map Prod.fst) →
      eval K ins e = .error err → ∃ m, err = .op m
  | .input name, err, _, hi, h => by
    unfold eval at h
    cases hl : ins.lookup name with
    | none => exact absurd (hi name (by simp [Expr.inputs])) (lookup_none.1 hl)
    | some x => rw [hl] at h; cases h
  | .var name, err, hv, _, h => by
    unfold Expr.vars at hv
    cases hv
  | .lit x, err, _, _, h => by
    unfold eval at h
    cases h
  | .node op args, err, hv, hi, h => by
    unfold Expr.vars at hv
    unfold Expr.inputs at hi
    unfold eval at h
    cases he : evalAll K ins args with
    | error err' =>
      rw [he] at h
      simp only [Except.error.injEq] at h
      subst h
      exact evalAll_error args _ hv hi he
    | ok vs =>
      rw [he] at h
      simp only at h
      cases ha : K.apply op vs with
      | error m =>
        rw [ha] at h
        simp only [Except.error.injEq] at h
        exact ⟨m, h.symm⟩
      | ok v => rw [ha] at h; cases h

theorem evalAll_error {K : Kit Op V} {ins : List (String × V)} :
    ∀ (es : List (Expr Op V)) (err : Err), varsAll es = [] →
      (∀ n ∈ inputsAll es, n ∈ ins.map Prod.fst) → evalAll K ins es = .error err →
      ∃ m, err = .op m
  | [], err, _, _, h => by
    unfold evalAll at h
    cases h
  | e :: es, err, hv, hi, h => by
    unfold varsAll at hv
    rw [List.append_eq_nil_iff] at hv
    unfold inputsAll at hi
    unfold evalAll at h
    cases h1 : eval K ins e with
    | error err' =>
      rw [h1] at h
      simp only [Except.error.injEq] at h
      subst h
      exact eval_error e _ hv.1 (fun n hn => hi n (List.mem_append_left _ hn)) h1
    | ok v =>
      rw [h1] at h
      simp only at h
      cases h2 : evalAll K ins es with
      | error err' =>
        rw [h2] at h
        simp only [Except.error.injEq] at h
        subst h
        exact evalAll_error es _ hv.2 (fun n hn => hi n (List.mem_append_right _ hn)) h2
      | ok vs' => rw [h2] at h; cases h

end

theorem evalExpr_ok {K : Kit Op V} {e : Expr Op V} {ins : List (String × V)}
    (hn : (ins.map Prod.fst).Nodup) (v : V) : evalExpr K e ins = .ok v ↔ eval K ins e = .ok v := by
  unfold evalExpr
  rw [checkTwice_ok _ ins [] hn (by simp)]
  simp only
  constructor
  · intro h
    by_cases hm : (e.inputs.filter fun n => !(ins.map Prod.fst).contains n).isEmpty = true
    · rw [if_pos hm] at h
      exact h
    · rw [if_neg hm] at h
      cases h
  · intro h
    rw [if_pos]
    · exact h
    · rw [List.isEmpty_iff, List.filter_eq_nil_iff]
      intro n hn'
      have := eval_ok_inputs e v h n hn'
      simpa using this

theorem evalExpr_error {K : Kit Op V} {e : Expr Op V} {ins : List (String × V)}
    (hn : (ins.map Prod.fst).Nodup) (hv : e.vars = []) (err : Err)
    (h : evalExpr K e ins = .error err) :
    (∃ m, err = .op m ∧ eval K ins e = .error (.op m)) ∨
    ∃ names, err = .missingInputs names ∧ names ≠ [] ∧
      ∀ n ∈ names, n ∈ e.inputs ∧ n ∉ ins.map Prod.fst := by
  unfold evalExpr at h
  rw [checkTwice_ok _ ins [] hn (by simp)] at h
  simp only at h
  by_cases hm : (e.inputs.filter fun n => !(ins.map Prod.fst).contains n).isEmpty = true
  · rw [if_pos hm] at h
    rw [List.isEmpty_iff, List.filter_eq_nil_iff] at hm
    obtain ⟨m, rfl⟩ := eval_error e err hv (fun n hn' => by simpa using hm n hn') h
    exact .inl ⟨m, rfl, h⟩
  · rw [if_neg hm] at h
    simp only [Except.error.injEq] at h
    refine .inr ⟨_, h.symm, ?_, ?_⟩
    · intro hnil
      rw [hnil] at hm
      exact hm rfl
    · intro n hn'
      rw [List.mem_filter] at hn'
      refine ⟨hn'.1, ?_⟩
      have := hn'.2
      simpa using this

/-! ### The inputs of a call -/

theorem callInputs_names {K : Kit Op V} {ps : List (Parameter V)} {bound : List (Bound V)}
    (hl : bound.length = ps.length) :
    (callInputs K ps bound).map Prod.fst = ps.map Parameter.name ++ [kBag] := by
  unfold callInputs
  rw [List.map_append, List.map_fst_zip (by simp [hl])]
  rfl

theorem callInputs_nodup {K : Kit Op V} {ps : List (Parameter V)} {bound : List (Bound V)}
    (hl : bound.length = ps.length) (hn : (ps.map Parameter.name).Nodup)
    (hb : kBag ∉ ps.map Parameter.name) : ((callInputs K ps bound).map Prod.fst).Nodup := by
  rw [callInputs_names hl, List.nodup_append]
  refine ⟨hn, by simp, ?_⟩
  rintro a ha b hb' rfl
  rw [List.mem_singleton] at hb'
  subst hb'
  exact hb ha

theorem lookup_of_mem {β : Type} {n : String} {v : β} : ∀ {l : List (String × β)},
    (l.map Prod.fst).Nodup → (n, v) ∈ l → l.lookup n = some v
  | [], _, h => by cases h
  | (m, x) :: l, hn, h => by
    rw [List.map_cons, List.nodup_cons] at hn
    rw [lookup_cons]
    rcases List.mem_cons.1 h with h' | h'
    · cases h'
      rw [if_pos rfl]
    · rw [if_neg, lookup_of_mem hn.2 h']
      rintro rfl
      exact hn.1 (List.mem_map.2 ⟨_, h', rfl⟩)

theorem callInputs_fits {K : Kit Op V} {ps : List (Parameter V)} {bound : List (Bound V)}
    (hl : bound.length = ps.length) (hn : (ps.map Parameter.name).Nodup)
    (hb : kBag ∉ ps.map Parameter.name) : Fits K (Given K ps bound) (callInputs K ps bound) := by
  have hnd := callInputs_nodup (K := K) hl hn hb
  have hmem : ∀ n v, (n, v) ∈ callInputs K ps bound ↔ Given K ps bound n v := by
    intro n v
    unfold callInputs Given
    rw [List.mem_append, List.mem_singleton, Prod.mk.injEq, Or.comm]
    constructor
    · rintro (h | h)
      · exact .inl h
      · right
        obtain ⟨i, hi⟩ := List.mem_iff_getElem?.1 h
        rw [List.getElem?_zip_eq_some] at hi
        obtain ⟨h1, h2⟩ := hi
        rw [List.getElem?_map, Option.map_eq_some_iff] at h1 h2
        obtain ⟨p, hp, rfl⟩ := h1
        obtain ⟨b, hb, rfl⟩ := h2
        exact ⟨i, p, b, hp, rfl, hb, rfl⟩
    · rintro (h | ⟨i, p, b, hp, rfl, hb, rfl⟩)
      · exact .inl h
      · right
        rw [List.mem_iff_getElem?]
        refine ⟨i, ?_⟩
        rw [List.getElem?_zip_eq_some]
        simp [hp, hb]
  constructor
  · intro n v
    rw [← hmem]
    exact ⟨mem_of_lookup, lookup_of_mem hnd⟩
  · exact lookup_of_mem hnd ((hmem _ _).2 (.inl ⟨rfl, rfl⟩))

end Verif.Functor
