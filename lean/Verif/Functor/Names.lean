import Verif.Functor.Spec

/-! Lemmas about names in expressions. -/

namespace Verif.Functor

variable {Op V : Type}

theorem mem_insertName {n m : String} {l : List String} : n ∈ insertName m l ↔ n = m ∨ n ∈ l := by
  induction l with
  | nil => simp [insertName]
  | cons x xs ih =>
    unfold insertName
    by_cases h : m = x
    · rw [if_pos h]
      subst h
      simp
    · rw [if_neg h]
      by_cases h' : m < x
      · rw [if_pos h']
        simp
      · rw [if_neg h', List.mem_cons, ih, List.mem_cons]
        constructor
        · rintro (h | h | h)
          · exact .inr (.inl h)
          · exact .inl h
          · exact .inr (.inr h)
        · rintro (h | h | h)
          · exact .inr (.inl h)
          · exact .inl h
          · exact .inr (.inr h)

theorem insertName_sorted {m : String} {l : List String} (h : l.Pairwise (· < ·)) :
    (insertName m l).Pairwise (· < ·) := by
  induction l with
  | nil => simp [insertName]
  | cons x xs ih =>
    unfold insertName
    rw [List.pairwise_cons] at h
    by_cases h1 : m = x
    · rw [if_pos h1, List.pairwise_cons]
      exact h
    · rw [if_neg h1]
      by_cases h' : m < x
      · rw [if_pos h', List.pairwise_cons]
        refine ⟨?_, by rw [List.pairwise_cons]; exact h⟩
        intro a ha
        rcases List.mem_cons.1 ha with rfl | ha
        · exact h'
        · exact String.lt_trans h' (h.1 a ha)
      · rw [if_neg h', List.pairwise_cons]
        refine ⟨?_, ih h.2⟩
        intro a ha
        rcases mem_insertName.1 ha with rfl | ha
        · exact Std.lt_of_le_of_ne (String.not_lt.1 h') (Ne.symm h1)
        · exact h.1 a ha

theorem mem_sortNames {n : String} {l : List String} : n ∈ sortNames l ↔ n ∈ l := by
  unfold sortNames
  induction l with
  | nil => simp
  | cons x xs ih => rw [List.foldr_cons, mem_insertName, ih, List.mem_cons]

theorem sortNames_sorted (l : List String) : (sortNames l).Pairwise (· < ·) := by
  unfold sortNames
  induction l with
  | nil => simp
  | cons x xs ih =>
    rw [List.foldr_cons]
    exact insertName_sorted ih

theorem sortNames_nodup (l : List String) : (sortNames l).Nodup := by
  refine (sortNames_sorted l).imp ?_
  rintro a b h rfl
  exact String.lt_irrefl a h

mutual

theorem mem_vars : ∀ (e : Expr Op V) (n : String), n ∈ e.vars ↔ Mentions e n
  | .input name, n => by
    unfold Expr.vars
    constructor
    · intro h; cases h
    · intro h; cases h
  | .lit v, n => by
    unfold Expr.vars
    constructor
    · intro h; cases h
    · intro h; cases h
  | .var name, n => by
    unfold Expr.vars
    constructor
    · intro h
      rw [List.mem_singleton] at h
      subst h
      exact .var _
    · intro h
      cases h
      simp
  | .node op args, n => by
    unfold Expr.vars
    rw [mem_varsAll args n]
    constructor
    · rintro ⟨e, he, h⟩
      exact .node he h
    · intro h
      cases h with
      | node he h => exact ⟨_, he, h⟩

theorem mem_varsAll : ∀ (es : List (Expr Op V)) (n : String),
    n ∈ varsAll es ↔ ∃ e ∈ es, Mentions e n
  | [], n => by simp [varsAll]
  | e :: es, n => by
    unfold varsAll
    rw [List.mem_append, mem_vars e n, mem_varsAll es n]
    simp

end

mutual

theorem mem_inputs : ∀ (e : Expr Op V) (n : String), n ∈ e.inputs ↔ Asks e n
  | .input name, n => by
    unfold Expr.inputs
    constructor
    · intro h
      rw [List.mem_singleton] at h
      subst h
      exact .input _
    · intro h
      cases h
      simp
  | .lit v, n => by
    unfold Expr.inputs
    constructor
    · intro h; cases h
    · intro h; cases h
  | .var name, n => by
    unfold Expr.inputs
    constructor
    · intro h; cases h
    · intro h; cases h
  | .node op args, n => by
    unfold Expr.inputs
    rw [mem_inputsAll args n]
    constructor
    · rintro ⟨e, he, h⟩
      exact .node he h
    · intro h
      cases h with
      | node he h => exact ⟨_, he, h⟩

theorem mem_inputsAll : ∀ (es : List (Expr Op V)) (n : String),
    n ∈ inputsAll es ↔ ∃ e ∈ es, Asks e n
  | [], n => by simp [inputsAll]
  | e :: es, n => by
    unfold inputsAll
    rw [List.mem_append, mem_inputs e n, mem_inputsAll es n]
    simp

end

theorem mem_deps {F : Fn Op V} {a b : String} : b ∈ F.deps a ↔ Uses F a b := by
  unfold Fn.deps Uses
  cases h : F.attr a with
  | none => simp
  | some x =>
    cases x with
    | item i => simp
    | quote e =>
      simp only [exprVariables, mem_sortNames, mem_vars]
      constructor
      · intro h
        exact ⟨e, rfl, h⟩
      · rintro ⟨e', he, h⟩
        cases he
        exact h

theorem Path.snoc {F : Fn Op V} {a b c : String} (h : Path F a b) (h' : Uses F b c) : Path F a c := by
  induction h with
  | one h => exact .more h (.one h')
  | more h _ ih => exact .more h (ih h')

theorem Path.trans {F : Fn Op V} {a b c : String} (h : Path F a b) (h' : Path F b c) :
    Path F a c := by
  induction h with
  | one h => exact .more h h'
  | more h _ ih => exact .more h (ih h')

theorem Reached.step {F : Fn Op V} {a b : String} (h : Reached F a) (h' : Uses F a b) :
    Reached F b := by
  rcases h with rfl | h
  · exact .inr (.one h')
  · exact .inr (h.snoc h')

end Verif.Functor
