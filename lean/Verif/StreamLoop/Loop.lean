import Verif.StreamLoop.Vars
import Verif.StreamLoop.Progress

/-!
The program of a loop against the specification.
-/

namespace Verif.StreamLoop

set_option linter.unusedSectionVars false

variable {V T S : Type} [DecidableEq T] [DecidableEq S]

/-- Output after other items. -/
def app (ys : List V) (out : List V × Option S) : List V × Option S := (ys ++ out.1, out.2)

theorem app_nil (out : List V × Option S) : app [] out = out := rfl

theorem app_app (xs ys : List V) (out : List V × Option S) : app xs (app ys out) = app (xs ++ ys) out := by
  simp [app]

/-- What is left of a loop. -/
def Loop.remain (c : Loop V T S) (k : Nat) (input : Option (List V × S)) (state : Env V) (last : V) :
    List V × Option S :=
  match input with
  | none => c.whileLoop k state last
  | some (items, ending) =>
    ((c.foreach ending items state last).1, some (c.foreach ending items state last).2)

/-- What follows a call of the body. -/
def Loop.afterCall (c : Loop V T S) (k : Nat) (input : Option (List V × S)) :
    Except S (Env V × V × List V) → List V × Option S
  | .error s => ([], some s)
  | .ok (state, last, ys) => app ys (c.remain k input state last)

/-- What follows a call of the finalizer. -/
def Loop.afterFinalize (c : Loop V T S) : Except S (Env V × V × List V) → List V × Option S
  | .error s => ([], some s)
  | .ok (_, last, ys) => app ys (c.result last, some c.ok)

/-- The finalizer. -/
def Loop.finish (c : Loop V T S) (state : Env V) (last : V) : List V × Option S :=
  match c.finalize with
  | none => (c.result last, some c.ok)
  | some f => c.afterFinalize (c.call state last (f (c.sees state last)))

/-- What follows a condition that holds. -/
def Loop.afterCond (c : Loop V T S) (k : Nat) (input : Option (List V × S)) (state : Env V) (last : V) :
    List V × Option S :=
  match input with
  | none => c.afterCall k none (c.call state last (c.body none (c.sees state last)))
  | some (v :: items, ending) =>
    c.afterCall k (some (items, ending)) (c.call state last (c.body (some v) (c.sees state last)))
  | some ([], ending) => if ending = c.ok then c.finish state last else ([], some ending)

/-- What follows a condition. -/
def Loop.afterHolds (c : Loop V T S) (k : Nat) (input : Option (List V × S)) (state : Env V) (last : V) :
    Except S Bool → List V × Option S
  | .error s => ([], some s)
  | .ok false => (c.result last, some c.ok)
  | .ok true => c.afterCond k input state last

theorem remain_succ (c : Loop V T S) (k : Nat) (input : Option (List V × S)) (state : Env V) (last : V) :
    c.remain (k + 1) input state last = c.afterHolds k input state last (c.holds (c.sees state last)) := by
  match input with
  | none =>
    simp only [Loop.remain]
    rw [Loop.whileLoop]
    cases c.holds (c.sees state last) with
    | error s => rfl
    | ok b =>
      cases b with
      | false => rfl
      | true =>
        simp only [Loop.afterHolds, Loop.afterCond]
        cases c.call state last (c.body none (c.sees state last)) with
        | error s => rfl
        | ok r => rfl
  | some ([], ending) =>
    simp only [Loop.remain]
    rw [Loop.foreach]
    cases c.holds (c.sees state last) with
    | error s => rfl
    | ok b =>
      cases b with
      | false => rfl
      | true =>
        simp only [Loop.afterHolds, Loop.afterCond, Loop.finish]
        by_cases he : ending = c.ok
        · rw [if_pos he, if_pos he]
          cases c.finalize with
          | none => rfl
          | some f =>
            simp only
            cases c.call state last (f (c.sees state last)) with
            | error s => rfl
            | ok r => rfl
        · rw [if_neg he, if_neg he]
  | some (v :: items, ending) =>
    simp only [Loop.remain]
    rw [Loop.foreach]
    cases c.holds (c.sees state last) with
    | error s => rfl
    | ok b =>
      cases b with
      | false => rfl
      | true =>
        simp only [Loop.afterHolds, Loop.afterCond]
        cases c.call state last (c.body (some v) (c.sees state last)) with
        | error s => rfl
        | ok r => rfl

theorem output_eq (c : Loop V T S) (n : Nat) :
    c.output n = app (if c.yields then [c.lastValue] else []) (c.remain n c.input c.state.fields c.lastValue) := by
  unfold Loop.output Loop.remain app
  cases c.input with
  | none => rfl
  | some p => rfl

theorem while_mono (c : Loop V T S) : ∀ (n : Nat) (state : Env V) (last : V),
    (c.whileLoop n state last).2.isSome = true →
    c.whileLoop (n + 1) state last = c.whileLoop n state last
  | 0, state, last, h => by cases h
  | n + 1, state, last, h => by
    rw [Loop.whileLoop] at h ⊢
    rw [Loop.whileLoop]
    cases hh : c.holds (c.sees state last) with
    | error s => rfl
    | ok b =>
      cases b with
      | false => rfl
      | true =>
        rw [hh] at h
        simp only at h ⊢
        cases hc : c.call state last (c.body none (c.sees state last)) with
        | error s => rfl
        | ok r =>
          obtain ⟨st, l, ys⟩ := r
          rw [hc] at h
          simp only at h ⊢
          rw [while_mono c n st l h]

theorem output_mono (c : Loop V T S) {n : Nat} (h : (c.output n).2.isSome = true) :
    ∀ k, c.output (n + k) = c.output n
  | 0 => rfl
  | k + 1 => by
    have ih := output_mono c h k
    rw [← ih]
    have h' : (c.output (n + k)).2.isSome = true := by rw [ih]; exact h
    rw [output_eq] at h' ⊢
    rw [output_eq]
    unfold Loop.remain app at *
    cases hi : c.input with
    | none =>
      rw [hi] at h'
      simp only at h' ⊢
      rw [← Nat.add_assoc, while_mono c _ _ _ h']
    | some p => rfl

/-- A bound for the iterations. -/
def Bound (c : Loop V T S) (j : Nat) : Prop :=
  match c.input with
  | none => (c.output j).2 = none
  | some (items, _) => j ≤ items.length

/-- What is left of the input after a number of items. -/
def HasInput (c : Loop V T S) (rest : List (List V × S)) (used : Nat) (input : Option (List V × S)) : Prop :=
  match c.input with
  | none => input = none
  | some (items, ending) =>
    ∃ left, input = some (left, ending) ∧ rest[0]? = some (left, ending) ∧ left.length + used = items.length

/-- The state of the program of a loop after `n` operations, in iteration `j`. -/
inductive At (c : Loop V T S) (n : Nat) (x : Ideal V S (Place V S)) : Prop
  | condition (j : Nat) (vars : List (Var V)) (state : Env V) (last : V) (input : Option (List V × S))
      (loc : x.loc = .condition vars) (closed : x.closed = none) (steps : n ≤ 8 * j) (bound : Bound c j)
      (rel : Rel c vars state last) (inp : HasInput c x.rest j input)
      (out : ∀ k, c.output (j + k) = app x.items (c.remain k input state last))
  | callCondition (j : Nat) (vars : List (Var V)) (state : Env V) (last : V) (input : Option (List V × S))
      (loc : x.loc = .callCondition vars) (closed : x.closed = none) (steps : n ≤ 8 * j + 1) (bound : Bound c j)
      (rel : Rel c vars state last) (inp : HasInput c x.rest j input)
      (out : ∀ k, c.output (j + k + 1) =
        app x.items (c.afterHolds k input state last (c.holds (c.sees state last))))
  | openCondition (j : Nat) (vars : List (Var V)) (state : Env V) (last : V) (input : Option (List V × S))
      (f : List (String × V) → Except S (Condition V S)) (items : List V) (ending : S)
      (loc : x.loc = .openCondition vars items ending) (closed : x.closed = none) (steps : n ≤ 8 * j + 2)
      (bound : Bound c j) (rel : Rel c vars state last) (inp : HasInput c x.rest j input)
      (hf : c.condition = some f) (hs : f (c.sees state last) = .ok (.stream items ending))
      (out : ∀ k, c.output (j + k + 1) =
        app x.items (c.afterHolds k input state last (c.holds (c.sees state last))))
  | parse (j : Nat) (vars : List (Var V)) (state : Env V) (last : V) (input : Option (List V × S)) (r : Nat)
      (f : List (String × V) → Except S (Condition V S)) (items : List V) (ending : S)
      (loc : x.loc = .parse vars r) (closed : x.closed = none) (steps : n ≤ 8 * j + 3)
      (bound : Bound c j) (rel : Rel c vars state last) (inp : HasInput c x.rest j input)
      (hr : x.rest[r]? = some (items, ending)) (hr0 : c.input.isSome = true → r ≠ 0)
      (hf : c.condition = some f) (hs : f (c.sees state last) = .ok (.stream items ending))
      (out : ∀ k, c.output (j + k + 1) =
        app x.items (c.afterHolds k input state last (c.holds (c.sees state last))))
  | read (j : Nat) (vars : List (Var V)) (state : Env V) (last : V) (input : Option (List V × S))
      (loc : x.loc = .read vars) (closed : x.closed = none) (steps : n ≤ 8 * j + 4)
      (bound : Bound c j) (rel : Rel c vars state last) (inp : HasInput c x.rest j input)
      (his : c.input.isSome = true)
      (out : ∀ k, c.output (j + k + 1) = app x.items (c.afterCond k input state last))
  | body (j : Nat) (vars : List (Var V)) (state : Env V) (last : V) (input : Option (List V × S)) (item : Option V)
      (loc : x.loc = .body vars item) (closed : x.closed = none) (steps : n ≤ 8 * j + 5)
      (bound : Bound c j) (rel : Rel c vars state last) (inp : HasInput c x.rest (j + 1) input)
      (out : ∀ k, c.output (j + k + 1) =
        app x.items (c.afterCall k input (c.call state last (c.body item (c.sees state last)))))
  | callBody (j : Nat) (vars : List (Var V)) (state : Env V) (last : V) (input : Option (List V × S))
      (item : Option V)
      (loc : x.loc = .callBody vars item) (closed : x.closed = none) (steps : n ≤ 8 * j + 6)
      (bound : Bound c j) (rel : Rel c vars state last) (inp : HasInput c x.rest (j + 1) input)
      (out : ∀ k, c.output (j + k + 1) =
        app x.items (c.afterCall k input (c.call state last (c.body item (c.sees state last)))))
  | yieldBody (j : Nat) (vars : List (Var V)) (state : Env V) (last : V) (input : Option (List V × S)) (v : Var V)
      (loc : x.loc = .yieldBody vars) (closed : x.closed = none) (steps : n ≤ 8 * j + 7)
      (bound : Bound c j) (hv : vars.getLast? = some v)
      (rel : if v.initial then Rel c vars state last else Rel c (c.restore vars) state last)
      (inp : HasInput c x.rest (j + 1) input)
      (out : ∀ k, c.output (j + k + 1) =
        app x.items (app (if v.initial then [] else [v.value]) (c.remain k input state last)))
  | finalize (j : Nat) (vars : List (Var V)) (state : Env V) (last : V)
      (loc : x.loc = .finalize vars) (closed : x.closed = none) (steps : n ≤ 8 * j + 5)
      (bound : Bound c j) (rel : Rel c vars state last)
      (out : ∀ k, c.output (j + k + 1) = app x.items (c.finish state last))
  | callFinalize (j : Nat) (vars : List (Var V)) (state : Env V) (last : V)
      (loc : x.loc = .callFinalize vars) (closed : x.closed = none) (steps : n ≤ 8 * j + 6)
      (bound : Bound c j) (rel : Rel c vars state last)
      (out : ∀ k, c.output (j + k + 1) = app x.items (c.finish state last))
  | yieldFinalize (j : Nat) (vars : List (Var V)) (state : Env V) (last : V) (v : Var V)
      (loc : x.loc = .yieldFinalize vars) (closed : x.closed = none) (steps : n ≤ 8 * j + 7)
      (bound : Bound c j) (hv : vars.getLast? = some v)
      (rel : if v.initial then Rel c vars state last else Rel c (c.restore vars) state last)
      (out : ∀ k, c.output (j + k + 1) =
        app x.items (app (if v.initial then [] else [v.value]) (c.result last, some c.ok)))
  | success (j : Nat) (vars : List (Var V)) (state : Env V) (last : V)
      (loc : x.loc = .success vars) (closed : x.closed = none) (steps : n ≤ 8 * j + 8)
      (bound : Bound c j) (rel : Rel c vars state last)
      (out : ∀ k, c.output (j + k + 1) = app x.items (c.result last, some c.ok))
  | close (j : Nat) (s : S) (loc : x.loc = .close s) (closed : x.closed = none) (steps : n ≤ 8 * j + 9)
      (bound : Bound c j) (out : ∀ k, c.output (j + k + 1) = (x.items, some s))
  | closed (j : Nat) (s : S) (loc : x.loc = .stop) (closed : x.closed = some s)
      (out : ∀ k, c.output (j + k + 1) = (x.items, some s))

theorem app_none (xs : List V) (s : Option S) : app xs ([], s) = (xs, s) := by simp [app]

/-- What follows a parsed condition. -/
theorem at_decide {c : Loop V T S} {n j : Nat} {x : Ideal V S (Place V S)} {vars : List (Var V)} {state : Env V}
    {last : V} {input : Option (List V × S)} {e : Except ConditionError Bool}
    (loc : x.loc = c.decide vars e) (closed : x.closed = none) (steps : n ≤ 8 * j + 4)
    (bound : Bound c j) (rel : Rel c vars state last) (inp : HasInput c x.rest j input)
    (out : ∀ k, c.output (j + k + 1) = app x.items (c.afterHolds k input state last (c.parsed e))) : At c n x := by
  cases e with
  | error e =>
    refine .close j _ loc closed (by omega) bound fun k => ?_
    rw [out k]; exact app_none _ _
  | ok b =>
    cases b with
    | false => exact .success j vars state last loc closed (by omega) bound rel out
    | true =>
      simp only [Loop.decide] at loc
      cases hi : c.input with
      | none =>
        rw [hi, if_neg (by simp)] at loc
        have hin : input = none := by unfold HasInput at inp; rw [hi] at inp; exact inp
        subst hin
        refine .body j vars state last none none loc closed (by omega) bound rel ?_ out
        unfold HasInput; rw [hi]
      | some p =>
        rw [hi, if_pos (by rfl)] at loc
        exact .read j vars state last input loc closed steps bound rel inp (by rw [hi]; rfl) out

/-- The end of an iteration. -/
theorem at_next {c : Loop V T S} {n j : Nat} {x : Ideal V S (Place V S)} {vars : List (Var V)} {state : Env V}
    {last : V} {input : Option (List V × S)}
    (loc : x.loc = .condition vars) (closed : x.closed = none) (steps : n ≤ 8 * j + 8)
    (rel : Rel c vars state last) (inp : HasInput c x.rest (j + 1) input)
    (out : ∀ k, c.output (j + k + 1) = app x.items (c.remain k input state last)) : At c n x := by
  refine .condition (j + 1) vars state last input loc closed (by omega) ?_ rel inp ?_
  · unfold HasInput at inp
    unfold Bound
    cases hi : c.input with
    | none =>
      rw [hi] at inp
      have := out 0
      rw [inp] at this
      have h2 : (c.output (j + 0 + 1)).2 = none := by rw [this]; rfl
      exact h2
    | some p =>
      rw [hi] at inp
      obtain ⟨left, _, _, hl⟩ := inp
      show j + 1 ≤ p.1.length
      omega
  · intro k
    have := out k
    rw [show j + 1 + k = j + k + 1 by omega]
    exact this

theorem at_step (c : Loop V T S) {n : Nat} {x : Ideal V S (Place V S)} (h : At c n x) :
    At c (n + 1) (x.step c.program) := by
  cases h with
  | condition j vars state last input loc closed steps bound rel inp out =>
    have hs : x.step c.program = { x with loc := .callCondition vars } := by
      unfold Ideal.step; rw [loc]; rfl
    rw [hs]
    refine .callCondition j vars state last input rfl closed (by omega) bound rel inp fun k => ?_
    rw [← remain_succ]
    exact out (k + 1)
  | callCondition j vars state last input loc closed steps bound rel inp out =>
    have hs : x.step c.program = { x with loc := c.callCondition vars } := by
      unfold Ideal.step; rw [loc]; rfl
    rw [hs]
    unfold Loop.callCondition
    unfold Loop.holds at out
    cases hf : c.condition with
    | none =>
      rw [hf] at out
      exact at_decide (e := .ok true) rfl closed (by omega) bound rel inp out
    | some f =>
      rw [hf] at out
      simp only at out ⊢
      rw [visible_eq rel]
      cases hc : f (c.sees state last) with
      | error s =>
        rw [hc] at out
        exact .close j s rfl closed (by omega) bound fun k => by rw [out k]; exact app_none _ _
      | ok cond =>
        rw [hc] at out
        cases cond with
        | value v =>
          refine at_decide rfl closed (by omega) bound rel inp fun k => ?_
          rw [parse_eq]; exact out k
        | stream items ending =>
          refine .openCondition j vars state last input f items ending rfl closed (by omega) bound rel inp hf hc
            fun k => ?_
          rw [out k]
          simp only [Loop.holds, hf, hc]
  | openCondition j vars state last input f items ending loc closed steps bound rel inp hf hc out =>
    have hs : x.step c.program =
        { x with rest := x.rest ++ [(items, ending)], loc := .parse vars x.rest.length } := by
      unfold Ideal.step; rw [loc]; rfl
    rw [hs]
    have h0 : ∀ p, x.rest[0]? = some p → (x.rest ++ [(items, ending)])[0]? = some p := by
      intro p hp
      rw [List.getElem?_append_left (List.getElem?_eq_some_iff.mp hp).1]; exact hp
    refine .parse j vars state last input x.rest.length f items ending rfl closed (by omega) bound rel ?_ ?_ ?_ hf hc
      out
    · unfold HasInput at inp ⊢
      cases hi : c.input with
      | none => rw [hi] at inp; exact inp
      | some p =>
        rw [hi] at inp
        obtain ⟨left, h1, h2, h3⟩ := inp
        exact ⟨left, h1, h0 _ h2, h3⟩
    · simp
    · intro his
      unfold HasInput at inp
      cases hi : c.input with
      | none => rw [hi] at his; cases his
      | some p =>
        rw [hi] at inp
        obtain ⟨left, h1, h2, h3⟩ := inp
        have := (List.getElem?_eq_some_iff.mp h2).1
        omega
  | parse j vars state last input r f items ending loc closed steps bound rel inp hr hr0 hf hc out =>
    have hP : c.program x.loc = .tryRead r (fun v => c.decide vars (parseValue (c.slice v))) c.conditionClosed r
        (.parse vars r) := by rw [loc]; rfl
    cases items with
    | nil =>
      have hs : x.step c.program = { x with loc := c.conditionClosed ending } := by
        unfold Ideal.step; rw [hP]; simp only [hr]
      rw [hs]
      refine .close j _ rfl closed (by omega) bound fun k => ?_
      rw [out k]
      simp only [Loop.holds, hf, hc]
      by_cases he : ending = c.ok
      · simp only [he, if_true, ne_eq, not_true_eq_false, if_false]
        exact app_none _ _
      · simp only [he, if_false, ne_eq, not_false_eq_true, if_true]
        exact app_none _ _
    | cons v vs =>
      have hs : x.step c.program =
          { x with rest := x.rest.set r (vs, ending), loc := c.decide vars (parseValue (c.slice v)) } := by
        unfold Ideal.step; rw [hP]; simp only [hr]
      rw [hs]
      refine at_decide rfl closed (by omega) bound rel (input := input) ?_ fun k => ?_
      · unfold HasInput at inp ⊢
        cases hi : c.input with
        | none => rw [hi] at inp; exact inp
        | some p =>
          rw [hi] at inp
          obtain ⟨left, h1, h2, h3⟩ := inp
          refine ⟨left, h1, ?_, h3⟩
          have hne := hr0 (by rw [hi]; rfl)
          simp only [List.getElem?_set, if_neg hne]
          exact h2
      · rw [parse_eq, out k]
        simp only [Loop.holds, hf, hc]
  | read j vars state last input loc closed steps bound rel inp his out =>
    have hP : c.program x.loc = .tryRead 0 (fun v => .body vars (some v))
        (fun s => if s ≠ c.ok then .close s else .finalize vars) 0 (.read vars) := by rw [loc]; rfl
    cases hi : c.input with
    | none => rw [hi] at his; cases his
    | some p =>
      have inp' := inp
      unfold HasInput at inp'
      rw [hi] at inp'
      obtain ⟨left, h1, h2, h3⟩ := inp'
      subst h1
      cases left with
      | nil =>
        have hs : x.step c.program = { x with loc := if p.2 ≠ c.ok then .close p.2 else .finalize vars } := by
          unfold Ideal.step; rw [hP]; simp only [h2]
        rw [hs]
        by_cases he : p.2 = c.ok
        · refine .finalize j vars state last (by simp [he]) closed (by omega) bound rel fun k => ?_
          rw [out k]; simp [Loop.afterCond, he]
        · refine .close j p.2 (by simp [he]) closed (by omega) bound fun k => ?_
          rw [out k]; simp [Loop.afterCond, he, app]
      | cons v vs =>
        have hs : x.step c.program =
            { x with rest := x.rest.set 0 (vs, p.2), loc := .body vars (some v) } := by
          unfold Ideal.step; rw [hP]; simp only [h2]
        rw [hs]
        refine .body j vars state last (some (vs, p.2)) (some v) rfl closed (by omega) bound rel ?_ out
        unfold HasInput
        rw [hi]
        refine ⟨vs, rfl, ?_, ?_⟩
        · have := (List.getElem?_eq_some_iff.mp h2).1
          simp [this]
        · simp only [List.length_cons] at h3; omega
  | body j vars state last input item loc closed steps bound rel inp out =>
    have hs : x.step c.program = { x with loc := .callBody vars item } := by
      unfold Ideal.step; rw [loc]; rfl
    rw [hs]
    exact .callBody j vars state last input item rfl closed (by omega) bound rel inp out
  | callBody j vars state last input item loc closed steps bound rel inp out =>
    have hs : x.step c.program =
        { x with loc := c.called vars .condition .yieldBody (c.body item (c.sees state last)) } := by
      unfold Ideal.step; rw [loc]
      simp only [Loop.program, visible_eq rel]
    rw [hs]
    have hc := called_eq rel (.condition) (.yieldBody) (c.body item (c.sees state last))
    generalize hp : c.called vars .condition .yieldBody (c.body item (c.sees state last)) = p at hc
    generalize hr : c.call state last (c.body item (c.sees state last)) = r at hc out
    cases hc with
    | error s hp =>
      exact .close j s hp closed (by omega) bound fun k => by rw [out k]; exact app_none _ _
    | returns vars' state last hy hp hrel =>
      exact at_next hp closed (by omega) hrel inp out
    | quiet vars' state last v hy hp hv hini hrel =>
      refine .yieldBody j vars' state last input v hp closed (by omega) bound hv (by rw [if_pos hini]; exact hrel) inp
        fun k => ?_
      rw [if_pos hini]; exact out k
    | yields vars' state last v hy hp hv hini hrel =>
      refine .yieldBody j vars' state last input v hp closed (by omega) bound hv ?_ inp fun k => ?_
      · rw [if_neg (by simp [hini])]; exact hrel
      · rw [if_neg (by simp [hini])]; exact out k
  | yieldBody j vars state last input v loc closed steps bound hv rel inp out =>
    cases hini : v.initial with
    | true =>
      have hs : x.step c.program = { x with loc := .condition vars } := by
        unfold Ideal.step; rw [loc]
        simp only [Loop.program, Loop.maybeYield, hv, hini, if_true]
      rw [hs]
      rw [hini] at rel out
      exact at_next rfl closed (by omega) rel inp out
    | false =>
      have hs : x.step c.program = { x with items := x.items ++ [v.value], loc := .condition (c.restore vars) } := by
        unfold Ideal.step; rw [loc]
        simp [Loop.program, Loop.maybeYield, hv, hini]
      rw [hs]
      rw [hini] at rel out
      refine at_next rfl closed (by omega) rel inp fun k => ?_
      rw [out k]; exact app_app _ _ _
  | finalize j vars state last loc closed steps bound rel out =>
    have hs : x.step c.program = { x with loc := .callFinalize vars } := by
      unfold Ideal.step; rw [loc]; rfl
    rw [hs]
    exact .callFinalize j vars state last rfl closed (by omega) bound rel out
  | callFinalize j vars state last loc closed steps bound rel out =>
    unfold Loop.finish at out
    cases hf : c.finalize with
    | none =>
      have hs : x.step c.program = { x with loc := .success vars } := by
        unfold Ideal.step; rw [loc]
        simp only [Loop.program, hf]
      rw [hs]
      rw [hf] at out
      exact .success j vars state last rfl closed (by omega) bound rel out
    | some f =>
      rw [hf] at out
      simp only at out
      have hs : x.step c.program =
          { x with loc := c.called vars .success .yieldFinalize (f (c.sees state last)) } := by
        unfold Ideal.step; rw [loc]
        simp only [Loop.program, hf, visible_eq rel]
      rw [hs]
      have hc := called_eq rel (.success) (.yieldFinalize) (f (c.sees state last))
      generalize hp : c.called vars .success .yieldFinalize (f (c.sees state last)) = p at hc
      generalize hr : c.call state last (f (c.sees state last)) = r at hc out
      cases hc with
      | error s hp =>
        exact .close j s hp closed (by omega) bound fun k => by rw [out k]; exact app_none _ _
      | returns vars' state last hy hp hrel =>
        exact .success j vars' state last hp closed (by omega) bound hrel out
      | quiet vars' state last v hy hp hv hini hrel =>
        refine .yieldFinalize j vars' state last v hp closed (by omega) bound hv (by rw [if_pos hini]; exact hrel)
          fun k => ?_
        rw [if_pos hini]; exact out k
      | yields vars' state last v hy hp hv hini hrel =>
        refine .yieldFinalize j vars' state last v hp closed (by omega) bound hv ?_ fun k => ?_
        · rw [if_neg (by simp [hini])]; exact hrel
        · rw [if_neg (by simp [hini])]; exact out k
  | yieldFinalize j vars state last v loc closed steps bound hv rel out =>
    cases hini : v.initial with
    | true =>
      have hs : x.step c.program = { x with loc := .success vars } := by
        unfold Ideal.step; rw [loc]
        simp only [Loop.program, Loop.maybeYield, hv, hini, if_true]
      rw [hs]
      rw [hini] at rel out
      exact .success j vars state last rfl closed (by omega) bound rel out
    | false =>
      have hs : x.step c.program = { x with items := x.items ++ [v.value], loc := .success (c.restore vars) } := by
        unfold Ideal.step; rw [loc]
        simp [Loop.program, Loop.maybeYield, hv, hini]
      rw [hs]
      rw [hini] at rel out
      refine .success j _ state last rfl closed (by omega) bound rel fun k => ?_
      rw [out k]; exact app_app _ _ _
  | success j vars state last loc closed steps bound rel out =>
    cases hy : c.yields with
    | true =>
      have hs : x.step c.program = { x with loc := .close c.ok } := by
        unfold Ideal.step; rw [loc]
        simp only [Loop.program, Loop.onSuccess, hy, if_true]
      rw [hs]
      refine .close j c.ok rfl closed (by omega) bound fun k => ?_
      rw [out k]; simp [Loop.result, hy, app]
    | false =>
      obtain ⟨front, v, hv, _, _, hl⟩ := env_split rel.env
      have hs : x.step c.program = { x with items := x.items ++ [last], loc := .close c.ok } := by
        unfold Ideal.step; rw [loc]
        simp [Loop.program, Loop.onSuccess, hy, hv, hl]
      rw [hs]
      refine .close j c.ok rfl closed (by omega) bound fun k => ?_
      rw [out k]; simp [Loop.result, hy, app]
  | close j s loc closed steps bound out =>
    have hs : x.step c.program = { x with closed := some s, loc := .stop } := by
      unfold Ideal.step; rw [loc]; rfl
    rw [hs]
    exact .closed j s rfl rfl out
  | closed j s loc closed out =>
    have hs : x.step c.program = x := by
      unfold Ideal.step; rw [loc]; rfl
    rw [hs]
    exact .closed j s loc closed out

/-- The start of the program. -/
def Loop.ideal (c : Loop V T S) : Ideal V S (Place V S) where
  loc := .condition c.vars
  rest := c.input.toList
  items := if c.yields then [c.lastValue] else []
  closed := none

theorem at_start (c : Loop V T S) (hn : c.lastName ∉ c.state.fields.map Prod.fst) : At c 0 c.ideal := by
  refine .condition 0 c.vars c.state.fields c.lastValue c.input rfl rfl (Nat.zero_le _) ?_ ?_ ?_ ?_
  · unfold Bound
    cases hi : c.input with
    | none => simp [Loop.output, hi, Loop.whileLoop]
    | some p => exact Nat.zero_le _
  · refine ⟨?_, ?_, fun _ => ⟨_, rfl⟩, fun _ => rfl⟩
    · simp only [envOf, Loop.vars, List.map_append, List.map_map, List.map_cons, List.map_nil]
      exact congrArg (· ++ _) (List.map_id _)
    · have : c.vars.map Var.name = c.state.fields.map Prod.fst ++ [c.lastName] := by
        simp [Loop.vars]
      rw [this, List.nodup_append]
      refine ⟨c.state.nodup, by simp, ?_⟩
      intro a ha b hb hab
      rw [List.mem_singleton.mp hb] at hab
      exact hn (hab ▸ ha)
  · unfold HasInput
    cases hi : c.input with
    | none => rfl
    | some p => exact ⟨p.1, rfl, by simp [Loop.ideal, hi], rfl⟩
  · intro k
    rw [Nat.zero_add]
    exact output_eq c k

theorem at_after (c : Loop V T S) (hn : c.lastName ∉ c.state.fields.map Prod.fst) :
    ∀ n, At c n (c.ideal.after c.program n)
  | 0 => at_start c hn
  | n + 1 => at_step c (at_after c hn n)

/-- The places of a loop with their readers. -/
def Loop.valid (c : Loop V T S) (l : Place V S) (m : Nat) : Prop :=
  (c.input.isSome = true → 0 < m) ∧
    match l with
    | .parse _ r => r < m
    | .read _ => 0 < m
    | _ => True

theorem valid_decide {c : Loop V T S} {m : Nat} (h : c.input.isSome = true → 0 < m) (vars : List (Var V))
    (e : Except ConditionError Bool) : c.valid (c.decide vars e) m := by
  refine ⟨h, ?_⟩
  match e with
  | .error e => exact trivial
  | .ok false => exact trivial
  | .ok true =>
    simp only [Loop.decide]
    by_cases hi : c.input.isSome = true
    · rw [if_pos hi]; exact h hi
    · rw [if_neg hi]; exact trivial

theorem valid_called {c : Loop V T S} {m : Nat} (vars : List (Var V)) {next yield : List (Var V) → Place V S}
    (hn : ∀ vars, c.valid (next vars) m) (hy : ∀ vars, c.valid (yield vars) m) (hc : ∀ s, c.valid (.close s) m)
    (r : Except S (Option (NamedTuple V))) : c.valid (c.called vars next yield r) m := by
  unfold Loop.called
  cases r with
  | error s => exact hc s
  | ok t =>
    simp only
    cases update c.typeOf vars t with
    | error e => exact hc _
    | ok vars =>
      simp only
      split
      · exact hy _
      · exact hn _

theorem yield_action (c : Loop V T S) (vars : List (Var V)) (next : List (Var V) → Place V S) :
    (∃ v, c.maybeYield vars next = .tryWrite v (next (c.restore vars)) (next vars)) ∨
      c.maybeYield vars next = .pure (next vars) := by
  unfold Loop.maybeYield
  cases vars.getLast? with
  | none => exact .inr rfl
  | some x =>
    simp only
    split
    · exact .inr rfl
    · exact .inl ⟨_, rfl⟩

theorem success_action (c : Loop V T S) (vars : List (Var V)) :
    (∃ v, c.onSuccess vars = .tryWrite v (.close c.ok) .stop ∧ c.yields = false) ∨
      c.onSuccess vars = .pure (.close c.ok) ∨ (c.onSuccess vars = .pure .stop) := by
  unfold Loop.onSuccess
  cases hy : c.yields with
  | true => exact .inr (.inl rfl)
  | false =>
    simp only [Bool.false_eq_true, if_false]
    cases vars.getLast? with
    | none => exact .inr (.inr rfl)
    | some x => exact .inl ⟨_, rfl, trivial⟩

theorem loop_valid (c : Loop V T S) : Valid c.program c.valid := by
  have other : ∀ {l l' : Place V S} {m : Nat}, c.valid l m →
      (match l' with | .parse _ _ => False | .read _ => False | _ => True) → c.valid l' m := by
    intro l l' m h hl
    refine ⟨h.1, ?_⟩
    cases l' <;> first | exact trivial | exact hl.elim
  constructor
  · intro l m no yes h hP
    cases l with
    | condition vars => injection hP with h1 h2; subst h1 h2; exact ⟨other h trivial, other h trivial⟩
    | body vars item => injection hP with h1 h2; subst h1 h2; exact ⟨other h trivial, other h trivial⟩
    | finalize vars => injection hP with h1 h2; subst h1 h2; exact ⟨other h trivial, other h trivial⟩
    | yieldBody vars =>
      rcases yield_action c vars .condition with ⟨v, hy⟩ | hy <;> (simp only [Loop.program, hy] at hP; cases hP)
    | yieldFinalize vars =>
      rcases yield_action c vars .success with ⟨v, hy⟩ | hy <;> (simp only [Loop.program, hy] at hP; cases hP)
    | success vars =>
      rcases success_action c vars with ⟨v, hy, _⟩ | hy | hy <;> (simp only [Loop.program, hy] at hP; cases hP)
    | _ => cases hP
  · intro l m next h hP
    cases l with
    | callCondition vars =>
      injection hP with h1
      subst h1
      unfold Loop.callCondition
      cases c.condition with
      | none => exact valid_decide h.1 _ _
      | some f =>
        simp only
        cases f (c.visible vars) with
        | error s => exact other h trivial
        | ok cond =>
          cases cond with
          | value v => exact valid_decide h.1 _ _
          | stream items ending => exact other h trivial
    | callBody vars item =>
      injection hP with h1
      subst h1
      exact valid_called vars (fun _ => other h trivial) (fun _ => other h trivial) (fun _ => other h trivial) _
    | callFinalize vars =>
      injection hP with h1
      subst h1
      cases c.finalize with
      | none => exact other h trivial
      | some f =>
        exact valid_called vars (fun _ => other h trivial) (fun _ => other h trivial) (fun _ => other h trivial) _
    | yieldBody vars =>
      rcases yield_action c vars .condition with ⟨v, hy⟩ | hy <;> (simp only [Loop.program, hy] at hP; cases hP)
      exact other h trivial
    | yieldFinalize vars =>
      rcases yield_action c vars .success with ⟨v, hy⟩ | hy <;> (simp only [Loop.program, hy] at hP; cases hP)
      exact other h trivial
    | success vars =>
      rcases success_action c vars with ⟨v, hy, _⟩ | hy | hy <;> (simp only [Loop.program, hy] at hP; cases hP) <;>
        exact other h trivial
    | _ => cases hP
  · intro l m items ending next h hP
    cases l with
    | openCondition vars its e =>
      injection hP with h1 h2 h3
      subst h3
      exact ⟨fun _ => Nat.succ_pos _, Nat.lt_succ_self _⟩
    | yieldBody vars =>
      rcases yield_action c vars .condition with ⟨v, hy⟩ | hy <;> (simp only [Loop.program, hy] at hP; cases hP)
    | yieldFinalize vars =>
      rcases yield_action c vars .success with ⟨v, hy⟩ | hy <;> (simp only [Loop.program, hy] at hP; cases hP)
    | success vars =>
      rcases success_action c vars with ⟨v, hy, _⟩ | hy | hy <;> (simp only [Loop.program, hy] at hP; cases hP)
    | _ => cases hP
  · intro l m r item closed q l' h hP
    cases l with
    | parse vars r' =>
      injection hP with h1 h2 h3 h4 h5
      subst h1 h2 h3 h4 h5
      exact ⟨h.2, rfl, rfl, fun v => valid_decide h.1 _ _, fun s => other h trivial⟩
    | read vars =>
      injection hP with h1 h2 h3 h4 h5
      subst h1 h2 h3 h4 h5
      refine ⟨h.2, rfl, rfl, fun v => other h trivial, fun s => ?_⟩
      simp only
      split <;> exact other h trivial
    | yieldBody vars =>
      rcases yield_action c vars .condition with ⟨v, hy⟩ | hy <;> (simp only [Loop.program, hy] at hP; cases hP)
    | yieldFinalize vars =>
      rcases yield_action c vars .success with ⟨v, hy⟩ | hy <;> (simp only [Loop.program, hy] at hP; cases hP)
    | success vars =>
      rcases success_action c vars with ⟨v, hy, _⟩ | hy | hy <;> (simp only [Loop.program, hy] at hP; cases hP)
    | _ => cases hP
  · intro l m v written failed h hP
    cases l with
    | yieldBody vars =>
      rcases yield_action c vars .condition with ⟨v, hy⟩ | hy <;> (simp only [Loop.program, hy] at hP; cases hP)
      exact ⟨other h trivial, other h trivial⟩
    | yieldFinalize vars =>
      rcases yield_action c vars .success with ⟨v, hy⟩ | hy <;> (simp only [Loop.program, hy] at hP; cases hP)
      exact ⟨other h trivial, other h trivial⟩
    | success vars =>
      rcases success_action c vars with ⟨v, hy, _⟩ | hy | hy <;> (simp only [Loop.program, hy] at hP; cases hP)
      exact ⟨other h trivial, other h trivial⟩
    | _ => cases hP
  · intro l m s next h hP
    cases l with
    | close s' =>
      injection hP with h1 h2
      subst h2
      exact ⟨other h trivial, rfl⟩
    | yieldBody vars =>
      rcases yield_action c vars .condition with ⟨v, hy⟩ | hy <;> (simp only [Loop.program, hy] at hP; cases hP)
    | yieldFinalize vars =>
      rcases yield_action c vars .success with ⟨v, hy⟩ | hy <;> (simp only [Loop.program, hy] at hP; cases hP)
    | success vars =>
      rcases success_action c vars with ⟨v, hy, _⟩ | hy | hy <;> (simp only [Loop.program, hy] at hP; cases hP)
    | _ => cases hP

theorem stop_place {c : Loop V T S} {l : Place V S} (hP : c.program l = .stop) : l = .stop := by
  cases l with
  | stop => rfl
  | yieldBody vars =>
    rcases yield_action c vars .condition with ⟨v, hy⟩ | hy <;> (simp only [Loop.program, hy] at hP; cases hP)
  | yieldFinalize vars =>
    rcases yield_action c vars .success with ⟨v, hy⟩ | hy <;> (simp only [Loop.program, hy] at hP; cases hP)
  | success vars =>
    rcases success_action c vars with ⟨v, hy, _⟩ | hy | hy <;> (simp only [Loop.program, hy] at hP; cases hP)
  | _ => cases hP

theorem at_stop {c : Loop V T S} {n : Nat} {x : Ideal V S (Place V S)} (h : At c n x) (hl : x.loc = .stop) :
    x.closed.isSome = true := by
  cases h with
  | closed j s loc closed out => rw [closed]; rfl
  | _ => simp_all

theorem loop_runs (c : Loop V T S) (hn : c.lastName ∉ c.state.fields.map Prod.fst) :
    Runs c.program c.valid c.ideal :=
  ⟨loop_valid c, fun n hP => at_stop (at_after c hn n) (stop_place hP)⟩

theorem at_prefix {c : Loop V T S} {n : Nat} {x : Ideal V S (Place V S)} (h : At c n x) :
    ∃ m, x.items <+: (c.output m).1 := by
  cases h with
  | condition j vars state last input loc closed steps bound rel inp out =>
    exact ⟨j + 0, by rw [out 0]; exact List.prefix_append _ _⟩
  | close j s loc closed steps bound out => exact ⟨j + 0 + 1, by rw [out 0]; exact List.prefix_refl _⟩
  | closed j s loc closed out => exact ⟨j + 0 + 1, by rw [out 0]; exact List.prefix_refl _⟩
  | _ =>
    rename_i out
    exact ⟨_, by rw [out 0]; exact List.prefix_append _ _⟩

theorem at_closed {c : Loop V T S} {n : Nat} {x : Ideal V S (Place V S)} (h : At c n x) {s : S}
    (hs : x.closed = some s) : ∃ m, c.output m = (x.items, some s) := by
  cases h with
  | closed j s' loc closed out =>
    have : s = s' := by rw [closed] at hs; injection hs with hs; exact hs.symm
    subst this
    exact ⟨j + 0 + 1, out 0⟩
  | _ => simp_all

end Verif.StreamLoop
