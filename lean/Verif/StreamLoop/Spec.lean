import Verif.StreamLoop.Model

/-!
Specification for C42: the loops as sequential programs. The output of a program is a list of items and a status.
-/

namespace Verif.StreamLoop

variable {V T S : Type}

/-- Named values. -/
abbrev Env (V : Type) := List (String × V)

/-- Why a field cannot be assigned. -/
def badField [DecidableEq T] (typeOf : V → T) (env : Env V) (field : String × V) : Option UpdateError :=
  match env.lookup field.1 with
  | none => some (.unexpected field.1)
  | some v => if typeOf field.2 = typeOf v then none else some (.wrongType field.1)

/-- The values with the fields of a tuple assigned. -/
def Env.with (env fields : Env V) : Env V :=
  env.map fun (name, v) => (name, (fields.lookup name).getD v)

/-- A functor returns an error, or a tuple of assignments; anything else is an error. -/
def Env.apply [DecidableEq T] (c : Loop V T S) (env : Env V) : Except S (Option (NamedTuple V)) → Except S (Env V)
  | .error s => .error s
  | .ok none => .error (c.updateError .notTuple)
  | .ok (some t) =>
    match t.fields.findSome? (badField c.typeOf env) with
    | some e => .error (c.updateError e)
    | none => .ok (env.with t.fields)

/-- What a loop with `yields` writes for what a functor returned. -/
def Loop.yielded (c : Loop V T S) : Except S (Option (NamedTuple V)) → List V
  | .ok (some t) => if c.yields then (t.fields.lookup c.lastName).toList else []
  | _ => []

/-- What a functor of a loop sees: all variables in a loop with `returns`; the state in a loop with
`yields`. -/
def Loop.sees (c : Loop V T S) (state : Env V) (last : V) : Env V :=
  if c.yields then state else state ++ [(c.lastName, last)]

/-- The truth of a value: it has to be an item that is present, or a missing mask or object. -/
def truth (c : Loop V T S) (v : V) : Except S Bool :=
  match c.slice v with
  | none => .error (c.conditionError .notSlice)
  | some ⟨true, .unit, _⟩ => .ok true
  | some ⟨true, .missing, .mask⟩ => .ok false
  | some ⟨true, .missing, .object⟩ => .ok false
  | some _ => .error (c.conditionError .notMask)

/-- The condition of the loop: the value, or the first item of the stream. -/
def Loop.holds [DecidableEq S] (c : Loop V T S) (env : Env V) : Except S Bool :=
  match c.condition with
  | none => .ok true
  | some f =>
    match f env with
    | .error s => .error s
    | .ok (.value v) => truth c v
    | .ok (.stream (v :: _) _) => truth c v
    | .ok (.stream [] ending) =>
      if ending = c.ok then .error (c.conditionError .emptyStream) else .error ending

/-- The output at the end of a successful loop. -/
def Loop.result (c : Loop V T S) (last : V) : List V := if c.yields then [] else [last]

/-- What a call of the body or of the finalizer does: the new state, the new value for `returns`, and what it
writes. -/
def Loop.call [DecidableEq T] (c : Loop V T S) (state : Env V) (last : V)
    (returned : Except S (Option (NamedTuple V))) : Except S (Env V × V × List V) :=
  match (state ++ [(c.lastName, last)]).apply c returned with
  | .error s => .error s
  | .ok env =>
    .ok (env.take state.length,
      if c.yields then last else ((env.drop state.length).head?.map Prod.snd).getD last,
      c.yielded returned)

/-- A for loop. -/
def Loop.foreach [DecidableEq T] [DecidableEq S] (c : Loop V T S) (ending : S) :
    List V → Env V → V → List V × S
  | items, state, last =>
    match c.holds (c.sees state last) with
    | .error s => ([], s)
    | .ok false => (c.result last, c.ok)
    | .ok true =>
      match items with
      | [] =>
        if ending = c.ok then
          match c.finalize with
          | none => (c.result last, c.ok)
          | some f =>
            match c.call state last (f (c.sees state last)) with
            | .error s => ([], s)
            | .ok (_, last, ys) => (ys ++ c.result last, c.ok)
        else ([], ending)
      | v :: items =>
        match c.call state last (c.body (some v) (c.sees state last)) with
        | .error s => ([], s)
        | .ok (state, last, ys) =>
          let rest := c.foreach ending items state last
          (ys ++ rest.1, rest.2)

/-- The first iterations of a while loop: what they write, and the status if it ends. -/
def Loop.whileLoop [DecidableEq T] [DecidableEq S] (c : Loop V T S) :
    Nat → Env V → V → List V × Option S
  | 0, _, _ => ([], none)
  | n + 1, state, last =>
    match c.holds (c.sees state last) with
    | .error s => ([], some s)
    | .ok false => (c.result last, some c.ok)
    | .ok true =>
      match c.call state last (c.body none (c.sees state last)) with
      | .error s => ([], some s)
      | .ok (state, last, ys) =>
        let rest := c.whileLoop n state last
        (ys ++ rest.1, rest.2)

/-- The output of a loop up to a number of iterations. A for loop ends with its input. -/
def Loop.output [DecidableEq T] [DecidableEq S] (c : Loop V T S) (n : Nat) : List V × Option S :=
  let rest :=
    match c.input with
    | none => c.whileLoop n c.state.fields c.lastValue
    | some (items, ending) =>
      ((c.foreach ending items c.state.fields c.lastValue).1,
        some (c.foreach ending items c.state.fields c.lastValue).2)
  ((if c.yields then [c.lastValue] else []) ++ rest.1, rest.2)

/-- A reduction: the functor is applied to the items from left to right. -/
def Reduce.fold [DecidableEq T] (c : Reduce V T S) : List V → V → Except S V
  | [], value => .ok value
  | v :: items, value =>
    match c.functor value v with
    | .error s => .error s
    | .ok value => if c.typeOf value = c.typeOf c.initial then c.fold items value else .error c.wrongType

/-- The output of a reduction. -/
def Reduce.output [DecidableEq T] [DecidableEq S] (c : Reduce V T S) : List V × S :=
  match c.fold c.input c.initial with
  | .error s => ([], s)
  | .ok value => if c.ending = c.ok then ([value], c.ok) else ([], c.ending)

/-- Whether the routine ended, or waits for a stream in which there is nothing to read. -/
def blocked {L : Type} (w : World V S L) : Bool :=
  match w.pc with
  | .done => true
  | .waiting r =>
    match w.readers[r]? with
    | none => false
    | some x => x.read = x.ready && !x.ended
  | _ => false

/-- No step of the routine, of the callback of the cancellation or of the destructor is left. -/
def Quiet {L : Type} (orphaned : S) (program : L → Action V S L) (w : World V S L) : Prop :=
  blocked w = true ∧ step orphaned program w .cancelRequest = w ∧
    step orphaned program w .cancelClose = w ∧ step orphaned program w .destroy = w

/-- The number of steps of the routine that were not blocked. -/
def work {L : Type} (orphaned : S) (program : L → Action V S L) : World V S L → List (Op S) → Nat
  | _, [] => 0
  | w, .routine :: ops =>
    (if blocked w then 0 else 1) + work orphaned program (step orphaned program w .routine) ops
  | w, op :: ops => work orphaned program (step orphaned program w op) ops

/-- The number of other steps. -/
def others : List (Op S) → Nat
  | [] => 0
  | .routine :: ops => others ops
  | _ :: ops => others ops + 1

/-- Whether the hooks are scheduled or run. -/
def active : Pc S → Bool
  | .scheduled => true
  | .running => true
  | .closing _ => true
  | _ => false

end Verif.StreamLoop
