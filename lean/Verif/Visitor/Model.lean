/-!
Model of `kd.functor.visit_functors` (py/koladata/functor/visitor/visitor.py) and of its users
`kd.functor.sub` and `kd.functor.sub_by_name` (py/koladata/functor/substitute.py).

Simplified: items are given by their ids, and two items with the same id are the same functor (all
are read from the bag of the root). The dict of subfunctors is a list in the order of insertion: the
names of variables in an order of evaluation are distinct (C85).
-/

namespace Verif.Visitor

/-- What a functor is to the visitor: whether an item is a functor (`functor_factories.is_fn`), its
variables in the order of evaluation (`get_variable_evaluation_order`, visitor.py:56, with
`functor.get_attr`, visitor.py:57; the computation is that of `Verif.Functor`), and all its attributes
(`attrs.dir(node)` with `node.get_attr`, substitute.py:254-255, 340-343, 361-365). -/
structure World (I E : Type) where
  isFn : I → Bool
  vars : I → Except E (List (String × I))
  attrs : I → List (String × I)

/-- The errors: `{functor} is not a functor` (visitor.py:43), `{functor} is recursive`
(visitor.py:50), and those of the order of evaluation and of the callback. `tooDeep` is the end of the
fuel of the model. -/
inductive Err (I E : Type) where
  | notFunctor
  | recursive (item : I)
  | raised (e : E)
  | tooDeep

/-- `_FunctorVisitor` (visitor.py:33-39): `_on_stack`, `_visited_functors`, and the state that the
callback keeps (python closures, like `names_to_fns` of `sub_by_name`). -/
structure St (I R S : Type) where
  onStack : List I
  visited : List (I × R)
  user : S

/-- The callback, with its state. -/
abbrev Callback (I E R S : Type) := I → List (String × R) → S → Except E (R × S)

variable {I E R S : Type} [DecidableEq I]

/-- The loop over variables (visitor.py:55-59). -/
def visitVars (W : World I E) (visit : I → St I R S → Except (Err I E) (R × St I R S)) :
    List (String × I) → List (String × R) → St I R S →
    Except (Err I E) (List (String × R) × St I R S)
  | [], subs, st => .ok (subs, st)
  | (name, v) :: rest, subs, st =>
    if W.isFn v then
      match visit v st with
      | .error e => .error e
      | .ok (r, st') => visitVars W visit rest (subs ++ [(name, r)]) st'
    else visitVars W visit rest subs st

/-- The call of the callback (visitor.py:62-64). -/
def finish (cb : Callback I E R S) (item : I) (subs : List (String × R)) (st : St I R S) :
    Except (Err I E) (R × St I R S) :=
  match cb item subs st.user with
  | .error e => .error (.raised e)
  | .ok (r, u) => .ok (r, { st with visited := st.visited ++ [(item, r)], user := u })

/-- `_visit_functor` (visitor.py:46-64). The first argument bounds the depth of the recursion. -/
def visitFunctor (W : World I E) (cb : Callback I E R S) :
    Nat → I → St I R S → Except (Err I E) (R × St I R S)
  | 0, _, _ => .error .tooDeep
  | n + 1, item, st =>
    if item ∈ st.onStack then .error (.recursive item)
    else
      match st.visited.lookup item with
      | some r => .ok (r, st)
      | none =>
        match W.vars item with
        | .error e => .error (.raised e)
        | .ok vs =>
          match visitVars W (visitFunctor W cb n) vs [] { st with onStack := item :: st.onStack } with
          | .error e => .error e
          | .ok (subs, st') => finish cb item subs { st' with onStack := st'.onStack.erase item }

/-- `visit_functors` (visitor.py:41-44, 67-99), for a callback with the initial state `u`. -/
def visitFunctors (W : World I E) (cb : Callback I E R S) (fuel : Nat) (u : S) (item : I) :
    Except (Err I E) (R × S) :=
  if W.isFn item then
    match visitFunctor W cb fuel item { onStack := [], visited := [], user := u } with
    | .error e => .error e
    | .ok (r, st) => .ok (r, st.user)
  else .error .notFunctor

/-! ### Substitution -/

/-- An item with changed attributes: `node.with_attrs(**subvars)` (substitute.py:265, 371), where the
new values are such items again. -/
inductive Tree (I : Type) where
  | node (item : I) (changes : List (String × Tree I))

/-- `subvars[attr_name] = replacement` (substitute.py:262, 368). -/
def setAttr (name : String) (t : Tree I) : List (String × Tree I) → List (String × Tree I)
  | [] => [(name, t)]
  | (n, x) :: rest => if n = name then (n, t) :: rest else (n, x) :: setAttr name t rest

/-- The check of a replacement (substitute.py:260-261, 366-367): only for functors and unless
`ignore_signature_checks`. `check` is `assert_signatures_compatible` (C93). -/
def checkOne (W : World I E) (ignore : Bool) (check : I → I → Except E Unit) (old new : I) :
    Except E Unit :=
  if W.isFn old && !ignore then check old new else .ok ()

/-- The loop of `transform_callback` (substitute.py:254-262, 361-368). `rep` gives the replacement of
an attribute: by its value in `sub` (256-259), by its name in `sub_by_name` (362-364). -/
def replaceAttrs (W : World I E) (ignore : Bool) (check : I → I → Except E Unit)
    (rep : String → I → Option I) :
    List (String × I) → List (String × Tree I) → Except E (List (String × Tree I))
  | [], changes => .ok changes
  | (name, old) :: rest, changes =>
    match rep name old with
    | none => replaceAttrs W ignore check rep rest changes
    | some new =>
      match checkOne W ignore check old new with
      | .error e => .error e
      | .ok () => replaceAttrs W ignore check rep rest (setAttr name (.node new []) changes)

/-- `transform_callback` (substitute.py:252-266, 359-372). -/
def transform (W : World I E) (ignore : Bool) (check : I → I → Except E Unit)
    (rep : String → I → Option I) : Callback I E (Tree I) Unit :=
  fun item subs _ =>
    match replaceAttrs W ignore check rep (W.attrs item) subs with
    | .error e => .error e
    | .ok changes => .ok (.node item changes, ())

/-- `sub` (substitute.py:150-268). Simplified: replacements are items, and the lookup of values as
`OBJECT`s is equality of items. -/
def sub (W : World I E) (ignore : Bool) (check : I → I → Except E Unit) (reps : List (I × I))
    (fuel : Nat) (root : I) : Except (Err I E) (Tree I × Unit) :=
  visitFunctors W (transform W ignore check fun _ v => reps.lookup v) fuel () root

/-- The loop of `validation_callback` (substitute.py:340-353). `same` is the comparison of schemas and
`full_equal`. -/
def collectNames (same : I → I → Bool) (clash : String → I → I → E) (names : List String) :
    List (String × I) → List (String × I) → Except E (List (String × I))
  | [], seen => .ok seen
  | (name, v) :: rest, seen =>
    if name ∈ names then
      match seen.lookup name with
      | some prev =>
        if same v prev then collectNames same clash names rest seen
        else .error (clash name prev v)
      | none => collectNames same clash names rest (seen ++ [(name, v)])
    else collectNames same clash names rest seen

/-- `validation_callback` (substitute.py:339-354). -/
def validation (W : World I E) (same : I → I → Bool) (clash : String → I → I → E)
    (names : List String) : Callback I E Unit (List (String × I)) :=
  fun item _ seen =>
    match collectNames same clash names (W.attrs item) seen with
    | .error e => .error e
    | .ok seen' => .ok ((), seen')

/-- `sub_by_name` (substitute.py:270-374). -/
def subByName (W : World I E) (ignore : Bool) (check : I → I → Except E Unit)
    (same : I → I → Bool) (clash : String → I → I → E) (reps : List (String × I))
    (fuel : Nat) (root : I) : Except (Err I E) (Tree I × Unit) :=
  match visitFunctors W (validation W same clash (reps.map Prod.fst)) fuel [] root with
  | .error e => .error e
  | .ok _ => visitFunctors W (transform W ignore check fun name _ => reps.lookup name) fuel () root

end Verif.Visitor
