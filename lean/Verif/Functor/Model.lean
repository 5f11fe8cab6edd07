import Verif.Binding.Model

/-!
Model of functors with variables: their creation (`koladata/functor/functor.cc`), the order in which
variables are evaluated and their inlining (`koladata/functor/auto_variables.cc`), the evaluation of
the resulting expression (`koladata/expr/expr_eval.cc`) and calls (`koladata/functor/call.cc`).
The binding of arguments is modelled in `Verif/Binding`.
-/

namespace Verif.Functor

open Verif.Binding (Parameter Bound Cfg)

/-- Expressions: `I.name`, `V.name`, literals and operators applied to arguments. Simplification:
trees instead of graphs with shared nodes; there are no placeholders and no leaves, for which
`TransformExprForEval` (expr_eval.cc:178-196) returns errors. -/
inductive Expr (Op V : Type) where
  | input (name : String)
  | var (name : String)
  | lit (v : V)
  | node (op : Op) (args : List (Expr Op V))

/-- The items that attributes of a functor can hold, other than expressions. -/
inductive Item where
  | missing
  | object (id : Nat)
  | prim (n : Nat)
  deriving DecidableEq

/-- An attribute of a functor: an `ExprQuote` or another item. -/
inductive Attr (Op V : Type) where
  | quote (e : Expr Op V)
  | item (i : Item)

/-- What the model leaves open: values, operators and what they compute. `item` is an item without
a bag, `withSelf` the same item with the bag of the functor, `selfBag` this bag, `bound` the value of
a bound argument, `withBag` the operator `kd.core.with_bag`, of which we only use the last field. -/
structure Kit (Op V : Type) where
  item : Item → V
  withSelf : Item → V
  selfBag : V
  bound : Bound V → V
  withBag : Op
  apply : Op → List V → Except String V
  cfg : Cfg V
  withBag_apply : ∀ i, apply withBag [item i, selfBag] = .ok (withSelf i)

/-- A functor: an item with attributes. `signatureItem` is what `V.__signature__` would be,
`signature` the parameters stored there, if it is present. -/
structure Fn (Op V : Type) where
  attrs : List (String × Attr Op V)
  signatureItem : Item
  signature : Option (List (Parameter V))

/-- The errors. -/
inductive Err where
  | notFunctor
  | returnsNotItem
  | returnsMissing
  | notItem (name : String)
  | signature (e : Binding.CreateError)
  | undefined (names : List String)
  | cycle (name : String)
  | noAttr (name : String)
  | unknownVariable (name : String)
  | noReturns
  | bind (e : Binding.BindError)
  | passedTwice (name : String)
  | missingInputs (names : List String)
  | op (message : String)
  | fuel
  deriving DecidableEq

variable {Op V : Type}

/-- `kReturnsAttrName` (functor_storage.h:25). -/
def kReturns : String := "returns"

/-- `kSignatureAttrName` (functor_storage.h:28). -/
def kSignature : String := "__signature__"

/-- `kSelfBagInput` (auto_variables.h:105). -/
def kBag : String := "__bag"

/-- `GetAttrOrMissing` (functor.cc:142), and `GetAttr` (auto_variables.cc:466), for which `none` is an
error. -/
def Fn.attr (F : Fn Op V) (name : String) : Option (Attr Op V) :=
  if name = kSignature then
    match F.signature with
    | none => none
    | some _ => some (.item F.signatureItem)
  else F.attrs.lookup name

/-- `IsFunctor` (functor_storage.cc:26-46). Simplification: the slice is an object with a bag. -/
def isFunctor (F : Fn Op V) : Bool :=
  match F.attr kReturns with
  | none => false
  | some (.item .missing) => false
  | some _ => F.signature.isSome

/-! ### The names in an expression -/

mutual

/-- The variables in an expression (the entries of `variable_leaf_index`, expr_eval.cc:162-168). -/
def Expr.vars : Expr Op V → List String
  | .input _ => []
  | .var name => [name]
  | .lit _ => []
  | .node _ args => varsAll args

/-- The same for the arguments of a node. -/
def varsAll : List (Expr Op V) → List String
  | [] => []
  | e :: es => e.vars ++ varsAll es

end

mutual

/-- The inputs in an expression (the entries of `input_leaf_index`, expr_eval.cc:162-168). -/
def Expr.inputs : Expr Op V → List String
  | .input name => [name]
  | .var _ => []
  | .lit _ => []
  | .node _ args => inputsAll args

/-- The same for the arguments of a node. -/
def inputsAll : List (Expr Op V) → List String
  | [] => []
  | e :: es => e.inputs ++ inputsAll es

end

/-- Insertion in a sorted list without repetition. -/
def insertName (name : String) : List String → List String
  | [] => [name]
  | m :: ms =>
    if name = m then m :: ms
    else if name < m then name :: m :: ms
    else m :: insertName name ms

/-- `std::sort` and `std::unique` (expr_eval.cc:420-427, functor.cc:84-85). -/
def sortNames (names : List String) : List String := names.foldr insertName []

/-- `GetExprVariables` (expr_eval.cc:416-428). -/
def exprVariables (e : Expr Op V) : List String := sortNames e.vars

/-! ### The order of evaluation -/

/-- The names that a variable depends on (functor.cc:142-149). -/
def Fn.deps (F : Fn Op V) (name : String) : List String :=
  match F.attr name with
  | some (.quote e) => exprVariables e
  | _ => []

/-- `VariableState` (functor.cc:112-115). -/
inductive VarState where
  | inStack
  | visited
  deriving DecidableEq

/-- `VariableProcessingFrame` (functor.cc:117-122): the dependencies from `next_dependency_index`
on. -/
structure Frame where
  name : String
  todo : List String

/-- The variables of `ForEachReachableVariable` (functor.cc:133-134) and the names that were given
to the visitor (auto_variables.cc:353-359). The first entry of a name in `states` counts. -/
structure Walk where
  stack : List Frame
  states : List (String × VarState)
  out : List String

/-- `reach_variable` (functor.cc:136-154). -/
def reach (F : Fn Op V) (name : String) (w : Walk) : Except Err Walk :=
  match w.states.lookup name with
  | some .inStack => .error (.cycle name)
  | some .visited => .ok w
  | none =>
    .ok { w with
      stack := ⟨name, F.deps name⟩ :: w.stack
      states := (name, .inStack) :: w.states }

/-- The end of the work on the frame at the top (functor.cc:159-164). -/
def leave (name : String) (rest : List Frame) (w : Walk) : Walk :=
  { stack := rest, states := (name, .visited) :: w.states, out := w.out ++ [name] }

/-- The loop (functor.cc:157-168). The number bounds the iterations. -/
def walk (F : Fn Op V) : Nat → Walk → Except Err Walk
  | 0, _ => .error .fuel
  | n + 1, w =>
    match w.stack with
    | [] => .ok w
    | ⟨name, []⟩ :: rest => walk F n (leave name rest w)
    | ⟨name, d :: ds⟩ :: rest =>
      match reach F d { w with stack := ⟨name, ds⟩ :: rest } with
      | .error e => .error e
      | .ok w => walk F n w

/-- All names that can be reached. -/
def Fn.names (F : Fn Op V) : List String :=
  sortNames (kReturns :: F.attrs.flatMap fun e => F.deps e.1)

/-- A bound of the number of iterations. -/
def Fn.fuel (F : Fn Op V) : Nat := ((F.names.map fun n => (F.deps n).length + 1).sum) + 1

/-- `ForEachReachableVariable` (functor.cc:126-170) with the visitor of `GetVariableEvaluationOrder`
(auto_variables.cc:351-360): the names in the order of the visits. -/
def evaluationOrder (F : Fn Op V) : Except Err (List String) :=
  if isFunctor F = true then
    match reach F kReturns ⟨[], [], []⟩ with
    | .error e => .error e
    | .ok w =>
      match walk F F.fuel w with
      | .error e => .error e
      | .ok w => .ok w.out
  else .error .notFunctor

/-! ### Creation -/

/-- A `DataSlice` given for a variable: its rank, and the item if the rank is 0. -/
structure Arg (Op V : Type) where
  rank : Nat
  attr : Attr Op V

/-- The inputs of a variable (functor.cc:78-82). -/
def Attr.inputs : Attr Op V → List String
  | .quote e => e.inputs
  | .item _ => []

/-- `ValidateReturn` (functor.cc:51-61). -/
def validateReturn (returns : Arg Op V) : Except Err Unit :=
  if returns.rank ≠ 0 then .error .returnsNotItem
  else
    match returns.attr with
    | .item .missing => .error .returnsMissing
    | _ => .ok ()

/-- The loop over variables with `ValidateArg` (functor.cc:63-70, 208-210). -/
def validateArgs : List (String × Arg Op V) → Except Err Unit
  | [] => .ok ()
  | (name, a) :: rest => if a.rank ≠ 0 then .error (.notItem name) else validateArgs rest

/-- A signature is checked by creating it (functor.cc:86-95). -/
def checkSignature (c : Cfg V) (ps : List (Parameter V)) : Except Err (List (Parameter V)) :=
  match Binding.create c ps with
  | .error e => .error (.signature e)
  | .ok _ => .ok ps

/-- `ProcessSignature` (functor.cc:72-98): the given parameters, or the default signature for the
inputs of all variables. -/
def processSignature (c : Cfg V) (unspecified : V) (signature : Option (List (Parameter V)))
    (values : List (Attr Op V)) : Except Err (List (Parameter V)) :=
  match signature with
  | none =>
    checkSignature c
      (Binding.defaultParameters unspecified (sortNames (values.flatMap Attr.inputs)))
  | some ps => checkSignature c ps

/-- `ValidateAllVariablesDefined` (functor.cc:177-198). -/
def validateDefined (F : Fn Op V) (names : List String) : Except Err Unit :=
  match evaluationOrder F with
  | .error e => .error e
  | .ok order =>
    let undefined := order.filter fun n => !names.contains n
    if undefined.isEmpty then .ok () else .error (.undefined undefined)

/-- `CreateFunctor` (functor.cc:202-221) with `CreateFunctorImpl` (functor.cc:100-110).
`variable_names` is copied for `CreateFunctorImpl`, so that the names of the check do not include
`__signature__`. Simplification: the names of `variables` are different from each other, from
`returns` and from `__signature__`; `signatureItem` is the item of the signature. -/
def createFunctor (c : Cfg V) (unspecified : V) (signatureItem : Item) (returns : Arg Op V)
    (signatureRank : Nat) (signature : Option (List (Parameter V)))
    (variables : List (String × Arg Op V)) : Except Err (Fn Op V) :=
  match validateReturn returns with
  | .error e => .error e
  | .ok _ =>
    if signatureRank ≠ 0 then .error (.notItem "signature")
    else
      match validateArgs variables with
      | .error e => .error e
      | .ok _ =>
        let attrs := (kReturns, returns.attr) :: variables.map fun e => (e.1, e.2.attr)
        match processSignature c unspecified signature (attrs.map Prod.snd) with
        | .error e => .error e
        | .ok ps =>
          let F : Fn Op V := ⟨attrs, signatureItem, some ps⟩
          match validateDefined F (attrs.map Prod.fst) with
          | .error e => .error e
          | .ok _ => .ok F

/-! ### Inlining -/

mutual

/-- The transformation of an expression (auto_variables.cc:478-491). -/
def subst (env : List (String × Expr Op V)) : Expr Op V → Except Err (Expr Op V)
  | .input name => .ok (.input name)
  | .var name =>
    match env.lookup name with
    | none => .error (.unknownVariable name)
    | some e => .ok e
  | .lit v => .ok (.lit v)
  | .node op args =>
    match substAll env args with
    | .error e => .error e
    | .ok args => .ok (.node op args)

/-- The same for the arguments of a node. -/
def substAll (env : List (String × Expr Op V)) : List (Expr Op V) → Except Err (List (Expr Op V))
  | [] => .ok []
  | e :: es =>
    match subst env e with
    | .error err => .error err
    | .ok e =>
      match substAll env es with
      | .error err => .error err
      | .ok es => .ok (e :: es)

end

/-- The expression for an item that is not an expression (auto_variables.cc:467-475). -/
def itemExpr (K : Kit Op V) : Item → Expr Op V
  | .missing => .node K.withBag [.lit (K.item .missing), .input kBag]
  | .object id => .node K.withBag [.lit (K.item (.object id)), .input kBag]
  | .prim n => .lit (K.item (.prim n))

/-- One round of the loop of `InlineAllVariables` (auto_variables.cc:465-494). -/
def inlineOne (K : Kit Op V) (F : Fn Op V) (env : List (String × Expr Op V)) (name : String) :
    Except Err (List (String × Expr Op V)) :=
  match F.attr name with
  | none => .error (.noAttr name)
  | some (.item i) => .ok (env ++ [(name, itemExpr K i)])
  | some (.quote e) =>
    match subst env e with
    | .error err => .error err
    | .ok e => .ok (env ++ [(name, e)])

/-- The loop of `InlineAllVariables` (auto_variables.cc:465-494). -/
def inlineLoop (K : Kit Op V) (F : Fn Op V) :
    List String → List (String × Expr Op V) → Except Err (List (String × Expr Op V))
  | [], env => .ok env
  | name :: names, env =>
    match inlineOne K F env name with
    | .error e => .error e
    | .ok env => inlineLoop K F names env

/-- `InlineAllVariables` (auto_variables.cc:450-496). -/
def inlineAll (K : Kit Op V) (F : Fn Op V) : Except Err (Expr Op V) :=
  match evaluationOrder F with
  | .error e => .error e
  | .ok order =>
    if order.getLast? = some kReturns then
      match inlineLoop K F order [] with
      | .error e => .error e
      | .ok env =>
        match env.lookup kReturns with
        | none => .error .noReturns
        | some e => .ok e
    else .error .noReturns

/-! ### Evaluation -/

/-- The loop over inputs (expr_eval.cc:359-370); `used` are the inputs of the expression, `seen`
those that have a value. -/
def checkTwice (used : List String) : List (String × V) → List String → Except Err Unit
  | [], _ => .ok ()
  | (name, _) :: rest, seen =>
    if used.contains name = true then
      if seen.contains name = true then .error (.passedTwice name)
      else checkTwice used rest (name :: seen)
    else checkTwice used rest seen

mutual

/-- The evaluation of the compiled expression (expr_eval.cc:397-403). Operators get all of their
arguments. -/
def eval (K : Kit Op V) (ins : List (String × V)) : Expr Op V → Except Err V
  | .input name =>
    match ins.lookup name with
    | none => .error (.missingInputs [name])
    | some v => .ok v
  | .var name => .error (.unknownVariable name)
  | .lit v => .ok v
  | .node op args =>
    match evalAll K ins args with
    | .error e => .error e
    | .ok vs =>
      match K.apply op vs with
      | .error e => .error (.op e)
      | .ok v => .ok v

/-- The same for the arguments of a node. -/
def evalAll (K : Kit Op V) (ins : List (String × V)) : List (Expr Op V) → Except Err (List V)
  | [] => .ok []
  | e :: es =>
    match eval K ins e with
    | .error err => .error err
    | .ok v =>
      match evalAll K ins es with
      | .error err => .error err
      | .ok vs => .ok (v :: vs)

end

/-- `EvalExprWithCompilationCache` (expr_eval.cc:342-404) without variables. Simplification: the
list of missing inputs is in another order and can have repetitions. -/
def evalExpr (K : Kit Op V) (e : Expr Op V) (ins : List (String × V)) : Except Err V :=
  match checkTwice e.inputs ins [] with
  | .error err => .error err
  | .ok _ =>
    let missing := e.inputs.filter fun n => !(ins.map Prod.fst).contains n
    if missing.isEmpty then eval K ins e else .error (.missingInputs missing)

/-- The inputs (call.cc:128-135). -/
def callInputs (K : Kit Op V) (ps : List (Parameter V)) (bound : List (Bound V)) :
    List (String × V) :=
  (ps.map Parameter.name).zip (bound.map K.bound) ++ [(kBag, K.selfBag)]

/-- `FunctorPreprocessingCache` (call.cc:53-56). -/
structure Processed (Op V : Type) where
  signature : Binding.Signature V
  expr : Expr Op V

/-- `ProcessFunctor` (call.cc:58-73). -/
def process (K : Kit Op V) (F : Fn Op V) : Except Err (Processed Op V) :=
  match F.signature with
  | none => .error .notFunctor
  | some ps =>
    match Binding.create K.cfg ps with
    | .error e => .error (.signature e)
    | .ok s =>
      match inlineAll K F with
      | .error e => .error e
      | .ok e => .ok ⟨s, e⟩

/-- The rest of a call (call.cc:125-139). -/
def runProcessed (K : Kit Op V) (P : Processed Op V) (args : List V) (kwnames : List String) :
    Except Err V :=
  match Binding.bindArguments K.cfg P.signature args kwnames with
  | .error err => .error (.bind err)
  | .ok bound => evalExpr K P.expr (callInputs K P.signature.parameters bound)

/-- `CallFunctorWithCompilationCache` (call.cc:81-139) without the cache of processed functors,
which is modelled in `Verif/Functor/Cache.lean`. -/
def call (K : Kit Op V) (F : Fn Op V) (args : List V) (kwnames : List String) : Except Err V :=
  if isFunctor F = true then
    match process K F with
    | .error e => .error e
    | .ok P => runProcessed K P args kwnames
  else .error .notFunctor

end Verif.Functor
