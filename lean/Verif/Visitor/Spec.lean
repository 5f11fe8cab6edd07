import Verif.Visitor.Model

/-!
What visiting the functors below a functor means.
-/

namespace Verif.Visitor

variable {I E R S : Type} [DecidableEq I]

/-- `b` is the value of a variable of the functor `a`, and a functor. -/
def Child (W : World I E) (a b : I) : Prop :=
  ∃ vs name, W.vars a = .ok vs ∧ (name, b) ∈ vs ∧ W.isFn b = true

/-- `b` is below `a`, by one or more steps. -/
inductive Below (W : World I E) : I → I → Prop where
  | child {a b} : Child W a b → Below W a b
  | step {a b c} : Below W a b → Child W b c → Below W a c

/-- The functors to visit. -/
def Reach (W : World I E) (root x : I) : Prop := x = root ∨ Below W root x

/-- What a callback gets for the variables `vs`: for each of them that is a functor, its result. -/
inductive Subs (W : World I E) (done : List (I × R)) :
    List (String × I) → List (String × R) → Prop where
  | nil : Subs W done [] []
  | functor {name v r vs subs} : W.isFn v = true → (v, r) ∈ done → Subs W done vs subs →
      Subs W done ((name, v) :: vs) ((name, r) :: subs)
  | other {name v vs subs} : W.isFn v = false → Subs W done vs subs →
      Subs W done ((name, v) :: vs) subs

/-- Calls of the callback, with their results: each gets the results of calls before it. -/
inductive Run (W : World I E) (cb : Callback I E R S) (u₀ : S) : List (I × R) → S → Prop where
  | nil : Run W cb u₀ [] u₀
  | call {done u item vs subs r u'} : Run W cb u₀ done u → W.vars item = .ok vs →
      Subs W done vs subs → cb item subs u = .ok (r, u') →
      Run W cb u₀ (done ++ [(item, r)]) u'

/-- Why a visit fails. -/
inductive Fails (W : World I E) (cb : Callback I E R S) (u₀ : S) (root : I) : Err I E → Prop where
  | notFunctor : W.isFn root = false → Fails W cb u₀ root .notFunctor
  | recursive {item} : W.isFn root = true → Reach W root item → Below W item item →
      Fails W cb u₀ root (.recursive item)
  | order {item e} : W.isFn root = true → Reach W root item → W.vars item = .error e →
      Fails W cb u₀ root (.raised e)
  | callback {done u item vs subs e} : W.isFn root = true → Run W cb u₀ done u →
      (done.map Prod.fst).Nodup → (∀ x ∈ done.map Prod.fst, Reach W root x) →
      Reach W root item → item ∉ done.map Prod.fst →
      W.vars item = .ok vs → Subs W done vs subs → cb item subs u = .error e →
      Fails W cb u₀ root (.raised e)

/-- The value of a functor, computed from those of its subfunctors without any sharing. -/
inductive Value (W : World I E) (f : I → List (String × R) → R) : I → R → Prop where
  | mk {item vs subs} (val : I → R) : W.vars item = .ok vs →
      subs = (vs.filter fun p => W.isFn p.2).map (fun p => (p.1, val p.2)) →
      (∀ p ∈ vs, W.isFn p.2 = true → Value W f p.2 (val p.2)) → Value W f item (f item subs)

/-! ### Substitution -/

/-- Attributes have different names, and so have variables, which are attributes. -/
structure World.WF (W : World I E) : Prop where
  attrs : ∀ item, ((W.attrs item).map Prod.fst).Nodup
  vars : ∀ item vs, W.vars item = .ok vs → (vs.map Prod.fst).Nodup
  sub : ∀ item vs, W.vars item = .ok vs → ∀ p ∈ vs, p ∈ W.attrs item

/-- The functor `item` with replacements: every attribute with a replacement is replaced, a functor
that is the value of another variable is treated in the same way, and nothing else is changed. -/
inductive Substituted (W : World I E) (rep : String → I → Option I) : I → Tree I → Prop where
  | mk {item : I} {changes : List (String × Tree I)} {vs : List (String × I)} (below : I → Tree I) :
      W.vars item = .ok vs →
      (∀ name old new, (name, old) ∈ W.attrs item → rep name old = some new →
        changes.lookup name = some (.node new [])) →
      (∀ name v, (name, v) ∈ vs → W.isFn v = true → rep name v = none →
        changes.lookup name = some (below v)) →
      (∀ name, (∀ v, (name, v) ∈ vs → W.isFn v = false) →
        (∀ old, (name, old) ∈ W.attrs item → rep name old = none) → changes.lookup name = none) →
      (∀ name v, (name, v) ∈ vs → W.isFn v = true → Substituted W rep v (below v)) →
      Substituted W rep item (.node item changes)

/-- A replacement that the check of signatures rejects. -/
def Rejected (W : World I E) (check : I → I → Except E Unit) (rep : String → I → Option I)
    (root : I) (e : E) : Prop :=
  ∃ x name old new, Reach W root x ∧ (name, old) ∈ W.attrs x ∧ rep name old = some new ∧
    W.isFn old = true ∧ check old new = .error e

/-- The functors below the root are no tree: an error of the traversal. -/
inductive Stuck (W : World I E) (root : I) : Err I E → Prop where
  | notFunctor : W.isFn root = false → Stuck W root .notFunctor
  | recursive {item} : Reach W root item → Below W item item → Stuck W root (.recursive item)
  | order {item e} : Reach W root item → W.vars item = .error e → Stuck W root (.raised e)

/-- Two functors have an attribute of the same name, but not with the same value. -/
def Clash (W : World I E) (same : I → I → Bool) (names : List String) (root : I) : Prop :=
  ∃ x y name v w, Reach W root x ∧ Reach W root y ∧ name ∈ names ∧ (name, v) ∈ W.attrs x ∧
    (name, w) ∈ W.attrs y ∧ same v w = false

end Verif.Visitor
