import Verif.BagWorld.Model
/-
What the theorems about data bags are stated with: valid arguments of the
operations, the worlds that can be reached, and when two bags read the same.
-/

namespace Verif.BagWorld

open Verif.BagAttr

/-- The objects and values of a modification exist, and there are as many values
as objects; objects that are created are new to the bag. -/
def WriteOp.Valid (b : Bag) : WriteOp → Prop
  | .setAttr o _ _ => ∀ x, o = .object x → x.Valid
  | .setSlice objs _ values => values.WF ∧
      ∀ ids allocs small, objs = .objects ids allocs small →
        IdsWF ids allocs small ∧ ids.length = values.cells.length
  | .assign objs full _ values => values.WF ∧
      (∀ ids allocs small, objs = .objects ids allocs small →
        IdsWF ids allocs small ∧ ids.length = values.cells.length) ∧
      ∀ a, full = some a → a.WF ∧ values.cells.length = a.n
  | .create a fields => a.WF ∧ (fields.map (·.1)).Nodup ∧
      (∀ f ∈ fields, f.2.WF ∧ f.2.cells.length = a.n) ∧ Fresh b a
  | .createOne o fields => o.Valid ∧ o.alloc.isSmall = true ∧ (fields.map (·.1)).Nodup

def Op.Valid (w : World) : Op → Prop
  | .write h op => ∀ b, implOf w h = some b → op.Valid b
  | _ => True

/-- The state in which a failing operation leaves a bag can be anything a
successful operation could produce. -/
def CrashOk (crash : Bag → Bag) : Prop :=
  ∀ b : Bag, b.WF → b.frozen = false → Modified b (crash b)

/-- Sources that are taken to be the same are the same. -/
def SameOk (same : SameSources) : Prop := ∀ x y, same x y = true → x = y

/-- The worlds of all histories. -/
inductive Reach : World → Prop where
  | init : Reach emptyWorld
  | step {w : World} {same : SameSources} {crash : Bag → Bag} {op : Op} :
      Reach w → SameOk same → CrashOk crash → op.Valid w → Reach (step same crash w op).1

/-- `w'` can be reached from `w`. -/
inductive Later : World → World → Prop where
  | refl (w : World) : Later w w
  | step {w w' : World} {same : SameSources} {crash : Bag → Bag} {op : Op} :
      Later w w' → SameOk same → CrashOk crash → op.Valid w' →
      Later w (step same crash w' op).1

/-- There is such a bag. -/
def IsBag (w : World) (h : Nat) : Prop := h < w.bags.length

/-- There is such a bag, and it can be modified. -/
def Mutable (w : World) (h : Nat) : Prop := ∃ d, w.bags[h]? = some d ∧ d.mutbl = true

/-- There is such a bag, and it cannot be modified. -/
def Immutable (w : World) (h : Nat) : Prop := ∃ d, w.bags[h]? = some d ∧ d.mutbl = false

/-- There is such a bag, and it has fallbacks. -/
def HasFallbacks (w : World) (h : Nat) : Prop := ∃ d, w.bags[h]? = some d ∧ d.fallbacks ≠ []

/-- A bag reads in one world as a bag in another world. -/
def ReadsAs (w : World) (h : Nat) (w' : World) (h' : Nat) : Prop :=
  ∀ o attr, read w h o attr = read w' h' o attr

/-- `f` is a fallback of `h`, or a fallback of one. -/
inductive Behind (w : World) : Nat → Nat → Prop where
  | direct {h f : Nat} {d : DataBag} : w.bags[h]? = some d → f ∈ d.fallbacks → Behind w h f
  | more {h g f : Nat} {d : DataBag} : w.bags[h]? = some d → g ∈ d.fallbacks → Behind w g f → Behind w h f

/-- It is not the case that a bag has the attribute removed for all objects of a
(big) allocation. -/
def NotErasedIn (w : World) (f : Nat) (x : Obj) (attr : Attr) : Prop :=
  x.alloc.isSmall = true ∨
    ∃ y : Obj, y.Valid ∧ y.alloc = x.alloc ∧ read w f y attr ≠ some none

/-- None of the bags behind a bag has the attribute removed for all objects of the
allocation. -/
def NotErased (w : World) (h : Nat) (x : Obj) (attr : Attr) : Prop :=
  ∀ f, Behind w h f → ¬ HasFallbacks w f → NotErasedIn w f x attr

/-- The bag an operation modifies. -/
def Op.target : Op → Option Nat
  | .write h _ => some h
  | .merge h _ _ => some h
  | _ => none

end Verif.BagWorld
