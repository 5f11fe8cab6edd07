import Verif.SliceOps.Model

/-!
What the operators on slices promise, said about nested lists: a slice is seen as a tree whose leaves
are its items and whose nodes are the groups of its dimensions.
-/

namespace Verif.SliceOps

/-- A nested list. -/
inductive Tree (α : Type) where
  | leaf (x : Option α)
  | node (children : List (Tree α))
deriving Inhabited, Repr

/-- A list in parts of the given sizes. -/
def parts {α : Type} : List Nat → List α → List (List α)
  | [], _ => []
  | n :: ns, l => l.take n :: parts ns (l.drop n)

/-- Items nested by a shape: the group of the first dimension holds what the groups of the next one
make. -/
def nest {α : Type} : List Edge → List (Tree α) → List (Tree α)
  | [], l => l
  | e :: es, l => (parts e (nest es l)).map .node

/-- A slice as a nested list. -/
def view {α : Type} (s : Slice α) : Tree α := (nest s.edges (s.items.map .leaf)).headD (.leaf none)

/-- A shape with `n` groups in its first dimension and `m` items: each dimension has as many groups as
the one before has items. -/
def Fits : Nat → List Edge → Nat → Prop
  | n, [], m => n = m
  | n, e :: es, m => e.length = n ∧ Fits e.sum es m

/-- The items fit the shape. -/
def Wf {α : Type} (s : Slice α) : Prop := Fits 1 s.edges s.items.length

/-- A function of the parts at some depth. -/
def mapAt {α β : Type} : Nat → (Tree α → Tree β) → Tree α → Tree β
  | 0, f, t => f t
  | d + 1, f, .node ts => .node (ts.map (mapAt d f))
  | _ + 1, _, .leaf _ => .leaf none

/-- A function of the parts of two nested lists at some depth. -/
def zipAt {α β γ : Type} : Nat → (Tree α → Tree β → Tree γ) → Tree α → Tree β → Tree γ
  | 0, f, t, u => f t u
  | d + 1, f, .node ts, .node us => .node (List.zipWith (zipAt d f) ts us)
  | _ + 1, _, _, _ => .leaf none

/-! ### broadcasting -/

mutual
/-- All leaves replaced by one item. -/
def fillTree {α β : Type} (x : Option β) : Tree α → Tree β
  | .leaf _ => .leaf x
  | .node ts => .node (fillTrees x ts)
/-- All leaves replaced by one item. -/
def fillTrees {α β : Type} (x : Option β) : List (Tree α) → List (Tree β)
  | [] => []
  | t :: ts => fillTree x t :: fillTrees x ts
end

/-- An item in place of each item of a nested list. -/
def spread {α β : Type} : Tree β → Tree α → Tree β
  | .leaf x, t => fillTree x t
  | .node _, _ => .leaf none

/-- The items of two nested lists combined, each item of the shallower one with all items in its
place of the deeper one. -/
def alignWith {α β γ : Type} (f : Option α → Option β → Tree γ) : Nat → Nat → Tree α → Tree β → Tree γ
  | 0, 0, .leaf x, .leaf y => f x y
  | 0, d + 1, t, .node us => .node (us.map (alignWith f 0 d t))
  | c + 1, 0, .node ts, u => .node (ts.map (fun t => alignWith f c 0 t u))
  | c + 1, d + 1, .node ts, .node us => .node (List.zipWith (alignWith f c d) ts us)
  | _, _, _, _ => .leaf none

/-- One shape begins with the other. -/
def Compatible (es fs : List Edge) : Prop := es <+: fs ∨ fs <+: es

/-! ### select -/

/-- A leaf that is present. -/
def Tree.present {α : Type} : Tree α → Bool
  | .leaf (some _) => true
  | _ => false

/-- The parts of a node for which the filter is present. -/
def selectNode {α β : Type} : Tree α → Tree β → Tree α
  | .node ts, .node fs => .node (((ts.zip fs).filter (fun p => p.2.present)).map (·.1))
  | _, _ => .leaf none

/-- All the present items are masks. -/
def AllMask (l : List (Option Uuid.Item)) : Prop := ∀ x, some x ∈ l → x = .unit

/-- Items put in the places where the filter is present. -/
def unselect {α β : Type} : List (Tree α) → List (Tree β) → List (Tree α)
  | ts, [] => ts.take 0
  | t :: ts, .leaf (some _) :: fs => t :: unselect ts fs
  | ts, _ :: fs => .leaf none :: unselect ts fs

/-- The items of a node put in the places where the filter is present. -/
def unselectNode {α β : Type} : Tree α → Tree β → Tree α
  | .node ts, .node fs => .node (unselect ts fs)
  | _, _ => .leaf none

/-! ### reverse and unique -/

/-- A node in reverse. -/
def reverseNode {α : Type} : Tree α → Tree α
  | .node ts => .node ts.reverse
  | .leaf x => .leaf x

/-- The item of a leaf. -/
def Tree.item {α : Type} : Tree α → Option α
  | .leaf x => x
  | .node _ => none

/-- What the equality of a type of items must satisfy. A value that is not a number is not even equal to
itself. -/
structure Equality {α : Type} (eq : α → α → Bool) (isNan : α → Bool) : Prop where
  refl : ∀ x, isNan x = false → eq x x = true
  symm : ∀ x y, eq x y = true → eq y x = true
  trans : ∀ x y z, eq x y = true → eq y z = true → eq x z = true
  nan : ∀ x y, isNan x = true → eq x y = false

/-- What the order of a type of items must satisfy. -/
structure Ordering {α : Type} (eq : α → α → Bool) (isNan : α → Bool) (lt : α → α → Bool) : Prop where
  equal : ∀ x y, eq x y = true → lt x y = false
  asymm : ∀ x y, lt x y = true → lt y x = false
  trans : ∀ x y z, lt x y = true → lt y z = true → lt x z = true
  total : ∀ x y, isNan x = false → isNan y = false → lt x y = true ∨ lt y x = true ∨ eq x y = true

/-- Equal, or both not a number. -/
def same {α : Type} (eq : α → α → Bool) (isNan : α → Bool) (x y : α) : Bool :=
  eq x y || (isNan x && isNan y)

/-- The items that are present and not the same as an earlier one. -/
def distinct {α : Type} (same : α → α → Bool) : List (Option α) → List α
  | [] => []
  | none :: l => distinct same l
  | some x :: l => x :: (distinct same l).filter (fun y => !same x y)

/-- The children of a node by their items. -/
def itemsNode {α β : Type} (f : List (Option α) → List (Tree β)) : Tree α → Tree β
  | .node ts => .node (f (ts.map Tree.item))
  | .leaf _ => .leaf none

/-! ### subslice -/

/-- The parts of a nested list at some depth, as leaves. -/
def cut {α : Type} (d : Nat) : Tree α → Tree (Tree α) := mapAt d fun t => .leaf (some t)

/-- The parts of a nested list that were chosen. -/
def uncut {α : Type} : Option (Tree α) → Tree α
  | some t => t
  | none => .leaf none

/-- The leaves replaced at some depth. -/
def leavesAt {α β : Type} (d : Nat) (f : Option α → Tree β) : Tree α → Tree β :=
  mapAt d fun t => f t.item

/-- The children of a node. -/
def Tree.children {α : Type} : Tree α → List (Tree α)
  | .node ts => ts
  | .leaf _ => []

/-- The child with an index, counting from the end if it is negative. -/
def child {α : Type} (t : Tree α) (i : Int) : Option (Tree α) :=
  if 0 ≤ i then t.children[i.toNat]?
  else if -(t.children.length : Int) ≤ i then t.children[(t.children.length + i).toNat]?
  else none

/-- A bound of a range as a position: from the end if it is negative, and within the list. -/
def bound (n : Nat) (i : Int) : Nat :=
  if 0 ≤ i then min i.toNat n else n - min (-i).toNat n

/-- The part of a list between two bounds, as in Python. -/
def slicePart {β : Type} (l : List β) (start stop : Int) : List β :=
  (l.take (bound l.length stop)).drop (bound l.length start)

/-- The rank and the nested list of what was chosen. -/
abbrev State (α : Type) := Nat × Tree (Tree α)

/-- The leaves of two nested lists as pairs, that are missing if one of the leaves is. -/
def pairUp {α β : Type} : Option α → Option β → Tree (α × β)
  | some x, some y => .leaf (some (x, y))
  | _, _ => .leaf none

/-- What an argument of `subslice` chooses. -/
def choose {α : Type} (st : State α) : Arg → State α
  | .single i =>
    (max st.1 i.rank, leavesAt (max st.1 i.rank)
      (fun p => .leaf (p.bind fun p => child p.1 p.2)) (alignWith pairUp st.1 i.rank st.2 (view i)))
  | .range none none =>
    (st.1 + 1, leavesAt st.1 (fun p => .node (((p.map Tree.children).getD []).map (fun t => .leaf (some t)))) st.2)
  | .range (some a) none =>
    (max st.1 a.rank + 1, leavesAt (max st.1 a.rank)
      (fun p => .node (((p.map fun p => slicePart p.1.children p.2 p.1.children.length).getD []).map
        (fun t => .leaf (some t))))
      (alignWith pairUp st.1 a.rank st.2 (view a)))
  | .range none (some b) =>
    (max st.1 b.rank + 1, leavesAt (max st.1 b.rank)
      (fun p => .node (((p.map fun p => slicePart p.1.children 0 p.2).getD []).map
        (fun t => .leaf (some t))))
      (alignWith pairUp st.1 b.rank st.2 (view b)))
  | .range (some a) (some b) =>
    (max (max st.1 a.rank) b.rank + 1, leavesAt (max (max st.1 a.rank) b.rank)
      (fun p => .node (((p.map fun p => slicePart p.1.1.children p.1.2 p.2).getD []).map
        (fun t => .leaf (some t))))
      (alignWith pairUp (max st.1 a.rank) b.rank
        (alignWith pairUp st.1 a.rank st.2 (view a)) (view b)))

/-- The arguments one after the other. -/
def chooseMany {α : Type} (st : State α) (args : List Arg) : State α := args.foldl choose st

/-- The sizes of the groups of nested lists, in each dimension. -/
def treeEdges {α : Type} : Nat → List (Tree α) → List Edge
  | 0, _ => []
  | r + 1, ts => ts.map (fun t => t.children.length) :: treeEdges r (ts.flatMap Tree.children)

/-- The shape of an argument goes with the shape of what was chosen. -/
def Suits {α : Type} (st : State α) : Arg → Prop
  | .single i => Compatible (treeEdges st.1 [st.2]) i.edges
  | .range none none => True
  | .range (some a) none => Compatible (treeEdges st.1 [st.2]) a.edges
  | .range none (some b) => Compatible (treeEdges st.1 [st.2]) b.edges
  | .range (some a) (some b) => Compatible (treeEdges st.1 [st.2]) a.edges ∧
      Compatible (treeEdges st.1 [st.2]) b.edges ∧ Compatible a.edges b.edges

/-- The shape of each argument goes with what the ones before it chose. -/
def SuitsAll {α : Type} : State α → List Arg → Prop
  | _, [] => True
  | st, a :: args => Suits st a ∧ SuitsAll (choose st a) args

/-- The slices of an argument. -/
def ArgWf : Arg → Prop
  | .single i => Wf i
  | .range a b => (∀ s, a = some s → Wf s) ∧ ∀ s, b = some s → Wf s

/-! ### group_by_indices -/

/-- The keys of the positions: the items of all the key slices, if none is missing. -/
def keysOf {α : Type} (x : Slice α) (rest : List (Slice α)) : Slice (List α) :=
  ⟨x.edges, (List.range x.items.length).map fun i => (x :: rest).mapM fun s => (s.items[i]?).join⟩

/-- Keys with the same items. -/
def sameKey {α : Type} (eq : α → α → Bool) : List α → List α → Bool
  | [], [] => true
  | x :: xs, y :: ys => eq x y && sameKey eq xs ys
  | _, _ => false

/-- The lexicographic order of keys. -/
def keyLess {α : Type} (eq lt : α → α → Bool) : List α → List α → Bool
  | x :: xs, y :: ys => lt x y || (eq x y && keyLess eq lt xs ys)
  | _, _ => false

/-- A relation between the parts of two nested lists of the same form, at some depth. -/
def RelAt {α β : Type} : Nat → (Tree α → Tree β → Prop) → Tree α → Tree β → Prop
  | 0, R, t, u => R t u
  | d + 1, R, .node ts, .node us => ts.length = us.length ∧
    ∀ (i : Nat) a b, ts[i]? = some a → us[i]? = some b → RelAt d R a b
  | _ + 1, _, _, _ => False

/-- Groups of positions as a nested list. -/
def groupsNode (gs : List (List Nat)) : Tree Int :=
  .node (gs.map fun g => .node (g.map fun (i : Nat) => .leaf (some (i : Int))))

/-- Positions with the same key. -/
def SameGroup {β : Type} (same : β → β → Bool) (keys : List (Option β)) (i j : Nat) : Prop :=
  ∃ k l, keys[i]? = some (some k) ∧ keys[j]? = some (some l) ∧ (i = j ∨ same k l = true)

/-- Groups of positions by their keys: in each group the positions with the same key in increasing order, each
position with a key in a group, no group empty. -/
structure GroupsBy {β : Type} (same : β → β → Bool) (keys : List (Option β)) (gs : List (List Nat)) : Prop where
  nonempty : ∀ g ∈ gs, g ≠ []
  all : ∀ (i : Nat) k, keys[i]? = some (some k) → ∃ g ∈ gs, i ∈ g
  one : gs.flatten.Nodup
  increasing : ∀ g ∈ gs, g.Pairwise (· < ·)
  same : ∀ g ∈ gs, ∀ i ∈ g, ∀ j, j ∈ g ↔ SameGroup same keys i j

/-- The groups in the order of their first positions. -/
def ByAppearance (gs : List (List Nat)) : Prop :=
  gs.Pairwise fun g h => ∀ i j, g.head? = some i → h.head? = some j → i < j

/-- The groups in the order of their keys. -/
def ByKey {β : Type} (less : β → β → Bool) (keys : List (Option β)) (gs : List (List Nat)) : Prop :=
  gs.Pairwise fun g h => ∀ i ∈ g, ∀ j ∈ h, ∃ k l, keys[i]? = some (some k) ∧ keys[j]? = some (some l) ∧
    less k l = true

end Verif.SliceOps
