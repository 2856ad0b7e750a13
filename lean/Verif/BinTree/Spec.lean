import Verif.BinTree.Model
/- Specification side: plain structural functions on trees. -/
namespace Fdapde.BinTree
variable {α : Type}

namespace Tree

/-- Number of nodes. -/
def size : Tree α → Nat
  | nil => 0
  | node l _ _ r => l.size + 1 + r.size

/-- Root, then left subtree, then right subtree. -/
def preorder : Tree α → List α
  | nil => []
  | node l v _ r => v :: (l.preorder ++ r.preorder)

/-- Left subtree, root, right subtree. -/
def inorder : Tree α → List α
  | nil => []
  | node l v _ r => l.inorder ++ v :: r.inorder

/-- Number of levels. -/
def height : Tree α → Nat
  | nil => 0
  | node l _ _ r => max l.height r.height + 1

/-- The values at distance `k` from the root, left to right. -/
def atLevel : Nat → Tree α → List α
  | _, nil => []
  | 0, node _ v _ _ => [v]
  | k + 1, node l _ _ r => atLevel k l ++ atLevel k r

/-- Level order: level 0, level 1, ... each left to right. -/
def levelOrder (t : Tree α) : List α := (List.range t.height).flatMap fun k => t.atLevel k

/-- Values of the nodes without children, left to right. -/
def leaves : Tree α → List α
  | nil => []
  | node nil v _ nil => [v]
  | node l _ _ r => l.leaves ++ r.leaves

/-- Every node stores its distance from the root (`k` for the root of this subtree). -/
def DepthOK : Nat → Tree α → Prop
  | _, nil => True
  | k, node l _ d r => d = k ∧ DepthOK (k + 1) l ∧ DepthOK (k + 1) r

/-- Binary search tree: smaller values on the left, the others on the right. -/
def IsBST (lt : α → α → Bool) : Tree α → Prop
  | nil => True
  | node l v _ r =>
    (∀ x ∈ l.inorder, lt x v = true) ∧ (∀ x ∈ r.inorder, lt x v = false) ∧ IsBST lt l ∧ IsBST lt r

/-- Values stored at nodes having at least one child. -/
def internal : Tree α → List α
  | nil => []
  | node nil _ _ nil => []
  | node l v _ r => l.internal ++ v :: r.internal

/-- Every node has zero or two children. -/
def Full : Tree α → Prop
  | nil => True
  | node l _ _ r => l.isNil = r.isNil ∧ Full l ∧ Full r

end Tree

/-- A tree object whose counter is right. -/
def BT.WF (t : BT α) : Prop := t.n = t.root.size

/-- The values outside the subtree at a position. -/
def outside : Tree α → Path → List α
  | _, [] => []
  | .nil, _ :: _ => []
  | .node l v _ r, true :: p => v :: (outside l p ++ r.preorder)
  | .node l v _ r, false :: p => v :: (l.preorder ++ outside r p)

/-- Pushing a list of values one after the other on an empty tree. -/
def pushAll (lt : α → α → Bool) (xs : List α) : BT α := xs.foldl (fun t x => t.push lt x) BT.empty

end Fdapde.BinTree

namespace Fdapde.BinTree

/-- Trees a user can build: default or root construction followed by pushes (ordered or below a
chosen node, with any comparator). -/
inductive Built {α : Type} : BT α → Prop
  | empty : Built BT.empty
  | single (x : α) : Built (BT.single x)
  | push (lt : α → α → Bool) (t : BT α) (x : α) : Built t → Built (t.push lt x)
  | pushAt (t t' : BT α) (p : Path) (left : Bool) (x : α) : Built t → t.pushAt p left x = .ok t' → Built t'

end Fdapde.BinTree
