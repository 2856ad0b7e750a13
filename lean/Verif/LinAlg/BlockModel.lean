import Verif.LinAlg.Model
import Verif.Common.Loop
/- Model of the write accesses of SparseBlockMatrix, fdaPDE/linear_algebra/sparse_block_matrix.h. -/
namespace Fdapde.LinAlg

/-- The object: offsets, sizes and dimensions, and the blocks stored row-major, sparse_block_matrix.h:121-126. -/
structure SB (α : Type) where
  shape : SBShape
  blocks : List (Mat α)

/-- sparse_block_matrix.h:42-69 : the constructor from `R * C` matrices. -/
def SB.make {α : Type} (R C : Nat) (blocks : List (Mat α)) : Res (SB α) :=
  (fun s => ⟨s, blocks⟩) <$> sbBuild C (R * C) (fun i => ((blocks[i]?).elim (0, 0) fun M => (M.rows, M.cols)))

/-- sparse_block_matrix.h:39, 121-126 : the default constructor; arrays filled with zeros, no block stored. -/
def SB.default (α : Type) (R C : Nat) : SB α :=
  ⟨⟨List.replicate (C + 1) 0, List.replicate (R + 1) 0, List.replicate C 0, List.replicate R 0, 0, 0⟩, []⟩

/-- sparse_block_matrix.h:71-78 : `block(row, col)`; position of the block in the vector.  Subscripting behind the end of
the vector is undefined. -/
def SB.blockPos {α : Type} (R C : Nat) (s : SB α) (row col : Int) : Res Nat :=
  if 0 ≤ row ∧ row < (R : Int) ∧ 0 ≤ col ∧ col < (C : Int) then
    (if row.toNat * C + col.toNat < s.blocks.length then .ok (row.toNat * C + col.toNat) else .ub)
  else .throws

/-- sparse_block_matrix.h:71-78 : `block(row, col)` read. -/
def SB.block {α : Type} (R C : Nat) (s : SB α) (row col : Int) : Res (Mat α) := do
  let k ← s.blockPos R C row col
  Res.ofOptionUB s.blocks[k]?

/-- Assignment `M.coeffRef(i, j) = v` of an Eigen matrix; outside of the matrix undefined. -/
def Mat.set {α : Type} (M : Mat α) (i j : Nat) (v : α) : Res (Mat α) :=
  if i < M.rows ∧ j < M.cols then .ok ⟨M.rows, M.cols, fun a b => if a = i ∧ b = j then v else M.coeff a b⟩ else .ub

/-- sparse_block_matrix.h:92-96 : `coeffRef(row, col) = v`. -/
def SB.write {α : Type} (C : Nat) (s : SB α) (row col : Int) (v : α) : Res (SB α) :=
  if 0 ≤ row ∧ row < (s.shape.rows : Int) ∧ 0 ≤ col ∧ col < (s.shape.cols : Int) then do
    let k := blockIndex s.shape.innerOffset row.toNat * C + blockIndex s.shape.outerOffset col.toNat
    let b ← Res.ofOptionUB s.blocks[k]?
    let i ← indexToBlock s.shape.innerOffset row.toNat
    let j ← indexToBlock s.shape.outerOffset col.toNat
    let b' ← b.set i j v
    .ok ⟨s.shape, s.blocks.set k b'⟩
  else .throws

/-- sparse_block_matrix.h:98-102 : `coeff(row, col)` with `int` arguments. -/
def SB.read {α : Type} (C : Nat) (s : SB α) (row col : Int) : Res α :=
  if 0 ≤ row ∧ 0 ≤ col then sbCoeff C s.shape s.blocks row.toNat col.toNat else .throws

/-- A use of the write access: `coeffRef(i, j) = v`, `block(r, c) = M`, `block(r, c).coeffRef(a, b) = v`. -/
inductive WOp (α : Type) where
  | write (i j : Int) (v : α)
  | put (r c : Int) (M : Mat α)
  | poke (r c : Int) (a b : Nat) (v : α)

/-- sparse_block_matrix.h:75-78, 92-96 : one use. -/
def SB.step {α : Type} (R C : Nat) (s : SB α) : WOp α → Res (SB α)
  | .write i j v => s.write C i j v
  | .put r c M => do
      let k ← s.blockPos R C r c
      .ok ⟨s.shape, s.blocks.set k M⟩
  | .poke r c a b v => do
      let k ← s.blockPos R C r c
      let B ← Res.ofOptionUB s.blocks[k]?
      let B' ← B.set a b v
      .ok ⟨s.shape, s.blocks.set k B'⟩

/-- A history of uses by a caller that catches the exceptions of failed assertions: an exception leaves the object as it
was, because every assertion comes before the first write. -/
def SB.run {α : Type} (R C : Nat) : SB α → List (WOp α) → Res (SB α)
  | s, [] => .ok s
  | s, o :: os => match s.step R C o with
    | .ok s' => SB.run R C s' os
    | .throws => SB.run R C s os
    | .ub => .ub
end Fdapde.LinAlg
