import Verif.Triang.Model
/-
Model of the numbering of the degrees of freedom, finite_elements/basis/lagrangian_basis.h:94-136, for 2D triangulations.
-/
namespace Fdapde.FEM
open Fdapde.Triang

/-- Tables filled by `enumerate_dofs` : entries of `dofs_` (not initialised by `resize`), the set of boundary dofs and the
next free number. -/
structure DofSt where
  dofs : Nat → Nat → Option Nat
  bnd : List Nat
  next : Nat

/-- lagrangian_basis.h:116-122 : first local edge of the cell with the nodes of the edge; 3 if there is none. -/
def findEdge (cells : Nat → Nat → Nat) (pat : List (List Nat)) (id : Nat) (nodes : List Nat) : Nat → Nat → Nat
  | j, 0 => j
  | j, m + 1 => if key cells id (pat.getD j []) = nodes then j else findEdge cells pat id nodes (j + 1) m

/-- lagrangian_basis.h:111-126 : the body for one adjacent cell; -1 marks a missing cell.  Writing column 6 of the table is
undefined. -/
def dofCell (cells : Nat → Nat → Nat) (n : Nat) (pat : List (List Nat)) (nodes : List Nat) (onB : Bool) (s : DofSt) (id : Int) :
    Res DofSt :=
  if id ≥ 0 then
    let c := id.toNat
    let j := findEdge cells pat c nodes 0 3
    if c < n ∧ j < 3 then
      .ok { s with dofs := put s.dofs c (3 + j) (some s.next), bnd := if onB then s.bnd ++ [s.next] else s.bnd }
    else .ub
  else .ok s

/-- lagrangian_basis.h:110-128 : the body of the loop over the edges. -/
def dofEdge (cells : Nat → Nat → Nat) (n : Nat) (pat : List (List Nat)) (t : FSt) (s : DofSt) (h : Nat) : Res DofSt :=
  match t.facets[h]?, t.toCells[h]?, t.markers[h]? with
  | some nodes, some (c0, c1), some onB => do
    let s ← dofCell cells n pat nodes onB s c0
    let s ← dofCell cells n pat nodes onB s c1
    .ok { s with next := s.next + 1 }
  | _, _, _ => .ub

/-- lagrangian_basis.h:101-134, order 2 : dofs of the cells, boundary markers and number of dofs.  `nNodes` is the number
of mesh nodes, `bNodes` their boundary markers. -/
def enumDofs2 (cells : Nat → Nat → Nat) (n nNodes : Nat) (bNodes : Nat → Bool) (t : FSt) :
    Res ((Nat → Nat → Option Nat) × (Nat → Bool) × Nat) := do
  let pat ← Combinatorics.combinations 2 3
  let s ← foldRes (dofEdge cells n pat t) ⟨fun c v => if v < 3 then some (cells c v) else none, [], nNodes⟩
    (List.range t.facets.length)
  .ok (s.dofs, (fun d => if d < nNodes then bNodes d else s.bnd.contains d), s.next)

/-- lagrangian_basis.h:96-99, order 1. -/
def enumDofs1 (cells : Nat → Nat → Nat) (nNodes : Nat) (bNodes : Nat → Bool) :
    (Nat → Nat → Option Nat) × (Nat → Bool) × Nat := (fun c v => some (cells c v), bNodes, nNodes)

end Fdapde.FEM
