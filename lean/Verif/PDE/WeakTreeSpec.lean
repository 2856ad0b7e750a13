import Verif.PDE.WeakTree
import Verif.Fields.ExprSpec
import Verif.PDE.FormSpec
/-
The operator a user writes down, with coefficients as functions of the number `r` of a quadrature node of the mesh.
-/
namespace Fdapde.PDE
open Fdapde.Fields (Exp den WF Avail)
open Fdapde.Quadrature
variable {K : Type} [Field K] {N M : Nat}

/-- Entry of a matrix, zero outside. -/
def ent2 (D : Fin N → Fin M → K) (z k : Nat) : K := if h : z < N ∧ k < M then D ⟨z, h.1⟩ ⟨k, h.2⟩ else 0

/-- Entry of a vector, zero outside. -/
def ent1 (b : Fin N → K) (z : Nat) : K := if h : z < N then b ⟨z, h⟩ else 0

/-- The operator whose coefficients at node `r` are the values of the coefficient fields with the data of row `r`, and at
the reference point of the node for the parts of the coefficient given by formulas. -/
def WOp.meant (t : Table) : WOp K N → Op K
  | .dT => .dT
  | .lap => .lap
  | .diffC D => .diff fun _ => ent2 D
  | .diffF D => .diff fun r => ent2 (den r (node K t (r % size t)) D : Matrix (Fin N) (Fin N) K)
  | .advC b => .adv fun _ => ent1 b
  | .advF b => .adv fun r => ent1 (den r (node K t (r % size t)) b : Fin N → K)
  | .reactC c => .react fun _ => c
  | .reactF c => .react fun r => (den r (node K t (r % size t)) c : K)
  | .add a b => .add (a.meant t) (b.meant t)
  | .sub a b => .sub (a.meant t) (b.meant t)
  | .smul x a => .smul x (a.meant t)
  | .neg a => .neg (a.meant t)

/-- Every coefficient field is well formed (see `Fields.WF`) and has data for the rows below `R`. -/
def WOp.Usable (R : Nat) : WOp K N → Prop
  | .diffF D => WF D ∧ ∀ r < R, Avail r D
  | .advF b => WF b ∧ (Fields.IsRow b → N = 1) ∧ ∀ r < R, Avail r b
  | .reactF c => WF c ∧ ∀ r < R, Avail r c
  | .add a b => a.Usable R ∧ b.Usable R
  | .sub a b => a.Usable R ∧ b.Usable R
  | .smul _ a => a.Usable R
  | .neg a => a.Usable R
  | _ => True

/-- Gradient of local function `i` on cell `c`: the transpose of the inverse of J times the gradient on the reference element. -/
def physGrad (nab : Nat → Fin M → (Nat → K) → K) (invJT : Nat → Fin N → Fin M → K) (c i : Nat) (p : Nat → K) (z : Nat) : K :=
  if h : z < N then ∑ k : Fin M, invJT c ⟨z, h⟩ k * nab i k p else 0

end Fdapde.PDE
