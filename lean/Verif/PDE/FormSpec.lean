import Verif.PDE.Operators
/-
The bilinear forms the differential operators stand for, on finite element functions.
-/
namespace Fdapde.PDE
variable {K : Type} [Field K]

/-- Scalar product of the first `N` entries. -/
def dot (N : Nat) (a b : Nat → K) : K := ∑ z ∈ Finset.range N, a z * b z

/-- Value at the node with number `r` of the integrand of `a(u, v)`, the weak formulation of the operator applied to `u`, tested with `v`:
`-∇u·∇v` for the laplacian, `-(D∇u)·∇v` for the diffusion, `(b·∇u) v` for the transport and `c u v` for the reaction term.
`u`, `v` are the values of the two functions at the node and `gu`, `gv` their gradients. -/
def form (N : Nat) : Op K → Nat → (u v : K) → (gu gv : Nat → K) → K
  | .dT, _, _, _, _, _ => 0
  | .lap, _, _, _, gu, gv => -dot N gu gv
  | .diff D, r, _, _, gu, gv => -dot N (fun z => dot N (D r z) gu) gv
  | .adv b, r, _, v, gu, _ => dot N (b r) gu * v
  | .react c, r, u, v, _, _ => c r * u * v
  | .scalar x, _, _, _, _, _ => x
  | .add a b, r, u, v, gu, gv => form N a r u v gu gv + form N b r u v gu gv
  | .sub a b, r, u, v, gu, gv => form N a r u v gu gv - form N b r u v gu gv
  | .smul x a, r, u, v, gu, gv => x * form N a r u v gu gv
  | .neg a, r, u, v, gu, gv => -form N a r u v gu gv

/-- No bare number stands for an operator (the public interface cannot build one). -/
def NoScalar : Op K → Prop
  | .scalar _ => False
  | .add a b => NoScalar a ∧ NoScalar b
  | .sub a b => NoScalar a ∧ NoScalar b
  | .smul _ a => NoScalar a
  | .neg a => NoScalar a
  | _ => True

/-- No reaction term occurs in the operator. -/
def NoReaction : Op K → Prop
  | .react _ => False
  | .scalar _ => False
  | .add a b => NoReaction a ∧ NoReaction b
  | .sub a b => NoReaction a ∧ NoReaction b
  | .smul _ a => NoReaction a
  | .neg a => NoReaction a
  | _ => True

/-- Value of a finite element function on a cell with dofs `d`: coefficients `u`, local functions with values `psi`. -/
def feValue (nb : Nat) (d : Nat → Nat) (u : Nat → K) (psi : Nat → K) : K := ∑ i ∈ Finset.range nb, u (d i) * psi i

/-- Gradient of a finite element function. -/
def feGrad (nb : Nat) (d : Nat → Nat) (u : Nat → K) (grad : Nat → Nat → K) (z : Nat) : K := ∑ i ∈ Finset.range nb, u (d i) * grad i z

end Fdapde.PDE
