import Verif.PDE.Init
/-
Specification for the problems in which dof 0 is not marked as a boundary dof.
-/
namespace Fdapde.PDE
variable {K : Type}

/-- The markers with dof 0 marked too. -/
def pinned (bd : Nat → Bool) (p : Nat) : Bool := p == 0 || bd p

/-- The same problem, with dof 0 on the boundary. -/
def Prob.pin (P : Prob K) : Prob K := { P with bd := pinned P.bd }

end Fdapde.PDE
