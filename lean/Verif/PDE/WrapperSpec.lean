import Verif.PDE.Wrapper
/- What a program with wrapped problems means: variables which own a problem, and calls of the member functions with the names of the requests. -/
namespace Fdapde.PDE

/-- The member function a request names. -/
def Req.meth : Req → Option Meth
  | .init => some .init
  | .solve => some .solve
  | .solution => some .solution
  | .force => some .force
  | .stiff => some .stiff
  | .mass => some .mass
  | .quadratureNodes => some .quadratureNodes
  | .nDofs => some .nDofs
  | .dofCoords => some .dofCoords
  | .forcingData => some .forcingData
  | .timeDomain => some .timeDomain
  | .initialCondition => some .initialCondition
  | .evalBasis kind => if kind = 0 then some .evalPointwise else if kind = 1 then some .evalAreal else none
  | .setForcing _ => some .setForcing
  | .setDirichlet => some .setDirichlet
  | .setInitial => some .setInitial
  | .setOperator _ => some .setOperator

/-- What is passed has the type of the problem, and forcing data are asked only of a problem whose forcing is a matrix. -/
def Req.Fits (F E : Nat) : Req → Prop
  | .setForcing τ => τ = F
  | .setOperator τ => τ = E
  | .forcingData => F = 0
  | _ => True

variable {V A O : Type}

/-- The call made directly on the problem. -/
def direct (sem : Sem V A O) (h : Held V) (r : Req) (a : A) : Res (Option O × Held V) :=
  match r.meth with
  | none => .ok (none, h)
  | some m => (fun q => (some q.1, { h with val := q.2 })) <$> sem m a h.val

/-- Variables (`none`: not in use, `some none`: moved from) and results. -/
structure VState (V O : Type) where
  vars : Nat → Option (Option (Held V))
  seen : List (Option O)

def VState.set (s : VState V O) (x : Nat) (h : Option (Held V)) : VState V O := { s with vars := fun z => if z = x then some h else s.vars z }

/-- The statement on values; `ub` is what the member function itself does. -/
def Stmt.means (sem : Sem V A O) (s : VState V O) : Stmt V A → Res (VState V O)
  | .make x h => .ok (s.set x (some h))
  | .copy x y => .ok (s.set x ((s.vars y).getD none))
  | .assign x y => .ok (s.set x ((s.vars y).getD none))
  | .move x y => .ok ((s.set y none).set x ((s.vars y).getD none))
  | .moveAssign x y => .ok ((s.set y none).set x ((s.vars y).getD none))
  | .call x r a =>
    match s.vars x with
    | some (some h) =>
      match direct sem h r a with
      | .ok (o, h') => .ok { s.set x (some h') with seen := s.seen ++ [o] }
      | .throws => .ok s
      | .ub => .ub
    | _ => .ok s

/-- Statements which may be used: sources are in use, targets of assignments too, nothing is assigned to itself, calls are made on variables with a problem, with
arguments of its types. -/
def Stmt.Proper (s : VState V O) : Stmt V A → Prop
  | .make _ _ => True
  | .copy x y => x ≠ y ∧ s.vars y ≠ none
  | .assign x y => x ≠ y ∧ s.vars x ≠ none ∧ s.vars y ≠ none
  | .move x y => x ≠ y ∧ s.vars y ≠ none
  | .moveAssign x y => x ≠ y ∧ s.vars x ≠ none ∧ s.vars y ≠ none
  | .call x r _ => ∃ h, s.vars x = some (some h) ∧ r.Fits h.fty h.ety

/-- Every statement may be used when it is reached. -/
def ProperProgram (sem : Sem V A O) (s : VState V O) : List (Stmt V A) → Prop
  | [] => True
  | c :: p => c.Proper s ∧ ∀ s', c.means sem s = .ok s' → ProperProgram sem s' p

def runMeans (sem : Sem V A O) (s : VState V O) (p : List (Stmt V A)) : Res (VState V O) := foldRes (fun s c => c.means sem s) s p

end Fdapde.PDE
