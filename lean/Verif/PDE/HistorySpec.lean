import Verif.PDE.History
/- What a sequence of calls of a PDE object has set. -/
namespace Fdapde.PDE
variable {K : Type}

/-- The last value that a sequence of calls gives, `d` if it gives none. -/
def latest {β : Type} (f : Call K → Option β) (d : β) (h : List (Call K)) : β := (h.reverse.findSome? f).getD d

def forcingOf : Call K → Option (Dense K)
  | .setForcing data => some data
  | _ => none
def operatorOf : Call K → Option (Op K)
  | .setOperator op => some op
  | _ => none
def dirichletOf : Call K → Option (Dense K)
  | .setDirichlet g => some g
  | _ => none
def initialOf : Call K → Option (Nat → K)
  | .setInitial ic => some ic
  | _ => none

/-- No `init` among the calls. -/
def NoInit (h : List (Call K)) : Prop := ∀ junk, Call.init junk ∉ h

end Fdapde.PDE
