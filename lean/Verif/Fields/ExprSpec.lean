import Mathlib.Data.Matrix.Mul
import Verif.Fields.Expr

/-!
# What a field expression means

The value of an expression at quadrature index `q` and point `p`, written with ordinary arithmetic on numbers, vectors
(`Fin l → K`) and matrices.  Nothing here mentions the mutable state of the leaves, loops or memory.
-/

namespace Fdapde.Fields

variable {K P : Type} [Field K]

/-- Values of the three families. -/
abbrev Val (K : Type) : Shape → Type
  | .sc => K
  | .vec l => Fin l → K
  | .mat m k => Matrix (Fin m) (Fin k) K

/-- The arithmetic operation of a functor. -/
def arith : Op → K → K → K
  | .add => fun a b => a + b
  | .sub => fun a b => a - b
  | .mul => fun a b => a * b
  | .div => fun a b => a / b

/-- Pointwise arithmetic; a discretised field takes the values stored in row `q` of its data (for matrices, in column-major order). -/
def den (q : Nat) (p : P) : {s : Shape} → Exp K P s → Val K s
  | _, .const c => c
  | _, .fn f => f p
  | _, .disc d _ => d.val q 0
  | _, .bin op a b => arith op (den q p a : K) (den q p b : K)
  | _, .un f a => f (den q p a)
  | _, .neg a => -(den q p a : K)
  | _, .dot (l := l) a b => dotProduct (den q p a : Fin l → K) (den q p b : Fin l → K)
  | _, .vconst v => v
  | _, .vscal c => fun _ => c
  | _, .vfield f => fun j => f j p
  | _, .vdisc d _ => fun j => d.val q j.val
  | _, .vbin (l := l) op a b => fun j => arith op ((den q p a : Fin l → K) j) ((den q p b : Fin l → K) j)
  | _, .vneg (l := l) a => -(den q p a : Fin l → K)
  | _, .mulVec (m := m) (k := k) a v => Matrix.mulVec (den q p a : Matrix (Fin m) (Fin k) K) (den q p v : Fin k → K)
  | _, .row (m := m) (k := k) a i => fun j => if h : i < m then (den q p a : Matrix (Fin m) (Fin k) K) ⟨i, h⟩ j else 0
  | _, .col (m := m) (k := k) a j => fun i => if h : j < k then (den q p a : Matrix (Fin m) (Fin k) K) i ⟨j, h⟩ else 0
  | _, .mconst v => v
  | _, .mscal c => fun _ _ => c
  | _, .mfield f => fun i j => f i j p
  | _, .mdisc (m := m) d _ => fun i j => d.val q (i.val + j.val * m)
  | _, .mbin (m := m) (k := k) op a b =>
      fun i j => arith op ((den q p a : Matrix (Fin m) (Fin k) K) i j) ((den q p b : Matrix (Fin m) (Fin k) K) i j)
  | _, .mneg (m := m) (k := k) a => -(den q p a : Matrix (Fin m) (Fin k) K)

/-- The expression has no discretised leaf. -/
def Static : {s : Shape} → Exp K P s → Prop
  | _, .disc _ _ => False
  | _, .vdisc _ _ => False
  | _, .mdisc _ _ => False
  | _, .bin _ a b => Static a ∧ Static b
  | _, .un _ a => Static a
  | _, .neg a => Static a
  | _, .dot a b => Static a ∧ Static b
  | _, .vbin _ a b => Static a ∧ Static b
  | _, .vneg a => Static a
  | _, .mulVec a v => Static a ∧ Static v
  | _, .row a _ => Static a
  | _, .col a _ => Static a
  | _, .mbin _ a b => Static a ∧ Static b
  | _, .mneg a => Static a
  | _, _ => True

/-- The expression is a matrix row. -/
def IsRow : {s : Shape} → Exp K P s → Prop
  | _, .row _ _ => True
  | _, _ => False

/-- The expressions for which evaluation is correct: rows and columns exist, rows are taken from square matrices, a matrix row is
not the right operand of a dot product or of a matrix-vector product (unless it has one component), and the functions
`sin, cos, tan, exp, log` are not applied to discretised fields. -/
def WF : {s : Shape} → Exp K P s → Prop
  | _, .bin _ a b => WF a ∧ WF b
  | _, .un _ a => WF a ∧ Static a
  | _, .neg a => WF a
  | _, .dot (l := l) a b => WF a ∧ WF b ∧ (IsRow b → l = 1)
  | _, .vbin _ a b => WF a ∧ WF b
  | _, .vneg a => WF a
  | _, .mulVec (k := k) a v => WF a ∧ WF v ∧ (IsRow v → k = 1)
  | _, .row (m := m) (k := k) a i => WF a ∧ m = k ∧ i < m
  | _, .col (k := k) a j => WF a ∧ j < k
  | _, .mbin _ a b => WF a ∧ WF b
  | _, .mneg a => WF a
  | _, _ => True

/-- Row `q` exists in the data of every discretised leaf, and the data has as many columns as the leaf has entries. -/
def Avail (q : Nat) : {s : Shape} → Exp K P s → Prop
  | _, .disc d _ => q < d.rows ∧ d.cols = 1
  | _, .vdisc (l := l) d _ => q < d.rows ∧ d.cols = l
  | _, .mdisc (m := m) (k := k) d _ => q < d.rows ∧ d.cols = m * k
  | _, .bin _ a b => Avail q a ∧ Avail q b
  | _, .un _ a => Avail q a
  | _, .neg a => Avail q a
  | _, .dot a b => Avail q a ∧ Avail q b
  | _, .vbin _ a b => Avail q a ∧ Avail q b
  | _, .vneg a => Avail q a
  | _, .mulVec a v => Avail q a ∧ Avail q v
  | _, .row a _ => Avail q a
  | _, .col a _ => Avail q a
  | _, .mbin _ a b => Avail q a ∧ Avail q b
  | _, .mneg a => Avail q a
  | _, _ => True

end Fdapde.Fields
