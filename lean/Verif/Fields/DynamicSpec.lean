import Verif.Fields.Dynamic

/-!
# Specification of fields with run-time sizes

What a user writes and what it should mean: `Term` and `VTerm` are the arithmetic expressions over scalar and vector fields, `value`
their pointwise meaning.  `Term.build` and `VTerm.build` are the programs that write these expressions with the library.
-/

namespace Fdapde.Fields.Dyn

variable {K : Type} [Field K]

/-- The pointwise meaning of an operator. -/
def meaning : Op → K → K → K
  | .add => fun x y => x + y
  | .sub => fun x y => x - y
  | .mul => fun x y => x * y
  | .div => fun x y => x / y

/-- Arithmetic expressions over scalar fields; `field n f` is a field of `n` variables, `numL`, `numR` have a number as one operand,
`stepped h t` sets the step of the numerical derivative of `t`. -/
inductive Term (K : Type)
  | field (n : Nat) (f : List K → K)
  | bin (op : Op) (a b : Term K)
  | numL (op : Op) (c : K) (a : Term K)
  | numR (op : Op) (a : Term K) (c : K)
  | un (f : K → K) (a : Term K)
  | neg (a : Term K)
  | stepped (h : K) (a : Term K)

/-- The numbers of variables of the fields in an expression. -/
def Term.dims : Term K → List Nat
  | .field n _ => [n]
  | .bin _ a b => a.dims ++ b.dims
  | .numL _ _ a => a.dims
  | .numR _ a _ => a.dims
  | .un _ a => a.dims
  | .neg a => a.dims
  | .stepped _ a => a.dims

/-- The value at a point. -/
def Term.value : Term K → List K → K
  | .field _ f, p => f p
  | .bin op a b, p => meaning op (a.value p) (b.value p)
  | .numL op c a, p => meaning op c (a.value p)
  | .numR op a c, p => meaning op (a.value p) c
  | .un f a, p => f (a.value p)
  | .neg a, p => -a.value p
  | .stepped _ a, p => a.value p

/-- The expression contains a binary operator. -/
def Term.HasOp : Term K → Prop
  | .field _ _ => False
  | .bin _ _ _ => True
  | .numL _ _ _ => True
  | .numR _ _ _ => True
  | .un _ a => a.HasOp
  | .neg a => a.HasOp
  | .stepped _ a => a.HasOp

/-- The step last set on the expression itself, `0.001` if none was. -/
def Term.stepOf : Term K → K
  | .stepped h _ => h
  | _ => 1 / 1000

/-- The program that writes the expression: `ScalarField<Dynamic> f(n); f = ...;` for the fields, operators for the rest. -/
def Term.build : Term K → Res (SF K)
  | .field n f => .ok ((SF.empty n).assign fun p => .ok (f p))
  | .bin op a b => do
      let x ← a.build
      let y ← b.build
      SF.bin op x y
  | .numL op c a => do
      let x ← a.build
      SF.binL op c x
  | .numR op a c => do
      let x ← a.build
      SF.binR op x c
  | .un f a => SF.un f <$> a.build
  | .neg a => SF.neg <$> a.build
  | .stepped h a => (fun e => e.setStep h) <$> a.build

/-- The point `p` moved by `d` along coordinate `i`. -/
def along (p : List K) (i : Nat) (d : K) : List K := p.set i (p.getD i 0 + d)

/-- The central difference quotient of step `h` of `f` along coordinate `i`. -/
def central (f : List K → K) (h : K) (i : Nat) (p : List K) : K := (f (along p i h) - f (along p i (-h))) / (2 * h)

/-- The difference quotients of step `h` for second derivatives: four points for mixed ones, five points for pure ones. -/
def second (f : List K → K) (h : K) (i j : Nat) (p : List K) : K :=
  if i = j then
    (-f (along p i (2 * h)) + 16 * f (along p i h) - 30 * f p + 16 * f (along p i (-h)) - f (along p i (-(2 * h)))) / (12 * h * h)
  else
    (f (along (along p i h) j h) - f (along (along p i h) j (-h)) + f (along (along p i (-h)) j (-h))
      - f (along (along p i (-h)) j h)) / (4 * h * h)

/-- Expressions over vector fields: `field m fs` has `m` variables and the components `fs`; `grad t` is the numerical gradient of a
scalar expression; `constL`, `constR` have a constant vector and `scaleL`, `scaleR` a number as one operand.  (The library has only
sums and differences of vectors; nothing depends on it.) -/
inductive VTerm (K : Type)
  | field (m : Nat) (fs : List (List K → K))
  | grad (t : Term K)
  | bin (op : Op) (a b : VTerm K)
  | constL (op : Op) (v : List K) (a : VTerm K)
  | constR (op : Op) (a : VTerm K) (v : List K)
  | scaleL (c : K) (a : VTerm K)
  | scaleR (a : VTerm K) (c : K)

/-- The expression maps points with `m` coordinates to vectors with `n` components. -/
def VTerm.Maps (m n : Nat) : VTerm K → Prop
  | .field m' fs => m' = m ∧ fs.length = n
  | .grad t => (∀ d ∈ t.dims, d = n) ∧ m = n
  | .bin _ a b => a.Maps m n ∧ b.Maps m n
  | .constL _ v a => v.length = n ∧ a.Maps m n
  | .constR _ a v => a.Maps m n ∧ v.length = n
  | .scaleL _ a => a.Maps m n
  | .scaleR a _ => a.Maps m n

/-- The `i`-th component of the value at a point. -/
def VTerm.value : VTerm K → Nat → List K → K
  | .field _ fs, i, p => (fs.getD i fun _ => 0) p
  | .grad t, i, p => central t.value t.stepOf i p
  | .bin op a b, i, p => meaning op (a.value i p) (b.value i p)
  | .constL op v a, i, p => meaning op (v.getD i 0) (a.value i p)
  | .constR op a v, i, p => meaning op (a.value i p) (v.getD i 0)
  | .scaleL c a, i, p => c * a.value i p
  | .scaleR a c, i, p => a.value i p * c

/-- `VectorField<Dynamic> v(m, n); v[0] = f0; v[1] = f1; ...` -/
def vectorField (m : Nat) (fs : List (List K → K)) : Res (VectorField K) :=
  foldRes (fun v (fi : (List K → K) × Nat) => v.assign fi.2 fun p => .ok (fi.1 p)) (VectorField.sized m fs.length) fs.zipIdx

/-- `MatrixField<Dynamic> a(m, n, k); a(0, 0) = ...; ...` for all positions, row by row. -/
def matrixField (m n k : Nat) (f : Nat → Nat → List K → K) : Res (MatrixField K) :=
  foldRes (fun a (ij : Nat × Nat) => a.assign ij.1 ij.2 fun p => .ok (f ij.1 ij.2 p)) (MatrixField.sized m n k)
    ((List.range n).flatMap fun i => (List.range k).map fun j => (i, j))

/-- The program that writes a vector expression. -/
def VTerm.build : VTerm K → Res (VF K)
  | .field m fs => VectorField.expr <$> vectorField m fs
  | .grad t => SF.derive <$> t.build
  | .bin op a b => do
      let x ← a.build
      let y ← b.build
      VF.bin op x y
  | .constL op v a => do
      let x ← a.build
      VF.constL op v x
  | .constR op a v => do
      let x ← a.build
      VF.constR op x v
  | .scaleL c a => do
      let x ← a.build
      VF.scaleL c x
  | .scaleR a c => do
      let x ← a.build
      VF.scaleR x c

end Fdapde.Fields.Dyn
