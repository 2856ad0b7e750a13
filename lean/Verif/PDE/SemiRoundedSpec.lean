import Verif.PDE.SemiSpec
import Verif.PDE.FitRoundedSpec
import Verif.LinAlg.FpModel
/-
Spatial regression with covariates in floating point arithmetic: the program of `semiFit` (SemiSpec.lean) with every operation rounded.
-/
namespace Fdapde.PDE
open Finset FEM LinAlg Fdapde.Fp
variable {q : Nat}

/-- A coefficient of a product of matrices: rounded products, added up by `S`. -/
noncomputable def dotR (r : Rounding) (S : List ℝ → ℝ) {n : Nat} (a v : Fin n → ℝ) : ℝ := S ((List.finRange n).map fun j => r.rnd (a j * v j))

/-- `gram` with rounding. -/
noncomputable def gramR (r : Rounding) (S : List ℝ → ℝ) (q L : Nat) (X : Nat → Nat → ℝ) : Matrix (Fin q) (Fin q) ℝ :=
  Matrix.of fun a c => dotR r S (fun j : Fin L => X j a) fun j => X j c

/-- `regress` with rounding. -/
noncomputable def regressR (r : Rounding) (S : List ℝ → ℝ) (L : Nat) (dense : DenseSolver ℝ q) (X : Nat → Nat → ℝ) (y : Nat → ℝ) (a : Fin q) : ℝ :=
  dense (gramR r S q L X) (Matrix.of fun a _ => dotR r S (fun j : Fin L => X j a) fun j => y j) a 0

/-- `crossBlock` with rounding. -/
noncomputable def crossBlockR (r : Rounding) (S : List ℝ → ℝ) (m L : Nat) (Psi X : Nat → Nat → ℝ) : Matrix (Fin (m + m)) (Fin q) ℝ :=
  Matrix.of fun p a => if (p : Nat) < m then dotR r S (fun j : Fin L => Psi j p) fun j => X j a else 0

/-- `semiFit` with rounding `r` and sums in the order of `S`; the Sherman-Morrison-Woodbury solver is `smwSolveFp` (LinAlg/FpModel.lean). -/
noncomputable def semiFitR (r : Rounding) (S : List ℝ → ℝ) (lu : Solver ℝ) (dense : DenseSolver ℝ q) (P : Prob ℝ) (data : Dense ℝ) (junk : Nat → ℝ)
    (ids : List Int) (psi : Nat → Nat → Nat → ℝ) (lam : ℝ) (X : Nat → Nat → ℝ) (y : Nat → ℝ) :
    Res (Option ((Fin q → ℝ) × (Nat → ℝ) × (Nat → ℝ))) := do
  let s ← P.initR r S data junk
  let l ← pointEval P.n P.nb P.dofs ids psi
  let A ← SB.make 2 2 [
    ⟨s.n, s.n, fun p q => -S ((List.range ids.length).map fun j => r.rnd (entry l j p * entry l j q))⟩,
    ⟨s.n, s.n, fun p q => r.rnd (lam * s.stiff q p)⟩,
    ⟨s.n, s.n, fun p q => r.rnd (lam * s.stiff p q)⟩, ⟨s.n, s.n, fun p q => r.rnd (lam * s.mass p q)⟩]
  match lu (readAll A) with
  | none => .ok none
  | some F =>
    let c := regressR r S ids.length dense X y
    let Qy := fun j => r.rnd (y j - dotR r S (fun a : Fin q => X j a) c)
    let U := crossBlockR r S s.n ids.length (entry l) X
    let b : Matrix (Fin (s.n + s.n)) (Fin 1) ℝ := Matrix.of fun p _ =>
      if (p : Nat) < s.n then -dotR r S (fun j : Fin ids.length => entry l j p) (fun j => Qy j) else r.rnd (lam * s.force (p - s.n))
    let x := smwSolveFp r S (byColumns (s.n + s.n) F) (byColumns (s.n + s.n) F) dense U (gramR r S q ids.length X) U.transpose b
    let u := fun p => if h : p < s.n + s.n then x ⟨p, h⟩ 0 else 0
    let beta := regressR r S ids.length dense X fun j => r.rnd (y j - dotR r S (fun p : Fin s.n => entry l j p) fun p => u p)
    .ok (some (beta, u, fun p => u (s.n + p)))

end Fdapde.PDE
