import Verif.Common.Loop
import Mathlib.Data.Real.Sqrt
import Mathlib.Data.Matrix.Mul
import Mathlib.Data.Finset.Card
/-
Model of fdaPDE/linear_algebra/fspai.h: factorized sparse approximate inverse of a matrix `A` with `n` rows.

Scalars are real numbers.  `pat i` are the columns with a stored entry in row `i`.  Hash sets are finite sets; the order
in which the candidates are visited is given by an arbitrary function `ord`.  The Cholesky solver is a function `slv` that
returns the solution of A(S, S) y = A(S, k); it is only assumed to solve the system when A is positive definite.
-/
namespace Fdapde.LinAlg
noncomputable section
variable {n : Nat}

/-- Inputs that do not change during the computation. -/
structure FspaiIn (n : Nat) where
  A : Matrix (Fin n) (Fin n) ℝ
  pat : Fin n → Finset (Fin n)
  ord : Finset (Fin n) → List (Fin n)
  slv : Finset (Fin n) → Fin n → Fin n → ℝ

/-- Members `J_[k]`, `Lk_`, `deltaPattern_`, `candidateSet_` while column `k` is processed. -/
structure ColSt (n : Nat) where
  J : Finset (Fin n)
  Lk : Fin n → ℝ
  delta : Finset (Fin n)
  cand : Finset (Fin n)

/-- fspai.h:99-127, 192-218 : entries of column `k` for the current pattern. -/
def updateInverse (I : FspaiIn n) (k : Fin n) (J : Finset (Fin n)) (Lk : Fin n → ℝ) : Fin n → ℝ :=
  let S := J.erase k
  if S = ∅ then Function.update Lk k (1 / Real.sqrt (I.A k k))
  else
    let y := I.slv S k
    let l := 1 / Real.sqrt (I.A k k - ∑ i ∈ S, I.A i k * y i)
    fun i => if i ∈ S then -l * y i else if i = k then l else Lk i

/-- fspai.h:131-135 : candidate rows; `at` throws for a row without stored entries. -/
def candidates (I : FspaiIn n) (k : Fin n) (delta cand : Finset (Fin n)) : Res (Finset (Fin n)) :=
  if ∃ r ∈ delta, I.pat r = ∅ then .throws else .ok (cand ∪ delta.biUnion fun r => (I.pat r).filter fun j => k < j)

/-- fspai.h:138-150, 229-233 : pairs (j, tau_jk) for the candidates that are not in the pattern. -/
def taus (I : FspaiIn n) (J cand : Finset (Fin n)) (Lk : Fin n → ℝ) : List (Fin n × ℝ) :=
  (I.ord (cand \ J)).map fun j => (j, (∑ i ∈ J, I.A j i * Lk i) ^ 2 / I.A j j)

/-- fspai.h:247-251 : the entry with the largest value, the last one visited among equals. -/
def maxEntry (e : Fin n × ℝ) (l : List (Fin n × ℝ)) : Fin n × ℝ :=
  open Classical in l.foldl (fun m x => if x.2 ≥ m.2 then x else m) e

/-- fspai.h:246-259 : at most `beta` indices with value above the average enter the pattern. -/
def selectLoop (tau : ℝ) : Nat → List (Fin n × ℝ) → Finset (Fin n) × Finset (Fin n) → Finset (Fin n) × Finset (Fin n)
  | 0, _, s => s
  | _ + 1, [], s => s
  | b + 1, e :: l, s =>
    let m := maxEntry e (e :: l)
    open Classical in
    let s' := if m.2 > tau then (insert m.1 s.1, insert m.1 s.2) else s
    selectLoop tau b ((e :: l).filter fun x => x.1 ≠ m.1) s'

/-- fspai.h:227-239 : largest value, from 0. -/
def maxTau (l : List (Fin n × ℝ)) : ℝ := open Classical in l.foldl (fun m x => if x.2 > m then x.2 else m) 0

/-- fspai.h:241-260 : update of the pattern from the values of the candidates. -/
def updatePattern (beta : Nat) (eps : ℝ) (hat : List (Fin n × ℝ)) (J : Finset (Fin n)) : Finset (Fin n) × Finset (Fin n) :=
  open Classical in
  if maxTau hat > eps then selectLoop ((hat.map Prod.snd).sum / hat.length) beta hat (J, ∅) else (J, ∅)

/-- fspai.h:191-261 : one step for column `k`. -/
def colStep (I : FspaiIn n) (beta : Nat) (eps : ℝ) (k : Fin n) (s : ColSt n) : Res (ColSt n) :=
  if s.delta = ∅ then .ok s
  else
    let Lk := updateInverse I k s.J s.Lk
    match candidates I k s.delta s.cand with
    | .ok cand =>
      let r := updatePattern beta eps (taus I s.J cand Lk) s.J
      .ok ⟨r.1, Lk, r.2, cand⟩
    | .throws => .throws
    | .ub => .ub

/-- fspai.h:182-262 : column `k`; `delta` is what earlier columns left in `deltaPattern_`. -/
def column (I : FspaiIn n) (alpha beta : Nat) (eps : ℝ) (k : Fin n) (J delta : Finset (Fin n)) : Res (ColSt n) :=
  foldRes (fun s _ => colStep I beta eps k s) ⟨J, fun _ => 0, insert k delta, ∅⟩ (List.range alpha)

/-- State between columns: patterns, `deltaPattern_`, and the triplets written so far. -/
structure FspaiSt (n : Nat) where
  J : Fin n → Finset (Fin n)
  delta : Finset (Fin n)
  L : Matrix (Fin n) (Fin n) ℝ

/-- fspai.h:181-267 : body of the loop over the columns. -/
def columnStep (I : FspaiIn n) (alpha beta : Nat) (eps : ℝ) (s : FspaiSt n) (k : Fin n) : Res (FspaiSt n) :=
  (fun c : ColSt n => ⟨Function.update s.J k c.J, c.delta, fun i j => if j = k then c.Lk i else s.L i j⟩) <$>
    column I alpha beta eps k (s.J k) s.delta

/-- fspai.h:176-271 : `compute` called on the members `J_` and `deltaPattern_` left by earlier calls; the zero triplets
that are not stored are zero entries. -/
def compute (I : FspaiIn n) (alpha beta : Nat) (eps : ℝ) (J : Fin n → Finset (Fin n)) (delta : Finset (Fin n)) :
    Res (FspaiSt n) :=
  foldRes (columnStep I alpha beta eps) ⟨J, delta, 0⟩ (List.finRange n)

/-- fspai.h:154-157 : patterns set by the constructor. -/
def pattern0 (k : Fin n) : Finset (Fin n) := {k}

end
end Fdapde.LinAlg
