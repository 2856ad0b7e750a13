import Verif.PDE.FloatAssembly
import Verif.PDE.PropsInit
set_option linter.unusedSectionVars false
/-!
# Errors of the assembly in double precision
-/
namespace Fdapde.PDE
open Fdapde.Quadrature Fdapde.FEM Fdapde.Fp
noncomputable section
variable {r : Rounding} {S : List ℝ → ℝ}

/-- Number of roundings on the way from the data to the value of a weak form. -/
def opDepth (N : Nat) : Op ℝ → Nat
  | .dT => 0
  | .lap => N + 1
  | .diff _ => 2 * N + 2
  | .adv _ => N + 2
  | .react _ => 2
  | .scalar _ => 0
  | .add a b => max (opDepth N a) (opDepth N b) + 1
  | .sub a b => max (opDepth N a) (opDepth N b) + 1
  | .smul _ a => opDepth N a + 1
  | .neg a => opDepth N a

/-- Sum of the sizes of the terms of a weak form, for functions and gradients of given sizes. -/
def weakAbs (N : Nat) : Op ℝ → Nat → ℝ → ℝ → (Nat → ℝ) → (Nat → ℝ) → ℝ
  | .dT, _, _, _, _, _ => 0
  | .lap, _, _, _, gi, gj => ∑ z ∈ Finset.range N, gi z * gj z
  | .diff D, k, _, _, gi, gj => ∑ z ∈ Finset.range N, gi z * ∑ w ∈ Finset.range N, |D k z w| * gj w
  | .adv b, k, bi, _, _, gj => bi * ∑ z ∈ Finset.range N, gj z * |b k z|
  | .react c, k, bi, bj, _, _ => |c k| * bi * bj
  | .scalar x, _, _, _, _, _ => |x|
  | .add a b, k, bi, bj, gi, gj => weakAbs N a k bi bj gi gj + weakAbs N b k bi bj gi gj
  | .sub a b, k, bi, bj, gi, gj => weakAbs N a k bi bj gi gj + weakAbs N b k bi bj gi gj
  | .smul x a, k, bi, bj, gi, gj => |x| * weakAbs N a k bi bj gi gj
  | .neg a, k, bi, bj, gi, gj => weakAbs N a k bi bj gi gj

theorem err_exact (x : ℝ) (k : Nat) : r.Err k |x| x x := (Rounding.Err.exact x).mono (Nat.zero_le k)

theorem weak_err (hS : r.Summation S) (N : Nat) {kd : Nat} {bi bi' mi bj bj' mj : ℝ} {gi gi' ni gj gj' nj : Nat → ℝ} (hi : r.Err kd mi bi bi')
    (hj : r.Err kd mj bj bj') (hgi : ∀ z < N, r.Err kd (ni z) (gi z) (gi' z)) (hgj : ∀ z < N, r.Err kd (nj z) (gj z) (gj' z)) (k : Nat) :
    ∀ op : Op ℝ, r.Err (opDepth N op + 2 * kd) (weakAbs N op k mi mj ni nj) (weak N op k bi bj gi gj) (weakR r S N op k bi' bj' gi' gj')
  | .dT => ⟨by simp [weak, weakAbs], by simp [weak, weakR, weakAbs]⟩
  | .lap => by
    have h1 := (hS ((List.range N).map fun z => r.rnd (gi' z * gj' z))).sum_range (m := fun z => ni z * nj z) (x := fun z => gi z * gj z)
      fun z hz => ((hgi z hz).mul (hgj z hz)).rnd
    exact h1.neg.mono (by simp only [opDepth]; omega)
  | .diff D => by
    have h1 : ∀ z < N, r.Err (kd + 1 + N) (∑ w ∈ Finset.range N, |D k z w| * nj w) (∑ w ∈ Finset.range N, D k z w * gj w)
        (S ((List.range N).map fun w => r.rnd (D k z w * gj' w))) := fun z _ =>
      (hS ((List.range N).map fun w => r.rnd (D k z w * gj' w))).sum_range (m := fun w => |D k z w| * nj w) (x := fun w => D k z w * gj w)
        fun w hw => by have := ((err_exact (r := r) (D k z w) 0).mul (hgj w hw)).rnd; rwa [Nat.zero_add] at this
    have h2 := (hS ((List.range N).map fun z => r.rnd (gi' z * S ((List.range N).map fun w => r.rnd (D k z w * gj' w))))).sum_range
      (m := fun z => ni z * ∑ w ∈ Finset.range N, |D k z w| * nj w) (x := fun z => gi z * ∑ w ∈ Finset.range N, D k z w * gj w)
      fun z hz => ((hgi z hz).mul (h1 z hz)).rnd
    exact h2.neg.mono (by simp only [opDepth]; omega)
  | .adv b => by
    have h1 := (hS ((List.range N).map fun z => r.rnd (gj' z * b k z))).sum_range (m := fun z => nj z * |b k z|) (x := fun z => gj z * b k z)
      fun z hz => ((hgj z hz).mul (err_exact (b k z) 0)).rnd
    exact (hi.mul h1).rnd.mono (by simp only [opDepth]; omega)
  | .react c => (((((err_exact (r := r) (c k) 0).mul hi).rnd).mul hj).rnd).mono (by simp only [opDepth]; omega)
  | .scalar x => err_exact x _
  | .add a b => by
    have h1 := weak_err hS N hi hj hgi hgj k a
    have h2 := weak_err hS N hi hj hgi hgj k b
    exact ((h1.mono (k := max (opDepth N a) (opDepth N b) + 2 * kd) (by omega)).add (h2.mono (by omega))).rnd.mono (by simp only [opDepth]; omega)
  | .sub a b => by
    have h1 := weak_err hS N hi hj hgi hgj k a
    have h2 := weak_err hS N hi hj hgi hgj k b
    exact ((h1.mono (k := max (opDepth N a) (opDepth N b) + 2 * kd) (by omega)).sub (h2.mono (by omega))).rnd.mono (by simp only [opDepth]; omega)
  | .smul x a => by
    have h1 := weak_err hS N hi hj hgi hgj k a
    exact ((err_exact (r := r) x 0).mul h1).rnd.mono (by simp only [opDepth]; omega)
  | .neg a => (weak_err hS N hi hj hgi hgj k a).neg

theorem accumR_sum (t : Table) (g : Nat → ℝ) : accum t g = ∑ k ∈ Finset.range (size t), g k * weight ℝ t k := by
  rw [accum]
  have : ∀ (l : List Nat) (a : ℝ), l.foldl (fun v iq => v + g iq * weight ℝ t iq) a = a + (l.map fun k => g k * weight ℝ t k).sum := by
    intro l
    induction l with
    | nil => simp
    | cons x l ih => intro a; simp [ih, add_assoc]
  rw [this, zero_add]
  rfl

theorem accum_err (t : Table) {g g' m : Nat → ℝ} {k : Nat} (hg : ∀ iq < size t, r.Err k (m iq) (g iq) (g' iq)) :
    r.Err (k + 2 + size t) (∑ iq ∈ Finset.range (size t), m iq * |weight ℝ t iq|) (accum t g) (accumR r t g') := by
  rw [accumR_sum]
  have h := r.sumLeft_adds ((List.range (size t)).map fun iq => r.rnd (g' iq * r.rnd (weight ℝ t iq)))
  rw [Rounding.sumLeft, List.foldl_map] at h
  exact h.sum_range (m := fun iq => m iq * |weight ℝ t iq|) (x := fun iq => g iq * weight ℝ t iq) fun iq hiq =>
    ((hg iq hiq).mul ((Rounding.Err.exact (r := r) (weight ℝ t iq)).rnd)).rnd

theorem err_size {k : Nat} {m m' x x' : ℝ} (h : r.Err k m x x') (hm : m ≤ m') : r.Err k m' x x' :=
  ⟨h.1.trans hm, h.2.trans (mul_le_mul_of_nonneg_left hm (sub_nonneg.2 (one_le_pow₀ r.one_le_b)))⟩

/-- What the assembly reads, computed with up to `kd` roundings: the measures, with an amplification `μ`, the values of the reference basis at the nodes of
the quadrature, of size one at most, and the gradients, with components and intermediate results of size `G` at most. -/
structure Prob.Computed (P : Prob ℝ) (r : Rounding) (kd : Nat) (μ G : ℝ) (ms : Nat → ℝ) (ps : Nat → (Nat → ℝ) → ℝ) (gr : Nat → Nat → (Nat → ℝ) → Nat → ℝ) :
    Prop where
  measure : ∀ c < P.n, r.Err kd (μ * P.measure c) (P.measure c) (ms c)
  psi : ∀ i < P.nb, ∀ k < size P.t, r.Err kd 1 (P.psi i (node ℝ P.t k)) (ps i (node ℝ P.t k))
  grad : ∀ c < P.n, ∀ i < P.nb, ∀ k < size P.t, ∀ z < P.N, r.Err kd G (P.grad c i (node ℝ P.t k) z) (gr c i (node ℝ P.t k) z)

/-- The problem with the computed data. -/
def Prob.withData (P : Prob ℝ) (ms : Nat → ℝ) (ps : Nat → (Nat → ℝ) → ℝ) (gr : Nat → Nat → (Nat → ℝ) → Nat → ℝ) : Prob ℝ :=
  { P with measure := ms, psi := ps, grad := gr }

section
variable {P : Prob ℝ} {kd : Nat} {μ G : ℝ} {ms : Nat → ℝ} {ps : Nat → (Nat → ℝ) → ℝ} {gr : Nat → Nat → (Nat → ℝ) → Nat → ℝ}

theorem loc_err (hS : r.Summation S) (hd : P.Computed r kd μ G ms ps gr) (op : Op ℝ) {κ : ℝ}
    (hκ : ∀ c < P.n, ∀ k < size P.t, weakAbs P.N op (size P.t * c + k) 1 1 (fun _ => G) (fun _ => G) ≤ κ)
    {c i j : Nat} (hc : c < P.n) (hi : i < P.nb) (hj : j < P.nb) :
    r.Err (opDepth P.N op + 3 * kd + size P.t + 3) ((∑ k ∈ Finset.range (size P.t), |weight ℝ P.t k|) * (μ * κ * P.measure c))
      (locOf P.t P.N op P.measure P.psi P.grad c i j) (locR r S (P.withData ms ps gr) op c i j) := by
  have h1 := accum_err P.t (m := fun _ => κ) fun iq hiq => err_size (weak_err hS P.N (hd.psi i hi iq hiq) (hd.psi j hj iq hiq)
    (fun z hz => hd.grad c hc i hi iq hiq z hz) (fun z hz => hd.grad c hc j hj iq hiq z hz) (size P.t * c + iq) op) (hκ c hc iq hiq)
  have h2 := (h1.mul (hd.measure c hc)).rnd
  refine err_size (h2.mono (by omega)) (le_of_eq ?_)
  rw [← Finset.mul_sum]
  ring

theorem frc_err (hd : P.Computed r kd μ G ms ps gr) (f : Nat → ℝ) {Fm : ℝ} (hf : ∀ c < P.n, ∀ k < size P.t, |f (size P.t * c + k)| ≤ Fm)
    {c i : Nat} (hc : c < P.n) (hi : i < P.nb) :
    r.Err (2 * kd + size P.t + 4) ((∑ k ∈ Finset.range (size P.t), |weight ℝ P.t k|) * (μ * Fm * P.measure c))
      (integrateBasisVec P.t c (P.measure c) f (P.psi i)) (frcR r (P.withData ms ps gr) f c i) := by
  have h1 := accum_err P.t (m := fun _ => Fm) fun iq hiq => err_size (((err_exact (r := r) (f (size P.t * c + iq)) 0).mul (hd.psi i hi iq hiq)).rnd)
    (by rw [mul_one]; exact hf c hc iq hiq)
  have h2 := (h1.mul (hd.measure c hc)).rnd
  refine err_size (h2.mono (by omega)) (le_of_eq ?_)
  rw [← Finset.mul_sum]
  ring

end

/-- Pairs of local functions of all cells, in the order of the loops. -/
def allPairs (n nb : Nat) : List (Nat × Nat × Nat) :=
  (List.range n).flatMap fun c => (List.range nb).flatMap fun i => (List.range nb).map fun j => (c, i, j)

theorem mem_allPairs {n nb : Nat} {x : Nat × Nat × Nat} : x ∈ allPairs n nb ↔ x.1 < n ∧ x.2.1 < nb ∧ x.2.2 < nb := by
  obtain ⟨c, i, j⟩ := x
  simp only [allPairs, List.mem_flatMap, List.mem_range, List.mem_map, Prod.mk.injEq]
  constructor
  · rintro ⟨a, ha, b, hb, d, hd, rfl, rfl, rfl⟩; exact ⟨ha, hb, hd⟩
  · rintro ⟨ha, hb, hd⟩; exact ⟨c, ha, i, hb, j, hd, rfl, rfl, rfl⟩

theorem nodup_allPairs (n nb : Nat) : (allPairs n nb).Nodup := by
  have h0 : ∀ k, (List.range k).Nodup := fun k => List.nodup_range
  rw [allPairs, List.nodup_flatMap]
  refine ⟨fun c _ => ?_, ?_⟩
  · rw [List.nodup_flatMap]
    refine ⟨fun i _ => (h0 nb).map fun a b h => by simpa using h, ?_⟩
    refine (h0 nb).imp fun {a b} hab => ?_
    rw [Function.onFun, List.disjoint_left]
    intro x hx hx'
    simp only [List.mem_map] at hx hx'
    obtain ⟨_, _, rfl⟩ := hx
    obtain ⟨_, _, e⟩ := hx'
    simp only [Prod.mk.injEq] at e
    exact hab e.2.1.symm
  · refine (h0 n).imp fun {a b} hab => ?_
    rw [Function.onFun, List.disjoint_left]
    intro x hx hx'
    simp only [List.mem_flatMap, List.mem_map] at hx hx'
    obtain ⟨_, _, _, _, rfl⟩ := hx
    obtain ⟨_, _, _, _, e⟩ := hx'
    simp only [Prod.mk.injEq] at e
    exact hab e.1.symm

/-- The triplets, as a list. -/
theorem opTriplets_eq (sym : Bool) (n nb N : Nat) (dofs : Nat → Nat → Nat) (loc : Nat → Nat → Nat → ℝ) (hN : ∀ c < n, ∀ i < nb, dofs c i < N) :
    opTriplets sym n nb N dofs loc = .ok (((allPairs n nb).filter fun x => !sym || decide (dofs x.1 x.2.2 ≤ dofs x.1 x.2.1)).map
      fun x => (dofs x.1 x.2.1, dofs x.1 x.2.2, loc x.1 x.2.1 x.2.2)) := by
  have e1 : opTriplets sym n nb N dofs loc = foldRes (fun l x => pairStep sym N dofs loc x.1 x.2.1 l x.2.2) [] (allPairs n nb) := by
    rw [allPairs, ← foldRes_flatMap, opTriplets]
    congr 1
    funext l c
    rw [← foldRes_flatMap]
    congr 1
    funext l i
    rw [foldRes_map]
  have key : ∀ (xs : List (Nat × Nat × Nat)) (l : List (Trip ℝ)), (∀ x ∈ xs, x.1 < n ∧ x.2.1 < nb ∧ x.2.2 < nb) →
      foldRes (fun l x => pairStep sym N dofs loc x.1 x.2.1 l x.2.2) l xs = .ok (l ++ (xs.filter fun x => !sym || decide (dofs x.1 x.2.2 ≤ dofs x.1 x.2.1)).map
        fun x => (dofs x.1 x.2.1, dofs x.1 x.2.2, loc x.1 x.2.1 x.2.2)) := by
    intro xs
    induction xs with
    | nil => intro l _; simp
    | cons x xs ih =>
      intro l hx
      obtain ⟨a1, a2, a3⟩ := hx x (by simp)
      have hb : dofs x.1 x.2.1 < N ∧ dofs x.1 x.2.2 < N := ⟨hN _ a1 _ a2, hN _ a1 _ a3⟩
      have ih' := fun l => ih l fun y hy => hx y (by simp [hy])
      rw [foldRes_cons, pairStep]
      cases sym with
      | false => simp [hb.1, hb.2, ih']
      | true =>
        by_cases hle : dofs x.1 x.2.2 ≤ dofs x.1 x.2.1
        · simp [hb.1, hb.2, ih', hle]
        · simp [ih', hle]
  rw [e1, key _ _ fun x hx => mem_allPairs.1 hx, List.nil_append]

/-- A node belongs to at most `v` cells. -/
def Valence (n nb : Nat) (dofs : Nat → Nat → Nat) (v : Nat) : Prop :=
  ∀ p, ((Finset.range n ×ˢ Finset.range nb).filter fun x => dofs x.1 x.2 = p).card ≤ v

theorem pairs_count {n nb : Nat} {dofs : Nat → Nat → Nat} {v : Nat} (hv : Valence n nb dofs v) (l : List (Nat × Nat × Nat))
    (hl : l.Sublist (allPairs n nb)) (p q : Nat) : (l.filter fun x => decide (dofs x.1 x.2.1 = p ∧ dofs x.1 x.2.2 = q)).length ≤ v * nb := by
  have hn : (l.filter fun x => decide (dofs x.1 x.2.1 = p ∧ dofs x.1 x.2.2 = q)).Nodup := ((nodup_allPairs n nb).sublist hl).filter _
  rw [← List.toFinset_card_of_nodup hn]
  have hsub : (l.filter fun x => decide (dofs x.1 x.2.1 = p ∧ dofs x.1 x.2.2 = q)).toFinset.image (fun x => ((x.1, x.2.1), x.2.2)) ⊆
      ((Finset.range n ×ˢ Finset.range nb).filter fun x => dofs x.1 x.2 = p) ×ˢ Finset.range nb := by
    intro y hy
    simp only [Finset.mem_image, List.mem_toFinset, List.mem_filter, decide_eq_true_eq] at hy
    obtain ⟨x, ⟨hx, hp, -⟩, rfl⟩ := hy
    obtain ⟨a1, a2, a3⟩ := mem_allPairs.1 (hl.subset hx)
    simp [a1, a2, a3, hp]
  have h1 := Finset.card_le_card hsub
  rw [Finset.card_product, Finset.card_range] at h1
  rw [Finset.card_image_of_injective] at h1
  · exact h1.trans (Nat.mul_le_mul_right _ (hv p))
  · rintro ⟨a, b, c⟩ ⟨a', b', c'⟩ h
    simp only [Prod.mk.injEq] at h ⊢
    exact ⟨h.1.1, h.1.2, h.2⟩

/-- Rounded matrices of local terms with given errors. -/
theorem operator_err (hS : r.Summation S) (sym : Bool) (n nb N : Nat) (dofs : Nat → Nat → Nat) {m x x' : Nat → Nat → Nat → ℝ} {k v : Nat}
    (hN : ∀ c < n, ∀ i < nb, dofs c i < N) (hv : Valence n nb dofs v)
    (he : ∀ c < n, ∀ i < nb, ∀ j < nb, r.Err k (m c i j) (x c i j) (x' c i j)) :
    ∃ A A' B, discretizeOperator sym n nb N dofs x = .ok A ∧ discretizeOperatorR S sym n nb N dofs x' = .ok A' ∧ discretizeOperator sym n nb N dofs m = .ok B ∧
      ∀ p q, r.Err (k + v * nb) (B p q) (A p q) (A' p q) := by
  set L := (allPairs n nb).filter fun x => !sym || decide (dofs x.1 x.2.2 ≤ dofs x.1 x.2.1) with hL
  have ent : ∀ p q, r.Err (k + v * nb) (entry (L.map fun x => (dofs x.1 x.2.1, dofs x.1 x.2.2, m x.1 x.2.1 x.2.2)) p q)
      (entry (L.map fun y => (dofs y.1 y.2.1, dofs y.1 y.2.2, x y.1 y.2.1 y.2.2)) p q)
      (entryR S (L.map fun y => (dofs y.1 y.2.1, dofs y.1 y.2.2, x' y.1 y.2.1 y.2.2)) p q) := by
    intro p q
    have hc := pairs_count hv L List.filter_sublist p q
    simp only [entry, entryR, List.filter_map, List.map_map]
    refine Rounding.Err.mono (Rounding.Adds.sum (hS _) ?_) (Nat.add_le_add_left hc k)
    intro y hy
    obtain ⟨a1, a2, a3⟩ := mem_allPairs.1 (List.filter_sublist.subset (List.mem_of_mem_filter hy))
    exact he _ a1 _ a2 _ a3
  refine ⟨_, _, _, by rw [discretizeOperator, opTriplets_eq sym n nb N dofs x hN, Res.map_ok],
    by rw [discretizeOperatorR, opTriplets_eq sym n nb N dofs x' hN, Res.map_ok],
    by rw [discretizeOperator, opTriplets_eq sym n nb N dofs m hN, Res.map_ok], fun p q => ?_⟩
  split_ifs
  · exact ent p q
  · exact ent q p
  · exact ent p q

/-- Local functions of all cells, in the order of the loops. -/
def allFuns (n nb : Nat) : List (Nat × Nat) := (List.range n).flatMap fun c => (List.range nb).map fun i => (c, i)

theorem mem_allFuns {n nb : Nat} {x : Nat × Nat} : x ∈ allFuns n nb ↔ x.1 < n ∧ x.2 < nb := by
  obtain ⟨c, i⟩ := x
  simp only [allFuns, List.mem_flatMap, List.mem_range, List.mem_map, Prod.mk.injEq]
  constructor
  · rintro ⟨a, ha, b, hb, rfl, rfl⟩; exact ⟨ha, hb⟩
  · rintro ⟨ha, hb⟩; exact ⟨c, ha, i, hb, rfl, rfl⟩

theorem nodup_allFuns (n nb : Nat) : (allFuns n nb).Nodup := by
  have h0 : ∀ k, (List.range k).Nodup := fun k => List.nodup_range
  rw [allFuns, List.nodup_flatMap]
  refine ⟨fun c _ => (h0 nb).map fun a b h => by simpa using h, ?_⟩
  refine (h0 n).imp fun {a b} hab => ?_
  rw [Function.onFun, List.disjoint_left]
  intro x hx hx'
  simp only [List.mem_map] at hx hx'
  obtain ⟨_, _, rfl⟩ := hx
  obtain ⟨_, _, e⟩ := hx'
  simp only [Prod.mk.injEq] at e
  exact hab e.1.symm

theorem funs_count {n nb : Nat} {dofs : Nat → Nat → Nat} {v : Nat} (hv : Valence n nb dofs v) (p : Nat) :
    ((allFuns n nb).filter fun x => decide (dofs x.1 x.2 = p)).length ≤ v := by
  rw [← List.toFinset_card_of_nodup ((nodup_allFuns n nb).filter _)]
  refine (Finset.card_le_card fun y hy => ?_).trans (hv p)
  simp only [List.mem_toFinset, List.mem_filter, decide_eq_true_eq] at hy
  obtain ⟨a1, a2⟩ := mem_allFuns.1 hy.1
  simp [a1, a2, hy.2]

/-- The loop of the load vector, for any addition. -/
theorem forcing_loop (add : ℝ → ℝ → ℝ) (n nb N : Nat) (dofs : Nat → Nat → Nat) (x : Nat → Nat → ℝ) (hN : ∀ c < n, ∀ i < nb, dofs c i < N) :
    ∃ f, foldRes (fun v c => foldRes (fun (v : List ℝ) i =>
      if dofs c i < v.length then Res.ok (v.modify (dofs c i) fun y => add y (x c i)) else .ub) v (List.range nb)) (List.replicate N 0) (List.range n) = .ok f ∧
      f.length = N ∧ ∀ p < N, f.getD p 0 = (((allFuns n nb).filter fun y => decide (dofs y.1 y.2 = p)).map fun y => x y.1 y.2).foldl add 0 := by
  have e1 : foldRes (fun v c => foldRes (fun (v : List ℝ) i =>
      if dofs c i < v.length then Res.ok (v.modify (dofs c i) fun y => add y (x c i)) else .ub) v (List.range nb)) (List.replicate N 0) (List.range n) =
      foldRes (fun (v : List ℝ) (y : Nat × Nat) => if dofs y.1 y.2 < v.length then Res.ok (v.modify (dofs y.1 y.2) fun z => add z (x y.1 y.2)) else .ub)
        (List.replicate N 0) (allFuns n nb) := by
    rw [allFuns, ← foldRes_flatMap]
    congr 1
    funext l c
    rw [foldRes_map]
  have key : ∀ (xs : List (Nat × Nat)) (v : List ℝ), (∀ y ∈ xs, dofs y.1 y.2 < N) → v.length = N →
      ∃ f, foldRes (fun (v : List ℝ) (y : Nat × Nat) => if dofs y.1 y.2 < v.length then Res.ok (v.modify (dofs y.1 y.2) fun z => add z (x y.1 y.2)) else .ub)
        v xs = .ok f ∧ f.length = N ∧ ∀ p < N, f.getD p 0 = ((xs.filter fun y => decide (dofs y.1 y.2 = p)).map fun y => x y.1 y.2).foldl add (v.getD p 0) := by
    intro xs
    induction xs with
    | nil => intro v _ hv; exact ⟨v, rfl, hv, fun p _ => rfl⟩
    | cons y xs ih =>
      intro v hd hv
      have hy := hd y (by simp)
      obtain ⟨f, h1, h2, h3⟩ := ih (v.modify (dofs y.1 y.2) fun z => add z (x y.1 y.2)) (fun z hz => hd z (by simp [hz])) (by simpa using hv)
      refine ⟨f, by rw [foldRes_cons, if_pos (by rw [hv]; exact hy), Res.ok_bind, h1], h2, fun p hp => ?_⟩
      rw [h3 p hp]
      have hpv : p < v.length := by rw [hv]; exact hp
      by_cases e : dofs y.1 y.2 = p
      · rw [List.filter_cons_of_pos (by simpa using e), List.map_cons, List.foldl_cons]
        congr 1
        simp [List.getD_eq_getElem?_getD, List.getElem?_modify, e, List.getElem?_eq_getElem hpv]
      · rw [List.filter_cons_of_neg (by simpa using e)]
        congr 1
        simp [List.getD_eq_getElem?_getD, List.getElem?_modify, e]
  obtain ⟨f, h1, h2, h3⟩ := key (allFuns n nb) (List.replicate N 0) (fun y hy => hN _ (mem_allFuns.1 hy).1 _ (mem_allFuns.1 hy).2) (by simp)
  refine ⟨f, by rw [e1, h1], h2, fun p hp => ?_⟩
  rw [h3 p hp]
  congr 1
  simp [List.getD_eq_getElem?_getD, List.getElem?_replicate, hp]

theorem foldl_add (l : List ℝ) (a : ℝ) : l.foldl (fun y z => y + z) a = a + l.sum := by
  induction l generalizing a with
  | nil => simp
  | cons x l ih => rw [List.foldl_cons, ih, List.sum_cons]; ring

/-- Rounded load vectors of local terms with given errors. -/
theorem forcing_err (n nb N : Nat) (dofs : Nat → Nat → Nat) {m x x' : Nat → Nat → ℝ} {k v : Nat} (hN : ∀ c < n, ∀ i < nb, dofs c i < N)
    (hv : Valence n nb dofs v) (he : ∀ c < n, ∀ i < nb, r.Err k (m c i) (x c i) (x' c i)) :
    ∃ f f', discretizeForcing n nb N dofs x = .ok f ∧ discretizeForcingR r n nb N dofs x' = .ok f' ∧ f.length = N ∧ f'.length = N ∧
      ∀ p < N, r.Err (k + v) (∑ c ∈ Finset.range n, ∑ i ∈ Finset.range nb, if dofs c i = p then m c i else 0) (f.getD p 0) (f'.getD p 0) := by
  obtain ⟨f, a1, a2, a3⟩ := forcing_loop (fun y z => y + z) n nb N dofs x hN
  obtain ⟨f', b1, b2, b3⟩ := forcing_loop (fun y z => r.rnd (y + z)) n nb N dofs x' hN
  obtain ⟨g, c1, c2, c3⟩ := forcing_loop (fun y z => y + z) n nb N dofs m hN
  obtain ⟨g', d1, d2, d3⟩ := C61_forcing n nb N dofs m hN
  have eg : g = g' := Res.ok.inj (c1.symm.trans d1)
  subst eg
  refine ⟨f, f', a1, b1, a2, b2, fun p hp => ?_⟩
  have e := c3 p hp
  rw [List.getD_eq_getElem?_getD, d3 p hp, Option.getD_some] at e
  rw [e, a3 p hp, b3 p hp, foldl_add, foldl_add, zero_add, zero_add]
  have h1 := (r.sumLeft_adds (((allFuns n nb).filter fun y => decide (dofs y.1 y.2 = p)).map fun y => x' y.1 y.2)).sum
    (m := fun y => m y.1 y.2) (x := fun y => x y.1 y.2) (k := k) fun y hy => by
      obtain ⟨a1, a2⟩ := mem_allFuns.1 (List.mem_of_mem_filter hy)
      exact he _ a1 _ a2
  exact h1.mono (Nat.add_le_add_left (funs_count hv p) k)

theorem fullSum_swap (n nb : Nat) (dofs : Nat → Nat → Nat) (m : Nat → ℝ) (p q : Nat) :
    fullSum n nb dofs (fun c _ _ => m c) p q = fullSum n nb dofs (fun c _ _ => m c) q p := by
  refine Finset.sum_congr rfl fun c _ => ?_
  rw [Finset.sum_comm]
  exact Finset.sum_congr rfl fun i _ => Finset.sum_congr rfl fun j _ => if_congr and_comm rfl rfl

/-- Matrices with errors of the local terms that do not depend on the pair. -/
theorem operator_cell_err (hS : r.Summation S) (sym : Bool) (n nb N : Nat) (dofs : Nat → Nat → Nat) {m : Nat → ℝ} {x x' : Nat → Nat → Nat → ℝ} {k v : Nat}
    (hN : ∀ c < n, ∀ i < nb, dofs c i < N) (hv : Valence n nb dofs v) (he : ∀ c < n, ∀ i < nb, ∀ j < nb, r.Err k (m c) (x c i j) (x' c i j)) :
    ∃ A A', discretizeOperator sym n nb N dofs x = .ok A ∧ discretizeOperatorR S sym n nb N dofs x' = .ok A' ∧
      ∀ p q, r.Err (k + v * nb) (fullSum n nb dofs (fun c _ _ => m c) p q) (A p q) (A' p q) := by
  obtain ⟨A, A', B, h1, h2, h3, h4⟩ := operator_err hS sym n nb N dofs (m := fun c _ _ => m c) hN hv he
  refine ⟨A, A', h1, h2, fun p q => ?_⟩
  obtain ⟨l, e1, e2⟩ := opTriplets_spec sym n nb N dofs (fun c _ _ => m c) hN
  have : B p q = fullSum n nb dofs (fun c _ _ => m c) p q := by
    rw [discretizeOperator, e1, Res.map_ok] at h3
    rw [← Res.ok.inj h3]
    cases sym with
    | false => simp [e2]
    | true =>
      by_cases hq : q ≤ p
      · simp only [if_true, if_pos hq, e2]
        rw [if_neg (by simp; omega)]
      · simp only [if_true, if_neg hq, e2]
        rw [if_neg (by simp; omega), fullSum_swap]
  rw [← this]
  exact h4 p q

/-- The blocks of the right hand side: two runs of the loop over the columns. -/
theorem force_pair (m cols : Nat) (dt : Bool) (col col' : Nat → Res (List ℝ)) (junk : Nat → ℝ) (T : Nat → Nat → ℝ → ℝ → Prop) (hc : 0 < cols)
    (h : ∀ i < cols, ∃ f f', col i = .ok f ∧ col' i = .ok f' ∧ ∀ p < m, T i p (f.getD p 0) (f'.getD p 0)) :
    ∃ F F', (col 0 >>= fun v => if dt then foldRes (fun f i => putBlock m i f <$> col i) (putBlock m 0 junk v) (List.range' 1 (cols - 1))
        else .ok (putBlock m 0 junk v)) = .ok F ∧
      (col' 0 >>= fun v => if dt then foldRes (fun f i => putBlock m i f <$> col' i) (putBlock m 0 junk v) (List.range' 1 (cols - 1))
        else .ok (putBlock m 0 junk v)) = .ok F' ∧
      ∀ i, i = 0 ∨ (dt = true ∧ i < cols) → ∀ p < m, T i p (F (m * i + p)) (F' (m * i + p)) := by
  obtain ⟨v, v', h1, h2, h3⟩ := h 0 hc
  have h0 : ∀ p < m, T 0 p (putBlock m 0 junk v (m * 0 + p)) (putBlock m 0 junk v' (m * 0 + p)) := fun p hp => by
    rw [putBlock_same _ _ _ _ _ hp, putBlock_same _ _ _ _ _ hp]; exact h3 p hp
  rw [h1, h2, Res.ok_bind, Res.ok_bind]
  cases dt with
  | false =>
    refine ⟨_, _, rfl, rfl, ?_⟩
    rintro i (rfl | ⟨h, _⟩)
    · exact h0
    · cases h
  | true =>
    simp only [if_true]
    have key : ∀ k, k < cols → ∃ f f', foldRes (fun f i => putBlock m i f <$> col i) (putBlock m 0 junk v) (List.range' 1 k) = .ok f ∧
        foldRes (fun f i => putBlock m i f <$> col' i) (putBlock m 0 junk v') (List.range' 1 k) = .ok f' ∧
        ∀ i ≤ k, ∀ p < m, T i p (f (m * i + p)) (f' (m * i + p)) := by
      intro k
      induction k with
      | zero => exact fun _ => ⟨_, _, rfl, rfl, fun i hi => by rw [Nat.le_zero.1 hi]; exact h0⟩
      | succ k ih =>
        intro hk
        obtain ⟨f, f', e, e', hf⟩ := ih (by omega)
        obtain ⟨w, w', g1, g2, g3⟩ := h (1 + k) (by omega)
        refine ⟨putBlock m (1 + k) f w, putBlock m (1 + k) f' w', ?_, ?_, fun i hi p hp => ?_⟩
        · rw [List.range'_1_concat, foldRes_append, e, Res.ok_bind, foldRes_cons, g1, Res.map_ok, Res.ok_bind, foldRes_nil]
        · rw [List.range'_1_concat, foldRes_append, e', Res.ok_bind, foldRes_cons, g2, Res.map_ok, Res.ok_bind, foldRes_nil]
        · by_cases hik : i = 1 + k
          · subst hik
            rw [putBlock_same _ _ _ _ _ hp, putBlock_same _ _ _ _ _ hp]
            exact g3 p hp
          · rw [putBlock_other _ _ _ (Ne.symm hik) _ _ _ hp, putBlock_other _ _ _ (Ne.symm hik) _ _ _ hp]
            exact hf i (by omega) p hp
    obtain ⟨f, f', e, e', hf⟩ := key (cols - 1) (by omega)
    refine ⟨f, f', e, e', ?_⟩
    rintro i (rfl | ⟨_, hi⟩)
    · exact hf 0 (by omega)
    · exact hf i (by omega)

end
end Fdapde.PDE
