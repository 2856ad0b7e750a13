import Verif.PDE.PatchSpec
import Verif.PDE.LemmasFacet
import Verif.PDE.PropsElements
set_option linter.unusedSectionVars false
namespace Fdapde.PDE
open Fdapde.Quadrature Matrix
variable {K : Type} [Field K] [LinearOrder K] [IsStrictOrderedRing K]

theorem first_gra : ∀ e ∈ [(1, 1, 2), (2, 1, 3), (3, 1, 4)], ∀ k < ruleSize e.1 e.2.1, ∀ w < e.1, ∀ i < e.2.2,
    FEM.look (FEM.litGra e.1 e.2.1) (e.1 * k + w) i = (if i = w + 1 then (1 : ℚ) else 0) - if i = 0 then 1 else 0 := by
  decide +kernel

theorem first_val : ∀ e ∈ [(1, 1, 2), (2, 1, 3), (3, 1, 4)], ∀ k < ruleSize e.1 e.2.1, ∀ i < e.2.2,
    FEM.look (FEM.litVal e.1 e.2.1) k i =
      if i = 0 then 1 - (List.range e.1).foldl (fun v w => v + FEM.look (FEM.ruleNodes e.1 e.2.1) k w) 0
      else FEM.look (FEM.ruleNodes e.1 e.2.1) k (i - 1) := by
  decide +kernel

theorem first_mem {M n : Nat} (h : FEM.Supported M 1 n) : (M, 1, n) ∈ [(1, 1, 2), (2, 1, 3), (3, 1, 4)] ∧ n = M + 1 := by
  unfold FEM.Supported at h
  simp only [List.mem_cons, List.not_mem_nil, or_false, Prod.mk.injEq] at h
  rcases h with ⟨rfl, _, rfl⟩ | ⟨_, h, _⟩ | ⟨rfl, _, rfl⟩ | ⟨_, h, _⟩ | ⟨_, h, _⟩ | ⟨rfl, _, rfl⟩ | ⟨_, h, _⟩
  all_goals first | exact absurd h (by decide) | exact ⟨by decide, rfl⟩

/-- Gradient of local function `i` on cell `c`. -/
def locGrad (N : Nat) (I : Nat → Nat → Nat → K) (c i z : Nat) : K :=
  ∑ w ∈ Finset.range N, ((if i = w + 1 then 1 else 0) - if i = 0 then 1 else 0) * I c w z

section
variable {P : Prob K} {X : Nat → Nat → K} {I : Nat → Nat → Nat → K}

theorem nb_eq (h : P.OnNodes X I) : P.nb = P.N + 1 := (first_mem h.lagrange.supported).2

theorem grad_node (h : P.OnNodes X I) {c k i : Nat} (hc : c < P.n) (hk : k < size P.t) (hi : i < P.nb) (z : Nat) :
    P.grad c i (node K P.t k) z = locGrad P.N I c i z := by
  have h1 := h.lagrange.grad c hc ⟨i, hi⟩ (node K P.t k) z
  simp only at h1
  rw [h1, locGrad]
  refine Finset.sum_congr rfl fun w hw => ?_
  rw [FEM.refGrad_node h.lagrange.supported h.lagrange.rule k hk w (Finset.mem_range.1 hw),
    first_gra _ (first_mem h.lagrange.supported).1 k
      ((FEM.rule_node (K := K) h.lagrange.supported h.lagrange.rule).1 ▸ hk) w (Finset.mem_range.1 hw) i hi]
  congr 1
  split_ifs <;> simp

/-- Vertices and gradients of a cell. -/
def vert (P : Prob K) (X : Nat → Nat → K) (c : Nat) : Fin (P.N + 1) → Fin P.N → K := fun j z => X (P.dofs c j) z
def grads (P : Prob K) (I : Nat → Nat → Nat → K) (c : Nat) : Fin (P.N + 1) → Fin P.N → K := fun i z => locGrad P.N I c i z

theorem dual (h : P.OnNodes X I) {c : Nat} (hc : c < P.n) : Dual (vert P X c) (grads P I c) := by
  intro i j
  by_cases hj : j = 0
  · subst hj; simp
  · obtain ⟨w', rfl⟩ := Fin.exists_succ_eq.2 hj
    have e : grads P I c i ⬝ᵥ (vert P X c w'.succ - vert P X c 0) = ∑ w ∈ Finset.range P.N,
        ((if (i : Nat) = w + 1 then (1 : K) else 0) - if (i : Nat) = 0 then 1 else 0) *
          ∑ z ∈ Finset.range P.N, I c w z * (X (P.dofs c (w' + 1)) z - X (P.dofs c 0) z) := by
      simp only [dotProduct, grads, vert, locGrad, Finset.sum_mul, Finset.mul_sum, Pi.sub_apply, Fin.val_succ, Fin.val_zero]
      rw [Finset.sum_comm]
      refine Finset.sum_congr rfl fun w _ => ?_
      rw [Finset.sum_range (n := P.N)]
      exact Finset.sum_congr rfl fun z _ => by ring
    rw [e, Finset.sum_eq_single (w' : Nat)]
    · rw [h.lagrange.inv c hc w' w'.2 w' w'.2, if_pos rfl, mul_one]
      simp only [Fin.ext_iff, Fin.val_succ, Fin.val_zero]
    · intro w hw hne
      rw [h.lagrange.inv c hc w (Finset.mem_range.1 hw) w' w'.2, if_neg hne, mul_zero]
    · intro hn; exact absurd (Finset.mem_range.2 w'.2) hn

theorem dofs_inj (h : P.OnNodes X I) {c : Nat} (hc : c < P.n) {i j : Nat} (hi : i < P.nb) (hj : j < P.nb)
    (e : P.dofs c i = P.dofs c j) : i = j := by
  have hn := nb_eq h
  have h1 := dual h hc ⟨i, by omega⟩ ⟨i, by omega⟩
  have h2 := dual h hc ⟨i, by omega⟩ ⟨j, by omega⟩
  have e2 : vert P X c ⟨i, by omega⟩ = vert P X c ⟨j, by omega⟩ := by funext z; simp only [vert]; rw [e]
  rw [e2, h2] at h1
  by_contra hne
  simp only [Fin.mk.injEq, hne, if_false, if_true, zero_sub] at h1
  exact one_ne_zero (by linear_combination -h1 : (1 : K) = 0)

theorem mem_facet (h : P.OnNodes X I) {c i p : Nat} (hc : c < P.n) (hi : i < P.nb) :
    p ∈ P.facet c i ↔ P.dofs c i ≠ p ∧ ∃ j < P.nb, P.dofs c j = p := by
  simp only [Prob.facet, Finset.mem_image, Finset.mem_erase, Finset.mem_range]
  constructor
  · rintro ⟨j, ⟨h1, h2⟩, rfl⟩
    exact ⟨fun e => h1 (dofs_inj h hc hi h2 e).symm, j, h2, rfl⟩
  · rintro ⟨h1, j, h2, h3⟩
    exact ⟨j, ⟨fun e => h1 (by rw [← e]; exact h3), h2⟩, h3⟩

/-- Two cells with the same facet. -/
theorem facet_perm (h : P.OnNodes X I) {c i c' i' : Nat} (hc : c < P.n) (hi : i < P.nb) (hc' : c' < P.n) (hi' : i' < P.nb)
    (hf : P.facet c' i' = P.facet c i) : ∃ s : Equiv.Perm (Fin (P.N + 1)),
      ((s ⟨i, nb_eq h ▸ hi⟩ : Fin (P.N + 1)) : Nat) = i' ∧ ∀ j : Fin (P.N + 1), (j : Nat) ≠ i → P.dofs c' (s j) = P.dofs c j := by
  have hn := nb_eq h
  have hch : ∀ j : Fin (P.N + 1), ∃ j' : Fin (P.N + 1), ((j : Nat) = i → (j' : Nat) = i') ∧
      ((j : Nat) ≠ i → (j' : Nat) ≠ i' ∧ P.dofs c' j' = P.dofs c j) := by
    intro j
    by_cases hj : (j : Nat) = i
    · exact ⟨⟨i', by omega⟩, fun _ => rfl, fun h => absurd hj h⟩
    · have : P.dofs c j ∈ P.facet c' i' := by
        rw [hf, mem_facet h hc hi]
        exact ⟨fun e => hj (dofs_inj h hc hi (by omega) e).symm, j, by omega, rfl⟩
      rw [mem_facet h hc' hi'] at this
      obtain ⟨h1, j', h2, h3⟩ := this
      exact ⟨⟨j', by omega⟩, fun h => absurd h hj, fun _ => ⟨fun e => h1 (by rw [← e]; exact h3), h3⟩⟩
  choose f h1 h2 using hch
  have hinj : Function.Injective f := by
    intro a b hab
    by_cases ha : (a : Nat) = i <;> by_cases hb : (b : Nat) = i
    · exact Fin.ext (ha.trans hb.symm)
    · exact absurd ((congrArg Fin.val hab).symm.trans (h1 a ha)) (h2 b hb).1
    · exact absurd ((congrArg Fin.val hab).trans (h1 b hb)) (h2 a ha).1
    · have e1 := (h2 a ha).2
      rw [hab, (h2 b hb).2] at e1
      exact Fin.ext (dofs_inj h hc (by omega) (by omega) e1.symm)
  exact ⟨Equiv.ofBijective f (Finite.injective_iff_bijective.1 hinj), h1 _ rfl, fun j hj => (h2 j hj).2⟩

theorem dotProduct_dot {N : Nat} (a b : Nat → K) : (fun z : Fin N => a z) ⬝ᵥ (fun z : Fin N => b z) = dot N a b := by
  rw [dot, Finset.sum_range]
  rfl

theorem pair_cancel (h : P.OnNodes X I) {c i c' i' : Nat} (hc : c < P.n) (hi : i < P.nb) (hc' : c' < P.n) (hi' : i' < P.nb)
    (hf : P.facet c' i' = P.facet c i)
    (hs : ∀ (a : Nat → K) (b : K), (∀ p ∈ P.facet c i, dot P.N a (X p) + b = 0) →
        (dot P.N a (X (P.dofs c i)) + b) * (dot P.N a (X (P.dofs c' i')) + b) ≤ 0) (z : Nat) (hz : z < P.N) :
    P.measure c * locGrad P.N I c i z + P.measure c' * locGrad P.N I c' i' z = 0 := by
  have hn := nb_eq h
  obtain ⟨s, s1, s2⟩ := facet_perm h hc hi hc' hi' hf
  have hi0 : i < P.N + 1 := hn ▸ hi
  have hd : ∀ j, grads P I c ⟨i, hi0⟩ ⬝ᵥ (fun z : Fin P.N => X (P.dofs c j) z) = dot P.N (locGrad P.N I c i) (X (P.dofs c j)) :=
    fun j => dotProduct_dot _ _
  have hv : ∀ j < P.nb, dot P.N (locGrad P.N I c i) (X (P.dofs c j)) +
      ((if i = 0 then 1 else 0) - dot P.N (locGrad P.N I c i) (X (P.dofs c 0))) = if i = j then 1 else 0 := by
    intro j hj
    have h1 := dual h hc ⟨i, hi0⟩ ⟨j, hn ▸ hj⟩
    rw [dotProduct_sub] at h1
    have e0 : vert P X c 0 = fun z : Fin P.N => X (P.dofs c 0) z := rfl
    have ej : vert P X c ⟨j, hn ▸ hj⟩ = fun z : Fin P.N => X (P.dofs c j) z := rfl
    rw [e0, ej, hd, hd] at h1
    simp only [Fin.ext_iff, Fin.val_zero] at h1
    linear_combination h1
  have h3 := hs (locGrad P.N I c i) ((if i = 0 then 1 else 0) - dot P.N (locGrad P.N I c i) (X (P.dofs c 0))) (by
    intro p hp
    rw [mem_facet h hc hi] at hp
    obtain ⟨h1, j, h2, rfl⟩ := hp
    rw [hv j h2, if_neg fun e => h1 (by rw [e])])
  rw [hv i hi, if_pos rfl, one_mul] at h3
  have h4 := facet_cancel (dual h hc) (dual h hc') s ⟨i, hi0⟩ (fun j hj => by
      funext z
      simp only [vert]
      rw [s2 j fun e => hj (Fin.ext e)]) (by
      have e1 : vert P X c' (s ⟨i, hi0⟩) = fun z : Fin P.N => X (P.dofs c' i') z := by funext z; simp only [vert, s1]
      have e0 : vert P X c 0 = fun z : Fin P.N => X (P.dofs c 0) z := rfl
      rw [dotProduct_sub, e1, e0, hd]
      have e2 : grads P I c ⟨i, hi0⟩ ⬝ᵥ (fun z : Fin P.N => X (P.dofs c' i') z) = dot P.N (locGrad P.N I c i) (X (P.dofs c' i')) :=
        dotProduct_dot _ _
      rw [e2]
      simp only [Fin.ext_iff, Fin.val_zero]
      linarith only [h3]) ⟨z, hz⟩
  rw [det_bord, det_bord] at h4
  simp only [grads, s1] at h4
  rw [h.measure c hc, h.measure c' hc']
  have h5 : |(of fun z w : Fin P.N => X (P.dofs c (w + 1)) z - X (P.dofs c 0) z).det| * locGrad P.N I c i z +
      |(of fun z w : Fin P.N => X (P.dofs c' (w + 1)) z - X (P.dofs c' 0) z).det| * locGrad P.N I c' i' z = 0 := h4
  linear_combination (1 / (P.N.factorial : K)) * h5

theorem grads_sum (c z : Nat) (h : P.OnNodes X I) : ∑ i ∈ Finset.range P.nb, locGrad P.N I c i z = 0 := by
  rw [nb_eq h]
  simp only [locGrad]
  rw [Finset.sum_comm]
  refine Finset.sum_eq_zero fun w hw => ?_
  rw [← Finset.sum_mul, Finset.sum_sub_distrib, Finset.sum_ite_eq', Finset.sum_ite_eq']
  have := Finset.mem_range.1 hw
  simp [this]

/-- The gradient of a basis function of an interior node has zero integral. -/
theorem node_sum (h : P.OnNodes X I) (hcf : P.Conforming X) {p : Nat} (hp : P.bd p = false) {z : Nat} (hz : z < P.N) :
    ∑ c ∈ Finset.range P.n, ∑ i ∈ Finset.range P.nb, (if P.dofs c i = p then P.measure c * locGrad P.N I c i z else 0) = 0 := by
  have e1 : ∀ c ∈ Finset.range P.n, ∑ i ∈ Finset.range P.nb, (if P.dofs c i = p then P.measure c * locGrad P.N I c i z else 0) =
      -∑ i ∈ Finset.range P.nb, if p ∈ P.facet c i then P.measure c * locGrad P.N I c i z else 0 := by
    intro c hc
    have hc' := Finset.mem_range.1 hc
    by_cases hj : ∃ j < P.nb, P.dofs c j = p
    · have e0 := congrArg (fun x => P.measure c * x) (grads_sum c z h)
      simp only [mul_zero, Finset.mul_sum] at e0
      rw [eq_neg_iff_add_eq_zero, ← Finset.sum_add_distrib]
      refine (Finset.sum_congr rfl fun i hi => ?_).trans e0
      have hm := mem_facet (p := p) h hc' (Finset.mem_range.1 hi)
      by_cases hd : P.dofs c i = p
      · rw [if_pos hd, if_neg fun hf => (hm.1 hf).1 hd, add_zero]
      · rw [if_neg hd, if_pos (hm.2 ⟨hd, hj⟩), zero_add]
    · rw [Finset.sum_eq_zero, Finset.sum_eq_zero, neg_zero]
      · intro i hi
        rw [if_neg]
        rw [mem_facet h hc' (Finset.mem_range.1 hi)]
        exact fun h => hj h.2
      · intro i hi
        exact if_neg fun e => hj ⟨i, Finset.mem_range.1 hi, e⟩
  rw [Finset.sum_congr rfl e1, Finset.sum_neg_distrib, neg_eq_zero, ← Finset.sum_product', ← Finset.sum_filter]
  have hmem : ∀ a : Nat × Nat, a ∈ (Finset.range P.n ×ˢ Finset.range P.nb).filter (fun a => p ∈ P.facet a.1 a.2) ↔
      (a.1 < P.n ∧ a.2 < P.nb) ∧ p ∈ P.facet a.1 a.2 := by
    intro a; simp [Finset.mem_filter]
  have hex : ∀ a ∈ (Finset.range P.n ×ˢ Finset.range P.nb).filter (fun a => p ∈ P.facet a.1 a.2), ∃ b : Nat × Nat,
      b.1 < P.n ∧ b.2 < P.nb ∧ b.1 ≠ a.1 ∧ P.facet b.1 b.2 = P.facet a.1 a.2 ∧
      (∀ d < P.n, ∀ j < P.nb, P.facet d j = P.facet a.1 a.2 → d = a.1 ∨ d = b.1) ∧
      P.measure a.1 * locGrad P.N I a.1 a.2 z + P.measure b.1 * locGrad P.N I b.1 b.2 z = 0 := by
    intro a ha
    rw [hmem] at ha
    obtain ⟨c', h1, i', h2, h3, h4, h5, h6⟩ := hcf a.1 ha.1.1 a.2 ha.1.2 ⟨p, ha.2, hp⟩
    exact ⟨(c', i'), h1, h2, h3, h4, h5, pair_cancel h ha.1.1 ha.1.2 h1 h2 h4 h6 z hz⟩
  choose! g h1 h2 h3 h4 h5 h6 using hex
  have hin : ∀ a (ha : a ∈ (Finset.range P.n ×ˢ Finset.range P.nb).filter (fun a => p ∈ P.facet a.1 a.2)),
      g a ∈ (Finset.range P.n ×ˢ Finset.range P.nb).filter (fun a => p ∈ P.facet a.1 a.2) := fun a ha => by
    rw [hmem, h4 a ha]
    exact ⟨⟨h1 a ha, h2 a ha⟩, ((hmem a).1 ha).2⟩
  refine Finset.sum_involution (fun a _ => g a) (fun a ha => h6 a ha) (fun a ha _ e => h3 a ha (congrArg Prod.fst e)) (fun a ha => hin a ha) ?_
  intro a ha
  have ha' := (hmem a).1 ha
  have hg := (hmem _).1 (hin a ha)
  have hgg := (hmem _).1 (hin _ (hin a ha))
  have e0 : P.facet (g (g a)).1 (g (g a)).2 = P.facet a.1 a.2 := (h4 _ (hin a ha)).trans (h4 a ha)
  have e1 : (g (g a)).1 = a.1 := by
    rcases h5 a ha _ hgg.1.1 _ hgg.1.2 e0 with e | e
    · exact e
    · exact absurd e (h3 _ (hin a ha))
  refine Prod.ext e1 ?_
  by_contra hne
  rw [e1] at e0
  have hlt : (g (g a)).2 < P.nb := hgg.1.2
  have : P.dofs a.1 a.2 ∈ P.facet a.1 (g (g a)).2 := by
    rw [mem_facet h ha'.1.1 hlt]
    exact ⟨fun e => hne (dofs_inj h ha'.1.1 hlt ha'.1.2 e), a.2, ha'.1.2, rfl⟩
  rw [e0, mem_facet h ha'.1.1 ha'.1.2] at this
  exact this.1 rfl

/-- Test functions have gradients with zero integral. -/
theorem test_grad (h : P.OnNodes X I) (hcf : P.Conforming X) (hP : ∀ c < P.n, ∀ i < P.nb, P.dofs c i < P.m) {v : Nat → K} (hv : P.Test v)
    {z : Nat} (hz : z < P.N) :
    ∑ c ∈ Finset.range P.n, P.measure c * ∑ i ∈ Finset.range P.nb, v (P.dofs c i) * locGrad P.N I c i z = 0 := by
  have e : ∀ c ∈ Finset.range P.n, P.measure c * ∑ i ∈ Finset.range P.nb, v (P.dofs c i) * locGrad P.N I c i z =
      ∑ p ∈ Finset.range P.m, v p * ∑ i ∈ Finset.range P.nb, if P.dofs c i = p then P.measure c * locGrad P.N I c i z else 0 := by
    intro c hc
    simp only [Finset.mul_sum]
    rw [Finset.sum_comm]
    refine Finset.sum_congr rfl fun i hi => ?_
    rw [Finset.sum_eq_single (P.dofs c i)]
    · rw [if_pos rfl]; ring
    · intro p _ hne; rw [if_neg (Ne.symm hne), mul_zero]
    · intro hn; exact absurd (Finset.mem_range.2 (hP c (Finset.mem_range.1 hc) i (Finset.mem_range.1 hi))) hn
  rw [Finset.sum_congr rfl e, Finset.sum_comm]
  refine Finset.sum_eq_zero fun p hp => ?_
  rw [← Finset.mul_sum]
  cases hb : P.bd p with
  | true => rw [hv p (Finset.mem_range.1 hp) hb, zero_mul]
  | false => rw [node_sum h hcf hb hz, mul_zero]

/-- Gradient of an affine function. -/
theorem affine_grad (h : P.OnNodes X I) {c : Nat} (hc : c < P.n) (a : Nat → K) (b : K) {z : Nat} (hz : z < P.N) :
    ∑ i ∈ Finset.range P.nb, (dot P.N a (X (P.dofs c i)) + b) * locGrad P.N I c i z = a z := by
  have h1 : coef (vert P X c) (grads P I c) *ᵥ (bord (vert P X c) *ᵥ (Fin.cons b fun z : Fin P.N => a z)) = Fin.cons b fun z : Fin P.N => a z := by
    rw [mulVec_mulVec, mul_eq_one_comm.1 (dual_inv (dual h hc)), one_mulVec]
  have h2 := congrFun h1 (Fin.succ ⟨z, hz⟩)
  rw [Fin.cons_succ] at h2
  rw [← h2, nb_eq h, Finset.sum_range]
  simp only [mulVec, dotProduct]
  refine Finset.sum_congr rfl fun i _ => ?_
  rw [Fin.sum_univ_succ]
  simp only [bord, coef, Fin.cons_zero, Fin.cons_succ, one_mul]
  rw [dot, Finset.sum_range]
  simp only [vert, grads, mul_comm, add_comm]

theorem psi_node (h : P.OnNodes X I) {k i : Nat} (hk : k < size P.t) (hi : i < P.nb) : P.psi i (node K P.t k) =
    if i = 0 then 1 - ∑ w ∈ Finset.range P.N, node K P.t k w else node K P.t k (i - 1) := by
  have hr := FEM.rule_node (K := K) h.lagrange.supported h.lagrange.rule
  have h1 := h.lagrange.psi ⟨i, hi⟩ (node K P.t k)
  simp only at h1
  rw [h1, FEM.refBasis_node h.lagrange.supported h.lagrange.rule k hk,
    first_val _ (first_mem h.lagrange.supported).1 k (hr.1 ▸ hk) i hi, FEM.foldl_sum, hr.2 k]
  split_ifs <;> push_cast <;> rfl

/-- Value of an affine function. -/
theorem affine_value (h : P.OnNodes X I) (c : Nat) (a : Nat → K) (b : K) {k : Nat} (hk : k < size P.t) :
    feValue P.nb (P.dofs c) (fun p => dot P.N a (X p) + b) (fun i => P.psi i (node K P.t k)) =
      dot P.N a (cellPoint P.N X (P.dofs c) (node K P.t k)) + b := by
  have e1 : feValue P.nb (P.dofs c) (fun p => dot P.N a (X p) + b) (fun i => P.psi i (node K P.t k)) =
      (dot P.N a (X (P.dofs c 0)) + b) * (1 - ∑ w ∈ Finset.range P.N, node K P.t k w) +
        ∑ w ∈ Finset.range P.N, (dot P.N a (X (P.dofs c (w + 1))) + b) * node K P.t k w := by
    rw [feValue, nb_eq h, Finset.sum_range_succ', add_comm]
    congr 1
    · rw [psi_node h hk (by rw [nb_eq h]; omega), if_pos rfl]
    · refine Finset.sum_congr rfl fun w hw => ?_
      rw [psi_node h hk (by rw [nb_eq h]; have := Finset.mem_range.1 hw; omega), if_neg (by omega)]
      rfl
  have e2 : dot P.N a (cellPoint P.N X (P.dofs c) (node K P.t k)) = dot P.N a (X (P.dofs c 0)) +
      ∑ w ∈ Finset.range P.N, (dot P.N a (X (P.dofs c (w + 1))) - dot P.N a (X (P.dofs c 0))) * node K P.t k w := by
    simp only [dot, cellPoint, mul_add, Finset.mul_sum, Finset.sum_add_distrib]
    congr 1
    rw [Finset.sum_comm]
    refine Finset.sum_congr rfl fun w _ => ?_
    rw [← Finset.sum_sub_distrib, Finset.sum_mul]
    exact Finset.sum_congr rfl fun z _ => by ring
  rw [e1, e2]
  simp only [sub_mul, add_mul, Finset.sum_sub_distrib, Finset.sum_add_distrib, mul_sub, mul_one, ← Finset.mul_sum]
  ring

/-- C110: an affine function solves the discrete problem whose data are its values on the boundary and the forcing it
produces, for an operator with constant diffusion and arbitrary transport and reaction. -/
theorem C110_galerkin (h : P.OnNodes X I) (hcf : P.Conforming X) (hP : P.Ok) (D : Nat → Nat → K) (bt : Nat → Nat → K) (ct : Nat → K)
    (hop : ∀ r u v gu gv, form P.N P.op r u v gu gv = dot P.N (fun z => dot P.N (D z) gu) gv + dot P.N (bt r) gu * v + ct r * u * v)
    (a : Nat → K) (b : K) (f : Nat → Nat → K) (hf : ∀ c < P.n, ∀ k < size P.t, f c k =
      dot P.N (bt (size P.t * c + k)) a + ct (size P.t * c + k) * (dot P.N a (cellPoint P.N X (P.dofs c) (node K P.t k)) + b))
    (g : Nat → K) (hg : ∀ p < P.m, P.bd p = true → g p = dot P.N a (X p) + b) :
    P.Galerkin f g fun p => dot P.N a (X p) + b := by
  refine ⟨fun p hp hb => (hg p hp hb).symm, fun v hv => ?_⟩
  have hG : ∀ c < P.n, ∀ k < size P.t, ∀ z < P.N,
      feGrad P.nb (P.dofs c) (fun p => dot P.N a (X p) + b) (fun i => P.grad c i (node K P.t k)) z = a z := by
    intro c hc k hk z hz
    rw [← affine_grad h hc a b hz, feGrad]
    exact Finset.sum_congr rfl fun i hi => by rw [grad_node h hc hk (Finset.mem_range.1 hi)]
  have hV : ∀ c < P.n, ∀ k < size P.t, ∀ z < P.N, feGrad P.nb (P.dofs c) v (fun i => P.grad c i (node K P.t k)) z =
      ∑ i ∈ Finset.range P.nb, v (P.dofs c i) * locGrad P.N I c i z := by
    intro c hc k hk z hz
    rw [feGrad]
    exact Finset.sum_congr rfl fun i hi => by rw [grad_node h hc hk (Finset.mem_range.1 hi)]
  have hdot : ∀ (x y y' : Nat → K), (∀ z < P.N, y z = y' z) → dot P.N x y = dot P.N x y' := fun x y y' e =>
    Finset.sum_congr rfl fun z hz => by rw [e z (Finset.mem_range.1 hz)]
  have e : ∀ c ∈ Finset.range P.n, ∀ k ∈ Finset.range (size P.t), form P.N P.op (size P.t * c + k)
      (feValue P.nb (P.dofs c) (fun p => dot P.N a (X p) + b) fun i => P.psi i (node K P.t k)) (feValue P.nb (P.dofs c) v fun i => P.psi i (node K P.t k))
      (feGrad P.nb (P.dofs c) (fun p => dot P.N a (X p) + b) fun i => P.grad c i (node K P.t k)) (feGrad P.nb (P.dofs c) v fun i => P.grad c i (node K P.t k)) =
      f c k * (feValue P.nb (P.dofs c) v fun i => P.psi i (node K P.t k)) +
        dot P.N (fun z => dot P.N (D z) a) (fun z => ∑ i ∈ Finset.range P.nb, v (P.dofs c i) * locGrad P.N I c i z) := by
    intro c hc k hk
    have hc' := Finset.mem_range.1 hc
    have hk' := Finset.mem_range.1 hk
    rw [hop, hf c hc' k hk', affine_value h c a b hk', hdot _ _ _ (hG c hc' k hk'), hdot _ _ _ (hV c hc' k hk'),
      show (fun z => dot P.N (D z) (feGrad P.nb (P.dofs c) (fun p => dot P.N a (X p) + b) fun i => P.grad c i (node K P.t k))) =
        fun z => dot P.N (D z) a from funext fun z => hdot _ _ _ (hG c hc' k hk')]
    ring
  have e2 : P.bilin (fun p => dot P.N a (X p) + b) v = P.load f v + (∑ k ∈ Finset.range (size P.t), weight K P.t k) *
      ∑ c ∈ Finset.range P.n, P.measure c *
        dot P.N (fun z => dot P.N (D z) a) (fun z => ∑ i ∈ Finset.range P.nb, v (P.dofs c i) * locGrad P.N I c i z) := by
    rw [Prob.bilin, Prob.load, Finset.mul_sum, ← Finset.sum_add_distrib]
    refine Finset.sum_congr rfl fun c hc => ?_
    rw [Finset.sum_congr rfl fun k hk => by rw [e c hc k hk]]
    simp only [mul_add, Finset.sum_add_distrib, Finset.sum_mul]
    rw [← Finset.sum_mul, Finset.sum_mul, Finset.mul_sum]
    congr 1
    rw [Finset.mul_sum]
    exact Finset.sum_congr rfl fun k _ => by ring
  have e3 : ∑ c ∈ Finset.range P.n, P.measure c *
      dot P.N (fun z => dot P.N (D z) a) (fun z => ∑ i ∈ Finset.range P.nb, v (P.dofs c i) * locGrad P.N I c i z) = 0 := by
    have : ∀ c ∈ Finset.range P.n, P.measure c *
      dot P.N (fun z => dot P.N (D z) a) (fun z => ∑ i ∈ Finset.range P.nb, v (P.dofs c i) * locGrad P.N I c i z) =
      ∑ z ∈ Finset.range P.N, dot P.N (D z) a * (P.measure c * ∑ i ∈ Finset.range P.nb, v (P.dofs c i) * locGrad P.N I c i z) := by
      intro c _
      rw [dot, Finset.mul_sum]
      exact Finset.sum_congr rfl fun z _ => by ring
    rw [Finset.sum_congr rfl this, Finset.sum_comm]
    refine Finset.sum_eq_zero fun z hz => ?_
    rw [← Finset.mul_sum, test_grad h hcf hP.dofs hv (Finset.mem_range.1 hz), mul_zero]
  rw [e2, e3, mul_zero, add_zero]

theorem measure_pos (h : P.OnNodes X I) {c : Nat} (hc : c < P.n) : 0 < P.measure c := by
  rw [h.measure c hc]
  refine div_pos (abs_pos.2 ?_) (by exact_mod_cast Nat.factorial_pos _)
  have h1 := congrArg Matrix.det (dual_inv (dual h hc))
  rw [det_mul, det_one, det_bord] at h1
  exact fun h0 => one_ne_zero (by rw [← h1]; exact mul_eq_zero_of_left h0 _ : (1 : K) = 0)

/-- C110 (dof 0 on the boundary, see `C62_bug_dof_zero`): on a connected conforming mesh `solve` with first-order elements
returns every affine exact solution. -/
theorem C110_solve_partial (h : P.OnNodes X I) (hcf : P.Conforming X) (hP : P.Ok)
    (hcon : ∀ p < P.m, ∀ q < P.m, Relation.ReflTransGen P.Linked p q)
    (hell : ∀ c < P.n, ∀ k < size P.t, Elliptic P.N P.op (size P.t * c + k)) (D : Nat → Nat → K) (bt : Nat → Nat → K) (ct : Nat → K)
    (hop : ∀ r u v gu gv, form P.N P.op r u v gu gv = dot P.N (fun z => dot P.N (D z) gu) gv + dot P.N (bt r) gu * v + ct r * u * v)
    (lu : Solver K) (hlu : ExactLU P.m lu) (hlc : CompleteLU P.m lu) (a : Nat → K) (b : K)
    (data : Dense K) (hr : P.n * size P.t ≤ data.rows) (hc : data.cols = 1) (hf : ∀ c < P.n, ∀ k < size P.t, data.at' (size P.t * c + k) 0 =
      dot P.N (bt (size P.t * c + k)) a + ct (size P.t * c + k) * (dot P.N a (cellPoint P.N X (P.dofs c) (node K P.t k)) + b))
    (g : Dense K) (hg : P.m ≤ g.rows) (hgc : 0 < g.cols) (hgb : ∀ p < P.m, P.bd p = true → g.at' p 0 = dot P.N a (X p) + b)
    (hm : 0 < P.m) (h0 : P.bd 0 = true) (junk : Nat → K) :
    ∃ w, (P.init data junk >>= pdeSolveElliptic lu g) = .ok (true, some w) ∧ ∀ p < P.m, w p = dot P.N a (X p) + b := by
  have hE := C103_coercive P (C103_elements P h.lagrange (by simp) hell (fun c hc => measure_pos h hc) hcon)
  obtain ⟨w, e1, _, e3⟩ := C103_solve_partial P hP hE lu hlu hlc data hr hc g hg hgc hm h0 junk
  exact ⟨w, e1, fun p hp => (e3 _ (C110_galerkin h hcf hP D bt ct hop a b _ hf _ hgb) p hp).symm⟩

end

/-! ### The hypotheses are met -/

/-- Corners of the unit square and its centre. -/
def squareX (p z : Nat) : ℚ := (([[0, 0], [1, 0], [1, 1], [0, 1], [1 / 2, 1 / 2]] : List (List ℚ)).getD p []).getD z 0

/-- Four triangles with a vertex at the centre. -/
def squareDofs (c i : Nat) : Nat := if i = 0 then 4 else (c + i - 1) % 4

/-- Inverse of the Jacobian of a triangle. -/
def squareI (c w z : Nat) : ℚ :=
  let J := fun z w => squareX (squareDofs c (w + 1)) z - squareX (squareDofs c 0) z
  if w = 0 then (if z = 0 then 2 * J 1 1 else -2 * J 0 1) else if z = 0 then -2 * J 1 0 else 2 * J 0 0

/-- First-order elements on the square. -/
noncomputable def square (op : Op ℚ) : Prob ℚ where
  t := rule2_3
  N := 2
  op := op
  measure := fun _ => 1 / 4
  psi := fun i x => if h : i < 3 then FEM.refBasis ℚ 2 1 3 ⟨i, h⟩ x else 0
  grad := fun c i x z => if h : i < 3 then ∑ w ∈ Finset.range 2, FEM.refGrad ℚ 2 1 3 ⟨i, h⟩ x w * squareI c w z else 0
  n := 4
  nb := 3
  m := 5
  dofs := squareDofs
  bd := fun p => p != 4

theorem square_onNodes (op : Op ℚ) : (square op).OnNodes squareX squareI where
  lagrange :=
    { supported := by unfold FEM.Supported; show (2, 1, 3) ∈ _; decide
      rule := rfl
      psi := fun i x => dif_pos (c := (i : Nat) < 3) i.2
      grad := fun c _ i x z => dif_pos (c := (i : Nat) < 3) i.2
      inv := fun c hc w hw w' hw' => by
        have : ∀ c < 4, ∀ w < 2, ∀ w' < 2, squareI c w 0 * (squareX (squareDofs c (w' + 1)) 0 - squareX (squareDofs c 0) 0) +
            squareI c w 1 * (squareX (squareDofs c (w' + 1)) 1 - squareX (squareDofs c 0) 1) = if w = w' then 1 else 0 := by decide +kernel
        show ∑ z ∈ Finset.range 2, _ = _
        rw [Finset.sum_range_succ, Finset.sum_range_one]
        exact this c hc w hw w' hw' }
  measure := fun c hc => by
    have : ∀ c < 4, (squareX (squareDofs c 1) 0 - squareX (squareDofs c 0) 0) * (squareX (squareDofs c 2) 1 - squareX (squareDofs c 0) 1) -
        (squareX (squareDofs c 2) 0 - squareX (squareDofs c 0) 0) * (squareX (squareDofs c 1) 1 - squareX (squareDofs c 0) 1) = 1 / 2 := by
      decide +kernel
    show (1 / 4 : ℚ) = |(of fun z w : Fin 2 => squareX (squareDofs c (w + 1)) z - squareX (squareDofs c 0) z).det| / ((2).factorial : ℚ)
    rw [det_fin_two]
    simp only [of_apply, Fin.val_zero, Fin.val_one]
    rw [this c hc]
    norm_num [Nat.factorial]

set_option synthInstance.maxHeartbeats 200000 in
set_option synthInstance.maxSize 512 in
theorem square_conforming (op : Op ℚ) : (square op).Conforming squareX := by
  have h1 : ∀ c < 4, ∀ i < 3, (∃ p ∈ (square op).facet c i, (square op).bd p = false) → i ≠ 0 := by
    intro c hc i hi hp hi0
    subst hi0
    obtain ⟨p, h1, h2⟩ := hp
    simp only [Prob.facet, square, Finset.mem_image, Finset.mem_erase, Finset.mem_range] at h1 h2
    obtain ⟨j, ⟨hj, hj3⟩, rfl⟩ := h1
    simp only [squareDofs, hj, if_false, bne_eq_false_iff_eq] at h2
    omega
  have key1 : ∀ c < 4, ∀ i < 3, i ≠ 0 → (if i = 1 then (c + 1) % 4 else (c + 3) % 4) ≠ c ∧
      ((Finset.range 3).erase (3 - i)).image (squareDofs (if i = 1 then (c + 1) % 4 else (c + 3) % 4)) = ((Finset.range 3).erase i).image (squareDofs c) := by
    decide +kernel
  have key2 : ∀ c < 4, ∀ d < 4, ∀ i < 3, ∀ j < 3, i ≠ 0 →
      ((Finset.range 3).erase j).image (squareDofs d) = ((Finset.range 3).erase i).image (squareDofs c) → d = c ∨ d = (if i = 1 then (c + 1) % 4 else (c + 3) % 4) := by
    decide +kernel
  have key3 : ∀ c < 4, ∀ i < 3, i ≠ 0 → 4 ∈ ((Finset.range 3).erase i).image (squareDofs c) ∧
      squareX (squareDofs c i) 0 + squareX (squareDofs (if i = 1 then (c + 1) % 4 else (c + 3) % 4) (3 - i)) 0 = 2 * squareX 4 0 ∧
      squareX (squareDofs c i) 1 + squareX (squareDofs (if i = 1 then (c + 1) % 4 else (c + 3) % 4) (3 - i)) 1 = 2 * squareX 4 1 := by
    decide +kernel
  intro c hc i hi hp
  have hi0 := h1 c hc i hi hp
  obtain ⟨k3, k4⟩ := key1 c hc i hi hi0
  have k5 := fun d hd j hj => key2 c hc d hd i hi j hj hi0
  obtain ⟨k6, k7, k8⟩ := key3 c hc i hi hi0
  clear key1 key2 key3
  refine ⟨if i = 1 then (c + 1) % 4 else (c + 3) % 4, ?_, 3 - i, ?_, k3, k4, k5, fun a b hab => ?_⟩
  · show (_ : Nat) < 4
    split_ifs <;> omega
  · show 3 - i < 3
    omega
  generalize (if i = 1 then (c + 1) % 4 else (c + 3) % 4) = c' at *
  generalize 3 - i = i' at *
  have h4 := hab 4 k6
  show (dot 2 a (squareX (squareDofs c i)) + b) * (dot 2 a (squareX (squareDofs c' i')) + b) ≤ 0
  change dot 2 a (squareX 4) + b = 0 at h4
  simp only [dot, Finset.sum_range_succ, Finset.sum_range_zero, zero_add] at h4 ⊢
  have : a 0 * squareX (squareDofs c' i') 0 + a 1 * squareX (squareDofs c' i') 1 + b =
      -(a 0 * squareX (squareDofs c i) 0 + a 1 * squareX (squareDofs c i) 1 + b) := by
    linear_combination a 0 * k7 + a 1 * k8 + 2 * h4
  rw [this]
  nlinarith [mul_self_nonneg (a 0 * squareX (squareDofs c i) 0 + a 1 * squareX (squareDofs c i) 1 + b)]

theorem square_linked (op : Op ℚ) : ∀ p < (square op).m, ∀ q < (square op).m, Relation.ReflTransGen (square op).Linked p q := by
  have h : ∀ p < 5, ∃ c < 4, ∃ i < 3, squareDofs c i = p ∧ squareDofs c 0 = 4 := by decide
  intro p hp q hq
  obtain ⟨c, h1, i, h2, h3, h4⟩ := h p hp
  obtain ⟨d, k1, j, k2, k3, k4⟩ := h q hq
  exact .tail (.single ⟨c, h1, i, h2, 0, Nat.succ_pos 2, h3, h4⟩) ⟨d, k1, 0, Nat.succ_pos 2, j, k2, k4, k3⟩

/-- The solution with data `1 + 2 x - y` on the boundary of the square takes the value 3/2 at the centre. -/
example : ∃ (lu : Solver ℚ) (w : Nat → ℚ),
    ((square (.neg .lap)).init ⟨12, 1, fun _ _ => 0⟩ (fun _ => 0) >>=
      pdeSolveElliptic lu ⟨5, 1, fun p _ => 1 + 2 * squareX p 0 - squareX p 1⟩) = .ok (true, some w) ∧ w 4 = 3 / 2 := by
  obtain ⟨lu, h1, h2⟩ := exists_exactLU (K := ℚ) 5
  obtain ⟨w, e1, e2⟩ := C110_solve_partial (square_onNodes (.neg .lap)) (square_conforming _)
    ⟨fun c hc i hi => by
      show squareDofs c i < 5
      unfold squareDofs
      split_ifs <;> omega, fun _ => trivial, trivial⟩ (square_linked _) (fun _ _ _ _ => C103_laplacian 2 _)
    (fun z y => if z = y then 1 else 0) (fun _ _ => 0) (fun _ => 0)
    (fun r u v gu gv => by
      show form 2 (.neg .lap) r u v gu gv = _
      simp only [form, dot, square, Finset.sum_range_succ, Finset.sum_range_zero]; norm_num)
    lu h1 h2 (fun z => if z = 0 then 2 else -1) 1 ⟨12, 1, fun _ _ => 0⟩ (by decide) rfl
    (fun c hc k hk => by simp [dot])
    ⟨5, 1, fun p _ => 1 + 2 * squareX p 0 - squareX p 1⟩ (by decide) (by decide)
    (fun p hp hb => by
      show 1 + 2 * squareX p 0 - squareX p 1 = dot 2 _ _ + 1
      simp only [dot, Finset.sum_range_succ, Finset.sum_range_zero]; norm_num; ring) (by decide) rfl (fun _ => 0)
  refine ⟨lu, w, e1, ?_⟩
  rw [e2 4 (by decide)]
  show dot 2 _ _ + 1 = _
  simp only [dot, Finset.sum_range_succ, Finset.sum_range_zero, squareX]
  norm_num

end Fdapde.PDE
