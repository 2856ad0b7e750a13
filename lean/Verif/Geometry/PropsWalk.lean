import Verif.Geometry.WalkSpec
import Verif.Geometry.PropsSimplex
import Verif.Triang.Model
import Mathlib.Tactic.IntervalCases
/- C93: point location by walking. -/
namespace Fdapde.Geometry
open Matrix Topology
variable {N : Nat}
set_option linter.unusedSectionVars false

theorem argmin_fold_le (v : Fin (N + 1) → ℝ) (l : List (Fin (N + 1))) (b : Fin (N + 1)) : open Classical in
    v (l.foldl (fun best i => if v i < v best then i else best) b) ≤ v b ∧
    ∀ i ∈ l, v (l.foldl (fun best i => if v i < v best then i else best) b) ≤ v i := by
  classical
  induction l generalizing b with
  | nil => simp
  | cons a t ih =>
    simp only [List.foldl_cons, List.mem_cons, forall_eq_or_imp]
    by_cases h : v a < v b
    · simp only [h, if_true]
      have := ih a
      exact ⟨this.1.trans h.le, this.1, this.2⟩
    · simp only [h, if_false]
      have := ih b
      exact ⟨this.1, this.1.trans (not_lt.1 h), this.2⟩

theorem argmin_le (v : Fin (N + 1) → ℝ) (i : Fin (N + 1)) : v (argmin v) ≤ v i := by
  have := (argmin_fold_le v (List.finRange (N + 1)) 0).2 i (List.mem_finRange i)
  unfold argmin
  convert this

/-- Whatever cell the walk starts from, a returned index is the one of a cell that contains the point. -/
theorem C93_found (m : WMesh N) (eps : ℝ) (start : Nat) (p : Vec N) (fuel : Nat) (id : Int)
    (h : m.locate eps start p fuel = some (.ok id)) :
    ∃ c : Nat, id = c ∧ c < m.n ∧ (m.cell c).contains eps p ≠ .outside := by
  unfold WMesh.locate at h
  generalize (start : Int) = s at h
  generalize ([] : List Int) = vis at h
  induction fuel generalizing s vis with
  | zero => simp [WMesh.loop] at h
  | succ fuel ih =>
    unfold WMesh.loop at h
    split at h
    · rename_i hr
      dsimp only at h
      split at h
      · exact ih _ _ h
      · rename_i hc
        push Not at hc
        simp only [hc.1, ne_eq, not_false_eq_true, if_true, Option.some.injEq, Res.ok.injEq] at h
        subst h
        exact ⟨s.toNat, by omega, by omega, hc.1⟩
    · simp at h

/-- With exact arithmetic the cell returned is one whose convex hull contains the point. -/
theorem C93_found_exact (m : WMesh N) (hm : ∀ c < m.n, (m.cell c).Nondeg) (start : Nat) (p : Vec N) (fuel : Nat)
    (id : Int) (h : m.locate 0 start p fuel = some (.ok id)) :
    ∃ c : Nat, id = c ∧ c < m.n ∧ p ∈ convexHull ℝ (Set.range (m.cell c).coords) := by
  obtain ⟨c, e, hc, hi⟩ := C93_found m 0 start p fuel id h
  refine ⟨c, e, hc, ?_⟩
  by_contra hn
  exact hi ((C43_outside (hm c hc) p).2 hn)

/-- **C93, defect.** A point that no cell contains is not reported as such (the comment and the last line of the
function promise -1): from every starting cell the walk leaves the mesh, which is undefined behaviour, or never
returns. -/
theorem C93_bug_outside (m : WMesh N) (eps : ℝ) (p : Vec N) (hp : ∀ c < m.n, (m.cell c).contains eps p = .outside)
    (start fuel : Nat) : m.locate eps start p fuel = none ∨ m.locate eps start p fuel = some .ub := by
  unfold WMesh.locate
  generalize (start : Int) = s
  generalize ([] : List Int) = vis
  induction fuel generalizing s vis with
  | zero => simp [WMesh.loop]
  | succ fuel ih =>
    unfold WMesh.loop
    split
    · rename_i hr
      have := hp s.toNat (by omega)
      simp only [this, true_or, if_true]
      exact ih _ _
    · simp

/-! ### Termination on Delaunay meshes -/

/-- In a convex domain the points of the domain are on the inner side of the boundary facets. -/
theorem C93_convex_inner {D : Set (Vec N)} (hD : Convex ℝ D) {S : Simplex N N} (hS : S.Nondeg) {i : Fin (N + 1)}
    (hb : OnBoundary D S i) {p : Vec N} (hp : p ∈ D) : 0 ≤ S.bary p i := by
  obtain ⟨q, hq, hq0, hev⟩ := hb
  by_contra hneg
  push Not at hneg
  have hcont : Filter.Tendsto (fun t : ℝ => AffineMap.lineMap (k := ℝ) q p t) (𝓝[>] 0) (𝓝 q) := by
    have h : Continuous (fun t : ℝ => AffineMap.lineMap (k := ℝ) q p t) := by
      simp only [AffineMap.lineMap_apply_module']; fun_prop
    have := (h.tendsto 0).mono_left (nhdsWithin_le_nhds (s := Set.Ioi 0))
    simpa using this
  have h1 := hcont.eventually hev
  have h2 : ∀ᶠ t : ℝ in 𝓝[>] 0, t ∈ Set.Ioc (0 : ℝ) 1 := Ioc_mem_nhdsGT one_pos
  obtain ⟨t, ht, ht0⟩ := (h1.and h2).exists
  have hin : AffineMap.lineMap (k := ℝ) q p t ∈ D := hD.lineMap_mem hq hp ⟨ht0.1.le, ht0.2⟩
  have h3 := ht hin
  have h4 : S.bary (AffineMap.lineMap (k := ℝ) q p t) i = (1 - t) * S.bary q i + t * S.bary p i := by
    have := C42_unique hS (AffineMap.lineMap (k := ℝ) q p t) (fun i => (1 - t) * S.bary q i + t * S.bary p i)
      (by rw [Finset.sum_add_distrib, ← Finset.mul_sum, ← Finset.mul_sum, C42_sum_one, C42_sum_one]; ring)
      (by
        simp only [add_smul, Finset.sum_add_distrib, mul_smul, ← Finset.smul_sum, C42_reconstruct_full hS]
        rw [AffineMap.lineMap_apply_module])
    rw [this]
  rw [h4, hq0] at h3
  have := mul_neg_of_pos_of_neg ht0.1 hneg
  linarith

/-- The power of a point with respect to a sphere that goes through the facet opposite to vertex `i` and leaves vertex
`i` outside is less than the power with respect to the circumsphere, for points beyond the facet. -/
theorem power_lt {S : Simplex N N} (hS : S.Nondeg) {o o' : Vec N} {r r' : ℝ} {i : Fin (N + 1)} {p : Vec N}
    (ho : ∀ j, sqNorm (S.coords j - o) = r) (ho' : ∀ j ≠ i, sqNorm (S.coords j - o') = r')
    (hi : r' < sqNorm (S.coords i - o')) (hneg : S.bary p i < 0) :
    sqNorm (p - o') - r' < sqNorm (p - o) - r := by
  have key : ∀ x : Vec N, (sqNorm (x - o) - r) - (sqNorm (x - o') - r') =
      2 * (x ⬝ᵥ (o' - o)) + (sqNorm o - sqNorm o' - r + r') := by
    intro x; rw [sqNorm_sub, sqNorm_sub, dotProduct_sub]; ring
  have hp := C42_reconstruct_full hS p
  have hsum := C42_sum_one S p
  have haff : (sqNorm (p - o) - r) - (sqNorm (p - o') - r') =
      ∑ j, S.bary p j * ((sqNorm (S.coords j - o) - r) - (sqNorm (S.coords j - o') - r')) := by
    have e : ∀ j, S.bary p j * ((sqNorm (S.coords j - o) - r) - (sqNorm (S.coords j - o') - r')) =
        2 * ((S.bary p j • S.coords j) ⬝ᵥ (o' - o)) + S.bary p j * (sqNorm o - sqNorm o' - r + r') := by
      intro j; rw [key, smul_dotProduct, smul_eq_mul]; ring
    rw [Finset.sum_congr rfl fun j _ => e j, Finset.sum_add_distrib, ← Finset.sum_mul, hsum, ← Finset.mul_sum,
      ← sum_dotProduct, hp, key]
    ring
  have hone : ∑ j, S.bary p j * ((sqNorm (S.coords j - o) - r) - (sqNorm (S.coords j - o') - r')) =
      S.bary p i * (0 - (sqNorm (S.coords i - o') - r')) := by
    rw [Finset.sum_eq_single i]
    · rw [ho]; ring
    · intro j _ hj; rw [ho, ho' j hj]; ring
    · simp
  rw [hone] at haff
  have := mul_pos_of_neg_of_neg hneg (show 0 - (sqNorm (S.coords i - o') - r') < 0 by linarith)
  linarith

/-- The power of `p` with respect to the circumsphere of cell `c`. -/
noncomputable def WMesh.power (m : WMesh N) (p : Vec N) (c : Nat) : ℝ :=
  sqNorm (p - (m.cell c).circumcenterFull) - sqNorm ((m.cell c).coords 0 - (m.cell c).circumcenterFull)

theorem sqNorm_sub_comm (a b : Vec N) : sqNorm (a - b) = sqNorm (b - a) := by
  rw [sqNorm_sub, sqNorm_sub, dotProduct_comm b a]; ring

theorem circum {S : Simplex N N} (hS : S.Nondeg) (j : Fin (N + 1)) :
    sqNorm (S.coords j - S.circumcenterFull) = sqNorm (S.coords 0 - S.circumcenterFull) := by
  rw [sqNorm_sub_comm, C44_full hS, sqNorm_sub_comm]

theorem walk_step {m : WMesh N} (hm : m.Delaunay) {eps : ℝ} (he : 0 ≤ eps) {p : Vec N} (hp : p ∈ m.domain) {c : Nat}
    (hc : c < m.n) (ho : (m.cell c).contains eps p = .outside) :
    ∃ c' < m.n, m.neigh c (argmin ((m.cell c).bary p)) = (c' : Int) ∧ m.power p c' < m.power p c := by
  have hneg : (m.cell c).bary p (argmin ((m.cell c).bary p)) < 0 := by
    simp only [Simplex.contains, ne_eq, not_true_eq_false, false_and, if_false, Simplex.containsB] at ho
    split at ho
    · rename_i h
      obtain ⟨i, hi⟩ := h
      have := argmin_le ((m.cell c).bary p) i
      linarith
    · split at ho
      · cases ho
      · split at ho <;> cases ho
  set i := argmin ((m.cell c).bary p) with hidef
  have hS := hm.nondeg c hc
  by_cases hb : m.neigh c i = -1
  · have := C93_convex_inner hm.convex hS (hm.boundary c hc i hb) hp
    linarith
  · obtain ⟨c', hc', e, hsh, hout⟩ := hm.interior c hc i hb
    refine ⟨c', hc', e, ?_⟩
    have hS' := hm.nondeg c' hc'
    refine power_lt hS (i := i) (circum hS) ?_ (hout _ _ (circum hS')) hneg
    intro j hj
    obtain ⟨k, hk⟩ := hsh j hj
    rw [← hk, circum hS']

theorem loop_delaunay {m : WMesh N} (hm : m.Delaunay) {eps : ℝ} (he : 0 ≤ eps) {p : Vec N} (hp : p ∈ m.domain)
    (fuel : Nat) (c : Nat) (hc : c < m.n) (vis : List Nat) (hnd : (c :: vis).Nodup) (hlt : ∀ v ∈ vis, v < m.n)
    (hpow : ∀ v ∈ vis, m.power p c < m.power p v) (hf : m.n ≤ fuel + vis.length) :
    ∃ id, m.loop eps p fuel c (vis.map (fun v : Nat => (v : Int))) = some (.ok id) := by
  induction fuel generalizing c vis with
  | zero =>
    exfalso
    have h1 : (c :: vis) ⊆ List.range m.n := by
      intro x hx
      rcases List.mem_cons.1 hx with rfl | hx
      · exact List.mem_range.2 hc
      · exact List.mem_range.2 (hlt x hx)
    have := (hnd.subperm h1).length_le
    simp at this
    omega
  | succ fuel ih =>
    unfold WMesh.loop
    have hr : (0 : Int) ≤ c ∧ (c : Int) < m.n := by omega
    simp only [hr, and_self, if_true, Int.toNat_natCast]
    have hnv : ¬ ((c : Int) ∈ vis.map (fun v : Nat => (v : Int))) := by
      rw [List.mem_map]
      rintro ⟨v, hv, e⟩
      have e : v = c := by omega
      subst e
      exact (List.nodup_cons.1 hnd).1 hv
    by_cases ho : (m.cell c).contains eps p = .outside
    · simp only [ho, true_or, if_true]
      obtain ⟨c', hc', e, hlt'⟩ := walk_step hm he hp hc ho
      rw [e]
      have hpow' : ∀ v ∈ c :: vis, m.power p c' < m.power p v := by
        intro v hv
        rcases List.mem_cons.1 hv with rfl | hv
        · exact hlt'
        · exact hlt'.trans (hpow v hv)
      refine ih c' hc' (c :: vis) ?_ ?_ hpow' ?_
      · refine List.nodup_cons.2 ⟨fun h => lt_irrefl _ (hpow' c' h), hnd⟩
      · intro v hv
        rcases List.mem_cons.1 hv with rfl | hv
        · exact hc
        · exact hlt v hv
      · simp only [List.length_cons]; omega
    · simp only [ho, hnv, or_self, if_false]
      exact ⟨_, rfl⟩

/-- On a Delaunay triangulation of a convex domain, in any dimension and from every starting cell, the walk towards a
point of the domain returns after at most as many iterations as there are cells, with the index of a cell that contains
the point. -/
theorem C93_delaunay_partial (m : WMesh N) (hm : m.Delaunay) (eps : ℝ) (he : 0 ≤ eps) (p : Vec N) (hp : p ∈ m.domain)
    (start : Nat) (hs : start < m.n) :
    ∃ c : Nat, m.locate eps start p m.n = some (.ok (c : Int)) ∧ c < m.n ∧
      (m.cell c).contains eps p ≠ .outside := by
  obtain ⟨id, h⟩ := loop_delaunay hm he hp m.n start hs [] (by simp) (by simp) (by simp) (by simp)
  obtain ⟨c, rfl, hc, hcon⟩ := C93_found m eps start p m.n id h
  exact ⟨c, h, hc, hcon⟩

/-! ### A Delaunay mesh that meets the hypotheses, and a connected mesh where the walk fails -/

/-- Three points of the plane that are not on a line. -/
theorem tri_nondeg {a b c : Vec 2} (h : (b 0 - a 0) * (c 1 - a 1) - (c 0 - a 0) * (b 1 - a 1) ≠ 0) :
    (⟨![a, b, c]⟩ : Simplex 2 2).Nondeg := by
  unfold Simplex.Nondeg
  rw [affineIndependent_iff_linearIndependent_vsub ℝ _ (0 : Fin 3)]
  rw [Fintype.linearIndependent_iff]
  intro g hg i
  have e : ∀ f : {x : Fin 3 // x ≠ 0} → Vec 2, ∑ i, f i = f ⟨1, by decide⟩ + f ⟨2, by decide⟩ := by
    intro f
    have : (Finset.univ : Finset {x : Fin 3 // x ≠ 0}) = {⟨1, by decide⟩, ⟨2, by decide⟩} := by decide
    rw [this, Finset.sum_pair (by decide)]
  rw [e] at hg
  have h0 := congrFun hg 0
  have h1 := congrFun hg 1
  simp at h0 h1
  have g1 : g ⟨1, by decide⟩ * ((b 0 - a 0) * (c 1 - a 1) - (c 0 - a 0) * (b 1 - a 1)) = 0 := by
    linear_combination (c 1 - a 1) * h0 - (c 0 - a 0) * h1
  have g2 : g ⟨2, by decide⟩ * ((b 0 - a 0) * (c 1 - a 1) - (c 0 - a 0) * (b 1 - a 1)) = 0 := by
    linear_combination (b 0 - a 0) * h1 - (b 1 - a 1) * h0
  have r1 := (mul_eq_zero.1 g1).resolve_right h
  have r2 := (mul_eq_zero.1 g2).resolve_right h
  obtain ⟨i, hi⟩ := i
  fin_cases i
  · exact absurd rfl hi
  · exact r1
  · exact r2

theorem sum3 {α : Type} [AddCommMonoid α] (f : Fin (2 + 1) → α) : ∑ i, f i = f 0 + f 1 + f 2 := Fin.sum_univ_three f

/-- The rhombus with vertices (-1,0), (1,0), (0,2), (0,-2), cut along the first axis. -/
def rhombus : WMesh 2 where
  cell c := if c = 0 then ⟨![![-1, 0], ![1, 0], ![0, 2]]⟩ else ⟨![![-1, 0], ![1, 0], ![0, -2]]⟩
  n := 2
  neigh c i := if i = 2 then (if c = 0 then 1 else 0) else -1

theorem rhombus_nondeg (c : Nat) : (rhombus.cell c).Nondeg := by
  unfold rhombus
  dsimp only
  split <;> (apply tri_nondeg; norm_num)

theorem rhombus_bary (c : Nat) (x : Vec 2) : (rhombus.cell c).bary x =
    if c = 0 then ![(1 - x 0 - x 1 / 2) / 2, (1 + x 0 - x 1 / 2) / 2, x 1 / 2]
    else ![(1 - x 0 + x 1 / 2) / 2, (1 + x 0 + x 1 / 2) / 2, -x 1 / 2] := by
  apply C42_unique (rhombus_nondeg c)
  · rw [sum3]
    split <;> (simp; ring)
  · by_cases h : c = 0
    · simp only [h, if_true, sum3, rhombus]
      ext i; fin_cases i <;> simp <;> ring
    · simp only [h, if_false, sum3, rhombus]
      ext i; fin_cases i <;> simp <;> ring

theorem rhombus_domain (x : Vec 2) : x ∈ rhombus.domain ↔
    0 ≤ 1 - x 0 - x 1 / 2 ∧ 0 ≤ 1 + x 0 - x 1 / 2 ∧ 0 ≤ 1 - x 0 + x 1 / 2 ∧ 0 ≤ 1 + x 0 + x 1 / 2 := by
  have hin : ∀ c, x ∈ convexHull ℝ (Set.range (rhombus.cell c).coords) ↔ ∀ i, 0 ≤ (rhombus.cell c).bary x i := by
    intro c
    have h := containsB_outside (rhombus_nondeg c) x (mem_span_full (rhombus_nondeg c) x)
    have h' : x ∈ convexHull ℝ (Set.range (rhombus.cell c).coords) ↔ ¬ (rhombus.cell c).containsB 0 x = .outside := by
      rw [h, not_not]
    rw [h']
    unfold Simplex.containsB
    constructor
    · intro hn i
      by_contra hi
      push Not at hi
      apply hn
      dsimp only
      rw [if_pos ⟨i, by linarith⟩]
    · intro hn
      have : ¬ ∃ i, (rhombus.cell c).bary x i < -0 := by
        rintro ⟨i, hi⟩; have := hn i; linarith
      dsimp only
      rw [if_neg this]
      split
      · simp
      · split <;> simp
  constructor
  · rintro ⟨c, hc, hx⟩
    rw [hin] at hx
    have h0 := hx 0; have h1 := hx 1; have h2 := hx 2
    rw [rhombus_bary] at h0 h1 h2
    by_cases h : c = 0
    · simp [h] at h0 h1 h2; refine ⟨?_, ?_, ?_, ?_⟩ <;> linarith
    · simp [h] at h0 h1 h2; refine ⟨?_, ?_, ?_, ?_⟩ <;> linarith
  · rintro ⟨h1, h2, h3, h4⟩
    by_cases hy : 0 ≤ x 1
    · refine ⟨0, by decide, (hin 0).2 fun i => ?_⟩
      rw [rhombus_bary]
      fin_cases i <;> simp <;> linarith
    · refine ⟨1, by decide, (hin 1).2 fun i => ?_⟩
      rw [rhombus_bary]
      fin_cases i <;> simp <;> linarith

theorem rhombus_delaunay : rhombus.Delaunay where
  nondeg c _ := rhombus_nondeg c
  convex := by
    intro x hx y hy a b ha hb hab
    rw [rhombus_domain] at hx hy ⊢
    obtain ⟨x1, x2, x3, x4⟩ := hx
    obtain ⟨y1, y2, y3, y4⟩ := hy
    simp only [Pi.add_apply, Pi.smul_apply, smul_eq_mul]
    have hb' : b = 1 - a := by linarith
    subst hb'
    refine ⟨?_, ?_, ?_, ?_⟩
    · nlinarith [mul_nonneg ha x1, mul_nonneg hb y1]
    · nlinarith [mul_nonneg ha x2, mul_nonneg hb y2]
    · nlinarith [mul_nonneg ha x3, mul_nonneg hb y3]
    · nlinarith [mul_nonneg ha x4, mul_nonneg hb y4]
  boundary c hc i hi := by
    have hc' : c < 2 := hc
    have hi2 : i ≠ 2 := by
      rintro rfl
      simp only [rhombus, if_true] at hi
      split at hi <;> simp at hi
    have hq : ∀ q : Vec 2, q ∈ rhombus.domain → (rhombus.cell c).bary q i = 0 →
        OnBoundary rhombus.domain (rhombus.cell c) i := by
      intro q hq h0
      refine ⟨q, hq, h0, Filter.Eventually.of_forall fun x hx => ?_⟩
      rw [rhombus_domain] at hx
      obtain ⟨x1, x2, x3, x4⟩ := hx
      rw [rhombus_bary]
      split <;> (fin_cases i <;> first | exact absurd rfl hi2 | (simp; linarith))
    interval_cases c
    · fin_cases i
      · apply hq ![1/2, 1]
        · rw [rhombus_domain]; norm_num
        · rw [rhombus_bary]; norm_num
      · apply hq ![-1/2, 1]
        · rw [rhombus_domain]; norm_num
        · rw [rhombus_bary]; norm_num
      · exact absurd rfl hi2
    · fin_cases i
      · apply hq ![1/2, -1]
        · rw [rhombus_domain]; norm_num
        · rw [rhombus_bary]; norm_num
      · apply hq ![-1/2, -1]
        · rw [rhombus_domain]; norm_num
        · rw [rhombus_bary]; norm_num
      · exact absurd rfl hi2
  interior c hc i hi := by
    have hc' : c < 2 := hc
    have hi2 : i = 2 := by
      by_contra h
      simp [rhombus, h] at hi
    subst hi2
    interval_cases c
    · refine ⟨1, by decide, by simp [rhombus], ?_, ?_⟩
      · intro j hj
        exact ⟨j, by fin_cases j <;> first | exact absurd rfl hj | simp [rhombus]⟩
      · intro o r ho
        have h0 := ho 0; have h1 := ho 1; have h2 := ho 2
        simp [rhombus, sqNorm, dotProduct, Fin.sum_univ_two] at h0 h1 h2 ⊢
        nlinarith
    · refine ⟨0, by decide, by simp [rhombus], ?_, ?_⟩
      · intro j hj
        exact ⟨j, by fin_cases j <;> first | exact absurd rfl hj | simp [rhombus]⟩
      · intro o r ho
        have h0 := ho 0; have h1 := ho 1; have h2 := ho 2
        simp [rhombus, sqNorm, dotProduct, Fin.sum_univ_two] at h0 h1 h2 ⊢
        nlinarith

/-- From either cell of the rhombus the walk to (0, -1) returns. -/
example (start : Nat) (hs : start < 2) : ∃ c : Nat, rhombus.locate 0 start ![0, -1] 2 = some (.ok (c : Int)) ∧ c < 2 ∧
    (rhombus.cell c).contains 0 ![0, -1] ≠ .outside :=
  C93_delaunay_partial rhombus rhombus_delaunay 0 le_rfl ![0, -1] (by rw [rhombus_domain]; norm_num) start hs

/-- Three triangles around the origin: the square rotated by 45 degrees without its fourth quadrant. -/
def notch : WMesh 2 where
  cell c := if c = 0 then ⟨![![0, 0], ![1, 0], ![0, 1]]⟩ else if c = 1 then ⟨![![0, 0], ![0, 1], ![-1, 0]]⟩
    else ⟨![![0, 0], ![-1, 0], ![0, -1]]⟩
  n := 3
  neigh c i := if c = 0 then ![-1, 1, -1] i else if c = 1 then ![-1, 2, 0] i else ![-1, -1, 1] i

/-- The neighbours of the notched square are the ones the constructor of the triangulation computes. -/
example : ∀ c < 3, ∀ i : Fin 3, ((Triang.build2 (fun c v => ([[0, 1, 2], [0, 2, 3], [0, 3, 4]].getD c []).getD v 0) 3) >>=
    fun s => (.ok (s.neigh c i) : Res Int)) = .ok (notch.neigh c i) := by decide

/-- **C93, defect.** On a connected mesh of a domain that is not convex the walk may step over a boundary edge, and the
row -1 of the table of cells is read, although a cell contains the point. -/
theorem C93_bug_nonconvex : notch.locate 0 0 ![-1/10, -8/10] 2 = some .ub ∧
    (notch.cell 2).contains 0 ![-1/10, -8/10] = .inside := by
  have h0 : (notch.cell 0).bary ![-1/10, -8/10] = ![19/10, -1/10, -8/10] := by
    apply C42_unique (tri_nondeg (by norm_num))
    · simp [sum3]; norm_num
    · simp only [sum3]
      ext i; fin_cases i <;> simp
  have h2 : (notch.cell 2).bary ![-1/10, -8/10] = ![1/10, 1/10, 8/10] := by
    apply C42_unique (tri_nondeg (by norm_num))
    · simp [sum3]; norm_num
    · simp only [sum3]
      ext i; fin_cases i <;> simp <;> norm_num
  constructor
  · have ho : (notch.cell 0).contains 0 ![-1/10, -8/10] = .outside := by
      simp only [Simplex.contains, ne_eq, not_true_eq_false, false_and, if_false, Simplex.containsB]
      rw [if_pos ⟨2, by rw [h0]; show (-8/10 : ℝ) < -0; norm_num⟩]
    have ha : argmin ((notch.cell 0).bary ![-1/10, -8/10]) = 2 := by
      rw [h0]
      unfold argmin
      have : List.finRange (2 + 1) = [0, 1, 2] := by decide
      rw [this]
      have e0 : (![19/10, -1/10, -8/10] : Fin (2 + 1) → ℝ) 0 = 19/10 := rfl
      have e1 : (![19/10, -1/10, -8/10] : Fin (2 + 1) → ℝ) 1 = -1/10 := rfl
      have e2 : (![19/10, -1/10, -8/10] : Fin (2 + 1) → ℝ) 2 = -8/10 := rfl
      simp only [List.foldl_cons, List.foldl_nil, e0, e1, lt_irrefl, if_false]
      rw [if_pos (show (-1/10 : ℝ) < 19/10 by norm_num), e1, e2, if_pos (by norm_num)]
    have hn : ((0 : Nat) : Int) < notch.n := by decide
    unfold WMesh.locate WMesh.loop
    simp only [Nat.cast_zero, le_refl, true_and, Int.toNat_zero, ho, true_or, if_true, ha]
    rw [if_pos (by simpa using hn)]
    unfold WMesh.loop
    rw [if_neg (by simp [notch])]
  · apply C43_interior (by decide)
    rw [h2]; intro i; fin_cases i <;> norm_num

end Fdapde.Geometry
