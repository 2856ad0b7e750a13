import Verif.FEM.PropsSpace
import Mathlib.Topology.Connected.Clopen
/- Geometry of conforming meshes: sides of a facet, cells at a facet, connection of the cells. -/
set_option linter.unusedSectionVars false
namespace Fdapde.FEM
open Fdapde.Geometry Fdapde.Triang Matrix
variable {d N : Nat}

/-- An affine function on a combination of nodes. -/
theorem affine_combo {ι : Type} [Fintype ι] (a : Fin N → ℝ) (b : ℝ) (w : ι → ℝ) (h1 : ∑ v, w v = 1) (Y : ι → Vec N) :
    a ⬝ᵥ (∑ v, w v • Y v) + b = ∑ v, w v * (a ⬝ᵥ Y v + b) := by
  simp only [mul_add, Finset.sum_add_distrib, ← Finset.sum_mul, h1, one_mul]
  congr 1
  rw [dotProduct_sum]
  exact Finset.sum_congr rfl fun v _ => by rw [dotProduct_smul, smul_eq_mul]

theorem mem_region {n : Nat} (cells : Nat → Nat → Nat) (X : Nat → Vec N) (c : Nat) (w : Fin (d + 1) → ℝ) (h0 : ∀ v, 0 ≤ w v)
    (h1 : ∑ v, w v = 1) : ∑ v : Fin (d + 1), w v • X (cells c v) ∈ region (d + 1) cells X c := by
  rw [region_hull]
  exact (convex_convexHull ℝ _).sum_mem (fun v _ => h0 v) h1 fun v _ => subset_convexHull ℝ _ ⟨v, rfl⟩

/-- Two cells of a conforming mesh with a common facet, one of which has a node that the other does not have, lie on opposite sides of
the facet. -/
theorem facet_sides (hN : 0 < N) {n : Nat} {cells : Nat → Nat → Nat} {X : Nat → Vec N} (h : Proper (N + 1) n cells X)
    (hf : Conforming (N + 1) n cells X) {c c' : Nat} (hc : c < n) (hc' : c' < n) (i i' : Fin (N + 1))
    (ho : ∀ v < N + 1, cells c' v ≠ cells c i)
    (hF : (Finset.univ.erase i').image (fun w : Fin (N + 1) => cells c' w) = (Finset.univ.erase i).image (fun w : Fin (N + 1) => cells c w))
    (a : Fin N → ℝ) (b : ℝ) (hz : ∀ w : Fin (N + 1), w ≠ i → a ⬝ᵥ X (cells c w) + b = 0) :
    (a ⬝ᵥ X (cells c i) + b) * (a ⬝ᵥ X (cells c' i') + b) ≤ 0 := by
  by_contra hpos
  push Not at hpos
  have hNR : (0 : ℝ) < N := by exact_mod_cast hN
  set S' := cellOf N cells X c' with hS'
  have hS'n : S'.Nondeg := proper_nondeg h hc'
  -- coordinates of the opposite node of `c` in `c'`
  set β := S'.bary (X (cells c i)) with hβ
  have hβ1 : ∑ w, β w = 1 := C42_sum_one _ _
  have hβp : ∑ w, β w • X (cells c' w) = X (cells c i) := C42_reconstruct_full hS'n _
  have hz' : ∀ w : Fin (N + 1), w ≠ i' → a ⬝ᵥ X (cells c' w) + b = 0 := by
    intro w hw
    have : cells c' w ∈ (Finset.univ.erase i).image (fun w : Fin (N + 1) => cells c w) := by
      rw [← hF]; exact Finset.mem_image_of_mem _ (by simp [hw])
    obtain ⟨v, hv, e⟩ := Finset.mem_image.1 this
    rw [← e]
    exact hz v (Finset.ne_of_mem_erase hv)
  have hβi : a ⬝ᵥ X (cells c i) + b = β i' * (a ⬝ᵥ X (cells c' i') + b) := by
    conv_lhs => rw [← hβp]
    rw [affine_combo a b β hβ1, Finset.sum_eq_single i' (fun w _ hw => by rw [hz' w hw, mul_zero]) (by simp)]
  have hβpos : 0 < β i' := by
    rw [hβi, mul_assoc] at hpos
    by_contra hneg
    push Not at hneg
    nlinarith [mul_self_nonneg (a ⬝ᵥ X (cells c' i') + b)]
  -- a point of both cells close to the facet
  set B := ∑ w, |β w| with hB
  have hB0 : 0 ≤ B := Finset.sum_nonneg fun w _ => abs_nonneg _
  have hBw : ∀ w, -B ≤ β w := fun w => by
    have := Finset.single_le_sum (f := fun w => |β w|) (fun w _ => abs_nonneg _) (Finset.mem_univ w)
    have := neg_abs_le (β w)
    linarith
  set ε : ℝ := 1 / (2 + N * B) with hε
  have hden : 0 < 2 + N * B := by positivity
  have hε0 : 0 < ε := by positivity
  have hεe : ε * (2 + N * B) = 1 := by rw [hε]; field_simp
  have hε1 : ε ≤ 1 := by nlinarith [mul_nonneg hNR.le hB0, mul_nonneg hε0.le (mul_nonneg hNR.le hB0)]
  set ω : Fin (N + 1) → ℝ := fun v => if v = i then ε else (1 - ε) / N with hω
  set ω' : Fin (N + 1) → ℝ := fun w => ε * β w + if w = i' then 0 else (1 - ε) / N with hω'
  have count : ∀ (j : Fin (N + 1)) (x y : ℝ), ∑ v : Fin (N + 1), (if v = j then x else y) = x + N * y := by
    intro j x y
    rw [← Finset.add_sum_erase _ _ (Finset.mem_univ j), if_pos rfl]
    rw [Finset.sum_congr rfl fun v hv => if_neg (Finset.ne_of_mem_erase hv)]
    simp
  have hω1 : ∑ v, ω v = 1 := by rw [hω, count]; field_simp; ring
  have hω'1 : ∑ v, ω' v = 1 := by
    rw [hω', Finset.sum_add_distrib, ← Finset.mul_sum, hβ1, count]; field_simp; ring
  have hω0 : ∀ v, 0 ≤ ω v := by
    intro v
    simp only [hω]
    split
    · exact hε0.le
    · exact div_nonneg (by linarith) hNR.le
  have hω'0 : ∀ v, 0 ≤ ω' v := by
    intro v
    simp only [hω']
    split
    · rename_i hv
      rw [hv, add_zero]; exact (mul_pos hε0 hβpos).le
    · have : 0 ≤ N * (ε * β v + (1 - ε) / N) := by
        have e : N * (ε * β v + (1 - ε) / N) = N * ε * β v + (1 - ε) := by field_simp
        rw [e]
        nlinarith [hBw v, mul_pos hNR hε0, mul_nonneg (mul_pos hNR hε0).le (show 0 ≤ B + β v by linarith [hBw v])]
      exact nonneg_of_mul_nonneg_right this hNR
  have hfacet : ∑ w ∈ Finset.univ.erase i', X (cells c' w) = ∑ v ∈ Finset.univ.erase i, X (cells c v) := by
    rw [← Finset.sum_image (f := X) (g := fun w : Fin (N + 1) => cells c' w) (fun v _ w _ e => proper_inj h hc' e),
      ← Finset.sum_image (f := X) (g := fun w : Fin (N + 1) => cells c w) (fun v _ w _ e => proper_inj h hc e), hF]
  have split : ∀ (j : Fin (N + 1)) (x y : ℝ) (Y : Fin (N + 1) → Vec N),
      ∑ v, (if v = j then x else y) • Y v = x • Y j + y • ∑ v ∈ Finset.univ.erase j, Y v := by
    intro j x y Y
    rw [← Finset.add_sum_erase _ _ (Finset.mem_univ j), if_pos rfl, Finset.smul_sum]
    congr 1
    exact Finset.sum_congr rfl fun v hv => by rw [if_neg (Finset.ne_of_mem_erase hv)]
  have hsame : ∑ v, ω' v • X (cells c' v) = ∑ v, ω v • X (cells c v) := by
    simp only [hω, hω', add_smul, Finset.sum_add_distrib]
    rw [split, split, hfacet, zero_smul, zero_add]
    congr 1
    simp only [mul_smul]
    rw [← Finset.smul_sum, hβp]
  have hp := mem_region (n := n) cells X c ω hω0 hω1
  have hp' : ∑ v, ω v • X (cells c v) ∈ region (N + 1) cells X c' := by
    rw [← hsame]; exact mem_region (n := n) cells X c' ω' hω'0 hω'1
  have h1 := congrFun (wt_same h hf hc hc' hp hp') (cells c i)
  rw [wt_node h hc, wt_other _ ho, C42_unique (proper_nondeg h hc) (∑ v, ω v • X (cells c v)) ω hω1 rfl] at h1
  simp only [hω, if_true] at h1
  exact hε0.ne' h1

/-- The barycentric coordinate of a node as an affine function. -/
theorem bary_affine {S : Simplex N N} (hS : S.Nondeg) (i : Fin (N + 1)) : ∃ (a : Fin N → ℝ) (b : ℝ), ∀ x, a ⬝ᵥ x + b = S.bary x i := by
  refine Fin.cases ?_ (fun j => ?_) i
  · refine ⟨fun z => -∑ j, S.invJ j z, 1 + ∑ j, (S.invJ *ᵥ S.coords 0) j, fun x => ?_⟩
    rw [Simplex.bary_zero]
    simp only [Matrix.mulVec_sub, Pi.sub_apply, Finset.sum_sub_distrib]
    have : (fun z => -∑ j, S.invJ j z) ⬝ᵥ x = -∑ j, (S.invJ *ᵥ x) j := by
      simp only [dotProduct, Matrix.mulVec, neg_mul, Finset.sum_neg_distrib, Finset.sum_mul]
      rw [Finset.sum_comm]
    rw [this]; ring
  · refine ⟨fun z => S.invJ j z, -(S.invJ *ᵥ S.coords 0) j, fun x => ?_⟩
    rw [Simplex.bary_succ, Matrix.mulVec_sub, Pi.sub_apply]
    rfl

/-- Different cells have different sets of nodes. -/
def DistinctCells (nn n : Nat) (cells : Nat → Nat → Nat) : Prop :=
  ∀ c < n, ∀ c' < n, (∀ v < nn, ∃ w < nn, cells c' w = cells c v) → c = c'

/-- Another cell with the facet of `c` opposite to its node `i` has exactly one node which is not on the facet, and does not have
the node `i` of `c`. -/
theorem shares_opposite {nn n : Nat} {cells : Nat → Nat → Nat}
    (hinj : ∀ c < n, ∀ v < nn + 1, ∀ w < nn + 1, cells c v = cells c w → v = w) (hd : DistinctCells (nn + 1) n cells) {c c' : Nat} (hc : c < n)
    (hc' : c' < n) (hne : c' ≠ c) (i : Fin (nn + 1)) (hs : Shares cells (nn + 1) c i c') :
    (∀ v < nn + 1, cells c' v ≠ cells c i) ∧ ∃ i' : Fin (nn + 1),
      (Finset.univ.erase i').image (fun w : Fin (nn + 1) => cells c' w) = (Finset.univ.erase i).image (fun w : Fin (nn + 1) => cells c w) := by
  have ho : ∀ v < nn + 1, cells c' v ≠ cells c i := by
    intro v hv e
    refine hne (hd c hc c' hc' fun w hw => ?_).symm
    by_cases hwi : w = i
    · exact ⟨v, hv, by rw [e, hwi]⟩
    · exact hs w hw hwi
  refine ⟨ho, ?_⟩
  set F := (Finset.univ.erase i).image (fun w : Fin (nn + 1) => cells c w) with hF
  set G := Finset.univ.image (fun w : Fin (nn + 1) => cells c' w) with hG
  have inj : ∀ c < n, Function.Injective fun w : Fin (nn + 1) => cells c w := fun c hc v w e => Fin.ext (hinj c hc v v.2 w w.2 e)
  have hFc : F.card = nn := by
    rw [hF, Finset.card_image_of_injective _ (inj c hc), Finset.card_erase_of_mem (Finset.mem_univ _)]; simp
  have hGc : G.card = nn + 1 := by rw [hG, Finset.card_image_of_injective _ (inj c' hc')]; simp
  have hFG : F ⊆ G := by
    intro y hy
    obtain ⟨w, hw, rfl⟩ := Finset.mem_image.1 hy
    obtain ⟨v, hv, e⟩ := hs w w.2 (fun e => Finset.ne_of_mem_erase hw (Fin.ext e))
    exact Finset.mem_image.2 ⟨⟨v, hv⟩, Finset.mem_univ _, e⟩
  obtain ⟨y, hy⟩ := Finset.card_eq_one.1 (show (G \ F).card = 1 by rw [Finset.card_sdiff_of_subset hFG, hFc, hGc]; omega)
  have hyG : y ∈ G \ F := by rw [hy]; exact Finset.mem_singleton_self y
  obtain ⟨i', _, e'⟩ := Finset.mem_image.1 (Finset.mem_sdiff.1 hyG).1
  refine ⟨i', ?_⟩
  have hsub : (Finset.univ.erase i').image (fun w : Fin (nn + 1) => cells c' w) ⊆ F := by
    intro x hx
    obtain ⟨w, hw, rfl⟩ := Finset.mem_image.1 hx
    by_contra hn
    have : cells c' w ∈ G \ F := Finset.mem_sdiff.2 ⟨Finset.mem_image_of_mem _ (Finset.mem_univ _), hn⟩
    rw [hy, Finset.mem_singleton, ← e'] at this
    exact Finset.ne_of_mem_erase hw (inj c' hc' this)
  refine Finset.eq_of_subset_of_card_le hsub ?_
  rw [hFc, Finset.card_image_of_injective _ (inj c' hc'), Finset.card_erase_of_mem (Finset.mem_univ _)]; simp

/-- An affine function that is zero at the nodes of a proper cell is zero. -/
theorem affine_zero {S : Simplex N N} (hS : S.Nondeg) (a : Fin N → ℝ) (b : ℝ) (hz : ∀ v, a ⬝ᵥ S.coords v + b = 0) (x : Vec N) : a ⬝ᵥ x + b = 0 := by
  rw [← C42_reconstruct_full hS x, affine_combo a b _ (C42_sum_one _ _)]
  exact Finset.sum_eq_zero fun v _ => by rw [hz, mul_zero]

/-- On a conforming mesh of different proper cells of full dimension at most two cells share a facet. -/
theorem manifold_of_conforming (hN : 0 < N) {n : Nat} {cells : Nat → Nat → Nat} {X : Nat → Vec N} (h : Proper (N + 1) n cells X)
    (hf : Conforming (N + 1) n cells X) (hd : DistinctCells (N + 1) n cells) : Manifold cells (N + 1) n := by
  have hinj : ∀ c < n, ∀ v < N + 1, ∀ w < N + 1, cells c v = cells c w → v = w := fun c hc v hv w hw e =>
    congrArg Fin.val (proper_inj h hc (v := ⟨v, hv⟩) (w := ⟨w, hw⟩) e)
  refine ⟨hinj, ?_⟩
  intro c hc v hv x hx x' hx' hne hne' hs hs'
  by_contra hxx
  obtain ⟨ho, i, hi⟩ := shares_opposite hinj hd hc hx hne ⟨v, hv⟩ hs
  obtain ⟨ho', i', hi'⟩ := shares_opposite hinj hd hc hx' hne' ⟨v, hv⟩ hs'
  obtain ⟨a, b, hab⟩ := bary_affine (proper_nondeg h hc) ⟨v, hv⟩
  have hab0 : ∀ w : Fin (N + 1), w ≠ ⟨v, hv⟩ → a ⬝ᵥ X (cells c w) + b = 0 := by
    intro w hw
    rw [hab]
    have := congrFun (C42_vertex (proper_nondeg h hc) w) ⟨v, hv⟩
    rw [Pi.single_eq_of_ne hw.symm] at this
    exact this
  have hab1 : a ⬝ᵥ X (cells c v) + b = 1 := by
    rw [hab]
    have := congrFun (C42_vertex (proper_nondeg h hc) ⟨v, hv⟩) ⟨v, hv⟩
    rw [Pi.single_eq_same] at this
    exact this
  have zero_of : ∀ (y : Nat) (j : Fin (N + 1)), (Finset.univ.erase j).image (fun w : Fin (N + 1) => cells y w) =
      (Finset.univ.erase (⟨v, hv⟩ : Fin (N + 1))).image (fun w : Fin (N + 1) => cells c w) →
      ∀ w : Fin (N + 1), w ≠ j → a ⬝ᵥ X (cells y w) + b = 0 := by
    intro y j e w hw
    have : cells y w ∈ (Finset.univ.erase (⟨v, hv⟩ : Fin (N + 1))).image (fun w : Fin (N + 1) => cells c w) := by
      rw [← e]; exact Finset.mem_image_of_mem _ (by simp [hw])
    obtain ⟨u, hu, e'⟩ := Finset.mem_image.1 this
    rw [← e']
    exact hab0 u (Finset.ne_of_mem_erase hu)
  have neg : ∀ (y : Nat) (j : Fin (N + 1)), y < n → (∀ u < N + 1, cells y u ≠ cells c v) →
      (Finset.univ.erase j).image (fun w : Fin (N + 1) => cells y w) =
      (Finset.univ.erase (⟨v, hv⟩ : Fin (N + 1))).image (fun w : Fin (N + 1) => cells c w) → a ⬝ᵥ X (cells y j) + b < 0 := by
    intro y j hy hoy e
    have h1 := facet_sides hN h hf hc hy ⟨v, hv⟩ j hoy e a b hab0
    change (a ⬝ᵥ X (cells c v) + b) * _ ≤ 0 at h1
    rw [hab1, one_mul] at h1
    refine lt_of_le_of_ne h1 fun h0 => ?_
    have := affine_zero (proper_nondeg h hy) a b (fun w => by
      by_cases hw : w = j
      · subst hw; exact h0
      · exact zero_of y j e w hw) (X (cells c v))
    rw [hab1] at this
    exact one_ne_zero this
  have n1 := neg x i hx ho hi
  have n2 := neg x' i' hx' ho' hi'
  have hnot : ∀ u < N + 1, cells x' u ≠ cells x i := by
    intro u hu e
    refine hxx (hd x hx x' hx' fun w hw => ?_)
    by_cases hwi : w = i
    · exact ⟨u, hu, by rw [e, hwi]⟩
    · have : cells x w ∈ (Finset.univ.erase i').image (fun w : Fin (N + 1) => cells x' w) := by
        rw [hi', ← hi]
        exact Finset.mem_image.2 ⟨⟨w, hw⟩, by simp [Fin.ext_iff, hwi], rfl⟩
      obtain ⟨u', _, e'⟩ := Finset.mem_image.1 this
      exact ⟨u', u'.2, e'⟩
  have := facet_sides hN h hf hx hx' i i' hnot (hi'.trans hi.symm) a b (zero_of x i hi)
  nlinarith [mul_pos_of_neg_of_neg n1 n2]

/-- Two cells with a common node. -/
def Touch (nn n : Nat) (cells : Nat → Nat → Nat) (c c' : Nat) : Prop :=
  c < n ∧ c' < n ∧ ∃ v < nn, ∃ w < nn, cells c v = cells c' w

/-- If the domain of a conforming mesh is connected the cells are linked through common nodes. -/
theorem touch_of_connected {nn n : Nat} {cells : Nat → Nat → Nat} {X : Nat → Vec N} (hnn : 0 < nn) (hf : Conforming nn n cells X)
    (hcon : IsPreconnected (domain nn n cells X)) {c c' : Nat} (hc : c < n) (hc' : c' < n) :
    Relation.ReflTransGen (Touch nn n cells) c c' := by
  by_contra hnot
  set S : Set Nat := {x | x < n ∧ Relation.ReflTransGen (Touch nn n cells) c x} with hS
  set T : Set Nat := {x | x < n ∧ ¬ Relation.ReflTransGen (Touch nn n cells) c x} with hT
  have fin : ∀ A : Set Nat, (∀ x ∈ A, x < n) → A.Finite := fun A hA => (Set.finite_lt_nat n).subset hA
  have closed : ∀ A : Set Nat, (∀ x ∈ A, x < n) → IsClosed (⋃ x ∈ A, region nn cells X x) := fun A hA =>
    (fin A hA).isClosed_biUnion fun x _ => region_closed nn cells X x
  have ne : ∀ x, (region nn cells X x).Nonempty := fun x => ⟨X (cells x 0), subset_convexHull ℝ _ ⟨0, hnn, rfl⟩⟩
  have sub : ∀ A : Set Nat, (∀ x ∈ A, x < n) → ∀ x ∈ A, region nn cells X x ⊆ domain nn n cells X ∩ ⋃ x ∈ A, region nn cells X x :=
    fun A hA x hx p hp => ⟨Set.mem_biUnion (show x ∈ {c | c < n} from hA x hx) hp, Set.mem_biUnion hx hp⟩
  have hSn : ∀ x ∈ S, x < n := fun x hx => hx.1
  have hTn : ∀ x ∈ T, x < n := fun x hx => hx.1
  have := (isPreconnected_closed_iff.1 hcon) (⋃ x ∈ S, region nn cells X x) (⋃ x ∈ T, region nn cells X x) (closed S hSn) (closed T hTn)
    (by
      intro p hp
      obtain ⟨x, hx, hpx⟩ := Set.mem_iUnion₂.1 hp
      by_cases h : Relation.ReflTransGen (Touch nn n cells) c x
      · exact Or.inl (Set.mem_biUnion (show x ∈ S from ⟨hx, h⟩) hpx)
      · exact Or.inr (Set.mem_biUnion (show x ∈ T from ⟨hx, h⟩) hpx))
    ((ne c).mono (sub S hSn c ⟨hc, .refl⟩)) ((ne c').mono (sub T hTn c' ⟨hc', hnot⟩))
  obtain ⟨p, _, hpS, hpT⟩ := this
  obtain ⟨x, hx, hpx⟩ := Set.mem_iUnion₂.1 hpS
  obtain ⟨y, hy, hpy⟩ := Set.mem_iUnion₂.1 hpT
  have hm := hf x hx.1 y hy.1 ⟨hpx, hpy⟩
  obtain ⟨q, v, hv, w, hw, e, _⟩ := convexHull_nonempty_iff.1 ⟨p, hm⟩
  exact hy.2 (hx.2.tail ⟨hx.1, hy.1, v, hv, w, hw, e⟩)

end Fdapde.FEM
