import Verif.Geometry.PropsVoronoi2
import Mathlib.Algebra.BigOperators.Ring.List
import Mathlib.Algebra.BigOperators.Intervals
/- C95: nearest sites.  C96: measure of Voronoi cells. -/
namespace Fdapde.Voronoi2
open Geometry

/-! ### Specification -/

/-- `p` is a convex combination of the three vertices. -/
def InTriangle (A B C p : ℝ × ℝ) : Prop :=
  ∃ x y z : ℝ, 0 ≤ x ∧ 0 ≤ y ∧ 0 ≤ z ∧ x + y + z = 1 ∧
    p = (x * A.1 + y * B.1 + z * C.1, x * A.2 + y * B.2 + z * C.2)
/-- The vertices are not on a line. -/
def NonDeg (A B C : ℝ × ℝ) : Prop := (B.1 - A.1) * (C.2 - A.2) - (C.1 - A.1) * (B.2 - A.2) ≠ 0
/-- `q` is not in the interior of the circle through the three points. -/
def OutsideCircle (A B C q : ℝ × ℝ) : Prop :=
  ∀ o, dist2 o A = dist2 o B → dist2 o A = dist2 o C → dist2 o A ≤ dist2 o q
/-- `q` is not in the interior of the circle that has the segment from `A` to `B` as diameter. -/
def OutsideDiametral (A B q : ℝ × ℝ) : Prop :=
  dist2 ((A.1 + B.1) / 2, (A.2 + B.2) / 2) A ≤ dist2 ((A.1 + B.1) / 2, (A.2 + B.2) / 2) q

/-! ### Nearest site -/

theorem outsideDiametral_iff (A B q : ℝ × ℝ) :
    OutsideDiametral A B q ↔ 0 ≤ (q.1 - A.1) * (q.1 - B.1) + (q.2 - A.2) * (q.2 - B.2) := by
  unfold OutsideDiametral dist2
  constructor <;> intro h <;> nlinarith

theorem OutsideDiametral.symm {A B q : ℝ × ℝ} (h : OutsideDiametral A B q) : OutsideDiametral B A q := by
  rw [outsideDiametral_iff] at *; linarith

theorem NonDeg.rot {A B C : ℝ × ℝ} (h : NonDeg A B C) : NonDeg B C A := by
  unfold NonDeg at *; intro h'; apply h; linarith
theorem InTriangle.rot {A B C p : ℝ × ℝ} (h : InTriangle A B C p) : InTriangle B C A p := by
  obtain ⟨x, y, z, hx, hy, hz, hs, rfl⟩ := h
  refine ⟨y, z, x, hy, hz, hx, by linarith, ?_⟩
  ext <;> simp <;> ring
theorem OutsideCircle.rot {A B C q : ℝ × ℝ} (h : OutsideCircle A B C q) : OutsideCircle B C A q := by
  intro o h1 h2
  rw [h2]
  exact h o h2.symm (h2.symm.trans h1)

/-- The inequality behind `nearest_of_first`, in terms of scalar products. -/
theorem scalar_core {S T U W X Y s t β γ : ℝ} (hS : 0 < S) (hT : 0 < T) (h1 : s * S + t * U = S / 2)
    (h2 : s * U + t * T = T / 2) (hs : 0 ≤ s) (ht : 0 ≤ t) (hβ : 0 ≤ β) (hγ : 0 ≤ γ) (ha : β * S + γ * U ≤ S / 2)
    (hb : β * U + γ * T ≤ T / 2) (hW : 0 ≤ W) (hX : X ≤ W) (hY : Y ≤ W) (ho : 2 * (s * X + t * Y) ≤ W) :
    2 * (β * X + γ * Y) ≤ W := by
  -- one side of the line from the vertex to the circumcenter
  have side : ∀ {S T U X Y s t β γ : ℝ}, 0 < S → s * S + t * U = S / 2 → 0 ≤ s → 0 ≤ t → 0 ≤ β → 0 ≤ γ →
      β * S + γ * U ≤ S / 2 → X ≤ W → 2 * (s * X + t * Y) ≤ W → γ * s ≤ β * t → (t = 0 → γ = 0) →
      2 * (β * X + γ * Y) ≤ W := by
    intro S T U X Y s t β γ hS h1 hs ht hβ hγ ha hX ho hside h0
    by_cases ht0 : t = 0
    · rw [h0 ht0] at ha ⊢
      have hβ1 : 2 * β ≤ 1 := by
        have h3 : (2 * β) * S ≤ 1 * S := by linarith
        exact le_of_mul_le_mul_right h3 hS
      nlinarith
    · have htp : 0 < t := lt_of_le_of_ne ht (Ne.symm ht0)
      set z := γ / t with hz
      have hzt : z * t = γ := by rw [hz]; field_simp
      have hz0 : 0 ≤ z := div_nonneg hγ ht
      set x := 2 * (β - s * z) with hx
      have hx0 : 0 ≤ x := by
        have h3 : s * z ≤ β := by
          have h4 : (s * z) * t ≤ β * t := by rw [mul_assoc, hzt]; linarith
          exact le_of_mul_le_mul_right h4 htp
        linarith
      have hxz : x + z ≤ 1 := by
        have h3 : (x + z) * S ≤ 1 * S := by
          have e : β * S + γ * U = (x * S + z * S) / 2 := by
            rw [hx, ← hzt]; linear_combination z * h1
          rw [e] at ha
          linarith
        exact le_of_mul_le_mul_right h3 hS
      have e : 2 * (β * X + γ * Y) = x * X + z * (2 * (s * X + t * Y)) := by
        rw [hx, ← hzt]; ring
      rw [e]
      nlinarith [mul_le_mul_of_nonneg_left hX hx0, mul_le_mul_of_nonneg_left ho hz0]
  rcases le_total (γ * s) (β * t) with h | h
  · by_cases h0 : t = 0 ∧ γ ≠ 0
    · obtain ⟨ht0, hg⟩ := h0
      subst ht0
      have hs0 : s = 1 / 2 := by
        have : s * S = 1 / 2 * S := by linarith
        exact mul_right_cancel₀ hS.ne' this
      have : 0 < γ * s := mul_pos (lt_of_le_of_ne hγ (Ne.symm hg)) (by rw [hs0]; norm_num)
      simp at h; linarith
    · exact side (T := T) hS h1 hs ht hβ hγ ha hX ho h (by push Not at h0; exact h0)
  · by_cases h0 : s = 0 ∧ β ≠ 0
    · obtain ⟨ht0, hg⟩ := h0
      subst ht0
      have hs0 : t = 1 / 2 := by
        have : t * T = 1 / 2 * T := by linarith
        exact mul_right_cancel₀ hT.ne' this
      have : 0 < β * t := mul_pos (lt_of_le_of_ne hβ (Ne.symm hg)) (by rw [hs0]; norm_num)
      simp at h; linarith
    · have := side (T := S) (U := U) (X := Y) (Y := X) hT (by linarith) ht hs hγ hβ (by linarith) hY (by linarith) h
        (by push Not at h0; exact h0)
      linarith

theorem nearest_of_first {A B C p q : ℝ × ℝ} (hnd : NonDeg A B C) (hin : InTriangle A B C p)
    (hB : OutsideDiametral A C B) (hC : OutsideDiametral A B C) (hq : OutsideCircle A B C q)
    (hq1 : OutsideDiametral A B q) (hq2 : OutsideDiametral A C q)
    (hpB : dist2 A p ≤ dist2 B p) (hpC : dist2 A p ≤ dist2 C p) (hA1 : OutsideDiametral B C A) :
    dist2 A p ≤ dist2 q p := by
  obtain ⟨x, β, γ, hx, hβ, hγ, hsum, rfl⟩ := hin
  obtain ⟨A1, A2⟩ := A
  obtain ⟨B1, B2⟩ := B
  obtain ⟨C1, C2⟩ := C
  obtain ⟨q1, q2⟩ := q
  rw [outsideDiametral_iff] at *
  have hx' : x = 1 - β - γ := by linarith
  subst hx'
  unfold NonDeg at hnd
  dsimp only at *
  -- coordinates relative to the first vertex
  set a1 := B1 - A1 with ha1
  set a2 := B2 - A2 with ha2
  set b1 := C1 - A1 with hb1
  set b2 := C2 - A2 with hb2
  set w1 := q1 - A1 with hw1
  set w2 := q2 - A2 with hw2
  have eB1 : B1 = A1 + a1 := by rw [ha1]; ring
  have eB2 : B2 = A2 + a2 := by rw [ha2]; ring
  have eC1 : C1 = A1 + b1 := by rw [hb1]; ring
  have eC2 : C2 = A2 + b2 := by rw [hb2]; ring
  have eq1 : q1 = A1 + w1 := by rw [hw1]; ring
  have eq2 : q2 = A2 + w2 := by rw [hw2]; ring
  clear_value a1 a2 b1 b2 w1 w2
  subst eB1 eB2 eC1 eC2 eq1 eq2
  set S := a1 * a1 + a2 * a2 with hSd
  set T := b1 * b1 + b2 * b2 with hTd
  set U := a1 * b1 + a2 * b2 with hUd
  have hD : 0 < S * T - U * U := by
    have : S * T - U * U = (a1 * b2 - b1 * a2) * (a1 * b2 - b1 * a2) := by rw [hSd, hTd, hUd]; ring
    rw [this]; exact mul_self_pos.2 hnd
  have hS : 0 < S := by
    have h1 : 0 ≤ S := by rw [hSd]; nlinarith [mul_self_nonneg a1, mul_self_nonneg a2]
    rcases eq_or_lt_of_le h1 with h | h
    · rw [← h] at hD; nlinarith [mul_self_nonneg U]
    · exact h
  have hT : 0 < T := by
    have h1 : 0 ≤ T := by rw [hTd]; nlinarith [mul_self_nonneg b1, mul_self_nonneg b2]
    rcases eq_or_lt_of_le h1 with h | h
    · rw [← h] at hD; nlinarith [mul_self_nonneg U]
    · exact h
  set s := T * (S - U) / (2 * (S * T - U * U)) with hs
  set t := S * (T - U) / (2 * (S * T - U * U)) with ht
  have hD2 : 2 * (S * T - U * U) ≠ 0 := by linarith
  have es : s * (2 * (S * T - U * U)) = T * (S - U) := div_mul_cancel₀ _ hD2
  have et : t * (2 * (S * T - U * U)) = S * (T - U) := div_mul_cancel₀ _ hD2
  have h1 : s * S + t * U = S / 2 := by
    apply mul_right_cancel₀ hD2
    linear_combination S * es + U * et
  have h2 : s * U + t * T = T / 2 := by
    apply mul_right_cancel₀ hD2
    linear_combination U * es + T * et
  have hs0 : 0 ≤ s := by
    apply div_nonneg (mul_nonneg hT.le _) (by linarith)
    rw [hSd, hUd]; linarith
  have ht0 : 0 ≤ t := by
    apply div_nonneg (mul_nonneg hS.le _) (by linarith)
    rw [hTd, hUd]; linarith
  clear_value s t
  have hcirc := hq (A1 + s * a1 + t * b1, A2 + s * a2 + t * b2)
    (by unfold dist2; dsimp only; rw [hSd, hUd] at h1; linear_combination 2 * h1)
    (by unfold dist2; dsimp only; rw [hTd, hUd] at h2; linear_combination 2 * h2)
  unfold dist2 at hcirc hpB hpC ⊢
  dsimp only at hcirc hpB hpC ⊢
  have key := scalar_core (W := w1 * w1 + w2 * w2) (X := a1 * w1 + a2 * w2) (Y := b1 * w1 + b2 * w2) hS hT h1 h2 hs0 ht0
    hβ hγ (by rw [hSd, hUd]; linarith only [hpB]) (by rw [hTd, hUd]; linarith only [hpC])
    (by linarith only [mul_self_nonneg w1, mul_self_nonneg w2]) (by linarith only [hq1]) (by linarith only [hq2])
    (by linarith only [hcirc])
  linarith only [key]

/-- The location returned is the nearest of all the sites, for points of the mesh, if no site is inside the circumcircle
of the located triangle (the mesh is Delaunay) nor inside the diametral circles of its edges. -/
theorem C95_nearest_partial (m : Mesh ℝ) (sites : List Nat) (loc : Int) (hloc : loc ≠ -1) (p : ℝ × ℝ) (a b c : Nat)
    (hn : m.cellNodes loc.toNat = [a, b, c]) (hs : a ∈ sites ∧ b ∈ sites ∧ c ∈ sites)
    (hnd : NonDeg (m.node a) (m.node b) (m.node c)) (hin : InTriangle (m.node a) (m.node b) (m.node c) p)
    (hdel : ∀ w ∈ sites, OutsideCircle (m.node a) (m.node b) (m.node c) (m.node w))
    (hgab : ∀ w ∈ sites, OutsideDiametral (m.node a) (m.node b) (m.node w) ∧
      OutsideDiametral (m.node b) (m.node c) (m.node w) ∧ OutsideDiametral (m.node c) (m.node a) (m.node w)) :
    ∃ v ∈ sites, locate m loc p = .ok (v : Int) ∧ ∀ w ∈ sites, dist2 (m.node v) p ≤ dist2 (m.node w) p := by
  obtain ⟨v, hv, he, hmin⟩ := (C95_locate m loc p a b c hn).2 hloc
  have ha := hmin a (by simp)
  have hb := hmin b (by simp)
  have hc := hmin c (by simp)
  obtain ⟨ga1, ga2, ga3⟩ := hgab a hs.1
  obtain ⟨gb1, gb2, gb3⟩ := hgab b hs.2.1
  obtain ⟨gc1, gc2, gc3⟩ := hgab c hs.2.2
  simp only [List.mem_cons, List.not_mem_nil, or_false] at hv
  rcases hv with rfl | rfl | rfl
  · refine ⟨v, hs.1, he, fun w hw => ?_⟩
    obtain ⟨g1, g2, g3⟩ := hgab w hw
    exact nearest_of_first hnd hin gb3.symm gc1 (hdel w hw) g1 g3.symm hb hc ga2
  · refine ⟨v, hs.2.1, he, fun w hw => ?_⟩
    obtain ⟨g1, g2, g3⟩ := hgab w hw
    exact nearest_of_first hnd.rot hin.rot gc1.symm ga2 (hdel w hw).rot g2 g1.symm hc ha gb3
  · refine ⟨v, hs.2.2, he, fun w hw => ?_⟩
    obtain ⟨g1, g2, g3⟩ := hgab w hw
    exact nearest_of_first hnd.rot.rot hin.rot.rot ga2.symm gb3 (hdel w hw).rot.rot g3 g2.symm ha hb gc1

/-- Two triangles with an obtuse one between the location and the nearest site. -/
noncomputable def obtuseMesh : Mesh ℝ where
  nCells := 2
  cellNodes c := if c = 0 then [0, 1, 2] else [0, 2, 3]
  cellEdges c := if c = 0 then [0, 1, 2] else [1, 3, 4]
  edgeNodes e := [[0, 1], [0, 2], [1, 2], [0, 3], [2, 3]].getD e []
  edgeBd e := e != 1
  nodeBd _ := true
  nBoundaryEdges := 4
  nBoundaryNodes := 4
  node v := [(-2, 0), (2, 0), (0, 1), (-3/2, 83/100)].getD v (0, 0)
  circumcenter c := if c = 0 then (0, -3/2) else (0, 0)
  project _ x := x

/-- **C95, defect.** On a Delaunay mesh the site returned for a location in the interior of a triangle is not always the
nearest one: the nearest site need not be a vertex of the triangle that contains the location. -/
theorem C95_bug_nearest :
    locate obtuseMesh 0 (-1, 1/10) = .ok 0 ∧
    dist2 (obtuseMesh.node 3) (-1, 1/10) < dist2 (obtuseMesh.node 0) (-1, 1/10) ∧
    InTriangle (obtuseMesh.node 0) (obtuseMesh.node 1) (obtuseMesh.node 2) (-1, 1/10) ∧
    OutsideCircle (obtuseMesh.node 0) (obtuseMesh.node 1) (obtuseMesh.node 2) (obtuseMesh.node 3) ∧
    OutsideCircle (obtuseMesh.node 0) (obtuseMesh.node 2) (obtuseMesh.node 3) (obtuseMesh.node 1) := by
  have e0 : obtuseMesh.node 0 = (-2, 0) := rfl
  have e1 : obtuseMesh.node 1 = (2, 0) := rfl
  have e2 : obtuseMesh.node 2 = (0, 1) := rfl
  have e3 : obtuseMesh.node 3 = (-3/2, 83/100) := rfl
  rw [e0, e1, e2, e3]
  refine ⟨?_, ?_, ?_, ?_, ?_⟩
  · have hc : obtuseMesh.cellNodes (0 : Int).toNat = [0, 1, 2] := rfl
    unfold locate
    rw [if_neg (by decide), hc]
    dsimp only
    rw [e0, e1, e2]
    have h1 : ¬ dist2 ((2 : ℝ), (0 : ℝ)) (-1, 1/10) < dist2 (-2, 0) (-1, 1/10) := by norm_num [dist2]
    have h2 : ¬ dist2 ((0 : ℝ), (1 : ℝ)) (-1, 1/10) < dist2 (-2, 0) (-1, 1/10) := by norm_num [dist2]
    simp only [argmin3, h1, h2, if_false]
    rfl
  · norm_num [dist2]
  · exact ⟨7/10, 1/5, 1/10, by norm_num, by norm_num, by norm_num, by norm_num, by norm_num⟩
  · rintro ⟨x, y⟩ h1 h2
    simp only [dist2] at *
    nlinarith
  · rintro ⟨x, y⟩ h1 h2
    simp only [dist2] at *
    nlinarith

/-- The rhombus meets the hypotheses of the theorem on the nearest site. -/
example : ∃ v ∈ [0, 1, 2, 3], locate rhombusMesh 0 (1/4, 1/2) = .ok ((v : Nat) : Int) ∧
    ∀ w ∈ [0, 1, 2, 3], dist2 (rhombusMesh.node v) (1/4, 1/2) ≤ dist2 (rhombusMesh.node w) (1/4, 1/2) := by
  have e0 : rhombusMesh.node 0 = (-1, 0) := rfl
  have e1 : rhombusMesh.node 1 = (1, 0) := rfl
  have e2 : rhombusMesh.node 2 = (0, 2) := rfl
  have e3 : rhombusMesh.node 3 = (0, -2) := rfl
  refine C95_nearest_partial rhombusMesh [0, 1, 2, 3] 0 (by decide) (1/4, 1/2) 0 1 2 rfl (by decide) ?_ ?_ ?_ ?_
  · rw [e0, e1, e2]; norm_num [NonDeg]
  · rw [e0, e1, e2]
    exact ⟨1/4, 1/2, 1/4, by norm_num, by norm_num, by norm_num, by norm_num, by norm_num⟩
  · intro w hw
    simp only [List.mem_cons, List.not_mem_nil, or_false] at hw
    rcases hw with rfl | rfl | rfl | rfl <;> simp only [e0, e1, e2, e3] <;> rintro ⟨x, y⟩ h1 h2 <;>
      simp only [dist2] at * <;> nlinarith
  · intro w hw
    simp only [List.mem_cons, List.not_mem_nil, or_false] at hw
    rcases hw with rfl | rfl | rfl | rfl <;> simp only [e0, e1, e2, e3, outsideDiametral_iff] <;> norm_num

/-! ### C96 -/

/-- Twice the signed area of the triangle with vertices `q`, `x`, `y`. -/
def signed (q x y : ℝ × ℝ) : ℝ := (x.1 - q.1) * (y.2 - q.2) - (x.2 - q.2) * (y.1 - q.1)

/-- Consecutive vertices of a closed polygon. -/
def sides : List (ℝ × ℝ) → List ((ℝ × ℝ) × (ℝ × ℝ))
  | [] => []
  | a :: l => (a :: l).zip (l ++ [a])

theorem sides_length (l : List (ℝ × ℝ)) : (sides l).length = l.length := by cases l <;> simp [sides]

theorem sides_get (l : List (ℝ × ℝ)) (j : Nat) (hj : j < l.length) :
    (sides l)[j]'(by rw [sides_length]; exact hj) = (l.getD j (0, 0), l.getD ((j + 1) % l.length) (0, 0)) := by
  cases l with
  | nil => simp at hj
  | cons a t =>
    simp only [sides, List.getElem_zip]
    simp only [List.length_cons] at hj ⊢
    have e1 : (a :: t).getD j (0, 0) = (a :: t)[j]'(by simpa using hj) := by
      rw [List.getD_eq_getElem?_getD, List.getElem?_eq_getElem (by simpa using hj), Option.getD_some]
    rw [e1]
    congr 1
    rcases Nat.lt_or_ge j t.length with h | h
    · rw [List.getElem_append_left h, Nat.mod_eq_of_lt (by omega)]
      simp [List.getD_eq_getElem?_getD, h]
    · have : j = t.length := by omega
      subst this
      rw [List.getElem_append_right (by omega)]
      simp

theorem measure_eq (l : List (ℝ × ℝ)) : measure l = (1 / 2) * |((sides l).map fun s => signed (0, 0) s.1 s.2).sum| := by
  unfold measure
  congr 3
  apply List.ext_getElem
  · simp [sides_length]
  · intro j h1 h2
    simp only [List.getElem_map, List.getElem_range]
    have hj : j < l.length := by simpa using h1
    rw [sides_get l j hj]
    simp [signed]

theorem sum_telescope (f : ℝ × ℝ → ℝ) (l : List (ℝ × ℝ)) : ((sides l).map fun s => f s.1 - f s.2).sum = 0 := by
  cases l with
  | nil => simp [sides]
  | cons a t =>
    have key : ∀ (t : List (ℝ × ℝ)) (a b : ℝ × ℝ), (((a :: t).zip (t ++ [b])).map fun s => f s.1 - f s.2).sum = f a - f b := by
      intro t
      induction t with
      | nil => intro a b; simp
      | cons c t ih => intro a b; simp only [List.cons_append, List.zip_cons_cons, List.map_cons, List.sum_cons]; rw [ih]; ring
    simpa [sides] using key t a a

/-- The measure is the absolute value of the sum of the signed areas of the triangles that join any point to the sides of
the cell. -/
theorem C96_fan (l : List (ℝ × ℝ)) (q : ℝ × ℝ) :
    measure l = |((sides l).map fun s => signed q s.1 s.2 / 2).sum| := by
  rw [measure_eq]
  have h : ((sides l).map fun s => signed (0, 0) s.1 s.2).sum = 2 * ((sides l).map fun s => signed q s.1 s.2 / 2).sum := by
    rw [← List.sum_map_mul_left]
    have h0 := sum_telescope (fun x => q.1 * x.2 - q.2 * x.1) l
    have e : (sides l).map (fun s => 2 * (signed q s.1 s.2 / 2)) = (sides l).map (fun s => signed (0, 0) s.1 s.2 +
        ((fun x : ℝ × ℝ => q.1 * x.2 - q.2 * x.1) s.1 - (fun x : ℝ × ℝ => q.1 * x.2 - q.2 * x.1) s.2)) := by
      apply List.map_congr_left
      intro s _
      simp only [signed]; ring
    rw [e, List.sum_map_add, h0, add_zero]
  rw [h, abs_mul, abs_of_pos (by norm_num : (0 : ℝ) < 2)]
  ring

/-- If all the sides turn in the same direction around a point, the measure is the sum of the areas of those triangles. -/
theorem C96_star (l : List (ℝ × ℝ)) (q : ℝ × ℝ)
    (h : (∀ s ∈ sides l, signed q s.1 s.2 ≤ 0) ∨ (∀ s ∈ sides l, 0 ≤ signed q s.1 s.2)) :
    measure l = ((sides l).map fun s => |signed q s.1 s.2| / 2).sum := by
  rw [C96_fan l q]
  rcases h with h | h
  · have e : (sides l).map (fun s => |signed q s.1 s.2| / 2) = (sides l).map (fun s => -1 * (signed q s.1 s.2 / 2)) := by
      apply List.map_congr_left
      intro s hs
      rw [abs_of_nonpos (h s hs)]; ring
    rw [e, List.sum_map_mul_left, abs_of_nonpos]
    · ring
    · have h' : ∀ l' : List ((ℝ × ℝ) × (ℝ × ℝ)), (∀ s ∈ l', signed q s.1 s.2 ≤ 0) →
          (l'.map fun s => signed q s.1 s.2 / 2).sum ≤ 0 := by
        intro l'
        induction l' with
        | nil => simp
        | cons a t ih =>
          intro hl
          have h1 := hl a (by simp)
          have h2 := ih (fun s hs => hl s (by simp [hs]))
          rw [List.map_cons, List.sum_cons]; linarith
      exact h' _ h
  · have e : (sides l).map (fun s => |signed q s.1 s.2| / 2) = (sides l).map (fun s => signed q s.1 s.2 / 2) := by
      apply List.map_congr_left
      intro s hs
      rw [abs_of_nonneg (h s hs)]
    rw [e, abs_of_nonneg]
    apply List.sum_nonneg
    intro x hx
    obtain ⟨s, hs, rfl⟩ := List.mem_map.1 hx
    have := h s hs; linarith

/-- Translating a cell does not change its measure. -/
theorem C96_translate (l : List (ℝ × ℝ)) (t : ℝ × ℝ) : measure (l.map fun x => (x.1 + t.1, x.2 + t.2)) = measure l := by
  rw [C96_fan _ t, measure_eq]
  have hs : sides (l.map fun x => (x.1 + t.1, x.2 + t.2)) =
      (sides l).map fun s => ((s.1.1 + t.1, s.1.2 + t.2), (s.2.1 + t.1, s.2.2 + t.2)) := by
    cases l with
    | nil => rfl
    | cons a r =>
      have := List.zip_map (f := fun x : ℝ × ℝ => (x.1 + t.1, x.2 + t.2)) (g := fun x : ℝ × ℝ => (x.1 + t.1, x.2 + t.2))
        (l₁ := a :: r) (l₂ := r ++ [a])
      simp only [sides, List.map_cons, List.map_append, List.map_nil] at this ⊢
      rw [this]; rfl
  rw [hs, List.map_map]
  have e : (fun s => signed t s.1 s.2 / 2) ∘ (fun s : (ℝ × ℝ) × (ℝ × ℝ) => ((s.1.1 + t.1, s.1.2 + t.2), (s.2.1 + t.1, s.2.2 + t.2)))
      = fun s => (1 / 2) * signed (0, 0) s.1 s.2 := by
    funext s; simp only [Function.comp, signed]; ring
  rw [e, List.sum_map_mul_left, abs_mul, abs_of_pos (by norm_num : (0 : ℝ) < 1 / 2)]

/-- A square, clockwise around its centre. -/
example : measure [((1 : ℝ), (1 : ℝ)), (1, -1), (-1, -1), (-1, 1)] = 4 := by
  rw [C96_star _ (0, 0) (Or.inl (by simp [sides, signed]))]
  simp [sides, signed]; norm_num

/-- `edges()` of a cell lists consecutive vertices, the last one followed by the first. -/
theorem C96_edges (s : V ℝ) (v : Nat) :
    (cellEdges (s.cells v)).map (fun e => ((s.nodes e.1).getD (0, 0), (s.nodes e.2).getD (0, 0))) =
      sides (s.points v) := by
  apply List.ext_getElem
  · simp [cellEdges, sides_length, V.points]
  · intro j h1 h2
    have hj : j < (s.points v).length := by simpa [sides_length] using h2
    have hj' : j < (s.cells v).length := by simpa [V.points] using hj
    rw [sides_get _ j hj]
    have g : ∀ k, k < (s.cells v).length → (s.points v).getD k (0, 0) = (s.nodes ((s.cells v).getD k 0)).getD (0, 0) := by
      intro k hk
      simp [V.points, List.getD_eq_getElem?_getD, hk]
    have hl : (s.points v).length = (s.cells v).length := by simp [V.points]
    rw [g j hj', hl, g _ (Nat.mod_lt _ (by omega))]
    simp only [cellEdges, List.getElem_map, List.getElem_range, Nat.mod_eq_of_lt hj']

end Fdapde.Voronoi2
