import Verif.Geometry.NanModel
import Verif.KDTree.LemmasAny
import Verif.Mesh1D.Props
import Verif.Geometry.PropsSimplex
/-
C153: locations with coordinates that are infinite or not a number.
-/
namespace Fdapde.Geometry.Dp
open Fdapde.Fp Fdapde.Optim.Flt KDTree BinTree Classical
noncomputable section
variable {d N : Nat}

/-! ### NaN and infinities in the operations -/

theorem lt_def (a b : Dbl) : (a < b) = a.Lt b := rfl
theorem le_def (a b : Dbl) : (a ≤ b) = a.Le b := rfl
theorem fin_lt {a b : ℝ} : Dbl.fin a < Dbl.fin b ↔ a < b := Iff.rfl
theorem fin_le {a b : ℝ} : Dbl.fin a ≤ Dbl.fin b ↔ a ≤ b := Iff.rfl
theorem nan_lt (a : Dbl) : ¬ Dbl.nan < a := fun h => by cases a <;> exact h
theorem lt_nan (a : Dbl) : ¬ a < Dbl.nan := fun h => by cases a <;> exact h
theorem nan_le (a : Dbl) : ¬ Dbl.nan ≤ a := fun h => by cases a <;> exact h
theorem le_nan (a : Dbl) : ¬ a ≤ Dbl.nan := fun h => by cases a <;> exact h
theorem nan_add (a : Dbl) : Dbl.nan.add a = .nan := by cases a <;> rfl
theorem add_nan (a : Dbl) : a.add .nan = .nan := by cases a <;> rfl
theorem nan_sub (a : Dbl) : Dbl.nan.sub a = .nan := nan_add _
theorem sub_nan (a : Dbl) : a.sub .nan = .nan := add_nan _
theorem nan_mul (a : Dbl) : Dbl.nan.mul a = .nan := by cases a <;> rfl
theorem mul_nan (a : Dbl) : a.mul .nan = .nan := by cases a <;> rfl

theorem dot_nan (g u : FVec N) (o : Order N) {k : Fin N} (hk : o.Has k) (h : u k = .nan) : dot g u o = .nan := by
  induction o with
  | term i => obtain rfl : k = i := hk; rw [dot, h, mul_nan]
  | plus l r ihl ihr =>
    rcases hk with hk | hk
    · rw [dot, ihl hk, nan_add]
    · rw [dot, ihr hk, add_nan]

theorem dot_all_nan (g u : FVec N) (o : Order N) (h : ∀ k, u k = .nan) : dot g u o = .nan := by
  induction o with
  | term i => rw [dot, h, mul_nan]
  | plus l r ihl ihr => rw [dot, ihl, nan_add]

theorem osum_nan (z : FVec d) (o : Order d) (h : ∀ k, z k = .nan) : osum z o = .nan := by
  induction o with
  | term i => rw [osum, h]
  | plus l r ihl ihr => rw [osum, ihl, nan_add]

/-! ### interval.h -/

theorem search_real (nodes : List ℝ) (p : ℝ) : ∀ f hmin hmax,
    search (nodes.map .fin) (.fin p) f hmin hmax = Mesh1D.search nodes p f hmin hmax := by
  intro f
  induction f with
  | zero => intro hmin hmax; rfl
  | succ f ih =>
    intro hmin hmax
    rw [search, Mesh1D.search]
    simp only [List.getElem?_map]
    cases nodes[hmin + (hmax - hmin) / 2]? with
    | none => rfl
    | some x =>
      simp only [Option.map_some, ge_iff_le, fin_le, fin_lt, ih]
      by_cases hx : x ≤ p
      · rw [if_pos hx, if_pos hx]
        cases nodes[hmin + (hmax - hmin) / 2 + 1]? with
        | none => rfl
        | some y =>
          simp only [Option.map_some, fin_lt, if_neg (not_lt.2 hx)]
      · rw [if_neg hx, if_neg hx, if_pos (not_le.1 hx)]

/-- **C153**, interval meshes: for a location that is a number or infinite, `locate` ends after at most as many turns as there are nodes and one more, without
reading outside the nodes, and returns -1 for locations outside the range, the infinite ones in particular, and the segment that contains the location
otherwise.  Partial: locations other than the last node (`C24_bug_last`) and NaN (`C153_bug_interval`). -/
theorem C153_interval_partial (nodes : List ℝ) (hs : nodes.Pairwise (· < ·)) (a b : ℝ) (ha : nodes[0]? = some a) (hb : nodes[nodes.length - 1]? = some b) (p : Dbl)
    (hp : p ≠ .nan) (hp' : p ≠ .fin b) :
    ((p < .fin a ∨ .fin b < p) ∧ locate1 (nodes.map .fin) p (nodes.length + 1) = some (.ok (-1))) ∨
    (∃ r : ℝ, p = .fin r ∧ ∃ (i : Nat) (x y : ℝ), locate1 (nodes.map .fin) p (nodes.length + 1) = some (.ok (i : Int)) ∧ nodes[i]? = some x ∧
      nodes[i + 1]? = some y ∧ x ≤ r ∧ r < y) := by
  have e : locate1 (nodes.map .fin) p (nodes.length + 1) =
      if p < .fin a ∨ p > .fin b then some (.ok (-1)) else search (nodes.map .fin) p (nodes.length + 1) 0 nodes.length := by
    unfold locate1
    rw [List.getElem?_map, ha, List.length_map, List.getElem?_map, hb]
    rfl
  rw [e]
  cases p with
  | nan => exact absurd rfl hp
  | inf s =>
    left
    have : (Dbl.inf s < .fin a ∨ .fin b < Dbl.inf s) := by cases s; exacts [.inr rfl, .inl rfl]
    exact ⟨this, if_pos this⟩
  | fin r =>
    have hr : r ≠ b := fun h => hp' (by rw [h])
    rcases Mesh1D.C24_locate_partial nodes hs a b r ha hb hr with ⟨h, e1⟩ | ⟨⟨h1, h2⟩, i, x, y, e1, e2, e3, e4, e5⟩
    · exact .inl ⟨h, if_pos h⟩
    · have hno : ¬ (Dbl.fin r < .fin a ∨ Dbl.fin r > .fin b) := by
        rintro (h | h)
        · exact absurd h1 (not_le.2 h)
        · exact absurd h2 (not_lt.2 (le_of_lt h))
      refine .inr ⟨r, rfl, i, x, y, ?_, e2, e3, e4, e5⟩
      rw [if_neg hno, search_real, ← e1]
      unfold Mesh1D.locate
      rw [ha, hb]
      have hno' : ¬ (r < a ∨ r > b) := hno
      simp only [if_neg hno']

example : locate1 ([0, 1, 3].map .fin) (.inf true) 4 = some (.ok (-1)) := by
  rcases C153_interval_partial [0, 1, 3] (by norm_num) 0 3 rfl rfl (.inf true) (by simp) (by simp) with ⟨-, h⟩ | ⟨r, h, -⟩
  · exact h
  · cases h
example : locate1 ([0, 1, 3].map .fin) (.fin 2) 4 = some (.ok 1) := by
  rcases C153_interval_partial [0, 1, 3] (by norm_num) 0 3 rfl rfl (.fin 2) (by simp) (by simp) with ⟨h | h, -⟩ | ⟨r, h, i, x, y, e, hx, hy, h1, h2⟩
  · exact absurd h (by rw [fin_lt]; norm_num)
  · exact absurd h (by rw [fin_lt]; norm_num)
  · obtain rfl : 2 = r := by simpa using h
    have e' : locate1 ([0, 1, 3].map .fin) (.fin 2) 4 = some (.ok (i : Int)) := e
    match i, hx, hy, e' with
    | 0, hx, hy, e' => simp at hy; subst hy; norm_num at h2
    | 1, hx, hy, e' => exact e'
    | i + 2, hx, hy, e' => simp at hy

/-- **C153 fails for NaN on every interval mesh**: `locate` never returns. -/
theorem C153_bug_interval (nodes : List Dbl) (hn : nodes ≠ []) (fuel : Nat) : locate1 nodes .nan fuel = none := by
  have hl : 0 < nodes.length := List.length_pos_iff.2 hn
  have key : ∀ f hmin, hmin < nodes.length → search nodes .nan f hmin nodes.length = none := by
    intro f
    induction f with
    | zero => intro _ _; rfl
    | succ f ih =>
      intro hmin h
      have hj : hmin + (nodes.length - hmin) / 2 < nodes.length := by omega
      rw [search]
      simp only [List.getElem?_eq_getElem hj]
      rw [if_neg (le_nan _), if_neg (nan_lt _)]
      exact ih _ hj
  unfold locate1
  rw [List.getElem?_eq_getElem hl, List.getElem?_eq_getElem (show nodes.length - 1 < nodes.length by omega)]
  simp only
  rw [if_neg (by rintro (h | h); exacts [nan_lt _ h, lt_nan _ h])]
  exact key _ 0 hl

example : locate1 [.fin 0, .fin 1, .fin 3] .nan 1000 = none := C153_bug_interval _ (by simp) _

/-! ### contains -/

/-- **C153 fails for NaN in every cell**: a location with a coordinate that is not a number is reported to be inside, whatever the cell, its dimension and that of
the space. -/
theorem C153_bug_contains (hd : 0 < d) (S : Cell d N) (o : Sums d N) (ho : o.Whole) (eps : Dbl) (x : FVec N) {k : Fin N} (hx : x k = .nan) :
    S.contains o eps x = .inside := by
  obtain ⟨h1, h2, h3⟩ := ho
  have hz : ∀ i, S.bary o x i = .nan := by
    have hz : ∀ i, dot (S.invJ i) (fun k => (x k).sub (.fin (S.pts.coords 0 k))) (o.row i) = .nan := fun i =>
      dot_nan _ _ _ (h1 i k) (by rw [hx, nan_sub])
    intro i
    refine Fin.cases ?_ (fun i => ?_) i
    · show (Dbl.fin 1).sub (osum _ _) = .nan
      rw [osum_nan _ _ hz, sub_nan]
    · exact hz i
  have hdist : S.distance o x = .nan := by
    show sqrtD (dot _ _ _) = .nan
    rw [dot_nan _ _ _ (h3 k) (by rw [hx, nan_sub])]
    rfl
  unfold Cell.contains
  rw [if_neg (by rintro ⟨-, h⟩; rw [hdist] at h; exact lt_nan _ h), if_neg (by rintro ⟨i, h⟩; rw [hz] at h; exact nan_lt _ h)]
  have : (Finset.univ.filter fun i => S.bary o x i > eps) = ∅ := by
    refine Finset.filter_eq_empty_iff.2 fun i _ h => ?_
    rw [hz] at h
    exact lt_nan _ h
  simp only [this, Finset.card_empty]
  rw [if_neg (by omega), if_neg (by omega)]

/-! ### tree_search.h -/

theorem contained_pass {R : Type} [LT R] [LE R] [DecidableLT R] [DecidableLE R] (data : Nat → Nat → R) (q : Box R) (i : Nat) : ∀ m dim,
    (∀ k, dim ≤ k → k < dim + m → ¬ data i k > q.ur k ∧ ¬ data i k < q.ll k) → contained data q i dim m = true := by
  intro m
  induction m with
  | zero => intro dim _; rfl
  | succ m ih =>
    intro dim h
    obtain ⟨h1, h2⟩ := h dim le_rfl (by omega)
    rw [contained]
    simp only [h1, h2, decide_false, Bool.or_self, Bool.false_eq_true, if_false]
    exact ih _ fun k hk hk' => h k (by omega) (by omega)

theorem contained_fail {R : Type} [LT R] [LE R] [DecidableLT R] [DecidableLE R] (data : Nat → Nat → R) (q : Box R) (i : Nat) : ∀ m dim k,
    dim ≤ k → k < dim + m → (data i k > q.ur k ∨ data i k < q.ll k) → contained data q i dim m = false := by
  intro m
  induction m with
  | zero => intro dim k h1 h2; omega
  | succ m ih =>
    intro dim k h1 h2 h
    rw [contained]
    by_cases hk : dim = k
    · subst hk
      rw [if_pos (by rcases h with h | h <;> simp [h])]
    · split
      · rfl
      · exact ih _ k (by omega) (by omega) h

theorem scan_mem (hit : Nat → Bool) (l : List Nat) : (scanFirst hit l = -1 ∧ ∀ i ∈ l, hit i = false) ∨ ∃ i ∈ l, hit i = true ∧ scanFirst hit l = i := by
  induction l with
  | nil => exact .inl ⟨rfl, by simp⟩
  | cons a l ih =>
    rw [scanFirst]
    cases ha : hit a with
    | true => exact .inr ⟨a, by simp, ha, by simp⟩
    | false =>
      rcases ih with ⟨e, h⟩ | ⟨i, hi, h, e⟩
      · exact .inl ⟨by simpa using e, by simpa [ha] using h⟩
      · exact .inr ⟨i, by simp [hi], h, by simpa using e⟩

/-- **C153**, triangulations: whatever is asked for, numbers or not, `locate` ends without undefined behaviour and returns -1 or a cell of the mesh in which the
location is according to `contains`. -/
theorem C153_tree_returns (m : DMesh d N) (hn : 0 < m.n) (o : Nat → Sums d N) (nth) (hnth : NthContract nth) (ord : List Nat → List Nat)
    (hord : ∀ l, (ord l).Perm l) (eps : Dbl) (p : FVec N) :
    ∃ i : Int, m.locate o nth ord eps p = some (.ok i) ∧ (i = -1 ∨ ∃ c < m.n, i = c ∧ (m.cell c).contains (o c) eps p ≠ .outside) := by
  obtain ⟨t, out, v, e1, e2, -, -, e3⟩ := any_search nth hnth m.data (2 * N) m.n hn (m.query p)
  unfold DMesh.locate
  simp only [e1, e2]
  refine ⟨_, rfl, ?_⟩
  rcases scan_mem (fun id => decide ((m.cell id).contains (o id) eps p ≠ .outside)) (ord out) with ⟨e, -⟩ | ⟨i, hi, h, e⟩
  · exact .inl e
  · exact .inr ⟨i, (e3 i ((hord out).mem_iff.1 hi)).1, e, by simpa using h⟩

/-- The mesh lies in its range, whose sides are neither too small nor too large for their reciprocals. -/
structure DMesh.Sized (m : DMesh d N) : Prop where
  low : ∀ i < m.n, ∀ v k, m.lo k ≤ (m.cell i).pts.coords v k
  high : ∀ i < m.n, ∀ v k, (m.cell i).pts.coords v k ≤ m.hi k
  wide : ∀ k, (2 : ℝ) ^ (-1022 : ℤ) ≤ m.hi k - m.lo k
  narrow : ∀ k, m.hi k - m.lo k ≤ (2 : ℝ) ^ (1022 : ℤ)

theorem fit_zpow {e : ℤ} (h : -1074 ≤ e) : fit ((2 : ℝ) ^ e) = (2 : ℝ) ^ e := fit_format (format_zpow h)

theorem fit_rel {x : ℝ} (h : (2 : ℝ) ^ (-1022 : ℤ) ≤ x) : fit x ≤ x * (1 + (2 : ℝ) ^ (-53 : ℤ)) := by
  have h0 : 0 < x := lt_of_lt_of_le (by positivity) h
  have hl : -1022 ≤ Int.log 2 |x| := by
    rw [abs_of_pos h0, ← Int.zpow_le_iff_le_log (by norm_num) h0]
    exact_mod_cast h
  have hg : gap x ≤ x * (2 : ℝ) ^ (-52 : ℤ) := by
    rw [gap, max_eq_left (by omega), sub_eq_add_neg, zpow_add₀ two_ne_zero]
    refine mul_le_mul_of_nonneg_right ?_ (by positivity)
    rw [abs_of_pos h0]
    exact_mod_cast Int.zpow_log_le_self (b := 2) (by norm_num) h0
  have := fit_err h0.le
  rw [abs_le] at this
  have e : (2 : ℝ) ^ (-52 : ℤ) = 2 * (2 : ℝ) ^ (-53 : ℤ) := by norm_num
  rw [e] at hg
  linarith [this.2]

theorem fit_one_half : fit (1 + (2 : ℝ) ^ (-53 : ℤ)) = 1 := by
  have hx : (0 : ℝ) < 1 + (2 : ℝ) ^ (-53 : ℤ) := by positivity
  have hl : Int.log 2 (1 + (2 : ℝ) ^ (-53 : ℤ)) = 0 := by
    refine le_antisymm ?_ ?_
    · rw [← Int.lt_add_one_iff, ← Int.lt_zpow_iff_log_lt (by norm_num) hx]
      norm_num
    · rw [← Int.zpow_le_iff_le_log (by norm_num) hx]
      norm_num
  have hg : gap (1 + (2 : ℝ) ^ (-53 : ℤ)) = (2 : ℝ) ^ (-52 : ℤ) := by
    rw [gap, abs_of_pos hx, hl]
    norm_num
  rw [fit_pos hx.le, fitPos, hg]
  have e : (1 + (2 : ℝ) ^ (-53 : ℤ)) / (2 : ℝ) ^ (-52 : ℤ) = ((2 ^ 52 : ℤ) : ℝ) + 1 / 2 := by norm_num
  have hf : ⌊((2 ^ 52 : ℤ) : ℝ) + 1 / 2⌋ = 2 ^ 52 := by
    rw [Int.floor_intCast_add]
    norm_num
  rw [e, nearest, hf]
  rw [if_neg (by norm_num), if_neg (by norm_num), if_pos (by decide)]
  norm_num

theorem round_of_lt {x : ℝ} (h : |fit x| < 2 ^ 1024) : Dbl.round x = .fin (fit x) := if_pos h

/-- The normalisation constants are positive numbers and the scaled coordinates of the mesh are between 0 and 1. -/
theorem Sized.c {m : DMesh d N} (h : m.Sized) (k : Fin N) : ∃ c : ℝ, 0 < c ∧ m.c k = .fin c ∧
    ∀ b : ℝ, m.lo k ≤ b → b ≤ m.hi k → ∃ r : ℝ, 0 ≤ r ∧ r ≤ 1 ∧ ((Dbl.fin b).sub (.fin (m.lo k))).mul (m.c k) = .fin r := by
  have hw1 := h.wide k
  have hw2 := h.narrow k
  have big : (2 : ℝ) ^ (1022 : ℤ) < 2 ^ 1024 := by
    rw [← zpow_natCast]
    exact zpow_lt_zpow_right₀ (by norm_num) (by norm_num)
  have hwl : (2 : ℝ) ^ (-1022 : ℤ) ≤ fit (m.hi k - m.lo k) := (fit_zpow (by norm_num)).ge.trans (fit_mono hw1)
  have hwu : fit (m.hi k - m.lo k) ≤ (2 : ℝ) ^ (1022 : ℤ) := (fit_mono hw2).trans (fit_zpow (by norm_num)).le
  have hw0 : 0 < fit (m.hi k - m.lo k) := lt_of_lt_of_le (by positivity) hwl
  have hsub : ∀ b : ℝ, m.lo k ≤ b → b ≤ m.hi k →
      (Dbl.fin b).sub (.fin (m.lo k)) = .fin (fit (b - m.lo k)) ∧ 0 ≤ fit (b - m.lo k) ∧ fit (b - m.lo k) ≤ fit (m.hi k - m.lo k) := by
    intro b h1 h2
    have a0 : 0 ≤ fit (b - m.lo k) := fit_nonneg (by linarith)
    have a1 : fit (b - m.lo k) ≤ fit (m.hi k - m.lo k) := fit_mono (by linarith)
    refine ⟨?_, a0, a1⟩
    show Dbl.round (b + -m.lo k) = _
    rw [← sub_eq_add_neg, round_of_lt (by rw [abs_of_nonneg a0]; exact lt_of_le_of_lt (a1.trans hwu) big)]
  have hlh : m.lo k ≤ m.hi k := by
    have : (0 : ℝ) < (2 : ℝ) ^ (-1022 : ℤ) := by positivity
    linarith
  obtain ⟨w, hw⟩ : ∃ w, w = fit (m.hi k - m.lo k) := ⟨_, rfl⟩
  rw [← hw] at hwl hwu hw0
  have hi1 : (2 : ℝ) ^ (-1022 : ℤ) ≤ 1 / w := by
    rw [zpow_neg, ← one_div]
    exact one_div_le_one_div_of_le hw0 hwu
  have hi2 : 1 / w ≤ (2 : ℝ) ^ (1022 : ℤ) := by
    have := one_div_le_one_div_of_le (by positivity) hwl
    rwa [zpow_neg, one_div (_⁻¹), inv_inv] at this
  have hc1 : (2 : ℝ) ^ (-1022 : ℤ) ≤ fit (1 / w) := (fit_zpow (by norm_num)).ge.trans (fit_mono hi1)
  have hc2 : fit (1 / w) ≤ (2 : ℝ) ^ (1022 : ℤ) := (fit_mono hi2).trans (fit_zpow (by norm_num)).le
  have hc0 : 0 < fit (1 / w) := lt_of_lt_of_le (by positivity) hc1
  have hc : m.c k = .fin (fit (1 / w)) := by
    unfold DMesh.c
    rw [(hsub _ hlh le_rfl).1, ← hw]
    show (if w = 0 then Dbl.inf false else Dbl.round (1 / w)) = _
    rw [if_neg hw0.ne', round_of_lt (by rw [abs_of_pos hc0]; exact lt_of_le_of_lt hc2 big)]
  refine ⟨fit (1 / w), hc0, hc, fun b h1 h2 => ?_⟩
  obtain ⟨s1, s2, s3⟩ := hsub b h1 h2
  rw [← hw] at s3
  have p0 : 0 ≤ fit (b - m.lo k) * fit (1 / w) := mul_nonneg s2 hc0.le
  have p1 : fit (b - m.lo k) * fit (1 / w) ≤ 1 + (2 : ℝ) ^ (-53 : ℤ) := by
    calc _ ≤ w * fit (1 / w) := mul_le_mul_of_nonneg_right s3 hc0.le
      _ ≤ w * (1 / w * (1 + (2 : ℝ) ^ (-53 : ℤ))) := mul_le_mul_of_nonneg_left (fit_rel hi1) hw0.le
      _ = 1 + (2 : ℝ) ^ (-53 : ℤ) := by field_simp
  have q0 := fit_nonneg p0
  have q1 : fit (fit (b - m.lo k) * fit (1 / w)) ≤ 1 := (fit_mono p1).trans fit_one_half.le
  refine ⟨_, q0, q1, ?_⟩
  rw [s1, hc]
  show Dbl.round _ = _
  rw [round_of_lt]
  rw [abs_of_nonneg q0]
  exact lt_of_le_of_lt q1 (one_lt_pow₀ one_lt_two (by norm_num))

theorem box_low (S : Simplex d N) {a : ℝ} {k : Fin N} (h : ∀ v, a ≤ S.coords v k) : a ≤ S.boundingBox.1 k := Finset.le_inf' Finset.univ_nonempty _ fun v _ => h v
theorem box_high (S : Simplex d N) {a : ℝ} {k : Fin N} (h : ∀ v, S.coords v k ≤ a) : S.boundingBox.2 k ≤ a := Finset.sup'_le Finset.univ_nonempty _ fun v _ => h v
theorem box_mem (S : Simplex d N) (v : Fin (d + 1)) (k : Fin N) : S.boundingBox.1 k ≤ S.coords v k ∧ S.coords v k ≤ S.boundingBox.2 k :=
  ⟨Finset.inf'_le (fun v => S.coords v k) (Finset.mem_univ v), Finset.le_sup' (fun v => S.coords v k) (Finset.mem_univ v)⟩

theorem Sized.data {m : DMesh d N} (h : m.Sized) {i : Nat} (hi : i < m.n) {k : Nat} (hk : k < 2 * N) : ∃ r : ℝ, 0 ≤ r ∧ r ≤ 1 ∧ m.data i k = .fin r := by
  have key : ∀ (b : Vec N) (k : Fin N), m.lo k ≤ b k → b k ≤ m.hi k → ∃ r : ℝ, 0 ≤ r ∧ r ≤ 1 ∧ m.scale (fun k => .fin (b k)) k = .fin r := by
    intro b k h1 h2
    obtain ⟨c, -, -, h3⟩ := Sized.c h k
    exact h3 (b k) h1 h2
  unfold DMesh.data stackD
  by_cases h1 : k < N
  · rw [dif_pos h1]
    exact key _ _ (box_low _ fun v => h.low i hi v _) ((box_mem _ 0 _).1.trans (h.high i hi 0 _))
  · rw [dif_neg h1, dif_pos (show k - N < N by omega)]
    exact key _ _ ((h.low i hi 0 _).trans (box_mem _ 0 _).2) (box_high _ fun v => h.high i hi v _)

/-- **C153**, triangulations: a location with an infinite coordinate is in no cell, whatever the other coordinates.  Partial: not for NaN
(`C153_bug_tree`). -/
theorem C153_tree_infinite_partial (m : DMesh d N) (hm : m.Sized) (hn : 0 < m.n) (o : Nat → Sums d N) (nth) (hnth : NthContract nth) (ord : List Nat → List Nat)
    (hord : ∀ l, (ord l).Perm l) (eps : Dbl) (p : FVec N) {k : Fin N} {s : Bool} (hp : p k = .inf s) : m.locate o nth ord eps p = some (.ok (-1)) := by
  obtain ⟨t, out, v, e1, e2, -, -, e3⟩ := any_search nth hnth m.data (2 * N) m.n hn (m.query p)
  have hk := k.2
  have hsc : m.scale p k = .inf s := by
    obtain ⟨c, c0, ec, -⟩ := Sized.c hm k
    show ((p k).sub _).mul _ = _
    rw [hp, ec]
    show (if c = 0 then Dbl.nan else Dbl.inf (xor s (decide (c < 0)))) = _
    rw [if_neg c0.ne', decide_eq_false (not_lt.2 c0.le), Bool.xor_false]
  have hout : out = [] := by
    rw [List.eq_nil_iff_forall_not_mem]
    intro i hi
    obtain ⟨h1, h2⟩ := e3 i hi
    have : contained m.data (m.query p) i 0 (2 * N) = false := by
      cases s with
      | true =>
        obtain ⟨r, -, -, er⟩ := Sized.data hm h1 (show k.1 < 2 * N by omega)
        refine contained_fail _ _ _ _ _ k.1 (by omega) (by omega) (.inl ?_)
        rw [er]
        show (stackD (m.scale p) (fun _ => .fin 1) k.1).Lt _
        rw [stackD, dif_pos hk, hsc]
        rfl
      | false =>
        obtain ⟨r, -, -, er⟩ := Sized.data hm h1 (show N + k.1 < 2 * N by omega)
        refine contained_fail _ _ _ _ _ (N + k.1) (by omega) (by omega) (.inr ?_)
        rw [er]
        show Dbl.Lt _ (stackD (fun _ => .fin 0) (m.scale p) (N + k.1))
        rw [stackD, dif_neg (by omega), dif_pos (show N + k.1 - N < N by omega)]
        rw [show (⟨N + k.1 - N, (show N + k.1 - N < N by omega)⟩ : Fin N) = k from Fin.ext (by simp), hsc]
        rfl
    rw [this] at h2
    cases h2
  unfold DMesh.locate
  simp only [e1, e2]
  rw [hout, List.perm_nil.1 (hord [])]
  rfl

/-- **C153 fails for NaN on every triangulation**: a location all of whose coordinates are not a number is reported to be in a cell of the mesh. -/
theorem C153_bug_tree (hd : 0 < d) (hN : 0 < N) (m : DMesh d N) (hm : m.Sized) (hn : 0 < m.n) (o : Nat → Sums d N) (ho : ∀ c, (o c).Whole) (nth)
    (hnth : NthContract nth) (ord : List Nat → List Nat) (hord : ∀ l, (ord l).Perm l) (eps : Dbl) :
    ∃ c < m.n, m.locate o nth ord eps (fun _ => .nan) = some (.ok (c : Int)) := by
  obtain ⟨t, out, v, e1, e2, hv, h4, e3⟩ := any_search nth hnth m.data (2 * N) m.n hn (m.query fun _ => .nan)
  have hsc : ∀ k, m.scale (fun _ => .nan) k = .nan := fun k => by
    show (Dbl.nan.sub _).mul _ = _
    rw [nan_sub, nan_mul]
  have hc : contained m.data (m.query fun _ => .nan) v 0 (2 * N) = true := by
    refine contained_pass _ _ _ _ _ fun k _ hk => ?_
    obtain ⟨r, r0, r1, er⟩ := Sized.data hm hv (show k < 2 * N by omega)
    rw [er]
    by_cases h1 : k < N
    · constructor
      · show ¬ (stackD (m.scale fun _ => .nan) (fun _ => .fin 1) k < _)
        rw [stackD, dif_pos h1, hsc]
        exact nan_lt _
      · show ¬ (_ < stackD (fun _ => .fin 0) (m.scale fun _ => .nan) k)
        rw [stackD, dif_pos h1, fin_lt]
        exact not_lt.2 r0
    · have h2 : k - N < N := by omega
      constructor
      · show ¬ (stackD (m.scale fun _ => .nan) (fun _ => .fin 1) k < _)
        rw [stackD, dif_neg h1, dif_pos h2, fin_lt]
        exact not_lt.2 r1
      · show ¬ (_ < stackD (fun _ => .fin 0) (m.scale fun _ => .nan) k)
        rw [stackD, dif_neg h1, dif_pos h2, hsc]
        exact lt_nan _
  have hhit : ∀ c, decide ((m.cell c).contains (o c) eps (fun _ => .nan) ≠ .outside) = true := fun c => by
    rw [C153_bug_contains hd _ _ (ho c) eps _ (k := ⟨0, hN⟩) rfl]
    rfl
  unfold DMesh.locate
  simp only [e1, e2]
  rcases scan_mem (fun id => decide ((m.cell id).contains (o id) eps (fun _ => .nan) ≠ .outside)) (ord out) with ⟨-, h⟩ | ⟨i, hi, h, e⟩
  · have := h v ((hord out).mem_iff.2 (h4 hc))
    rw [hhit v] at this
    cases this
  · exact ⟨i, (e3 i ((hord out).mem_iff.1 hi)).1, by rw [e]⟩

/-! ### walk_search.h -/

/-- **C153 fails for NaN in the barycentric walk**: a location with a coordinate that is not a number is reported to be in the cell, drawn at random, where the
walk starts. -/
theorem C153_bug_walk (hN : 0 < N) (m : DMesh N N) (o : Nat → Sums N N) (ho : ∀ c, (o c).Whole) (neigh : Nat → Fin (N + 1) → Int)
    (mincoeff : (Fin (N + 1) → Dbl) → Fin (N + 1)) (eps : Dbl) (p : FVec N) {k : Fin N} (hp : p k = .nan) (start : Nat) (hs : start < m.n) (fuel : Nat) :
    m.walkLoop o neigh mincoeff eps p (fuel + 1) start [] = some (.ok (start : Int)) := by
  have h := C153_bug_contains hN (m.cell start) (o start) (ho start) eps p hp
  rw [DMesh.walkLoop, if_pos ⟨by omega, by omega⟩]
  simp only [Int.toNat_natCast, h]
  simp

/-! ### kd_tree.h -/

theorem walkD_length (data : Nat → Nat → Dbl) (K : Nat) (p : Nat → Dbl) (t : BinTree.Tree Nat) : ∀ st,
    walkD data K p t st = .ub ∨ ∃ st', walkD data K p t st = .ok st' ∧ st'.length ≤ st.length + t.size := by
  induction t with
  | nil => intro st; exact .inl rfl
  | node l v dp r ihl ihr =>
    intro st
    rw [walkD]
    by_cases h1 : (l.isNil && r.isNil) = true
    · rw [if_pos h1]
      exact .inr ⟨_, rfl, by simp [BinTree.Tree.size]; omega⟩
    · rw [if_neg h1]
      by_cases h2 : p (dp % K) < data v (dp % K)
      · rw [if_pos h2]
        rcases ihl (.node l v dp r :: st) with h | ⟨st', h, h'⟩
        · exact .inl h
        · exact .inr ⟨st', h, by simp [BinTree.Tree.size] at h' ⊢; omega⟩
      · rw [if_neg h2]
        rcases ihr (.node l v dp r :: st) with h | ⟨st', h, h'⟩
        · exact .inl h
        · exact .inr ⟨st', h, by simp [BinTree.Tree.size] at h' ⊢; omega⟩

/-- **C153 fails for NaN in the nearest neighbour search**: asked for a location that is not a number, `nn_search` returns an iterator that points to no node of the
tree although there are nodes, or dereferences a null pointer. -/
theorem C153_bug_nearest (data : Nat → Nat → Dbl) {K : Nat} (o : Order K) (t : BT Nat) (hw : t.WF) :
    nnSearchD data (fun _ => .nan) o t t.n = some (.ok none) ∨ nnSearchD data (fun _ => .nan) o t t.n = some .ub := by
  have key : ∀ (fuel : Nat) (st : List (BinTree.Tree Nat)), st.length ≤ fuel →
      nnLoopD data (fun _ => .nan) o fuel st none (.inf false) = some (.ok none) ∨ nnLoopD data (fun _ => .nan) o fuel st none (.inf false) = some .ub := by
    intro fuel
    induction fuel with
    | zero =>
      intro st h
      obtain rfl : st = [] := List.length_eq_zero_iff.1 (by omega)
      exact .inl rfl
    | succ fuel ih =>
      intro st h
      cases st with
      | nil => exact .inl rfl
      | cons a st =>
        cases a with
        | nil => exact .inr rfl
        | node l v dp r =>
          have hc : sqDistD data (fun _ => .nan) o v = .nan := dot_all_nan _ _ _ fun k => sub_nan _
          rw [nnLoopD]
          simp only [hc, sub_nan, nan_mul, if_neg (nan_lt _)]
          rw [if_neg (by rintro ⟨h, -⟩; exact nan_lt _ h)]
          exact ih st (by simpa using h)
  unfold nnSearchD
  by_cases h0 : t.n = 0
  · rw [if_pos h0]; exact .inl rfl
  · rw [if_neg h0]
    unfold walkDownD
    have hnil : t.root.isNil = false := by
      cases hr : t.root with
      | nil => unfold BT.WF at hw; rw [hr] at hw; simp [BinTree.Tree.size] at hw; exact absurd hw h0
      | node => rfl
    rw [hnil, if_neg (by simp)]
    rcases walkD_length data K (fun _ => .nan) t.root [] with h | ⟨st, h, h'⟩
    · rw [h]; exact .inr rfl
    · rw [h]
      unfold BT.WF at hw
      exact key t.n st (by simpa [hw] using h')

/-! ### one triangle -/

/-- The reference triangle. -/
def refCell : Cell 2 2 := ⟨unitTri, fun i j => .fin (if i = j then 1 else 0), id⟩
/-- Sums from left to right. -/
def plainSums : Sums 2 2 := ⟨fun _ => .plus (.term 0) (.term 1), .plus (.term 0) (.term 1), .plus (.term 0) (.term 1)⟩
/-- A mesh of one triangle. -/
def refMesh : DMesh 2 2 := ⟨fun _ => refCell, 1, ![0, 0], ![1, 1]⟩

theorem plain_whole : plainSums.Whole := by
  refine ⟨fun i k => ?_, fun k => ?_, fun k => ?_⟩ <;> fin_cases k <;> simp [plainSums, Order.Has]

theorem refMesh_sized : refMesh.Sized := by
  have h1 : (2 : ℝ) ^ (-1022 : ℤ) ≤ 1 := zpow_le_one_of_nonpos₀ one_le_two (by norm_num)
  have h2 : (1 : ℝ) ≤ (2 : ℝ) ^ (1022 : ℤ) := one_le_zpow₀ one_le_two (by norm_num)
  refine ⟨fun i _ v k => ?_, fun i _ v k => ?_, fun k => ?_, fun k => ?_⟩
  · fin_cases v <;> fin_cases k <;> simp [refMesh, refCell, unitTri]
  · fin_cases v <;> fin_cases k <;> simp [refMesh, refCell, unitTri]
  · fin_cases k <;> simpa [refMesh] using h1
  · fin_cases k <;> simpa [refMesh] using h2

theorem round_zero : Dbl.round 0 = .fin 0 := by
  have h : fit 0 = 0 := fit_format ⟨0, 0, by norm_num, by norm_num, by norm_num⟩
  rw [round_of_lt (by rw [h, abs_zero]; positivity), h]

/-- **C153 fails for infinite locations in `contains` and in the barycentric walk**: on the triangle of vertices (0, 0), (1, 0) and (0, 1) the location (inf, 0) is
reported to be on a vertex, and the walk returns the triangle (0 times infinity is not a number and passes every test). -/
theorem C153_bug_infinite (eps : ℝ) (fuel : Nat) :
    refCell.contains plainSums (.fin eps) ![.inf false, .fin 0] = .onVertex ∧
    refMesh.walkLoop (fun _ => plainSums) (fun _ _ => -1) (fun _ => 0) (.fin eps) ![.inf false, .fin 0] (fuel + 1) 0 [] = some (.ok 0) := by
  have e0 : (Dbl.fin 0).sub (.fin 0) = .fin 0 := by
    show Dbl.round (0 + -0) = _
    rw [neg_zero, add_zero, round_zero]
  have z0 : refCell.bary plainSums ![.inf false, .fin 0] 1 = .inf false := by
    show (((Dbl.fin (if (0 : Fin 2) = 0 then 1 else 0)).mul ((Dbl.inf false).sub (.fin 0))).add
      ((Dbl.fin (if (0 : Fin 2) = 1 then 1 else 0)).mul ((Dbl.fin 0).sub (.fin 0)))) = _
    rw [e0]
    simp [Dbl.sub, Dbl.neg, Dbl.add, Dbl.mul, round_zero]
  have z1 : refCell.bary plainSums ![.inf false, .fin 0] 2 = .nan := by
    show (((Dbl.fin (if (1 : Fin 2) = 0 then 1 else 0)).mul ((Dbl.inf false).sub (.fin 0))).add
      ((Dbl.fin (if (1 : Fin 2) = 1 then 1 else 0)).mul ((Dbl.fin 0).sub (.fin 0)))) = _
    rw [e0]
    simp [Dbl.sub, Dbl.neg, Dbl.add, Dbl.mul, round_zero]
  have z2 : refCell.bary plainSums ![.inf false, .fin 0] 0 = .nan := by
    show (Dbl.fin 1).sub ((refCell.bary plainSums ![.inf false, .fin 0] 1).add (refCell.bary plainSums ![.inf false, .fin 0] 2)) = _
    rw [z1, add_nan, sub_nan]
  have hc : refCell.contains plainSums (.fin eps) ![.inf false, .fin 0] = .onVertex := by
    unfold Cell.contains
    rw [if_neg (by simp), if_neg]
    · have : (Finset.univ.filter fun i => refCell.bary plainSums ![.inf false, .fin 0] i > .fin eps) = {1} := by
        ext i
        simp only [Finset.mem_filter, Finset.mem_univ, true_and, Finset.mem_singleton]
        fin_cases i
        · show (Dbl.fin eps < refCell.bary plainSums ![.inf false, .fin 0] 0) ↔ _
          rw [z2]
          simpa using lt_nan _
        · show (Dbl.fin eps < refCell.bary plainSums ![.inf false, .fin 0] 1) ↔ _
          rw [z0]
          simp [lt_def, Dbl.Lt]
        · show (Dbl.fin eps < refCell.bary plainSums ![.inf false, .fin 0] 2) ↔ _
          rw [z1]
          simpa using lt_nan _
      simp [this]
    · rintro ⟨i, h⟩
      fin_cases i
      · exact nan_lt _ (z2 ▸ h)
      · have h' : Dbl.Lt (refCell.bary plainSums ![.inf false, .fin 0] 1) (.fin (-eps)) := h
        rw [z0] at h'
        cases h'
      · exact nan_lt _ (z1 ▸ h)
  refine ⟨hc, ?_⟩
  have hc' : ((refMesh.cell 0).contains plainSums (.fin eps) ![.inf false, .fin 0]) = .onVertex := hc
  rw [DMesh.walkLoop, if_pos ⟨le_rfl, by simp [refMesh]⟩]
  simp [hc']

example (nth) (h : NthContract nth) : refMesh.locate (fun _ => plainSums) nth id (.fin 0) (fun _ => .nan) = some (.ok 0) := by
  obtain ⟨c, hc, e⟩ := C153_bug_tree (by norm_num) (by norm_num) refMesh refMesh_sized (by simp [refMesh]) (fun _ => plainSums) (fun _ => plain_whole) nth h id
    (fun _ => .rfl) (.fin 0)
  have : c = 0 := by simpa [refMesh] using hc
  rw [e, this]
  rfl

example (nth) (h : NthContract nth) : refMesh.locate (fun _ => plainSums) nth id (.fin 0) ![.inf false, .fin 0] = some (.ok (-1)) :=
  C153_tree_infinite_partial refMesh refMesh_sized (by simp [refMesh]) _ nth h id (fun _ => .rfl) _ _ (k := 0) (s := false) rfl

example : refMesh.walkLoop (fun _ => plainSums) (fun _ _ => -1) (fun _ => 0) (.fin 0) ![.fin 5, .nan] 1 0 [] = some (.ok 0) :=
  C153_bug_walk (by norm_num) refMesh _ (fun _ => plain_whole) _ _ _ _ (k := 1) rfl 0 (by simp [refMesh]) 0

end
end Fdapde.Geometry.Dp
