import Verif.LinAlg.Model
import Mathlib.Tactic.SplitIfs
import Mathlib.Data.Nat.Basic
/- C37 and C38: SparseBlockMatrix. -/
namespace Fdapde.LinAlg

/-- Sum of the first `k` sizes. -/
def psum (f : Nat → Nat) (k : Nat) : Nat := ((List.range k).map f).sum

theorem psum_succ (f : Nat → Nat) (k : Nat) : psum f (k + 1) = psum f k + f k := by
  simp [psum, List.range_succ]

theorem psum_mono (f : Nat → Nat) {a b : Nat} (h : a ≤ b) : psum f a ≤ psum f b := by
  induction h with
  | refl => exact Nat.le_refl _
  | step _ ih => rw [psum_succ]; omega

/-- The blocks fit: block (r, c) has the height of the first block of its row and the width of the first block of its
column. -/
def Compat (C N : Nat) (shape : Nat → Nat × Nat) : Prop :=
  ∀ i < N, shape i = ((shape (i / C * C)).1, (shape (i % C)).2)

/-- Offsets and sizes after `N` arguments. -/
def shapeOf (C N : Nat) (shape : Nat → Nat × Nat) : SBShape :=
  let w := fun c => (shape c).2
  let h := fun r => (shape (r * C)).1
  let nc := min N C
  let nr := (N + C - 1) / C
  ⟨(List.range (nc + 1)).map (psum w), (List.range (nr + 1)).map (psum h), (List.range nc).map w, (List.range nr).map h,
    psum w nc, psum h nr⟩

theorem ceil_step {C N : Nat} (hC : 0 < C) :
    (N % C = 0 → (N + C - 1) / C = N / C ∧ (N + 1 + C - 1) / C = N / C + 1) ∧
    (N % C ≠ 0 → (N + C - 1) / C = N / C + 1 ∧ (N + 1 + C - 1) / C = N / C + 1) := by
  have hN := Nat.div_add_mod N C
  have hlt := Nat.mod_lt N hC
  constructor
  · intro h
    constructor
    · apply Nat.div_eq_of_lt_le
      · rw [Nat.mul_comm]; omega
      · rw [Nat.add_mul, Nat.mul_comm]; omega
    · apply Nat.div_eq_of_lt_le
      · rw [Nat.add_mul, Nat.mul_comm]; omega
      · rw [Nat.add_mul, Nat.add_mul, Nat.mul_comm]; omega
  · intro h
    constructor
    · apply Nat.div_eq_of_lt_le
      · rw [Nat.add_mul, Nat.mul_comm]; omega
      · rw [Nat.add_mul, Nat.add_mul, Nat.mul_comm]; omega
    · apply Nat.div_eq_of_lt_le
      · rw [Nat.add_mul, Nat.mul_comm]; omega
      · rw [Nat.add_mul, Nat.add_mul, Nat.mul_comm]; omega

theorem getLastD_map_range (f : Nat → Nat) (k : Nat) : ((List.range (k + 1)).map f).getLastD 0 = f k := by
  simp [List.range_succ]

theorem map_range_succ' (f : Nat → Nat) (k : Nat) : (List.range (k + 1)).map f = (List.range k).map f ++ [f k] := by
  simp [List.range_succ]

theorem sbStep_spec {C N : Nat} (hC : 0 < C) (shape : Nat → Nat × Nat) :
    sbStep C (shapeOf C N shape) N (shape N).1 (shape N).2 =
      if shape N = ((shape (N / C * C)).1, (shape (N % C)).2) then .ok (shapeOf C (N + 1) shape) else .throws := by
  obtain ⟨hz, hnz⟩ := ceil_step (N := N) hC
  have hN := Nat.div_add_mod N C
  have hlt := Nat.mod_lt N hC
  have hdiv : N / C = 0 ↔ N < C := Nat.div_eq_zero_iff_lt hC
  by_cases hr : N / C = 0
  · have hNC := hdiv.1 hr
    have hmod : N % C = N := Nat.mod_eq_of_lt hNC
    have hmin : min N C = N := by omega
    have hmin' : min (N + 1) C = N + 1 := by omega
    by_cases hc : N % C = 0
    · obtain ⟨q1, q2⟩ := hz hc
      have h0 : N = 0 := by omega
      subst h0
      simp only [sbStep, shapeOf, hr, hc, q1, q2, hmin, hmin', true_or, and_self, if_true]
      simp [psum, List.range_succ]
    · obtain ⟨q1, q2⟩ := hnz hc
      rw [hr] at q1 q2
      have hin : ((List.range (0 + 1)).map fun r => (shape (r * C)).1)[0]? = some (shape 0).1 := by simp
      simp only [sbStep, shapeOf, hr, hmod, true_or, true_and, if_true]
      have hN0 : ¬ N = 0 := by omega
      simp only [hN0, false_or, if_false, hmin, hmin', q1, q2, hin, Option.some.injEq]
      by_cases he : (shape 0).1 = (shape N).1
      · have : shape N = ((shape (0 * C)).1, (shape N).2) := by simp [he]
        rw [if_pos he, if_pos this]
        congr 1
        simp only [SBShape.mk.injEq, and_true, true_and]
        refine ⟨?_, ?_, ?_⟩
        · rw [getLastD_map_range, map_range_succ' _ (N + 1), psum_succ]; simp [Nat.add_comm]
        · rw [map_range_succ' _ N]
        · rw [psum_succ]
      · have : ¬ shape N = ((shape (0 * C)).1, (shape N).2) := by
          intro h; apply he; rw [h]; simp
        rw [if_neg he, if_neg this]
  · have hNC : C ≤ N := by omega
    have hmin : min N C = C := by omega
    have hmin' : min (N + 1) C = C := by omega
    have hout : ((List.range (min N C)).map fun c => (shape c).2)[N % C]? = some (shape (N % C)).2 := by
      rw [hmin]; simp [hlt]
    by_cases hc : N % C = 0
    · obtain ⟨q1, q2⟩ := hz hc
      have hNe : N / C * C = N := by rw [Nat.mul_comm]; omega
      have hout' : ((List.range C).map fun c => (shape c).2)[0]? = some (shape 0).2 := by simp [hC]
      simp only [sbStep, shapeOf, hr, hc, false_or, true_or, and_true, if_true, if_false, hNe, q1, q2, hmin, hmin', hout', Option.some.injEq]
      by_cases he : (shape 0).2 = (shape N).2
      · have : shape N = ((shape N).1, (shape 0).2) := by simp [he]
        rw [if_pos he, if_pos this]
        congr 1
        simp only [SBShape.mk.injEq, true_and]
        refine ⟨?_, ?_, ?_⟩
        · rw [getLastD_map_range, map_range_succ' _ (N / C + 1), psum_succ]; simp [Nat.add_comm, hNe]
        · rw [map_range_succ' _ (N / C), hNe]
        · rw [psum_succ, hNe]
      · have : ¬ shape N = ((shape N).1, (shape 0).2) := by
          intro h; apply he; rw [h]
        rw [if_neg he, if_neg this]
    · obtain ⟨q1, q2⟩ := hnz hc
      have hin : ((List.range (N / C + 1)).map fun r => (shape (r * C)).1)[N / C]? = some (shape (N / C * C)).1 := by simp
      rw [hmin] at hout
      simp only [sbStep, shapeOf, hr, hc, false_or, if_false, q1, q2, hmin, hmin', hout, hin, Option.some.injEq]
      by_cases he : shape N = ((shape (N / C * C)).1, (shape (N % C)).2)
      · rw [if_pos he, if_pos]; rw [he]; simp
      · rw [if_neg he, if_neg]
        rintro ⟨h1, h2⟩; exact he (by rw [h1, h2])

theorem sbBuild_spec {C : Nat} (hC : 0 < C) (N : Nat) (shape : Nat → Nat × Nat) :
    (Compat C N shape → sbBuild C N shape = .ok (shapeOf C N shape)) ∧ (¬ Compat C N shape → sbBuild C N shape = .throws) := by
  induction N with
  | zero =>
      refine ⟨fun _ => ?_, fun h => absurd (fun i hi => absurd hi (by omega)) h⟩
      have : (C - 1) / C = 0 := Nat.div_eq_of_lt (by omega)
      simp [sbBuild, shapeOf, SBShape.init, psum, this]
  | succ N ih =>
      have hstep : sbBuild C (N + 1) shape = (sbBuild C N shape >>= fun s => sbStep C s N (shape N).1 (shape N).2) := by
        simp only [sbBuild, List.range_succ, foldRes_append, foldRes_cons, foldRes_nil]
        congr 1
        funext s
        cases sbStep C s N (shape N).1 (shape N).2 <;> rfl
      have hcomp : Compat C (N + 1) shape ↔ Compat C N shape ∧ shape N = ((shape (N / C * C)).1, (shape (N % C)).2) := by
        constructor
        · intro h; exact ⟨fun i hi => h i (by omega), h N (by omega)⟩
        · rintro ⟨h1, h2⟩ i hi
          by_cases hiN : i = N
          · subst hiN; exact h2
          · exact h1 i (by omega)
      rw [hstep, hcomp]
      constructor
      · rintro ⟨h1, h2⟩
        rw [ih.1 h1, Res.ok_bind, sbStep_spec hC, if_pos h2]
      · intro h
        by_cases h1 : Compat C N shape
        · rw [ih.1 h1, Res.ok_bind, sbStep_spec hC, if_neg (fun h2 => h ⟨h1, h2⟩)]
        · rw [ih.2 h1, Res.throws_bind]

/-- The constructor accepts exactly the arguments whose sizes fit, and throws otherwise. -/
theorem C37_constructor {R C : Nat} (hC : 0 < C) (shape : Nat → Nat × Nat) :
    ((∃ s, sbBuild C (R * C) shape = .ok s) ↔
      ∃ (h w : Nat → Nat), ∀ r < R, ∀ c < C, shape (r * C + c) = (h r, w c)) ∧
    ((¬ ∃ (h w : Nat → Nat), ∀ r < R, ∀ c < C, shape (r * C + c) = (h r, w c)) → sbBuild C (R * C) shape = .throws) := by
  have hiff : Compat C (R * C) shape ↔ ∃ (h w : Nat → Nat), ∀ r < R, ∀ c < C, shape (r * C + c) = (h r, w c) := by
    constructor
    · intro h
      refine ⟨fun r => (shape (r * C)).1, fun c => (shape c).2, fun r hr c hc => ?_⟩
      have hi : r * C + c < R * C := by
        have : (r + 1) * C ≤ R * C := Nat.mul_le_mul_right C hr
        rw [Nat.add_mul] at this; omega
      have := h _ hi
      rw [Nat.mul_comm r C, Nat.mul_add_div hC, Nat.div_eq_of_lt hc, Nat.mul_add_mod, Nat.mod_eq_of_lt hc, Nat.add_zero] at this
      rw [Nat.mul_comm r C]
      exact this
    · rintro ⟨h, w, hs⟩ i hi
      have hr : i / C < R := (Nat.div_lt_iff_lt_mul hC).2 hi
      have hc : i % C < C := Nat.mod_lt _ hC
      have e := hs (i / C) hr (i % C) hc
      rw [Nat.mul_comm, Nat.div_add_mod] at e
      have e1 := hs (i / C) hr 0 hC
      rw [Nat.add_zero] at e1
      have e2 := hs 0 (Nat.lt_of_le_of_lt (Nat.zero_le _) hr) (i % C) hc
      rw [Nat.zero_mul, Nat.zero_add] at e2
      rw [e, e1, e2]
  obtain ⟨b1, b2⟩ := sbBuild_spec hC (R * C) shape
  rw [← hiff]
  refine ⟨⟨?_, fun h => ⟨_, b1 h⟩⟩, b2⟩
  rintro ⟨s, hs⟩
  by_contra h
  rw [b2 h] at hs; cases hs

/-! ### coefficients -/

theorem upperBound_spec (f : Nat → Nat) (n b i : Nat) (hb : b < n) (h1 : psum f b ≤ i) (h2 : i < psum f (b + 1)) :
    upperBound ((List.range (n + 1)).map (psum f)) i = b + 1 := by
  have hlen : b + 1 < ((List.range (n + 1)).map (psum f)).length := by simp; omega
  have := (List.findIdx_eq (p := fun x => decide (i < x)) hlen).2
  unfold upperBound
  apply this
  refine ⟨by simpa using h2, fun j hj => ?_⟩
  have : psum f j ≤ psum f b := psum_mono f (by omega)
  simp; omega

/-- Every coefficient (i, j) of the matrix lies in exactly one block, and reading it returns the coefficient of that block
at the relative position: for every block (r, c) and position (a, b) inside it, the coefficient at row
(heights of the previous block rows) + a and column (widths of the previous block columns) + b is the block's. -/
theorem C37_coefficients {α : Type} {R C : Nat} (_hC : 0 < C) (blocks : List (Mat α)) (h w : Nat → Nat)
    (hlen : blocks.length = R * C)
    (hs : ∀ r < R, ∀ c < C, ∃ M, blocks[r * C + c]? = some M ∧ M.rows = h r ∧ M.cols = w c)
    (r c a b : Nat) (hr : r < R) (hc : c < C) (ha : a < h r) (hb : b < w c) (s : SBShape)
    (hb0 : sbBuild C (R * C) (fun i => ((blocks[i]?).elim (0, 0) fun M => (M.rows, M.cols))) = .ok s) :
    s.rows = psum h R ∧ s.cols = psum w C ∧
    ∃ M, blocks[r * C + c]? = some M ∧ sbCoeff C s blocks (psum h r + a) (psum w c + b) = .ok (M.coeff a b) := by
  have _ := hlen
  have hC : 0 < C := by omega
  have hcompat : Compat C (R * C) (fun i => ((blocks[i]?).elim (0, 0) fun M => (M.rows, M.cols))) := by
    by_contra hn
    rw [(sbBuild_spec hC _ _).2 hn] at hb0; cases hb0
  rw [(sbBuild_spec hC _ _).1 hcompat] at hb0
  cases hb0
  have hR : (R * C + C - 1) / C = R := by
    apply Nat.div_eq_of_lt_le
    · omega
    · rw [Nat.add_mul]; omega
  have hmin : min (R * C) C = C := by
    have : 1 * C ≤ R * C := Nat.mul_le_mul_right C (by omega)
    omega
  have hh : ∀ r' < R, ((blocks[r' * C]?).elim (0, 0) fun M => (M.rows, M.cols)).1 = h r' := by
    intro r' hr'
    obtain ⟨M, h1, h2, _⟩ := hs r' hr' 0 hC
    rw [Nat.add_zero] at h1; rw [h1]; exact h2
  have hw : ∀ c' < C, ((blocks[c']?).elim (0, 0) fun M => (M.rows, M.cols)).2 = w c' := by
    intro c' hc'
    obtain ⟨M, h1, _, h3⟩ := hs 0 (by omega) c' hc'
    rw [Nat.zero_mul, Nat.zero_add] at h1; rw [h1]; exact h3
  have pcongr : ∀ (f g : Nat → Nat) (k : Nat), (∀ i < k, f i = g i) → psum f k = psum g k := by
    intro f g k hfg
    unfold psum
    congr 1
    exact List.map_congr_left (fun i hi => hfg i (List.mem_range.1 hi))
  have hinner : (shapeOf C (R * C) (fun i => ((blocks[i]?).elim (0, 0) fun M => (M.rows, M.cols)))).innerOffset =
      (List.range (R + 1)).map (psum h) := by
    simp only [shapeOf, hR]
    apply List.map_congr_left
    intro i hi
    have := List.mem_range.1 hi
    exact pcongr _ _ _ (fun j hj => hh j (by omega))
  have houter : (shapeOf C (R * C) (fun i => ((blocks[i]?).elim (0, 0) fun M => (M.rows, M.cols)))).outerOffset =
      (List.range (C + 1)).map (psum w) := by
    simp only [shapeOf, hmin]
    apply List.map_congr_left
    intro i hi
    have := List.mem_range.1 hi
    exact pcongr _ _ _ (fun j hj => hw j (by omega))
  have hrows : (shapeOf C (R * C) (fun i => ((blocks[i]?).elim (0, 0) fun M => (M.rows, M.cols)))).rows = psum h R := by
    simp only [shapeOf, hR]; exact pcongr _ _ _ hh
  have hcols : (shapeOf C (R * C) (fun i => ((blocks[i]?).elim (0, 0) fun M => (M.rows, M.cols)))).cols = psum w C := by
    simp only [shapeOf, hmin]; exact pcongr _ _ _ hw
  refine ⟨hrows, hcols, ?_⟩
  obtain ⟨M, hM, hMr, hMc⟩ := hs r hr c hc
  refine ⟨M, hM, ?_⟩
  have u1 := upperBound_spec h R r (psum h r + a) hr (by omega) (by rw [psum_succ]; omega)
  have u2 := upperBound_spec w C c (psum w c + b) hc (by omega) (by rw [psum_succ]; omega)
  have lr : psum h r + a < psum h R := by
    have := psum_mono h (show r + 1 ≤ R by omega); rw [psum_succ] at this; omega
  have lc : psum w c + b < psum w C := by
    have := psum_mono w (show c + 1 ≤ C by omega); rw [psum_succ] at this; omega
  have g1 : ((List.range (R + 1)).map (psum h))[r]? = some (psum h r) := by
    rw [List.getElem?_map, List.getElem?_range (by omega)]; rfl
  have g2 : ((List.range (C + 1)).map (psum w))[c]? = some (psum w c) := by
    rw [List.getElem?_map, List.getElem?_range (by omega)]; rfl
  simp only [sbCoeff, hrows, hcols, lr, lc, and_self, if_true, blockIndex, indexToBlock, hinner, houter, u1, u2, Nat.add_sub_cancel,
    Nat.succ_ne_zero, if_false, hM, g1, g2, Res.ofOptionUB_some, Res.ok_bind, Res.map_ok, Mat.get]
  rw [if_pos]
  · congr 1 <;> congr 1 <;> omega
  · omega

/-- Every position of the matrix is of the form used in C37_coefficients. -/
theorem C37_covers (f : Nat → Nat) (n i : Nat) (hi : i < psum f n) : ∃ b < n, ∃ a < f b, i = psum f b + a := by
  induction n with
  | zero => simp [psum] at hi
  | succ n ih =>
      by_cases h : i < psum f n
      · obtain ⟨b, hb, a, ha, e⟩ := ih h
        exact ⟨b, by omega, a, ha, e⟩
      · rw [psum_succ] at hi
        exact ⟨n, by omega, i - psum f n, by omega, by omega⟩

/-- Out of range positions throw. -/
theorem C37_out_of_range {α : Type} (C : Nat) (s : SBShape) (blocks : List (Mat α)) (i j : Nat)
    (h : ¬ (i < s.rows ∧ j < s.cols)) : sbCoeff C s blocks i j = .throws := by
  simp only [sbCoeff, h, if_false]

/-- 2 x 2 blocks, the first block row of height 0. -/
def demoBlocks : List (Mat Nat) := [⟨0, 1, fun _ _ => 7⟩, ⟨0, 2, fun _ _ => 8⟩, ⟨2, 1, fun i j => 10 * i + j⟩, ⟨2, 2, fun i j => 100 * i + j⟩]

example : ∃ s, sbBuild 2 4 (fun i => ((demoBlocks[i]?).elim (0, 0) fun M => (M.rows, M.cols))) = .ok s ∧
    sbCoeff 2 s demoBlocks 1 2 = .ok 101 ∧ s.rows = 2 ∧ s.cols = 3 := ⟨⟨[0, 1, 3], [0, 0, 2], [1, 2], [0, 2], 3, 2⟩, by decide, by decide, rfl, rfl⟩

/-! ### C38 -/

/-- What iterating a column has to deliver: the stored entries of each block of the block column, with rows shifted by the
heights of the blocks above. -/
def colSpec {R : Type} : Nat → List (Nat × List (Nat × R)) → List (Nat × R)
  | _, [] => []
  | o, (h, l) :: bs => l.map (fun p => (o + p.1, p.2)) ++ colSpec (o + h) bs

/-- What the code delivers: rows of block `b` are shifted by `b` times the height of the first block. -/
def colCode {R : Type} (h0 : Nat) : Nat → List (Nat × List (Nat × R)) → List (Nat × R)
  | _, [] => []
  | o, (_, l) :: bs => l.map (fun p => (o + p.1, p.2)) ++ colCode h0 (o + h0) bs

/-- Remaining output of an iterator state. -/
def SBIt.pending {R : Type} (colB : List (Nat × List (Nat × R))) (it : SBIt R) : List (Nat × R) :=
  it.inner.map (fun p => (it.off + p.1, p.2)) ++
    colCode (colB.getD 0 (0, [])).1 (it.off + (colB.getD 0 (0, [])).1) (colB.drop (it.blk + 1))

theorem SBIt.next_spec {R : Type} (colB : List (Nat × List (Nat × R))) :
    ∀ (f : Nat) (it : SBIt R), it.blk < colB.length → colB.length - it.blk < f →
    ∃ it', SBIt.next colB f it = some it' ∧ it'.blk < colB.length ∧
      match it.pending colB with
      | [] => it'.index = -1
      | x :: l => it'.index = (x.1 : Int) ∧ it'.value = some x.2 ∧ it'.pending colB = l := by
  intro f
  induction f with
  | zero => intro it h1 h2; omega
  | succ f ih =>
      intro it h1 h2
      obtain ⟨inner, blk, off, idx, val⟩ := it
      simp only at h1 h2
      cases inner with
      | cons p rest =>
          exact ⟨⟨rest, blk, off, ((off + p.1 : Nat) : Int), some p.2⟩, rfl, h1, by simp [SBIt.pending]⟩
      | nil =>
          by_cases hb : blk = colB.length - 1
          · refine ⟨⟨[], blk, off, -1, val⟩, by simp [SBIt.next, hb], h1, ?_⟩
            have : colB.drop (blk + 1) = [] := List.drop_eq_nil_of_le (by omega)
            simp [SBIt.pending, this, colCode]
          · have hd : colB.drop (blk + 1) = (colB.getD (blk + 1) (0, [])) :: colB.drop (blk + 2) := by
              rw [List.drop_eq_getElem_cons (by omega)]
              congr 1
              rw [List.getD_eq_getElem?_getD, List.getElem?_eq_getElem (by omega)]; rfl
            obtain ⟨it', e1, e2, e3⟩ := ih ⟨(colB.getD (blk + 1) (0, [])).2, blk + 1, off + (colB.getD 0 (0, [])).1, idx, val⟩
              (by simp only; omega) (by simp only; omega)
            refine ⟨it', ?_, e2, ?_⟩
            · simp only [SBIt.next, hb, if_false]; exact e1
            · have : SBIt.pending colB ⟨[], blk, off, idx, val⟩ =
                  SBIt.pending colB ⟨(colB.getD (blk + 1) (0, [])).2, blk + 1, off + (colB.getD 0 (0, [])).1, idx, val⟩ := by
                simp only [SBIt.pending, List.map_nil, List.nil_append]
                rw [hd]
                generalize colB.getD (blk + 1) (0, []) = q
                obtain ⟨qh, ql⟩ := q
                simp [colCode]
              rw [this]; exact e3

theorem SBIt.collect_spec {R : Type} (colB : List (Nat × List (Nat × R))) :
    ∀ (l : List (Nat × R)) (it it' : SBIt R) (f : Nat), it.blk < colB.length → SBIt.next colB (colB.length + 1) it = some it' →
      it.pending colB = l → l.length < f → SBIt.collect colB f it' = some (l.map fun x => ((x.1 : Int), some x.2)) := by
  intro l
  induction l with
  | nil =>
      intro it it' f h1 h2 hp hf
      obtain ⟨it'', e1, e2, e3⟩ := SBIt.next_spec colB (colB.length + 1) it h1 (by omega)
      rw [h2] at e1; cases e1
      rw [hp] at e3
      have e3 : it'.index = -1 := e3
      obtain ⟨f, rfl⟩ : ∃ g, f = g + 1 := ⟨f - 1, by simp at hf; omega⟩
      simp [SBIt.collect, e3]
  | cons x l ih =>
      intro it it' f h1 h2 hp hf
      obtain ⟨it'', e1, e2, e3⟩ := SBIt.next_spec colB (colB.length + 1) it h1 (by omega)
      rw [h2] at e1; cases e1
      rw [hp] at e3
      obtain ⟨i1, i2, i3⟩ := e3
      obtain ⟨f, rfl⟩ : ∃ g, f = g + 1 := ⟨f - 1, by simp at hf; omega⟩
      obtain ⟨it3, g1, _, _⟩ := SBIt.next_spec colB (colB.length + 1) it' e2 (by omega)
      have := ih it' it3 f e2 g1 i3 (by simp at hf; omega)
      simp [SBIt.collect, i1, g1, this, i2]

/-- Total number of stored entries of the block column. -/
def nnz {R : Type} (colB : List (Nat × List (Nat × R))) : Nat := (colB.map fun b => b.2.length).sum

theorem colCode_length {R : Type} (h0 o : Nat) (bs : List (Nat × List (Nat × R))) : (colCode h0 o bs).length = nnz bs := by
  induction bs generalizing o with
  | nil => rfl
  | cons b bs ih => obtain ⟨h, l⟩ := b; simp [colCode, nnz, ih]

/-- What the code computes, for every block column: iteration terminates and visits each stored entry once, in order; the
rows of block number b are shifted by b times the height of the first block. -/
theorem sb_collect {R : Type} (colB : List (Nat × List (Nat × R))) (hne : colB ≠ []) :
    ∃ it, SBIt.make colB = some it ∧ ∀ f, nnz colB < f →
      SBIt.collect colB f it = some ((colCode (colB.getD 0 (0, [])).1 0 colB).map fun x => ((x.1 : Int), some x.2)) := by
  have hpos : 0 < colB.length := List.length_pos_of_ne_nil hne
  obtain ⟨it', e1, e2, _⟩ := SBIt.next_spec colB (colB.length + 1) ⟨(colB.getD 0 (0, [])).2, 0, 0, 0, none⟩ (by simpa using hpos) (by simp)
  refine ⟨it', e1, fun f hf => ?_⟩
  refine SBIt.collect_spec colB _ _ it' f (by simpa using hpos) e1 ?_ (by rw [colCode_length]; exact hf)
  cases colB with
  | nil => exact absurd rfl hne
  | cons b bs => obtain ⟨h, l⟩ := b; simp [SBIt.pending, colCode]

theorem colCode_eq_colSpec {R : Type} (h0 : Nat) (bs : List (Nat × List (Nat × R))) (o : Nat)
    (hh : ∀ b ∈ bs.dropLast, b.1 = h0) : colCode h0 o bs = colSpec o bs := by
  induction bs generalizing o with
  | nil => rfl
  | cons b bs ih =>
      obtain ⟨h, l⟩ := b
      cases bs with
      | nil => simp [colCode, colSpec]
      | cons b' bs' =>
          have h1 : h = h0 := hh (h, l) (by simp [List.dropLast])
          rw [colCode, colSpec, ih (o + h0) (fun b hb => hh b (by simp only [List.dropLast] at hb ⊢; exact List.mem_cons_of_mem _ hb)), h1]

/-- Iterating a column visits every stored entry of the blocks exactly once, with its global row index, provided all
block rows but the last have the same height; in particular with one or two block rows.
Missing: block rows of different heights, where the row indices are wrong (C38_bug_offsets). -/
theorem C38_iteration_partial {R : Type} (colB : List (Nat × List (Nat × R))) (hne : colB ≠ [])
    (hh : ∀ b ∈ colB.dropLast, b.1 = (colB.getD 0 (0, [])).1) :
    ∃ it, SBIt.make colB = some it ∧ ∀ f, nnz colB < f →
      SBIt.collect colB f it = some ((colSpec 0 colB).map fun x => ((x.1 : Int), some x.2)) := by
  obtain ⟨it, h1, h2⟩ := sb_collect colB hne
  exact ⟨it, h1, fun f hf => by rw [h2 f hf, colCode_eq_colSpec _ _ _ hh]⟩

/-- With two block rows the iteration is right whatever the heights. -/
theorem C38_two_block_rows {R : Type} (b0 b1 : Nat × List (Nat × R)) :
    ∃ it, SBIt.make [b0, b1] = some it ∧ ∀ f, nnz [b0, b1] < f →
      SBIt.collect [b0, b1] f it =
        some ((b0.2.map fun p => ((p.1 : Int), some p.2)) ++ b1.2.map fun p => (((b0.1 + p.1 : Nat) : Int), some p.2)) := by
  obtain ⟨it, h1, h2⟩ := C38_iteration_partial [b0, b1] (by simp) (by simp)
  refine ⟨it, h1, fun f hf => ?_⟩
  rw [h2 f hf]
  simp [colSpec]

/-- For any heights, the values visited are the stored values, each once and in storage order. -/
theorem C38_values_partial {R : Type} (colB : List (Nat × List (Nat × R))) (hne : colB ≠ []) :
    ∃ it, SBIt.make colB = some it ∧ ∀ f, nnz colB < f →
      ∃ l, SBIt.collect colB f it = some l ∧ l.map Prod.snd = (colB.flatMap fun b => b.2.map fun p => some p.2) := by
  obtain ⟨it, h1, h2⟩ := sb_collect colB hne
  refine ⟨it, h1, fun f hf => ⟨_, h2 f hf, ?_⟩⟩
  generalize (colB.getD 0 (0, [])).1 = h0
  generalize 0 = o
  clear h1 h2 hf hne
  induction colB generalizing o with
  | nil => rfl
  | cons b bs ih =>
      obtain ⟨h, l⟩ := b
      simp only [colCode, List.map_append, List.flatMap_cons, ih]
      simp [Function.comp_def]

/-- Three block rows of heights 1, 2, 2: the entry stored in the first row of the third block belongs to global row 3,
iteration reports row 2 (`innerOffset` is advanced by the height of the block in the first row instead of the one just
left). -/
theorem C38_bug_offsets : ∃ it, SBIt.make [(1, []), (2, []), (2, [(0, (5 : Int))])] = some it ∧
    SBIt.collect [(1, []), (2, []), (2, [(0, (5 : Int))])] 5 it = some [(2, some 5)] ∧
    colSpec 0 [(1, []), (2, []), (2, [(0, (5 : Int))])] = [(3, 5)] := by
  obtain ⟨it, h1, h2⟩ := sb_collect [(1, []), (2, []), (2, [(0, (5 : Int))])] (by simp)
  exact ⟨it, h1, h2 5 (by decide), by decide⟩

end Fdapde.LinAlg
