import Mathlib.Data.Nat.Prime.Basic
import Verif.BinMtx.Lemmas3
/-
Properties C01–C10 of binary matrices.
-/
namespace Fdapde.BinMtx

/-! ## C01 : set / clear / read -/

/-- **C01.** Starting from a fresh `r × c` matrix, after any history of `set`/`clear` calls no
undefined behaviour has occurred, the calls that threw are exactly those with an index that is too
large, and reading any in-range coefficient returns the value of the abstract Boolean matrix
(last write wins, initially all false). -/
theorem C01_history (r c : Nat) (ws : List Write) :
    ∃ m, runWrites (BMat.zero r c) ws = some (m, specThrows r c ws) ∧
      Represents m r c (specWrites r c (fun _ _ => false) ws) := by
  have key : ∀ (ws : List Write) (m : BMat) (f : Nat → Nat → Bool), Stores m r c f →
      ∃ m', runWrites m ws = some (m', specThrows r c ws) ∧ Stores m' r c (specWrites r c f ws) := by
    intro ws
    induction ws with
    | nil => intro m f h; exact ⟨m, rfl, h⟩
    | cons w ws ih =>
      intro m f h
      have hr := h.2.1
      have hc := h.2.2.1
      cases w with
      | set i j =>
        by_cases hin : i < r ∧ j < c
        · obtain ⟨m1, h1, h2⟩ := h.set hin.1 hin.2
          obtain ⟨m2, h3, h4⟩ := ih m1 _ (h2.congr (g := fun a b => if i < r ∧ j < c ∧ a = i ∧ b = j then true else f a b)
            (by intro a b _ _; simp [hin.1, hin.2]))
          exact ⟨m2, by simp [runWrites, h1, h3, specThrows, hin.1, hin.2], h4⟩
        · have h1 := set_throws m i j (by omega)
          obtain ⟨m2, h3, h4⟩ := ih m _ (h.congr (g := fun a b => if i < r ∧ j < c ∧ a = i ∧ b = j then true else f a b)
            (by intro a b _ _; rw [if_neg]; omega))
          refine ⟨m2, ?_, h4⟩
          have : (!(decide (i < r) && decide (j < c))) = true := by
            simp only [Bool.not_eq_true', Bool.and_eq_false_iff, decide_eq_false_iff_not]; omega
          simp only [runWrites, h1, h3, specThrows, this]; rfl
      | clear i j =>
        by_cases hin : i < r ∧ j < c
        · obtain ⟨m1, h1, h2⟩ := h.clear hin.1 hin.2
          obtain ⟨m2, h3, h4⟩ := ih m1 _ (h2.congr (g := fun a b => if i < r ∧ j < c ∧ a = i ∧ b = j then false else f a b)
            (by intro a b _ _; simp [hin.1, hin.2]))
          exact ⟨m2, by simp [runWrites, h1, h3, specThrows, hin.1, hin.2], h4⟩
        · have h1 := clear_throws m i j (by omega)
          obtain ⟨m2, h3, h4⟩ := ih m _ (h.congr (g := fun a b => if i < r ∧ j < c ∧ a = i ∧ b = j then false else f a b)
            (by intro a b _ _; rw [if_neg]; omega))
          refine ⟨m2, ?_, h4⟩
          have : (!(decide (i < r) && decide (j < c))) = true := by
            simp only [Bool.not_eq_true', Bool.and_eq_false_iff, decide_eq_false_iff_not]; omega
          simp only [runWrites, h1, h3, specThrows, this]; rfl
  obtain ⟨m, h1, h2⟩ := key ws _ _ (zero_stores r c)
  exact ⟨m, h1, h2.represents⟩

/-- A concrete history crossing a pack boundary. -/
example : specWrites 9 9 (fun _ _ => false) [.set 7 0, .set 7 1, .clear 7 0, .set 9 0] 7 1 = true ∧
    specWrites 9 9 (fun _ _ => false) [.set 7 0, .set 7 1, .clear 7 0, .set 9 0] 7 0 = false ∧
    specThrows 9 9 [.set 7 0, .set 7 1, .clear 7 0, .set 9 0] = [false, false, false, true] := by decide

/-- **C01 (one write).** Writing one coefficient of any well-formed matrix leaves every other
coefficient as it was. -/
theorem C01_set_other (m : BMat) (hw : m.WF) (i j a b : Nat) (hi : i < m.rows) (hj : j < m.cols)
    (ha : a < m.rows) (hb : b < m.cols) :
    ∃ m', m.set i j = .ok m' ∧ m'.WF ∧ m'.read i j = .ok true ∧
      ((a, b) ≠ (i, j) → m'.read a b = m.read a b) := by
  have hst : Stores m m.rows m.cols (fun a b => storeBit m.data (a * m.cols + b)) :=
    ⟨hw, rfl, rfl, fun _ _ _ _ => rfl⟩
  obtain ⟨m', h1, h2⟩ := hst.set hi hj
  have h3 := h2.represents
  refine ⟨m', h1, h2.1, ?_, ?_⟩
  · rw [h3.2.2 i j hi hj]; simp
  · intro hne
    rw [h3.2.2 a b ha hb, hst.represents.2.2 a b ha hb]
    have : ¬ (a = i ∧ b = j) := by rintro ⟨rfl, rfl⟩; exact hne rfl
    simp [this]

example : (BMat.zero 9 9).WF := zero_WF 9 9

/-- The assertion in `set` only checks upper bounds (line 169): a negative column index passes and
silently writes a *different* coefficient. -/
theorem C01_bug_negative_index :
    ∃ m', (BMat.zero 2 2).set 1 (-1) = .ok m' ∧ m'.read 0 1 = .ok true := by
  refine ⟨_, rfl, ?_⟩
  decide

/-- `Ones` reads true everywhere. -/
theorem C01_ones (r c : Nat) : Represents (BMat.ones r c) r c (fun _ _ => true) := by
  have hw : (BMat.ones r c).WF := by simp [BMat.WF, BMat.ones]
  refine ⟨rfl, rfl, ?_⟩
  intro i j hi hj
  have hlt := hw.pos_lt (i := i) (j := j) hi hj
  rw [hw.read (i := i) (j := j) hi hj]
  congr 1
  have h2 : (i * (BMat.ones r c).cols + j) / 64 < (BMat.ones r c).data.length := by omega
  rw [storeBit_getElem _ _ h2]
  have h3 : (i * (BMat.ones r c).cols + j) % 64 < 64 := Nat.mod_lt _ (by omega)
  simp only [BMat.ones, List.getElem_replicate]
  rw [BitVec.getLsbD_not]
  simp only [BitVec.getLsbD_zero, Bool.not_false, Bool.and_true, decide_eq_true_eq]
  exact Nat.mod_lt _ (by omega)

/-- Construction from a dense (Eigen) matrix stores exactly its truth values. -/
theorem C01_ofDense (r c : Nat) (f : Nat → Nat → Bool) :
    ∃ m, BMat.ofDense r c f = .ok m ∧ m.WF ∧ Represents m r c f := by
  obtain ⟨m, h1, h2⟩ := ofDense_stores r c f
  exact ⟨m, h1, h2.1, h2.represents⟩

/-- `Identity(i,j)` is the identity pattern. -/
theorem C01_identity (r c : Nat) :
    ∃ m, BMat.identity r c = .ok m ∧ m.WF ∧ Represents m r c (fun i j => decide (i = j)) := by
  unfold BMat.identity
  obtain ⟨m, h1, h2⟩ := forLoop_inv (fun k m => BMat.set m k k)
    (fun k m => Stores m r c (fun i j => decide (i = j ∧ i < k))) (min r c) 0 (BMat.zero r c)
    ((zero_stores r c).congr (by intro i j _ _; simp))
    (by
      intro k m _ hk hp
      obtain ⟨m', h1, h2⟩ := hp.set (i := k) (j := k) (by omega) (by omega)
      refine ⟨m', h1, h2.congr ?_⟩
      intro a b _ _
      by_cases he : a = k ∧ b = k
      · obtain ⟨rfl, rfl⟩ := he; simp
      · rw [if_neg he]
        have : (a = b ∧ a < k) ↔ (a = b ∧ a < k + 1) := by omega
        simp only [this])
  refine ⟨m, h1, h2.1, (h2.congr ?_).represents⟩
  intro i j hi hj
  have : (i = j ∧ i < 0 + min r c) ↔ i = j := by omega
  simp only [this]

/-! ## C02 : element-wise operators -/

theorem Xpr.Bitwise.aligned : ∀ (e : Xpr), e.Bitwise → e.BlocksAligned
  | .mat _, _ => trivial
  | .not e, h => Xpr.Bitwise.aligned e h
  | .bin _ a b, h => ⟨Xpr.Bitwise.aligned a h.1, Xpr.Bitwise.aligned b h.2⟩
  | .block _ _ _ _ _, h => h.elim
  | .rep _ _ _, h => h.elim
  | .resh _ _ _, h => h.elim

/-- **C02 (lazy).** For an arbitrarily nested expression of `~ & | ^` over well-formed matrices
whose constructors did not throw, coefficient access returns the pointwise Boolean meaning. -/
theorem C02_coeff (e : Xpr) (_hb : e.Bitwise) (hw : e.LeavesWF) (ha : e.build = .ok e)
    (i j : Nat) (hi : i < e.rows) (hj : j < e.cols) : e.coeff i j = .ok (e.den i j) := by
  have : e.asserts = true := by
    unfold Xpr.build at ha
    by_cases h : e.asserts = true
    · exact h
    · rw [if_neg h] at ha; cases ha
  exact e.coeff_den hw this i j hi hj

/-- **C02 (materialised).** Assigning such an expression to a matrix (a pack-wise copy) gives a
well-formed matrix of the same shape whose coefficients are the pointwise meaning. -/
theorem C02_materialise (e : Xpr) (hb : e.Bitwise) (hw : e.LeavesWF) (ha : e.asserts = true) :
    ∃ m, BMat.ofXpr e = .ok m ∧ m.WF ∧ Represents m e.rows e.cols e.den := by
  obtain ⟨m, h1, h2, h3, h4, h5⟩ := ofXpr_spec e hw (e.faithful hw ha (Xpr.Bitwise.aligned e hb))
  refine ⟨m, h1, h2, Stores.represents ⟨h2, h3, h4, ?_⟩⟩
  intro i j hi hj
  rw [h5 _ (pos_lt_size hi hj), pos_div hj, pos_mod hj]

/-- **C02 (size mismatch).** A binary operator on operands of different shapes throws, and only
then. -/
theorem C02_mismatch (op : BOp) (a b : Xpr) (ha : a.asserts = true) (hb : b.asserts = true) :
    (Xpr.bin op a b).build = .throws ↔ ¬ (a.rows = b.rows ∧ a.cols = b.cols) := by
  unfold Xpr.build
  by_cases h : a.rows = b.rows ∧ a.cols = b.cols
  · simp [Xpr.asserts, ha, hb, h]
  · have : (Xpr.bin op a b).asserts = false := by
      simp only [Xpr.asserts, ha, hb, Bool.true_and, Bool.and_eq_false_iff, beq_eq_false_iff_ne]; omega
    simp [this, h]

/-- The meaning of the four operators, spelled out on matrices. -/
theorem C02_operators (a b : BMat) (f g : Nat → Nat → Bool) (r c : Nat) (hwa : a.WF) (hwb : b.WF)
    (ha : Represents a r c f) (hb : Represents b r c g) (i j : Nat) (hi : i < r) (hj : j < c) :
    (Xpr.not (.mat a)).coeff i j = .ok (!f i j) ∧
    (Xpr.bin .and (.mat a) (.mat b)).coeff i j = .ok (f i j && g i j) ∧
    (Xpr.bin .or (.mat a) (.mat b)).coeff i j = .ok (f i j || g i j) ∧
    (Xpr.bin .xor (.mat a) (.mat b)).coeff i j = .ok (f i j != g i j) := by
  have := hwa; have := hwb
  simp only [Xpr.coeff, ha.2.2 i j hi hj, hb.2.2 i j hi hj]
  refine ⟨rfl, rfl, rfl, ?_⟩
  cases f i j <;> cases g i j <;> rfl

/-- Non-vacuity: a nested expression over 9 × 9 matrices (81 bits, two packs). -/
example : let a := Xpr.mat (BMat.ones 9 9); let b := Xpr.mat (BMat.zero 9 9)
    let e := Xpr.bin .xor (.not a) (.bin .or a b)
    e.Bitwise ∧ e.asserts = true ∧ e.LeavesWF ∧ e.coeff 8 8 = .ok true := by
  refine ⟨⟨trivial, trivial, trivial⟩, rfl, ⟨?_, ?_, ?_⟩, by decide⟩ <;> exact ⟨rfl, rfl⟩

/-! ## C03 : all() -/

/-- **C03 (partial).** `all()` never fails, and it is true exactly when every coefficient is true
*provided* the number of coefficients is below 64 or a multiple of 64.  Missing: the trailing
partial pack of larger matrices is tested with the wrong mask, see `C03_bug_*`. -/
theorem C03_all_partial (e : Xpr) (hw : e.LeavesWF) (ha : e.asserts = true) (hal : e.BlocksAligned)
    (hs : e.size < 64 ∨ e.size % 64 = 0) :
    ∃ r, e.all = .ok r ∧
      (r = true ↔ ∀ i j, i < e.rows → j < e.cols → e.coeff i j = .ok true) := by
  obtain ⟨r, h1, h2, _⟩ := all_spec e (e.faithful hw ha hal)
  refine ⟨r, h1, ?_⟩
  rw [h2 (by omega), all_lin_iff e (fun b => b = true)]
  constructor
  · intro h i j hi hj
    rw [e.coeff_den hw ha i j hi hj, h i j hi hj]
  · intro h i j hi hj
    have := h i j hi hj
    rw [e.coeff_den hw ha i j hi hj] at this
    injection this

/-- **C03 (partial, larger matrices).** With `r = size % 64 ≥ 32` trailing coefficients, an all-true
matrix is still reported true (but so are some that are not). -/
theorem C03_all_complete_partial (e : Xpr) (hw : e.LeavesWF) (ha : e.asserts = true)
    (hal : e.BlocksAligned) (hs : 32 ≤ e.size % 64)
    (hall : ∀ i j, i < e.rows → j < e.cols → e.coeff i j = .ok true) : e.all = .ok true := by
  obtain ⟨r, h1, _, _, h4⟩ := all_spec e (e.faithful hw ha hal)
  rw [h1, h4 hs]
  rw [all_lin_iff e (fun b => b = true)]
  intro i j hi hj
  have := hall i j hi hj
  rw [e.coeff_den hw ha i j hi hj] at this
  injection this

/-- An all-true 1 × 65 matrix (built with the public constructor from a dense matrix) is reported
as *not* all true. -/
theorem C03_bug_false_negative :
    ∃ m, BMat.ofDense 1 65 (fun _ _ => true) = .ok m ∧ (Xpr.mat m).all = .ok false := by
  refine ⟨⟨1, 65, 2, [~~~0#64, 1#64]⟩, by decide +kernel, ?_⟩
  decide +kernel

/-- A 1 × 127 matrix whose last coefficient is false is reported as all true. -/
theorem C03_bug_false_positive :
    ∃ m, BMat.ofDense 1 127 (fun _ j => decide (j < 126)) = .ok m ∧
      m.read 0 126 = .ok false ∧ (Xpr.mat m).all = .ok true := by
  refine ⟨⟨1, 127, 2, [~~~0#64, 0x3FFFFFFFFFFFFFFF#64]⟩, by decide +kernel, by decide +kernel, ?_⟩
  decide +kernel

/-- Non-vacuity of `C03_all_partial` : an 8 × 16 (= 128 coefficients) and a 5 × 5 matrix. -/
example : (Xpr.mat (BMat.ones 8 16)).LeavesWF ∧ (Xpr.mat (BMat.ones 8 16)).size % 64 = 0 ∧
    (Xpr.mat (BMat.ones 5 5)).size < 64 := ⟨⟨rfl, rfl⟩, rfl, by decide⟩

/-! ## C04 : any() -/

/-- **C04 (partial).** `any()` is right from 64 coefficients on (and for 0 or 32 coefficients).
Missing: expressions with fewer than 64 coefficients are tested with the wrong mask. -/
theorem C04_any_partial (e : Xpr) (hw : e.LeavesWF) (ha : e.asserts = true) (hal : e.BlocksAligned)
    (hs : 64 ≤ e.size ∨ e.size = 0 ∨ e.size = 32) :
    ∃ r, e.any = .ok r ∧
      (r = true ↔ ∃ i j, i < e.rows ∧ j < e.cols ∧ e.coeff i j = .ok true) := by
  obtain ⟨r, h1, h2, _⟩ := any_spec e (e.faithful hw ha hal)
  refine ⟨r, h1, ?_⟩
  have hs' : e.size = 0 ∨ e.size = 32 ∨ 64 ≤ e.size := by
    rcases hs with h | h | h
    · exact Or.inr (Or.inr h)
    · exact Or.inl h
    · exact Or.inr (Or.inl h)
  rw [h2 hs', ex_lin_iff e (fun b => b = true)]
  constructor
  · rintro ⟨i, j, hi, hj, h⟩
    exact ⟨i, j, hi, hj, by rw [e.coeff_den hw ha i j hi hj, h]⟩
  · rintro ⟨i, j, hi, hj, h⟩
    refine ⟨i, j, hi, hj, ?_⟩
    rw [e.coeff_den hw ha i j hi hj] at h
    injection h

/-- **C04 (partial, small matrices).** For a *matrix* with at most 32 coefficients whose unused
storage bits are zero (as after construction and any `set`/`clear`, see
`C04_clean_after_writes`), `any()` is right. -/
theorem C04_any_small_partial (m : BMat) (hw : m.WF) (hs : m.rows * m.cols ≤ 32)
    (hclean : ∀ p, m.rows * m.cols ≤ p → storeBit m.data p = false) :
    ∃ r, (Xpr.mat m).any = .ok r ∧
      (r = true ↔ ∃ i j, i < m.rows ∧ j < m.cols ∧ m.read i j = .ok true) := by
  by_cases h32 : m.rows * m.cols = 32
  · exact C04_any_partial (.mat m) hw rfl trivial (Or.inr (Or.inr h32))
  by_cases h0 : m.rows * m.cols = 0
  · exact C04_any_partial (.mat m) hw rfl trivial (Or.inr (Or.inl h0))
  have hlen : 0 < m.data.length := by rw [hw.2, hw.1]; unfold packs; omega
  have hsize : (Xpr.mat m).size = m.rows * m.cols := rfl
  obtain ⟨r, hr1, hr2⟩ := any_part (m.data[0]) (64 - m.rows * m.cols) (by omega) (by omega) false
  refine ⟨r, ?_, ?_⟩
  · unfold Xpr.any visitPacks
    simp only [hsize]
    rw [if_neg h0, if_pos (by omega)]
    simp only [Xpr.bitpack, getWord_nat]
    rw [List.getElem?_eq_getElem hlen]
    exact hr1
  · have hbit : ∀ b, b < 64 → (m.data[0]).getLsbD b = storeBit m.data b := by
      intro b hb
      have e1 : b / 64 = 0 := by omega
      have e2 : b % 64 = b := by omega
      rw [storeBit_getElem _ _ (by omega)]
      simp only [e1, e2]
    rw [hr2]
    constructor
    · rintro (h | ⟨b, hb, h⟩)
      · cases h
      · rw [hbit b (by omega)] at h
        have hb2 : b < m.rows * m.cols := by
          apply Classical.byContradiction
          intro hn
          rw [hclean b (by omega)] at h; cases h
        refine ⟨b / m.cols, b % m.cols, div_lt_rows hb2, Nat.mod_lt _ (cols_pos hb2), ?_⟩
        rw [hw.read (div_lt_rows hb2) (Nat.mod_lt _ (cols_pos hb2))]
        have e : b / m.cols * m.cols + b % m.cols = b := by rw [Nat.mul_comm]; exact Nat.div_add_mod _ _
        rw [e, h]
    · rintro ⟨i, j, hi, hj, h⟩
      right
      have hp := pos_lt_size hi hj
      rw [hw.read hi hj] at h
      refine ⟨i * m.cols + j, by omega, ?_⟩
      rw [hbit _ (by omega)]
      injection h

/-- Every history of writes keeps the unused storage bits at zero. -/
theorem C04_clean_after_writes (r c : Nat) (ws : List Write) (m : BMat) (l : List Bool)
    (h : runWrites (BMat.zero r c) ws = some (m, l)) :
    m.WF ∧ m.rows = r ∧ m.cols = c ∧ ∀ p, r * c ≤ p → storeBit m.data p = false := by
  have key : ∀ (ws : List Write) (m m' : BMat) (l : List Bool),
      (m.WF ∧ m.rows = r ∧ m.cols = c ∧ ∀ p, r * c ≤ p → storeBit m.data p = false) →
      runWrites m ws = some (m', l) →
      (m'.WF ∧ m'.rows = r ∧ m'.cols = c ∧ ∀ p, r * c ≤ p → storeBit m'.data p = false) := by
    intro ws
    induction ws with
    | nil =>
      intro m m' l hm h
      simp only [runWrites, Option.some.injEq, Prod.mk.injEq] at h
      rw [← h.1]; exact hm
    | cons w ws ih =>
      intro m m' l hm h
      obtain ⟨hw, hr, hc, hz⟩ := hm
      cases w with
      | set i j =>
        by_cases hin : i < m.rows ∧ j < m.cols
        · obtain ⟨m1, h1, h2, h3, h4, h5⟩ := set_spec m hw hin.1 hin.2
          simp only [runWrites, h1, Option.map_eq_some_iff] at h
          obtain ⟨⟨x, y⟩, h6, h7⟩ := h
          have : x = m' := by cases h7; rfl
          subst this
          refine ih m1 x y ⟨h2, by omega, by omega, ?_⟩ h6
          intro p hp
          have hlt := pos_lt_size hin.1 hin.2
          rw [hr, hc] at hlt
          rw [h5, if_neg (by rw [hc]; omega)]; exact hz p hp
        · simp only [runWrites, set_throws m i j hin, Option.map_eq_some_iff] at h
          obtain ⟨⟨x, y⟩, h6, h7⟩ := h
          have : x = m' := by cases h7; rfl
          subst this
          exact ih m x y ⟨hw, hr, hc, hz⟩ h6
      | clear i j =>
        by_cases hin : i < m.rows ∧ j < m.cols
        · obtain ⟨m1, h1, h2, h3, h4, h5⟩ := clear_spec m hw hin.1 hin.2
          simp only [runWrites, h1, Option.map_eq_some_iff] at h
          obtain ⟨⟨x, y⟩, h6, h7⟩ := h
          have : x = m' := by cases h7; rfl
          subst this
          refine ih m1 x y ⟨h2, by omega, by omega, ?_⟩ h6
          intro p hp
          rw [h5]
          split
          · rfl
          · exact hz p hp
        · simp only [runWrites, clear_throws m i j hin, Option.map_eq_some_iff] at h
          obtain ⟨⟨x, y⟩, h6, h7⟩ := h
          have : x = m' := by cases h7; rfl
          subst this
          exact ih m x y ⟨hw, hr, hc, hz⟩ h6
  exact key ws _ m l ⟨zero_WF r c, rfl, rfl, fun p _ => storeBit_zero _ _⟩ h

/-- A 1 × 40 matrix with its last coefficient set: `any()` answers false. -/
theorem C04_bug_false_negative :
    ∃ m, (BMat.zero 1 40).set 0 39 = .ok m ∧ m.read 0 39 = .ok true ∧
      (Xpr.mat m).any = .ok false := by
  refine ⟨_, rfl, ?_, ?_⟩ <;> decide +kernel

/-- The negation of an all-true 1 × 1 matrix: `any()` answers true. -/
theorem C04_bug_false_positive :
    ∃ m, (BMat.zero 1 1).set 0 0 = .ok m ∧ (Xpr.not (.mat m)).coeff 0 0 = .ok false ∧
        (Xpr.not (.mat m)).any = .ok true := by
  refine ⟨_, rfl, ?_, ?_⟩ <;> decide +kernel

example : (Xpr.mat (BMat.zero 9 9)).LeavesWF ∧ 64 ≤ (Xpr.mat (BMat.zero 9 9)).size :=
  ⟨⟨rfl, rfl⟩, by decide⟩

/-! ## C05 : count() -/

/-- Number of in-range pairs with a true coefficient. -/
def countTrue (r c : Nat) (f : Nat → Nat → Bool) : Nat :=
  ((List.range r).map (fun i => (List.range c).countP (f i))).sum

/-- **C05.** `count()` is the number of pairs `(i,j)` in range with a true coefficient. -/
theorem C05_count (e : Xpr) (hw : e.LeavesWF) (ha : e.asserts = true) (hal : e.BlocksAligned) :
    e.count = .ok (countTrue e.rows e.cols (fun i j => e.coeff i j == .ok true)) := by
  rw [count_lin e hw (e.faithful hw ha hal)]
  congr 1
  unfold countTrue
  rcases Nat.eq_zero_or_pos e.cols with h | h
  · simp only [Xpr.size, h, Nat.mul_zero, List.range_zero, List.countP_nil]
    have : ∀ n, 0 = ((List.range n).map (fun _ => 0)).sum := by
      intro n; induction n with
      | zero => rfl
      | succ n ih => rw [List.range_succ, List.map_append, List.sum_append, ← ih]; rfl
    exact this _
  · rw [Xpr.size]
    have := countP_grid e.den e.cols e.rows h
    unfold Xpr.lin
    rw [this]
    congr 1
    apply List.map_congr_left
    intro i hi
    apply countP_congr_range
    intro j hj
    show _ = (e.coeff i j == .ok true)
    rw [e.coeff_den hw ha i j (List.mem_range.1 hi) hj]
    cases e.den i j <;> rfl

example : (Xpr.not (.mat (BMat.zero 9 9))).count = .ok 81 := by decide +kernel

/-! ## C06 : comparison -/

/-- **C06 (partial).** For equal shapes whose number of coefficients is not a multiple of 64,
`==` is equality of all coefficients and `!=` its negation.  Missing: multiples of 64, where the
code shifts a 64-bit word by 64 (`C06_bug_multiple_of_64`). -/
theorem C06_eq_partial (a b : Xpr) (hwa : a.LeavesWF) (hwb : b.LeavesWF) (haa : a.asserts = true)
    (hab : b.asserts = true) (hala : a.BlocksAligned) (halb : b.BlocksAligned)
    (hr : a.rows = b.rows) (hc : a.cols = b.cols) (hm : a.size % 64 ≠ 0) :
    ∃ r, a.eq b = .ok r ∧ a.ne b = .ok (!r) ∧
      (r = true ↔ ∀ i j, i < a.rows → j < a.cols → a.coeff i j = b.coeff i j) := by
  obtain ⟨r, h1, h2⟩ := eq_spec a b hwa (a.faithful hwa haa hala) (b.faithful hwb hab halb) hr hc hm
  refine ⟨r, h1, by rw [ne_eq_not_eq, h1]; rfl, ?_⟩
  rw [h2]
  constructor
  · intro h i j hi hj
    rw [a.coeff_den hwa haa i j hi hj, b.coeff_den hwb hab i j (hr ▸ hi) (hc ▸ hj)]
    have := h _ (pos_lt_size hi hj)
    unfold Xpr.lin at this
    rw [← hc, pos_div hj, pos_mod hj] at this
    rw [this]
  · intro h p hp
    have hi := div_lt_rows hp
    have hj := Nat.mod_lt p (cols_pos hp)
    have := h _ _ hi hj
    rw [a.coeff_den hwa haa _ _ hi hj, b.coeff_den hwb hab _ _ (hr ▸ hi) (hc ▸ hj)] at this
    unfold Xpr.lin
    rw [← hc]
    injection this

/-- Different shapes: both comparisons throw. -/
theorem C06_shape_mismatch (a b : Xpr) (h : ¬ (a.rows = b.rows ∧ a.cols = b.cols)) :
    a.eq b = .throws ∧ a.ne b = .throws := by
  unfold Xpr.eq Xpr.ne; simp [h]

/-- For *every* pair of well-formed matrices of equal shape with a multiple of 64 coefficients the
comparison has undefined behaviour. -/
theorem C06_bug_multiple_of_64 (a b : BMat) (hwa : a.WF) (hwb : b.WF) (hr : a.rows = b.rows)
    (hc : a.cols = b.cols) (hm : (a.rows * a.cols) % 64 = 0) :
    (Xpr.mat a).eq (.mat b) = .ub ∧ (Xpr.mat a).ne (.mat b) = .ub := by
  have h := eq_ub (.mat a) (.mat b) hwa (faithful_mat a hwa) (faithful_mat b hwb) hr hc hm
  exact ⟨h, by rw [ne_eq_not_eq, h]; rfl⟩

example : (BMat.zero 8 8).WF ∧ (8 * 8) % 64 = 0 := ⟨zero_WF 8 8, rfl⟩
example : (Xpr.mat (BMat.zero 9 9)).size % 64 ≠ 0 := by decide

/-! ## C07 : blocks -/

/-- **C07 (reading).** A block constructed in range reads the corresponding coefficients. -/
theorem C07_block_coeff (e : Xpr) (hw : e.LeavesWF) (ha : e.asserts = true) (r0 c0 h w : Nat)
    (hr : r0 + h ≤ e.rows) (hc : c0 + w ≤ e.cols) (i j : Nat) (hi : i < h) (hj : j < w) :
    (Xpr.block e r0 c0 h w).build = .ok (Xpr.block e r0 c0 h w) ∧
      (Xpr.block e r0 c0 h w).coeff i j = e.coeff (r0 + i) (c0 + j) ∧
      ∃ v, e.coeff (r0 + i) (c0 + j) = .ok v := by
  refine ⟨?_, ?_, ?_⟩
  · simp [Xpr.build, Xpr.asserts, ha, hr, hc]
  · simp only [Xpr.coeff]
    rw [if_pos ⟨hi, hj⟩, Nat.add_comm i, Nat.add_comm j]
  · exact ⟨_, e.coeff_den hw ha _ _ (by omega) (by omega)⟩

/-- An out-of-range block throws. -/
theorem C07_block_out_of_range (e : Xpr) (r0 c0 h w : Nat)
    (hr : ¬ (r0 + h ≤ e.rows ∧ c0 + w ≤ e.cols)) : (Xpr.block e r0 c0 h w).build = .throws := by
  have : (Xpr.block e r0 c0 h w).asserts = false := by
    simp only [Xpr.asserts, Bool.and_eq_false_iff, decide_eq_false_iff_not]; omega
  simp [Xpr.build, this]

/-- **C07 (copying, partial).** A matrix constructed from a block has the block's coefficients
when the block is aligned (`blockAligned`): at most 64 coefficients, or a width that is a power of
two, or a single row/column, ...  Missing: other blocks (`C07_bug_copy`, `C07_bug_rounding`). -/
theorem C07_block_copy_partial (e : Xpr) (hw : e.LeavesWF) (ha : e.asserts = true)
    (hal : e.BlocksAligned) (r0 c0 h w : Nat) (hr : r0 + h ≤ e.rows) (hc : c0 + w ≤ e.cols)
    (hblk : blockAligned h w) :
    ∃ m, BMat.ofXpr (.block e r0 c0 h w) = .ok m ∧ m.WF ∧ m.rows = h ∧ m.cols = w ∧
      ∀ i j, i < h → j < w → m.read i j = e.coeff (r0 + i) (c0 + j) := by
  have ha' : (Xpr.block e r0 c0 h w).asserts = true := by simp [Xpr.asserts, ha, hr, hc]
  obtain ⟨m, h1, h2, h3, h4, h5⟩ := ofXpr_spec (.block e r0 c0 h w) hw
    (Xpr.faithful (.block e r0 c0 h w) hw ha' ⟨hal, hblk⟩)
  refine ⟨m, h1, h2, h3, h4, ?_⟩
  intro i j hi hj
  have hst : Stores m h w (Xpr.block e r0 c0 h w).den := by
    refine ⟨h2, h3, h4, ?_⟩
    intro i j hi hj
    have hp : i * w + j < (Xpr.block e r0 c0 h w).size := pos_lt_size hi hj
    rw [h5 _ hp]
    simp only [Xpr.cols]
    rw [pos_div hj, pos_mod hj]
  rw [hst.represents.2.2 i j hi hj, e.coeff_den hw ha _ _ (by omega) (by omega)]
  rfl

/-- Sufficient conditions for alignment. -/
theorem C07_aligned_small (h w : Nat) (hw : 0 < w) (hs : h * w ≤ 64) : blockAligned h w :=
  ⟨hw, by omega, by intro k hk hk'; omega⟩
theorem C07_aligned_dvd (h w : Nat) (hw : w ∣ 64) (hs : h * w < 2 ^ 31) : blockAligned h w :=
  ⟨Nat.pos_of_dvd_of_pos hw (by omega), hs,
   by
    intro k _ _
    left
    refine ⟨Nat.mod_eq_zero_of_dvd (Nat.dvd_mul_left_of_dvd hw k), ?_⟩
    obtain ⟨p, _, hp⟩ := (Nat.dvd_prime_pow Nat.prime_two).1 (show w ∣ 2 ^ 6 from hw)
    exact ⟨p, hp⟩⟩
theorem C07_aligned_pow (h p : Nat) (hp : 6 ≤ p) (hs : h * 2 ^ p < 2 ^ 31) :
    blockAligned h (2 ^ p) :=
  ⟨by positivity, hs, by
    intro k _ hk
    obtain ⟨d, rfl⟩ := Nat.exists_eq_add_of_le hp
    by_cases h0 : (k * 64) % 2 ^ (6 + d) = 0
    · exact Or.inl ⟨h0, _, rfl⟩
    · refine Or.inr ⟨h0, ?_⟩
      have e : k * 64 % 2 ^ (6 + d) = (k % 2 ^ d) * 64 := by
        rw [pow_add, Nat.mul_comm k 64]
        show 64 * k % (64 * 2 ^ d) = _
        rw [Nat.mul_mod_mul_left, Nat.mul_comm]
      have hl := Nat.mod_lt k (show 0 < 2 ^ d by positivity)
      rw [e, pow_add]
      omega⟩
theorem C07_aligned_row (w : Nat) (hw : 0 < w) (hs : w < 2 ^ 31) : blockAligned 1 w :=
  ⟨hw, by omega, by
    intro k hk1 hk
    right
    have : k * 64 % w = k * 64 := Nat.mod_eq_of_lt (by omega)
    rw [this]; omega⟩
theorem C07_aligned_col (h : Nat) (hs : h < 2 ^ 31) : blockAligned h 1 :=
  C07_aligned_dvd h 1 (Nat.one_dvd _) (by omega)

/-- **C07 (rows and columns).** `row(i)` and `col(j)` of a matrix, copied into a matrix, give
exactly the row/column — for every shape whose sizes are values of `int`. -/
theorem C07_row_col_copy (m : BMat) (hw : m.WF) (i j : Nat) (hi : i < m.rows) (hj : j < m.cols)
    (hR : m.rows < 2 ^ 31) (hC : m.cols < 2 ^ 31) :
    (∃ v, BMat.ofXpr (.block (.mat m) i 0 1 m.cols) = .ok v ∧ v.rows = 1 ∧ v.cols = m.cols ∧
      ∀ k, k < m.cols → v.read 0 k = m.read i k) ∧
    (∃ v, BMat.ofXpr (.block (.mat m) 0 j m.rows 1) = .ok v ∧ v.rows = m.rows ∧ v.cols = 1 ∧
      ∀ k, k < m.rows → v.read k 0 = m.read k j) := by
  constructor
  · obtain ⟨v, h1, _, h3, h4, h5⟩ := C07_block_copy_partial (.mat m) hw rfl trivial i 0 1 m.cols
      (by show i + 1 ≤ m.rows; omega) (by show 0 + m.cols ≤ m.cols; omega) (C07_aligned_row _ (by omega) hC)
    refine ⟨v, h1, h3, h4, ?_⟩
    intro k hk
    have := h5 0 k (by omega) hk
    simpa [Xpr.coeff] using this
  · obtain ⟨v, h1, _, h3, h4, h5⟩ := C07_block_copy_partial (.mat m) hw rfl trivial 0 j m.rows 1
      (by show 0 + m.rows ≤ m.rows; omega) (by show j + 1 ≤ m.cols; omega) (C07_aligned_col _ hR)
    refine ⟨v, h1, h3, h4, ?_⟩
    intro k hk
    have := h5 k 0 hk (by omega)
    simpa [Xpr.coeff] using this

/-- **C07 (row to column vector).** Assigning a row of a matrix to a column vector transposes it. -/
theorem C07_row_to_vector (m : BMat) (hw : m.WF) (i : Nat) (hi : i < m.rows) (hc : 0 < m.cols)
    (hC : m.cols < 2 ^ 31) :
    ∃ v, BMat.ofXprVec (.block (.mat m) i 0 1 m.cols) = .ok v ∧ v.rows = m.cols ∧ v.cols = 1 ∧
      ∀ k, k < m.cols → v.read k 0 = m.read i k := by
  have ha' : (Xpr.block (.mat m) i 0 1 m.cols).asserts = true := by
    simp [Xpr.asserts, Xpr.rows, Xpr.cols, Nat.succ_le_of_lt hi]
  obtain ⟨v, h1, h2, h3, h4, h5⟩ := ofXprVec_spec (.block (.mat m) i 0 1 m.cols) hw
    (Xpr.faithful _ hw ha' ⟨trivial, C07_aligned_row _ hc hC⟩) rfl
  refine ⟨v, h1, h3, h4, ?_⟩
  intro k hk
  have hk' : k < v.rows := by rw [h3]; exact hk
  have := h2.read (i := k) (j := 0) hk' (by omega)
  rw [h4] at this
  simp only [Nat.mul_one, Nat.add_zero] at this
  have e : ((0 : Nat) : Int) = 0 := rfl
  rw [e] at this
  rw [this, h5 k hk]
  have hc2 := (Xpr.mat m).coeff_den hw rfl i k hi hk
  simp only [Xpr.coeff] at hc2
  rw [hc2]
  simp [Xpr.den]

/-- Copying the 30 × 3 block at (0,0) of a 30 × 4 matrix gives a wrong coefficient. -/
theorem C07_bug_copy :
    ∃ m v, (BMat.zero 30 4).set 21 3 = .ok m ∧
      BMat.ofXpr (.block (.mat m) 0 0 30 3) = .ok v ∧
      (Xpr.block (.mat m) 0 0 30 3).coeff 22 0 = .ok false ∧ v.read 22 0 = .ok true := by
  refine ⟨_, _, rfl, rfl, ?_, ?_⟩ <;> decide +kernel

/-- The row where a pack of a block starts is computed in floating point (binary_matrix.h:331):
`49 * (64 / 3136.0)` is rounded to a number below one, so that copying the block of all
coefficients of a 2 × 3136 matrix, whose packs all lie inside a row, duplicates the coefficient
(0,0) at (1,0). -/
theorem C07_bug_rounding :
    ∃ m v, (BMat.zero 2 3136).set 0 0 = .ok m ∧
      (Xpr.block (.mat m) 0 0 2 3136).coeff 1 0 = .ok false ∧
      BMat.ofXpr (.block (.mat m) 0 0 2 3136) = .ok v ∧ v.read 1 0 = .ok true := by
  have h : (BMat.ofXpr (.block (.mat ⟨2, 3136, 99, 1#64 :: List.replicate 98 0#64⟩) 0 0 2 3136) >>=
      fun v => v.read 1 0) = .ok true := by decide +kernel
  obtain ⟨v, h1, h2⟩ := (Res.bind_eq_ok).1 h
  exact ⟨⟨2, 3136, 99, 1#64 :: List.replicate 98 0#64⟩, v, by decide +kernel, by decide +kernel, h1, h2⟩

/-- Apart from that loss of one row when a pack starts a block row, the computed row is right. -/
theorem C07_row_offset (k w : Nat) (hw : 0 < w) (hk : k * 64 < 2 ^ 31) :
    rowOff k w = k * 64 / w ∨ (w ∣ k * 64 ∧ rowOff k w + 1 = k * 64 / w) := by
  rcases rowOff_near k w hw hk with h | ⟨h, h'⟩
  · exact Or.inl h
  · exact Or.inr ⟨Nat.dvd_of_mod_eq_zero h, h'⟩

example : rowOff 3 64 = 3 ∧ rowOff 49 49 + 1 = 49 * 64 / 49 := by decide +kernel

/-! ## C08 : block assignment -/

/-- **C08 (exact effect).** Block assignment ORs the right-hand side into the block and leaves all
other coefficients unchanged. -/
theorem C08_assign_effect (m : BMat) (r c : Nat) (f : Nat → Nat → Bool) (hw : m.WF)
    (hm : Represents m r c f) (r0 c0 : Nat) (rhs : Xpr) (hwr : rhs.LeavesWF)
    (har : rhs.asserts = true) (hr : r0 + rhs.rows ≤ r) (hc : c0 + rhs.cols ≤ c) :
    ∃ m', m.assignBlock r0 c0 rhs.rows rhs.cols rhs = .ok m' ∧ m'.WF ∧
      Represents m' r c (fun a b =>
        if r0 ≤ a ∧ a < r0 + rhs.rows ∧ c0 ≤ b ∧ b < c0 + rhs.cols
        then f a b || rhs.den (a - r0) (b - c0) else f a b) := by
  obtain ⟨m', h1, h2⟩ := assignBlock_or (hm.stores hw) r0 c0 rhs hwr har hr hc
  exact ⟨m', h1, h2.1, h2.represents⟩

/-- **C08 (partial).** If the block is all false beforehand, assignment replaces its content by the
right-hand side and changes nothing else.  Missing: blocks with true coefficients
(`C08_bug_no_clear`). -/
theorem C08_assign_partial (m : BMat) (hw : m.WF) (r0 c0 : Nat) (rhs : Xpr) (hwr : rhs.LeavesWF)
    (har : rhs.asserts = true) (hr : r0 + rhs.rows ≤ m.rows) (hc : c0 + rhs.cols ≤ m.cols)
    (hclear : ∀ i j, i < rhs.rows → j < rhs.cols → m.read (r0 + i : Nat) (c0 + j : Nat) = .ok false) :
    ∃ m', m.assignBlock r0 c0 rhs.rows rhs.cols rhs = .ok m' ∧ m'.WF ∧
      (∀ i j, i < rhs.rows → j < rhs.cols → m'.read (r0 + i : Nat) (c0 + j : Nat) = rhs.coeff i j) ∧
      (∀ a b, a < m.rows → b < m.cols →
        ¬ (r0 ≤ a ∧ a < r0 + rhs.rows ∧ c0 ≤ b ∧ b < c0 + rhs.cols) → m'.read a b = m.read a b) := by
  have hm : Represents m m.rows m.cols (fun a b => storeBit m.data (a * m.cols + b)) :=
    ⟨rfl, rfl, fun i j hi hj => hw.read hi hj⟩
  obtain ⟨m', h1, h2, h3⟩ := C08_assign_effect m m.rows m.cols _ hw hm r0 c0 rhs hwr har hr hc
  refine ⟨m', h1, h2, ?_, ?_⟩
  · intro i j hi hj
    rw [h3.2.2 _ _ (by omega) (by omega)]
    dsimp only
    rw [if_pos (by omega), rhs.coeff_den hwr har i j hi hj]
    have := hclear i j hi hj
    rw [hw.read (by omega) (by omega)] at this
    injection this with this
    rw [this]
    have e1 : r0 + i - r0 = i := by omega
    have e2 : c0 + j - c0 = j := by omega
    rw [e1, e2]; simp
  · intro a b ha hb hn
    rw [h3.2.2 a b ha hb]
    dsimp only
    rw [if_neg hn, hw.read ha hb]

/-- Wrong shapes throw. -/
theorem C08_assign_throws (m : BMat) (r0 c0 h w : Nat) (rhs : Xpr)
    (hbad : ¬ (r0 + h ≤ m.rows ∧ c0 + w ≤ m.cols) ∨ ¬ (rhs.rows = h ∧ rhs.cols = w)) :
    m.assignBlock r0 c0 h w rhs = .throws := by
  unfold BMat.assignBlock
  rcases hbad with hb | hb
  · rw [if_neg hb]
  · rw [if_neg hb]; split <;> rfl

/-- Assigning a zero block to a block of ones does nothing. -/
theorem C08_bug_no_clear :
    ∃ m, (BMat.ones 2 2).assignBlock 0 0 1 1 (.mat (BMat.zero 1 1)) = .ok m ∧
      (Xpr.mat (BMat.zero 1 1)).coeff 0 0 = .ok false ∧ m.read 0 0 = .ok true := by
  refine ⟨_, rfl, ?_, ?_⟩ <;> decide

/-- `block.set()` / `block.clear()` write exactly the block. -/
theorem C08_block_set_clear (m : BMat) (r c : Nat) (f : Nat → Nat → Bool) (hw : m.WF)
    (hm : Represents m r c f) (r0 c0 h w : Nat) (hr : r0 + h ≤ r) (hc : c0 + w ≤ c) :
    (∃ m', m.setBlock r0 c0 h w = .ok m' ∧ Represents m' r c (fun a b =>
      if r0 ≤ a ∧ a < r0 + h ∧ c0 ≤ b ∧ b < c0 + w then true else f a b)) ∧
    (∃ m', m.clearBlock r0 c0 h w = .ok m' ∧ Represents m' r c (fun a b =>
      if r0 ≤ a ∧ a < r0 + h ∧ c0 ≤ b ∧ b < c0 + w then false else f a b)) := by
  constructor
  · obtain ⟨m', h1, h2⟩ := writeBlock_spec (hm.stores hw) r0 c0 h w hr hc true
    exact ⟨m', by simpa using h1, h2.represents⟩
  · obtain ⟨m', h1, h2⟩ := writeBlock_spec (hm.stores hw) r0 c0 h w hr hc false
    exact ⟨m', by simpa using h1, h2.represents⟩

/-- `block.set()` / `block.clear()` of a block that does not fit in the matrix throw, whatever the matrix holds. -/
theorem C08_block_set_clear_throws (m : BMat) (r0 c0 h w : Nat) (hb : m.rows < r0 + h ∨ m.cols < c0 + w) :
    m.setBlock r0 c0 h w = .throws ∧ m.clearBlock r0 c0 h w = .throws := by
  constructor
  · rw [BMat.setBlock, if_neg (by omega)]
  · rw [BMat.clearBlock, if_neg (by omega)]

example : (BMat.ones 8 10).setBlock 6 4 3 3 = .throws := (C08_block_set_clear_throws _ _ _ _ _ (Or.inl (by decide))).1

/-- Non-vacuity of `C08_assign_partial` : an 80-coefficient zero matrix, a 2 × 3 right-hand side. -/
example : ∀ i j, i < 2 → j < 3 → (BMat.zero 8 10).read (6 + i : Nat) (4 + j : Nat) = .ok false :=
  fun i j hi hj => (zero_stores 8 10).represents.2.2 (6 + i) (4 + j) (by omega) (by omega)

/-! ## C09 : construction from a range -/

/-- **C09 (partial).** For *square* shapes, construction from a range of `n*n` Booleans fills the
matrix in row-major order.  Missing: non-square shapes (`C09_bug_*`). -/
theorem C09_range_square_partial (n : Nat) (xs : List Bool) (hlen : xs.length = n * n) :
    ∃ m, BMat.ofRange xs n n = .ok m ∧
      Represents m n n (fun i j => xs[i * n + j]?.getD false) := by
  rcases Nat.eq_zero_or_pos n with h0 | hn
  · subst h0
    have : xs = [] := by simpa using hlen
    subst this
    exact ⟨BMat.zero 0 0, rfl, rfl, rfl, by intro i j hi; omega⟩
  · obtain ⟨m, h1, h2⟩ := ofRangeGo_square n hn xs hlen xs [] (BMat.zero n n) rfl
      ((zero_stores n n).congr (by intro i j _ _; simp))
    exact ⟨m, by simpa [BMat.ofRange] using h1, h2.represents⟩

/-- **C09 (vectors).** Construction of a vector from a range of `n` Booleans is right for all `n`. -/
theorem C09_range_vector (n : Nat) (xs : List Bool) (hlen : xs.length = n) :
    ∃ m, BMat.ofRangeVec xs n = .ok m ∧ Represents m n 1 (fun i _ => xs[i]?.getD false) := by
  obtain ⟨m, h1, h2⟩ := ofRangeVecGo_spec n xs hlen xs [] (BMat.zero n 1) rfl
    ((zero_stores n 1).congr (by intro i j _ _; simp))
  exact ⟨m, by simpa [BMat.ofRangeVec] using h1, h2.represents⟩

/-- A 2 × 3 matrix cannot be constructed from six `true`s: the constructor throws. -/
theorem C09_bug_wide : BMat.ofRange [true, true, true, true, true, true] 2 3 = .throws := by decide

/-- A 3 × 2 matrix is filled wrongly: element 2 belongs to (1,0) but lands at (0,0). -/
theorem C09_bug_tall :
    ∃ m, BMat.ofRange [false, false, true, false, false, false] 3 2 = .ok m ∧
      m.read 1 0 = .ok false ∧ m.read 0 0 = .ok true := by
  refine ⟨_, rfl, ?_, ?_⟩ <;> decide

/-- A range shorter than the matrix is dereferenced past its end (loop condition uses `||`). -/
theorem C09_bug_short_range : BMat.ofRange [true] 2 2 = .ub := by decide

example : ([true, false, false, true] : List Bool).length = 2 * 2 := rfl

/-! ## C10 : repeat, reshape, which, select -/

/-- **C10 (repeat).** Shape and coefficients of `repeat(a,b)`, lazily and when copied. -/
theorem C10_repeat (e : Xpr) (hw : e.LeavesWF) (ha : e.asserts = true) (hal : e.BlocksAligned)
    (a b : Nat) :
    (Xpr.rep e a b).rows = e.rows * a ∧ (Xpr.rep e a b).cols = e.cols * b ∧
    (∀ i j, i < e.rows * a → j < e.cols * b →
      (Xpr.rep e a b).coeff i j = e.coeff (i % e.rows) (j % e.cols)) ∧
    ∃ m, BMat.ofXpr (.rep e a b) = .ok m ∧ m.rows = e.rows * a ∧ m.cols = e.cols * b ∧
      ∀ i j, i < e.rows * a → j < e.cols * b → m.read i j = e.coeff (i % e.rows) (j % e.cols) := by
  have h1 : ∀ i j, i < e.rows * a → j < e.cols * b →
      (Xpr.rep e a b).coeff i j = e.coeff (i % e.rows) (j % e.cols) := by
    intro i j hi hj
    simp only [Xpr.coeff]
    rw [if_pos ⟨hi, hj⟩, if_neg]
    rintro (h | h)
    · rw [h] at hi; simp at hi
    · rw [h] at hj; simp at hj
  refine ⟨rfl, rfl, h1, ?_⟩
  obtain ⟨m, h2, h3, h4, h5, h6⟩ := ofXpr_spec (.rep e a b) hw (Xpr.faithful (.rep e a b) hw ha hal)
  refine ⟨m, h2, h4, h5, ?_⟩
  intro i j hi hj
  have hi' : i < (Xpr.rep e a b).rows := hi
  have hj' : j < (Xpr.rep e a b).cols := hj
  have hst : Stores m (Xpr.rep e a b).rows (Xpr.rep e a b).cols (Xpr.rep e a b).den := by
    refine ⟨h3, h4, h5, ?_⟩
    intro i j hi hj
    rw [h6 _ (pos_lt_size hi hj), pos_div hj, pos_mod hj]
  rw [hst.represents.2.2 i j hi' hj', ← h1 i j hi hj]
  exact ((Xpr.rep e a b).coeff_den hw ha i j hi' hj').symm

/-- **C10 (reshape).** Reshaping keeps the row-major sequence of coefficients; it throws exactly
when the sizes differ. -/
theorem C10_reshape (e : Xpr) (hw : e.LeavesWF) (ha : e.asserts = true) (r c : Nat) :
    ((Xpr.resh e r c).build = .throws ↔ r * c ≠ e.rows * e.cols) ∧
    (r * c = e.rows * e.cols → ∀ i j a b, i < r → j < c → a < e.rows → b < e.cols →
      i * c + j = a * e.cols + b → (Xpr.resh e r c).coeff i j = e.coeff a b) := by
  constructor
  · unfold Xpr.build
    by_cases h : r * c = e.rows * e.cols
    · simp [Xpr.asserts, ha, h]
    · have : (Xpr.resh e r c).asserts = false := by simp [Xpr.asserts, h]
      simp [this, h]
  · intro _ i j a b hi hj hra hcb hpos
    have := hw; have := hra
    simp only [Xpr.coeff]
    rw [if_pos ⟨hi, hj⟩, if_neg (by omega), hpos, pos_div hcb, pos_mod hcb]

/-- **C10 (which).** `which(b)` lists in increasing order exactly the row-major positions of the
coefficients equal to `b`. -/
theorem C10_which (e : Xpr) (hw : e.LeavesWF) (ha : e.asserts = true) (b : Bool) :
    ∃ l, e.which b = .ok l ∧ l.Pairwise (· < ·) ∧
      ∀ p, p ∈ l ↔ ∃ i j, i < e.rows ∧ j < e.cols ∧ p = i * e.cols + j ∧ e.coeff i j = .ok b := by
  refine ⟨_, which_spec e hw ha b, ?_, ?_⟩
  · exact List.Pairwise.filter _ List.pairwise_lt_range
  · intro p
    rw [List.mem_filter, List.mem_range]
    constructor
    · rintro ⟨hp, hb⟩
      have hi := div_lt_rows hp
      have hj := Nat.mod_lt p (cols_pos hp)
      refine ⟨p / e.cols, p % e.cols, hi, hj, ?_, ?_⟩
      · rw [Nat.mul_comm]; exact (Nat.div_add_mod _ _).symm
      · rw [e.coeff_den hw ha _ _ hi hj]
        unfold Xpr.lin at hb
        rw [beq_iff_eq] at hb; rw [hb]
    · rintro ⟨i, j, hi, hj, rfl, hb⟩
      refine ⟨pos_lt_size hi hj, ?_⟩
      rw [e.coeff_den hw ha i j hi hj] at hb
      injection hb with hb
      unfold Xpr.lin
      rw [pos_div hj, pos_mod hj, hb]; simp

/-- `which(~m)` lists the false positions of `m`. -/
theorem C10_which_not (e : Xpr) (hw : e.LeavesWF) (ha : e.asserts = true) :
    (Xpr.not e).which true = e.which false := by
  rw [which_spec (.not e) hw ha, which_spec e hw ha]
  congr 1
  apply List.filter_congr
  intro p _
  simp only [Xpr.lin, Xpr.den, Xpr.cols]
  cases e.den (p / e.cols) (p % e.cols) <;> rfl

/-- **C10 (select).** `m.select(x)` keeps the entries of `x` where `m` is true and is zero
elsewhere; a shape mismatch throws. -/
theorem C10_select {α : Type} (zero : α) (e : Xpr) (hw : e.LeavesWF) (ha : e.asserts = true)
    (r c : Nat) (x : Nat → Nat → α) :
    (¬ (e.rows = r ∧ e.cols = c) → e.select zero r c x = .throws) ∧
    (e.rows = r ∧ e.cols = c → ∃ y, e.select zero r c x = .ok y ∧
      ∀ i j, i < r → j < c →
        (e.coeff i j = .ok true ∧ y i j = x i j) ∨ (e.coeff i j = .ok false ∧ y i j = zero)) := by
  constructor
  · intro h; unfold Xpr.select; rw [if_neg h]
  · rintro ⟨rfl, rfl⟩
    obtain ⟨g, h1, h2⟩ := select_spec zero e hw ha x
    refine ⟨g, h1, ?_⟩
    intro i j hi hj
    rw [h2 i j hi hj, e.coeff_den hw ha i j hi hj]
    cases e.den i j <;> simp

example : (Xpr.rep (.mat (BMat.ones 2 3)) 4 5).rows = 8 ∧
    (Xpr.rep (.mat (BMat.ones 2 3)) 4 5).coeff 7 14 = .ok true := by decide
example : (Xpr.resh (.mat (BMat.zero 2 6)) 3 4).build ≠ .throws := by
  simp [Xpr.build, Xpr.asserts, Xpr.rows, Xpr.cols, BMat.zero]

end Fdapde.BinMtx
