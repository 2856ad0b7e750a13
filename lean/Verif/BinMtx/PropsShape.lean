import Verif.BinMtx.Props
import Verif.BinMtx.ShapeModel
/-
Property C113: views of rows, columns and edges of a binary matrix, writes through blocks, and
assignments to matrices of every compile-time shape.
-/
namespace Fdapde.BinMtx

/-- The compile-time shape is compatible with the sizes at run time. -/
def Shape.fits (s : Shape) (r c : Nat) : Prop :=
  (∀ n, s.rows = some n → r = n) ∧ (∀ n, s.cols = some n → c = n)

/-! ## Views of rows and columns -/

/-- **C113 (rows).** `row(i)` of an expression that is not a column vector is a view of its `i`-th
row; an index out of range throws. -/
theorem C113_row (s : Shape) (e : Xpr) (i : Int) (hs : s.cols ≠ some 1) :
    (0 ≤ i ∧ i < e.rows → ∃ v, rowView s e i = .ok v ∧ v.rows = 1 ∧ v.cols = e.cols ∧
      ∀ j, j < e.cols → v.coeff 0 j = e.coeff i.toNat j) ∧
    (¬ (0 ≤ i ∧ i < e.rows) → rowView s e i = .throws) := by
  have hb : (s.cols == some 1) = false := by simpa using hs
  unfold rowView lineView
  rw [hb]
  constructor
  · rintro ⟨h0, h1⟩
    refine ⟨_, if_pos ⟨h0, Or.inl ⟨rfl, h1⟩⟩, rfl, rfl, ?_⟩
    intro j hj
    simp [Xpr.coeff, hj]
  · intro h
    refine if_neg ?_
    rintro ⟨h0, ⟨_, h1⟩ | ⟨h1, _⟩⟩
    · exact h ⟨h0, h1⟩
    · cases h1

/-- **C113 (columns).** `col(j)` of an expression that is not a row vector is a view of its `j`-th
column; an index out of range throws. -/
theorem C113_col (s : Shape) (e : Xpr) (j : Int) (hs : s.rows ≠ some 1) :
    (0 ≤ j ∧ j < e.cols → ∃ v, colView s e j = .ok v ∧ v.rows = e.rows ∧ v.cols = 1 ∧
      ∀ i, i < e.rows → v.coeff i 0 = e.coeff i j.toNat) ∧
    (¬ (0 ≤ j ∧ j < e.cols) → colView s e j = .throws) := by
  have hb : (s.rows == some 1) = false := by simpa using hs
  unfold colView lineView
  rw [hb]
  constructor
  · rintro ⟨h0, h1⟩
    refine ⟨_, if_pos ⟨h0, Or.inr ⟨rfl, h1⟩⟩, rfl, rfl, ?_⟩
    intro i hi
    simp [Xpr.coeff, hi]
  · intro h
    refine if_neg ?_
    rintro ⟨h0, ⟨h1, _⟩ | ⟨_, h1⟩⟩
    · cases h1
    · exact h ⟨h0, h1⟩

/-- **C113 (rows of a vector, partial).** `row(0)` of a column vector reads its first element.
Missing: the other rows (`C113_bug_vector_row`). -/
theorem C113_vector_row_partial (e : Xpr) (s : Shape) (hc : e.cols = 1) (hr : 0 < e.rows) :
    ∃ v, rowView s e 0 = .ok v ∧ v.rows = 1 ∧ v.cols = 1 ∧ v.coeff 0 0 = e.coeff 0 0 := by
  unfold rowView lineView
  refine ⟨_, if_pos ⟨le_refl _, Or.inl ⟨rfl, by exact_mod_cast hr⟩⟩, rfl, ?_, ?_⟩
  · simp only [Xpr.cols]; split_ifs <;> simp [hc]
  · cases h : (s.cols == some 1) <;> simp [Xpr.coeff, hc]

/-- `row(i)` of a column vector (`BinaryVector`) is a block whose first row and whose first column
are both `i`, so that it reads the element `2 i` of the storage: on a vector of four elements of
which only the second is true `row(1)` reads false, and on a vector of forty elements `row(39)`
reads out of range. -/
theorem C113_bug_vector_row :
    (∃ m v, (BMat.zero 4 1).set 1 0 = .ok m ∧ m.read 1 0 = .ok true ∧
      rowView ⟨none, some 1⟩ (.mat m) 1 = .ok v ∧ v.coeff 0 0 = .ok false) ∧
    (∃ v, rowView ⟨none, some 1⟩ (.mat (BMat.zero 40 1)) 39 = .ok v ∧ v.coeff 0 0 = .ub) := by
  refine ⟨⟨_, _, rfl, by decide, rfl, by decide⟩, ⟨_, rfl, by decide⟩⟩

/-! ## Blocks at the edges -/

/-- What it means for `v` to be the window of `e` of size `h × w` at `(r0, c0)`. -/
def Window (e v : Xpr) (r0 c0 h w : Nat) : Prop :=
  v.rows = h ∧ v.cols = w ∧ ∀ i j, i < h → j < w → v.coeff i j = e.coeff (r0 + i) (c0 + j)

theorem blockView_window (e : Xpr) (r0 c0 h w : Nat) (hr : r0 + h ≤ e.rows) (hc : c0 + w ≤ e.cols) :
    ∃ v, blockView e r0 c0 h w = .ok v ∧ Window e v r0 c0 h w := by
  unfold blockView
  refine ⟨_, if_pos ⟨by omega, by omega, by omega, by omega⟩, rfl, rfl, ?_⟩
  intro i j hi hj
  simp only [Xpr.coeff, Int.toNat_natCast]
  rw [if_pos ⟨hi, hj⟩, Nat.add_comm i, Nat.add_comm j]

/-- **C113 (blocks).** `block(r0, c0, h, w)` is the window at `(r0, c0)` if it is in range and throws
otherwise, also for negative positions. -/
theorem C113_block (e : Xpr) (r0 c0 : Int) (h w : Nat) :
    (0 ≤ r0 ∧ r0 + h ≤ e.rows ∧ 0 ≤ c0 ∧ c0 + w ≤ e.cols →
      ∃ v, blockView e r0 c0 h w = .ok v ∧ Window e v r0.toNat c0.toNat h w) ∧
    (¬ (0 ≤ r0 ∧ r0 + h ≤ e.rows ∧ 0 ≤ c0 ∧ c0 + w ≤ e.cols) → blockView e r0 c0 h w = .throws) := by
  constructor
  · rintro ⟨h1, h2, h3, h4⟩
    obtain ⟨v, hv, hw⟩ := blockView_window e r0.toNat c0.toNat h w (by omega) (by omega)
    rw [Int.toNat_of_nonneg h1, Int.toNat_of_nonneg h3] at hv
    exact ⟨v, hv, hw⟩
  · intro hn; exact if_neg hn

/-- **C113 (edges).** `topRows(n)`, `bottomRows(n)`, `leftCols(n)`, `rightCols(n)` are the first and
last `n` rows and columns; asking for too many throws. -/
theorem C113_edges (e : Xpr) (n : Nat) :
    (n ≤ e.rows → (∃ v, topRows e n = .ok v ∧ Window e v 0 0 n e.cols) ∧
      (∃ v, bottomRows e n = .ok v ∧ Window e v (e.rows - n) 0 n e.cols)) ∧
    (e.rows < n → topRows e n = .throws ∧ bottomRows e n = .throws) ∧
    (n ≤ e.cols → (∃ v, leftCols e n = .ok v ∧ Window e v 0 0 e.rows n) ∧
      (∃ v, rightCols e n = .ok v ∧ Window e v 0 (e.cols - n) e.rows n)) ∧
    (e.cols < n → leftCols e n = .throws ∧ rightCols e n = .throws) := by
  refine ⟨?_, ?_, ?_, ?_⟩
  · intro h
    refine ⟨blockView_window e 0 0 n e.cols (by omega) (by omega), ?_⟩
    have := blockView_window e (e.rows - n) 0 n e.cols (by omega) (by omega)
    unfold bottomRows
    rw [← Nat.cast_sub h]
    exact this
  · intro h
    exact ⟨(C113_block _ _ _ _ _).2 (by omega), (C113_block _ _ _ _ _).2 (by omega)⟩
  · intro h
    refine ⟨blockView_window e 0 0 e.rows n (by omega) (by omega), ?_⟩
    have := blockView_window e 0 (e.cols - n) e.rows n (by omega) (by omega)
    unfold rightCols
    rw [← Nat.cast_sub h]
    exact this
  · intro h
    exact ⟨(C113_block _ _ _ _ _).2 (by omega), (C113_block _ _ _ _ _).2 (by omega)⟩

example : 2 ≤ (Xpr.mat (BMat.zero 3 5)).rows ∧ (Xpr.mat (BMat.zero 3 5)).cols < 7 := by decide

/-! ## Writes through a block -/

/-- **C113 (writes).** `block(r0, c0, h, w).set(i, j)` and `clear(i, j)` with an index in the block
write the coefficient `(r0 + i, c0 + j)` of the matrix and nothing else. -/
theorem C113_block_write (m : BMat) (r c : Nat) (f : Nat → Nat → Bool) (hw : m.WF)
    (hm : Represents m r c f) (r0 c0 h w i j : Nat) (hr : r0 + h ≤ r) (hc : c0 + w ≤ c)
    (hi : i < h) (hj : j < w) :
    (∃ m', setInBlock m r0 c0 h w i j = .ok m' ∧ m'.WF ∧
      Represents m' r c (fun a b => if a = r0 + i ∧ b = c0 + j then true else f a b)) ∧
    (∃ m', clearInBlock m r0 c0 h w i j = .ok m' ∧ m'.WF ∧
      Represents m' r c (fun a b => if a = r0 + i ∧ b = c0 + j then false else f a b)) := by
  have hst := hm.stores hw
  have hR : m.rows = r := hm.1
  have hC : m.cols = c := hm.2.1
  obtain ⟨v, hv, _⟩ := blockView_window (.mat m) r0 c0 h w (by simp only [Xpr.rows]; omega)
    (by simp only [Xpr.cols]; omega)
  have e1 : ((i : Int) + (r0 : Int)) = ((r0 + i : Nat) : Int) := by push_cast; ring
  have e2 : ((j : Int) + (c0 : Int)) = ((c0 + j : Nat) : Int) := by push_cast; ring
  constructor
  · obtain ⟨m', h1, h2⟩ := hst.set (i := r0 + i) (j := c0 + j) (by omega) (by omega)
    refine ⟨m', ?_, h2.1, h2.represents⟩
    unfold setInBlock
    rw [hv, Res.ok_bind, e1, e2]; exact h1
  · obtain ⟨m', h1, h2⟩ := hst.clear (i := r0 + i) (j := c0 + j) (by omega) (by omega)
    refine ⟨m', ?_, h2.1, h2.represents⟩
    unfold clearInBlock
    rw [hv, Res.ok_bind, e1, e2]; exact h1

/-- The setters of a block do not compare the indices with the sizes of the block, while its getter
does: through the block of the first row and column of a 3 × 3 matrix the coefficient (2,2) of the
matrix is written without an exception. -/
theorem C113_bug_block_write :
    ∃ m, setInBlock (BMat.zero 3 3) 0 0 1 1 2 2 = .ok m ∧ m.read 2 2 = .ok true ∧
      (Xpr.block (.mat (BMat.zero 3 3)) 0 0 1 1).coeff 2 2 = .throws :=
  ⟨_, rfl, by decide, by decide⟩

/-! ## Assignment of dense matrices -/

/-- The loop of both constructors: it sets the coefficients of `f` and leaves the other ones. -/
theorem denseLoop_or (m : BMat) (r c : Nat) (g f : Nat → Nat → Bool) (hm : Stores m r c g) :
    ∃ m', forLoop (fun i m => forLoop (fun j m => if f i j then BMat.set m i j else .ok m) 0 c m) 0 r m
        = .ok m' ∧ Stores m' r c (fun a b => f a b || g a b) := by
  obtain ⟨m', h1, h2⟩ := forLoop2_inv
    (fun i j m => if f i j then BMat.set m i j else .ok m)
    (fun i j m => Stores m r c (fun a b => (decide (before i j a b) && f a b) || g a b))
    r c m
    (hm.congr (by
      intro i j _ _
      have : ¬ before 0 0 i j := by unfold before; omega
      simp [this]))
    (by
      intro i m hi hp
      apply hp.congr
      intro a b ha hb
      have : before i c a b ↔ before (i + 1) 0 a b := by unfold before; omega
      simp only [this])
    (by
      intro i j m hi hj hp
      cases hf : f i j
      · refine ⟨m, by simp, hp.congr ?_⟩
        intro a b ha hb
        by_cases he : a = i ∧ b = j
        · obtain ⟨rfl, rfl⟩ := he
          simp [hf]
        · have : before i (j + 1) a b ↔ before i j a b := by unfold before; omega
          simp only [this]
      · obtain ⟨m', hm, hs⟩ := hp.set hi hj
        refine ⟨m', by simpa using hm, hs.congr ?_⟩
        intro a b ha hb
        by_cases he : a = i ∧ b = j
        · rw [if_pos he]
          obtain ⟨rfl, rfl⟩ := he
          have : before a (b + 1) a b := by unfold before; omega
          simp [this, hf]
        · have : before i (j + 1) a b ↔ before i j a b := by unfold before; omega
          rw [if_neg he]
          simp only [this])
  refine ⟨m', h1, h2.congr ?_⟩
  intro i j hi hj
  have : before r 0 i j := by unfold before; omega
  simp [this]

/-- **C113 (dense, both sizes dynamic).** Construction and assignment from a dense matrix give its
coefficients, whatever the matrix held before. -/
theorem C113_dense_dynamic (m : BMat) (r c : Nat) (f : Nat → Nat → Bool) :
    (∃ m', assignDense ⟨none, none⟩ m r c f = .ok m' ∧ m'.WF ∧ Represents m' r c f) ∧
    (∃ m', constructDense ⟨none, none⟩ [] r c f = .ok m' ∧ m'.WF ∧ Represents m' r c f) := by
  obtain ⟨m', h1, h2⟩ := denseLoop_or (BMat.zero r c) r c (fun _ _ => false) f (zero_stores r c)
  have h3 := h2.congr (g := f) (by intro i j _ _; simp)
  exact ⟨⟨m', h1, h3.1, h3.represents⟩, ⟨m', h1, h3.1, h3.represents⟩⟩

/-- **C113 (dense, vector).** The same for a vector of dynamic length. -/
theorem C113_dense_vector (m : BMat) (r : Nat) (f : Nat → Nat → Bool) :
    (∃ m', assignDense ⟨none, some 1⟩ m r 1 f = .ok m' ∧ m'.WF ∧ Represents m' r 1 f) ∧
    (∃ m', constructDense ⟨none, some 1⟩ [] r 1 f = .ok m' ∧ m'.WF ∧ Represents m' r 1 f) := by
  obtain ⟨m', h1, h2⟩ := denseLoop_or (BMat.zero r 1) r 1 (fun _ _ => false) f (zero_stores r 1)
  have h3 := h2.congr (g := f) (by intro i j _ _; simp)
  have e : ∀ m, renew ⟨none, some 1⟩ r 1 m = .ok (BMat.zero r 1) := by
    intro m; simp [renew, resize, Shape.dynamic]
  constructor
  · refine ⟨m', ?_, h3.1, h3.represents⟩
    unfold assignDense
    rw [e]; exact h1
  · refine ⟨m', ?_, h3.1, h3.represents⟩
    unfold constructDense
    rw [e]; exact h1

/-- **C113 (dense, static sizes, partial).** Assigning a dense matrix to a matrix with static sizes
sets the coefficients that are true and keeps the other ones, so that it gives the coefficients
of the dense matrix if the matrix was zero.  Missing: other contents (`C113_bug_dense_static`). -/
theorem C113_dense_static_partial (m : BMat) (r c : Nat) (g f : Nat → Nat → Bool) (hw : m.WF)
    (hm : Represents m r c g) :
    (∃ m', assignDense ⟨some r, some c⟩ m r c f = .ok m' ∧ m'.WF ∧
      Represents m' r c (fun i j => f i j || g i j)) ∧
    ((∀ i j, i < r → j < c → g i j = false) →
      ∃ m', assignDense ⟨some r, some c⟩ m r c f = .ok m' ∧ m'.WF ∧ Represents m' r c f) := by
  have hst := hm.stores hw
  have e : ({ m with rows := r, cols := c } : BMat) = m := by
    obtain ⟨h1, h2, _⟩ := hm
    subst h1; subst h2; rfl
  have hl : ∃ m', assignDense ⟨some r, some c⟩ m r c f = .ok m' ∧
      Stores m' r c (fun i j => f i j || g i j) := by
    obtain ⟨m', h1, h2⟩ := denseLoop_or m r c g f hst
    refine ⟨m', ?_, h2⟩
    unfold assignDense
    rw [e, show renew ⟨some r, some c⟩ r c m = .ok m from if_neg (by simp [Shape.dynamic]), Res.ok_bind]
    exact h1
  obtain ⟨m', h1, h2⟩ := hl
  refine ⟨⟨m', h1, h2.1, h2.represents⟩, ?_⟩
  intro h0
  have h3 := h2.congr (g := f) (by intro i j hi hj; simp [h0 i j hi hj])
  exact ⟨m', h1, h3.1, h3.represents⟩

example : (BMat.zero 2 3).WF ∧ Represents (BMat.zero 2 3) 2 3 (fun _ _ => false) :=
  ⟨zero_WF 2 3, (zero_stores 2 3).represents⟩

/-- A binary matrix with static sizes is not cleared before a dense matrix is copied into it: the
matrix of ones assigned from a zero matrix still holds ones, and construction from a zero matrix
shows what the uninitialised storage held. -/
theorem C113_bug_dense_static :
    (∃ m, assignDense ⟨some 2, some 2⟩ (BMat.ones 2 2) 2 2 (fun _ _ => false) = .ok m ∧
      m.read 1 1 = .ok true) ∧
    (∃ junk : List Word, junk.length = packs (2 * 2) ∧
      ∃ m, constructDense ⟨some 2, some 2⟩ junk 2 2 (fun _ _ => false) = .ok m ∧
        m.read 0 0 = .ok true) :=
  ⟨⟨_, rfl, by decide⟩, ⟨[1#64], rfl, _, rfl, by decide⟩⟩

/-- A matrix with a static number of rows other than one and a dynamic number of columns can not be
resized, to whatever size, nor be assigned from a dense matrix: the assertion at binary_matrix.h:142 never holds. -/
theorem C113_bug_resize (n r c : Nat) (hn : n ≠ 1) (m : BMat) (f : Nat → Nat → Bool) :
    resize ⟨some n, none⟩ r c = .throws ∧ assignDense ⟨some n, none⟩ m r c f = .throws := by
  have h : resize ⟨some n, none⟩ r c = .throws := by
    unfold resize
    refine if_neg ?_
    rintro ⟨h | ⟨h, _⟩, _⟩
    · cases h
    · exact hn (Option.some.inj h)
  refine ⟨h, ?_⟩
  unfold assignDense
  rw [show ∀ m, renew ⟨some n, none⟩ r c m = .throws from fun m => (if_pos (by simp [Shape.dynamic])).trans h]
  rfl

/-- **C113 (resize, partial).** Resizing a matrix whose static sizes are all one, for instance a vector of dynamic length, gives the zero
matrix if the new sizes respect the static ones and throws otherwise.  Missing: other static sizes (`C113_bug_resize`). -/
theorem C113_resize_partial (s : Shape) (hr : s.rows = none ∨ s.rows = some 1) (hc : s.cols = none ∨ s.cols = some 1) (r c : Nat) :
    (s.fits r c → ∃ m, resize s r c = .ok m ∧ m.WF ∧ Represents m r c (fun _ _ => false)) ∧ (¬ s.fits r c → resize s r c = .throws) := by
  have key : s.fits r c ↔ (s.rows = none ∨ (s.rows = some 1 ∧ r = 1)) ∧ (s.cols = none ∨ (s.cols = some 1 ∧ c = 1)) := by
    rcases hr with h1 | h1 <;> rcases hc with h2 | h2 <;> simp [Shape.fits, h1, h2]
  constructor
  · intro h
    exact ⟨_, if_pos (key.1 h), zero_WF r c, (zero_stores r c).represents⟩
  · intro h
    exact if_neg fun h' => h (key.2 h')

example : (⟨none, some 1⟩ : Shape).fits 5 1 ∧ ¬ (⟨none, some 1⟩ : Shape).fits 1 5 := by
  constructor
  · constructor
    · intro n h
      simp at h
    · intro n h
      exact Option.some.inj h
  · intro h
    have := h.2 1 rfl
    omega

/-! ## Assignment of expressions -/

/-- **C113 (static shapes).** The shapes of two matrices with static sizes are compared when the program is compiled: an assignment between
different ones is refused, unless both are vectors. -/
theorem C113_static_mismatch (r c r' c' : Nat) (h : (r, c) ≠ (r', c')) (hv : c ≠ 1 ∨ (r' ≠ 1 ∧ c' ≠ 1)) :
    assignable ⟨some r, some c⟩ ⟨some r', some c'⟩ = false := by
  have h' : ¬ (r = r' ∧ c = c') := by simpa [Prod.ext_iff] using h
  unfold assignable
  simp only [Shape.dynamic, Option.isNone_some, Bool.or_false, Bool.false_or, Bool.or_eq_false_iff, Bool.and_eq_false_iff, beq_eq_false_iff_ne, ne_eq,
    Shape.mk.injEq, Option.some.injEq]
  exact ⟨h', hv⟩

example : ((2, 3) : Nat × Nat) ≠ (3, 2) ∧ ((3 : Nat) ≠ 1 ∨ ((3 : Nat) ≠ 1 ∧ (2 : Nat) ≠ 1)) := by decide

/-- **C113 (expressions).** Assigning an expression of the same shape — or of any shape, if the
matrix has a dynamic size and is not a column vector — gives its coefficients, whatever the matrix
held before. -/
theorem C113_assign (s t : Shape) (m : BMat) (e : Xpr) (hw : e.LeavesWF) (ha : e.asserts = true)
    (hal : e.BlocksAligned) (hm : m.WF)
    (hs : (s.dynamic = true ∧ s.cols ≠ some 1) ∨
      (s.fits e.rows e.cols ∧ s.fits m.rows m.cols ∧ (s.cols = some 1 → t.rows ≠ some 1))) :
    ∃ m', assignXpr s t m e = .ok m' ∧ m'.WF ∧ Represents m' e.rows e.cols e.den := by
  obtain ⟨m1, h1, h2, h3, h4, h5⟩ := ofXpr_spec e hw (Xpr.faithful e hw ha hal)
  unfold BMat.ofXpr at h1
  obtain ⟨ws, hws, hm1⟩ := Res.bind_eq_ok.1 h1
  have hm1' : (⟨e.rows, e.cols, e.bitpacks, ws⟩ : BMat) = m1 := by
    simpa using hm1
  have hst : Stores m1 e.rows e.cols e.den := by
    refine ⟨h2, h3, h4, ?_⟩
    intro i j hi hj
    rw [h5 _ (pos_lt_size hi hj), pos_div hj, pos_mod hj]
  refine ⟨m1, ?_, h2, hst.represents⟩
  have hrc : (if s.cols = some 1 ∧ (t.rows = some 1 ∨ t.cols = some 1) then
      (if t.rows = some 1 then e.cols else e.rows) else e.rows) = e.rows ∧
      (if s.cols = some 1 then 1 else e.cols) = e.cols := by
    rcases hs with ⟨_, hs⟩ | ⟨hf, _, hs⟩
    · simp [hs]
    · by_cases hc : s.cols = some 1
      · have := hs hc
        simp [this, hc, hf.2 1 hc]
      · simp [hc]
  have hdata : overwrite s m.data ws = .ok ws := by
    unfold overwrite
    by_cases hd : s.dynamic = true
    · rw [if_pos hd]
    · rw [if_neg hd]
      rcases hs with ⟨hs, _⟩ | ⟨hf, hf', _⟩
      · exact absurd hs hd
      · have hlen : ws.length = m.data.length := by
          have a := h2.2
          rw [← hm1'] at a
          have b := h2.1
          rw [← hm1'] at b
          simp only [Shape.dynamic, Bool.or_eq_true, Option.isNone_iff_eq_none, not_or] at hd
          obtain ⟨nr, hnr⟩ := Option.ne_none_iff_exists'.1 hd.1
          obtain ⟨nc, hnc⟩ := Option.ne_none_iff_exists'.1 hd.2
          rw [hm.2, hm.1, hf'.1 nr hnr, hf'.2 nc hnc, ← hf.1 nr hnr, ← hf.2 nc hnc]
          exact a.trans b
        rw [if_pos (le_of_eq hlen), hlen, List.drop_length, List.append_nil]
  unfold assignXpr
  rw [hws]
  simp only [Res.ok_bind]
  rw [hdata, Res.ok_bind, hrc.1, hrc.2, hm1']
  rfl

/-- **C113 (rows to vectors).** Assigning an expression that is a row at compile time to a vector of
dynamic length transposes it. -/
theorem C113_assign_row (t : Shape) (m : BMat) (e : Xpr) (hw : e.LeavesWF) (ha : e.asserts = true)
    (hal : e.BlocksAligned) (ht : t.rows = some 1) (hr : e.rows = 1) :
    ∃ m', assignXpr ⟨none, some 1⟩ t m e = .ok m' ∧ m'.WF ∧
      Represents m' e.cols 1 (fun i _ => e.den 0 i) := by
  obtain ⟨v, h1, h2, h3, h4, h5⟩ := ofXprVec_spec e hw (Xpr.faithful e hw ha hal) hr
  refine ⟨v, ?_, h2, h3, h4, ?_⟩
  · rw [← h1]
    unfold assignXpr BMat.ofXprVec
    simp [ht, overwrite, Shape.dynamic]
  · intro i j hi hj
    have hj0 : j = 0 := by omega
    subst hj0
    rw [h2.read (by omega) (by omega), h4]
    simp only [Nat.mul_one, Nat.add_zero]
    rw [h5 i hi]

/-- A matrix with several columns assigned to a vector of dynamic length passes the static
assertion and does not throw: the vector gets the number of rows of the matrix and the first
elements of its storage, which are those of its first row. -/
theorem C113_bug_matrix_to_vector :
    assignable ⟨none, some 1⟩ ⟨none, none⟩ = true ∧
    ∃ m v, (BMat.zero 2 3).set 0 1 = .ok m ∧
      assignXpr ⟨none, some 1⟩ ⟨none, none⟩ (BMat.zero 0 1) (.mat m) = .ok v ∧
      v.rows = 2 ∧ v.cols = 1 ∧ m.read 1 0 = .ok false ∧ v.read 1 0 = .ok true :=
  ⟨rfl, _, _, rfl, rfl, rfl, rfl, by decide, by decide⟩

/-- A vector with a static size can be assigned from one with another static size: the static
assertion passes whatever the sizes, the vector takes the size of the other one, and if this needs
more packs they are written past the end of the storage. -/
theorem C113_bug_vector_sizes :
    assignable ⟨some 3, some 1⟩ ⟨some 100, some 1⟩ = true ∧
    assignXpr ⟨some 3, some 1⟩ ⟨some 100, some 1⟩ (BMat.zero 3 1) (.mat (BMat.zero 100 1)) = .ub ∧
    (∃ v, assignXpr ⟨some 3, some 1⟩ ⟨some 5, some 1⟩ (BMat.zero 3 1) (.mat (BMat.zero 5 1)) = .ok v ∧
      v.rows = 5) :=
  ⟨rfl, by decide +kernel, _, rfl, rfl⟩

example : (⟨some 2, some 3⟩ : Shape).fits 2 3 ∧ (Xpr.mat (BMat.ones 2 3)).asserts = true := by
  refine ⟨⟨?_, ?_⟩, rfl⟩ <;> intro n h <;> exact Option.some.inj h

end Fdapde.BinMtx
