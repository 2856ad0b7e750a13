import Verif.BinMtx.Props
/- C03, C04: exactly what all() and any() answer, and for which sizes the answer is right. -/
namespace Fdapde.BinMtx

/-- The unused bits of the storage are zero, as after construction and any writes (`C04_clean_after_writes`). -/
def Unused (m : BMat) : Prop := ∀ p, m.rows * m.cols ≤ p → storeBit m.data p = false

theorem ofDense_unused (r c : Nat) (f : Nat → Nat → Bool) :
    ∃ m, BMat.ofDense r c f = .ok m ∧ m.WF ∧ Represents m r c f ∧ Unused m := by
  obtain ⟨m, h1, h2, h3⟩ := C01_ofDense r c f
  refine ⟨m, h1, h2, h3, ?_⟩
  obtain ⟨m', h1', hw, hr, hc, hz⟩ := forLoop2_inv
    (fun i j m => if f i j then BMat.set m i j else .ok m)
    (fun _ _ m => m.WF ∧ m.rows = r ∧ m.cols = c ∧ ∀ p, r * c ≤ p → storeBit m.data p = false)
    r c (BMat.zero r c) ⟨zero_WF r c, rfl, rfl, fun p _ => storeBit_zero _ _⟩ (fun i m _ h => h) (by
      rintro i j m hi hj ⟨hw, hr, hc, hz⟩
      cases hf : f i j
      · exact ⟨m, by simp, hw, hr, hc, hz⟩
      · obtain ⟨m1, a1, a2, a3, a4, a5⟩ := set_spec m hw (hr ▸ hi) (hc ▸ hj)
        refine ⟨m1, by simpa using a1, a2, by omega, by omega, fun p hp => ?_⟩
        have hlt := pos_lt_size hi hj
        rw [a5, if_neg (by rw [hc]; omega)]
        exact hz p hp)
  have : m = m' := by
    have e : BMat.ofDense r c f = .ok m' := h1'
    rw [h1] at e
    injection e
  subst this
  intro p hp
  exact hz p (by rw [← hr, ← hc]; exact hp)

theorem lin_mat (m : BMat) (hw : m.WF) (p : Nat) (hp : p < m.rows * m.cols) : (Xpr.mat m).lin p = storeBit m.data p := by
  unfold Xpr.lin
  simp only [Xpr.den]
  have e : p / m.cols * m.cols + p % m.cols = p := by rw [Nat.mul_comm]; exact Nat.div_add_mod _ _
  have h := hw.read (div_lt_rows hp) (Nat.mod_lt p (cols_pos hp))
  rw [e] at h
  show (m.read _ _ == .ok true) = _
  erw [h]
  cases storeBit m.data p <;> rfl

theorem getWord_data (m : BMat) (hw : m.WF) (k : Nat) (hk : k * 64 ≤ m.rows * m.cols) :
    ∃ w, (Xpr.mat m).bitpack k = .ok w ∧ ∀ b < 64, w.getLsbD b = storeBit m.data (k * 64 + b) := by
  have hlt : k < m.data.length := by rw [hw.2, hw.1]; exact pack_in _ _ hk
  refine ⟨m.data[k], by simp [Xpr.bitpack, getWord_nat, hlt], fun b hb => ?_⟩
  have e1 : (k * 64 + b) / 64 = k := by omega
  have e2 : (k * 64 + b) % 64 = b := by omega
  rw [storeBit_getElem _ _ (by omega)]
  simp only [e1, e2]

/-- The bits `all()` tests when the last pack is partial. -/
theorem all_words (m : BMat) (hw : m.WF) (hs : 64 ≤ m.rows * m.cols) (hr : m.rows * m.cols % 64 ≠ 0) :
    ∃ b, (Xpr.mat m).all = .ok b ∧
      (b = true ↔ ∀ p < m.rows * m.cols / 64 * 64 + (64 - m.rows * m.cols % 64), storeBit m.data p = true) := by
  have hsize : (Xpr.mat m).size = m.rows * m.cols := rfl
  unfold Xpr.all visitPacks
  obtain ⟨st, k', i', res, hv, hst, hnst⟩ := visitFull_all (.mat m) (faithful_mat m hw) ((Xpr.mat m).size / 64 - 0) 0 rfl (by omega) (by intro p hp; omega)
  have hv' : visitFull allVisitor (.mat m) (Xpr.mat m).size 0 0 true = .ok (st, k', i', res) := by simpa using hv
  simp only [hsize] at hv' hst hnst ⊢
  rw [if_neg (by omega), if_neg (by omega), hv']
  simp only [Res.ok_bind]
  cases st with
  | true =>
    obtain ⟨h1, p, hp, hl⟩ := hst rfl
    subst h1
    refine ⟨false, by simp, ?_⟩
    simp only [Bool.false_eq_true, false_iff]
    intro h
    have := h p (by omega)
    rw [lin_mat m hw p (by omega)] at hl
    rw [this] at hl
    cases hl
  | false =>
    obtain ⟨h1, hk, hi, hall⟩ := hnst rfl
    subst h1
    simp only [Bool.false_eq_true, if_false]
    rw [if_pos (by omega)]
    obtain ⟨w, hw1, hw2⟩ := getWord_data m hw k' (by omega)
    have hrm : m.rows * m.cols - i' = 64 - (64 - m.rows * m.cols % 64) := by omega
    obtain ⟨r, hr1, hr2⟩ := all_part w (64 - m.rows * m.cols % 64) (by omega) (by omega) true
    refine ⟨r, by rw [hw1, hrm]; exact hr1, ?_⟩
    rw [hr2]
    constructor
    · rintro ⟨_, h⟩ p hp
      by_cases h3 : p < k' * 64
      · rw [← lin_mat m hw p (by omega)]
        exact hall p h3
      · have := h (p - k' * 64) (by omega)
        rw [hw2 _ (by omega)] at this
        rwa [show k' * 64 + (p - k' * 64) = p by omega] at this
    · intro h
      exact ⟨rfl, fun b hb => by rw [hw2 b (by omega)]; exact h _ (by omega)⟩

/-- The bits `any()` tests below 64 coefficients. -/
theorem any_words (m : BMat) (hw : m.WF) (h0 : 0 < m.rows * m.cols) (hs : m.rows * m.cols < 64) :
    ∃ b, (Xpr.mat m).any = .ok b ∧ (b = true ↔ ∃ p < 64 - m.rows * m.cols, storeBit m.data p = true) := by
  have hsize : (Xpr.mat m).size = m.rows * m.cols := rfl
  unfold Xpr.any visitPacks
  simp only [hsize]
  rw [if_neg (by omega), if_pos hs]
  obtain ⟨w, hw1, hw2⟩ := getWord_data m hw 0 (by omega)
  obtain ⟨r, hr1, hr2⟩ := any_part w (64 - m.rows * m.cols) (by omega) (by omega) false
  refine ⟨r, by rw [hw1]; exact hr1, ?_⟩
  rw [hr2]
  constructor
  · rintro (h | ⟨b, hb, h⟩)
    · cases h
    · refine ⟨b, hb, ?_⟩
      rw [hw2 b (by omega)] at h
      simpa using h
  · rintro ⟨p, hp, h⟩
    exact Or.inr ⟨p, hp, by rw [hw2 p (by omega)]; simpa using h⟩

theorem storeBit_table {m : BMat} {r c : Nat} {f : Nat → Nat → Bool} (hw : m.WF) (h : Represents m r c f) {i j : Nat} (hi : i < r) (hj : j < c) :
    storeBit m.data (i * c + j) = f i j := by
  obtain ⟨rfl, rfl, h3⟩ := h
  have := h3 i j hi hj
  rw [hw.read hi hj] at this
  injection this

/-- **C03**: what `all()` answers for a matrix of the table `f`, for every size and content.  With fewer than 64 coefficients, or a multiple of 64, whether
all are true.  Otherwise, with `s % 64` coefficients left after the full packs: false if they are fewer than 32, and else whether all coefficients
but the last `2 (s % 64) - 64` ones are true. -/
theorem C03_answer (m : BMat) (r c : Nat) (f : Nat → Nat → Bool) (hw : m.WF) (hm : Represents m r c f) (hu : Unused m) :
    ∃ b, (Xpr.mat m).all = .ok b ∧
      (r * c < 64 ∨ r * c % 64 = 0 → (b = true ↔ ∀ i < r, ∀ j < c, f i j = true)) ∧
      (64 ≤ r * c → r * c % 64 ≠ 0 → (b = true ↔ 32 ≤ r * c % 64 ∧ ∀ i < r, ∀ j < c, i * c + j < r * c - (2 * (r * c % 64) - 64) → f i j = true)) := by
  have hR := hm.1
  have hC := hm.2.1
  by_cases hs : r * c < 64 ∨ r * c % 64 = 0
  · obtain ⟨b, h1, h2⟩ := C03_all_partial (.mat m) hw rfl trivial (by simp only [Xpr.size, Xpr.rows, Xpr.cols, hR, hC]; exact hs)
    refine ⟨b, h1, fun _ => ?_, fun h3 h4 => by omega⟩
    rw [h2]
    simp only [Xpr.rows, Xpr.cols, hR, hC, Xpr.coeff]
    constructor
    · intro h i hi j hj
      have e := h i j hi hj
      have e' := hm.2.2 i j hi hj
      rw [e] at e'
      injection e' with e'
      exact e'.symm
    · intro h i j hi hj
      have e' := hm.2.2 i j hi hj
      rw [h i hi j hj] at e'
      exact e'
  · push Not at hs
    obtain ⟨b, h1, h2⟩ := all_words m hw (by rw [hR, hC]; exact hs.1) (by rw [hR, hC]; exact hs.2)
    rw [hR, hC] at h2
    refine ⟨b, h1, fun h => by omega, fun _ _ => ?_⟩
    rw [h2]
    constructor
    · intro h
      have h32 : 32 ≤ r * c % 64 := by
        by_contra hn
        have a1 := h (r * c) (by omega)
        rw [hu (r * c) (by rw [hR, hC])] at a1
        cases a1
      refine ⟨h32, fun i hi j hj hlt => ?_⟩
      rw [← storeBit_table hw hm hi hj]
      exact h _ (by omega)
    · rintro ⟨h32, h⟩ p hp
      have hp2 : p < r * c := by omega
      have e : p / c * c + p % c = p := by rw [Nat.mul_comm]; exact Nat.div_add_mod _ _
      have hi : p / c < r := div_lt_rows hp2
      have hj : p % c < c := Nat.mod_lt _ (cols_pos hp2)
      have := storeBit_table hw hm hi hj
      rw [e] at this
      rw [this]
      exact h _ hi _ hj (by omega)

/-- **C04**: what `any()` answers for a matrix of the table `f`, for every size and content: whether a coefficient is true, except that with more than 32
and fewer than 64 coefficients only the first `64 - s` are looked at. -/
theorem C04_answer (m : BMat) (r c : Nat) (f : Nat → Nat → Bool) (hw : m.WF) (hm : Represents m r c f) (hu : Unused m) :
    ∃ b, (Xpr.mat m).any = .ok b ∧
      (r * c ≤ 32 ∨ 64 ≤ r * c → (b = true ↔ ∃ i < r, ∃ j < c, f i j = true)) ∧
      (32 ≤ r * c → r * c < 64 → (b = true ↔ ∃ i < r, ∃ j < c, i * c + j < 64 - r * c ∧ f i j = true)) := by
  have hR := hm.1
  have hC := hm.2.1
  by_cases hs : r * c = 0 ∨ 64 ≤ r * c
  · obtain ⟨b, h1, h2⟩ := C04_any_partial (.mat m) hw rfl trivial (by simp only [Xpr.size, Xpr.rows, Xpr.cols, hR, hC]; omega)
    refine ⟨b, h1, fun _ => ?_, fun h3 h4 => by omega⟩
    rw [h2]
    simp only [Xpr.rows, Xpr.cols, hR, hC, Xpr.coeff]
    constructor
    · rintro ⟨i, j, hi, hj, h⟩
      have e' := hm.2.2 i j hi hj
      rw [h] at e'
      injection e' with e'
      exact ⟨i, hi, j, hj, e'.symm⟩
    · rintro ⟨i, hi, j, hj, h⟩
      have e' := hm.2.2 i j hi hj
      rw [h] at e'
      exact ⟨i, j, hi, hj, e'⟩
  · push Not at hs
    obtain ⟨b, h1, h2⟩ := any_words m hw (by rw [hR, hC]; omega) (by rw [hR, hC]; exact hs.2)
    rw [hR, hC] at h2
    have key : b = true ↔ ∃ i < r, ∃ j < c, i * c + j < 64 - r * c ∧ f i j = true := by
      rw [h2]
      constructor
      · rintro ⟨p, hp, h⟩
        have hp2 : p < r * c := by
          by_contra hn
          rw [hu p (by rw [hR, hC]; omega)] at h
          cases h
        have e : p / c * c + p % c = p := by rw [Nat.mul_comm]; exact Nat.div_add_mod _ _
        have hi : p / c < r := div_lt_rows hp2
        have hj : p % c < c := Nat.mod_lt _ (cols_pos hp2)
        have h3 := storeBit_table hw hm hi hj
        rw [e, h] at h3
        exact ⟨_, hi, _, hj, by omega, h3.symm⟩
      · rintro ⟨i, hi, j, hj, hlt, h⟩
        exact ⟨i * c + j, hlt, by rw [storeBit_table hw hm hi hj]; exact h⟩
    refine ⟨b, h1, fun h => ?_, fun _ _ => key⟩
    rw [key]
    constructor
    · rintro ⟨i, hi, j, hj, _, h⟩
      exact ⟨i, hi, j, hj, h⟩
    · rintro ⟨i, hi, j, hj, h⟩
      have := pos_lt_size hi hj
      exact ⟨i, hi, j, hj, by omega, h⟩

/-- **C03**: the sizes for which `all()` is right, whatever the content: fewer than 64 coefficients, or a multiple of 32. -/
theorem C03_when_right (r c : Nat) :
    (∀ f : Nat → Nat → Bool, ∃ m b, BMat.ofDense r c f = .ok m ∧ (Xpr.mat m).all = .ok b ∧ (b = true ↔ ∀ i < r, ∀ j < c, f i j = true)) ↔
      r * c < 64 ∨ r * c % 32 = 0 := by
  constructor
  · intro H
    by_contra hn
    push Not at hn
    obtain ⟨h64, h32⟩ := hn
    by_cases hlt : r * c % 64 < 32
    · obtain ⟨m, b, e1, e2, e3⟩ := H fun _ _ => true
      obtain ⟨m', a1, a2, a3, a4⟩ := ofDense_unused r c fun _ _ => true
      rw [e1] at a1; injection a1 with a1; subst a1
      obtain ⟨b', b1, _, b3⟩ := C03_answer m r c _ a2 a3 a4
      rw [e2] at b1; injection b1 with b1; subst b1
      have := (b3 h64 (by omega)).1 (e3.2 fun _ _ _ _ => rfl)
      omega
    · obtain ⟨m, b, e1, e2, e3⟩ := H fun i j => decide (i * c + j + 1 ≠ r * c)
      obtain ⟨m', a1, a2, a3, a4⟩ := ofDense_unused r c fun i j => decide (i * c + j + 1 ≠ r * c)
      rw [e1] at a1; injection a1 with a1; subst a1
      obtain ⟨b', b1, _, b3⟩ := C03_answer m r c _ a2 a3 a4
      rw [e2] at b1; injection b1 with b1; subst b1
      have hb := (b3 h64 (by omega)).2 ⟨by omega, fun i _ j _ h => by simp only [decide_eq_true_eq]; omega⟩
      have hp : r * c - 1 < r * c := by omega
      have := e3.1 hb _ (div_lt_rows hp) _ (Nat.mod_lt (r * c - 1) (cols_pos hp))
      rw [Nat.mul_comm ((r * c - 1) / c), Nat.div_add_mod, decide_eq_true_eq] at this
      omega
  · intro h f
    obtain ⟨m, a1, a2, a3, a4⟩ := ofDense_unused r c f
    obtain ⟨b, b1, b2, b3⟩ := C03_answer m r c f a2 a3 a4
    refine ⟨m, b, a1, b1, ?_⟩
    by_cases hs : r * c < 64 ∨ r * c % 64 = 0
    · exact b2 hs
    · push Not at hs
      rw [b3 hs.1 hs.2]
      constructor
      · rintro ⟨_, h'⟩ i hi j hj
        have := pos_lt_size hi hj
        exact h' i hi j hj (by omega)
      · intro h'
        exact ⟨by omega, fun i hi j hj _ => h' i hi j hj⟩

/-- **C04**: the sizes for which `any()` is right, whatever the content: all but 33 to 63 coefficients. -/
theorem C04_when_right (r c : Nat) :
    (∀ f : Nat → Nat → Bool, ∃ m b, BMat.ofDense r c f = .ok m ∧ (Xpr.mat m).any = .ok b ∧ (b = true ↔ ∃ i < r, ∃ j < c, f i j = true)) ↔
      r * c ≤ 32 ∨ 64 ≤ r * c := by
  constructor
  · intro H
    by_contra hn
    push Not at hn
    obtain ⟨m, b, e1, e2, e3⟩ := H fun i j => decide (i * c + j + 1 = r * c)
    obtain ⟨m', a1, a2, a3, a4⟩ := ofDense_unused r c fun i j => decide (i * c + j + 1 = r * c)
    rw [e1] at a1; injection a1 with a1; subst a1
    obtain ⟨b', b1, _, b3⟩ := C04_answer m r c _ a2 a3 a4
    rw [e2] at b1; injection b1 with b1; subst b1
    have hp : r * c - 1 < r * c := by omega
    obtain ⟨i, hi, j, hj, h4, h5⟩ := (b3 (by omega) hn.2).1 (e3.2 ⟨_, div_lt_rows hp, _, Nat.mod_lt (r * c - 1) (cols_pos hp), by
      rw [Nat.mul_comm ((r * c - 1) / c), Nat.div_add_mod, decide_eq_true_eq]; omega⟩)
    rw [decide_eq_true_eq] at h5
    omega
  · intro h f
    obtain ⟨m, a1, a2, a3, a4⟩ := ofDense_unused r c f
    obtain ⟨b, b1, b2, _⟩ := C04_answer m r c f a2 a3 a4
    exact ⟨m, b, a1, b1, b2 h⟩

/-- The hypotheses of the answers are met by every matrix built from a table, here one with 127 coefficients whose last 62 are not looked at. -/
example : ∃ m, BMat.ofDense 1 127 (fun _ j => decide (j < 65)) = .ok m ∧ (Xpr.mat m).all = .ok true := by
  obtain ⟨m, a1, a2, a3, a4⟩ := ofDense_unused 1 127 fun _ j => decide (j < 65)
  obtain ⟨b, b1, _, b3⟩ := C03_answer m 1 127 _ a2 a3 a4
  have := (b3 (by norm_num) (by norm_num)).2 ⟨by norm_num, fun i hi j hj h => by simp only [decide_eq_true_eq]; omega⟩
  exact ⟨m, a1, by rw [b1, this]⟩

/-! ### Construction from a range -/

theorem ofRangeGo_answer (r c s : Nat) (hr : 0 < r) (hc : 0 < c) (xs : List Bool) : ∀ (i : Nat) (m : BMat) (g : Nat → Nat → Bool), Stores m r c g →
    ((∃ k, xs[k]? = some true ∧ r * r ≤ i + k) → BMat.ofRangeGo r c s xs i m = .throws) ∧
    ((∀ k, xs[k]? = some true → i + k < r * r) → i + xs.length < s → BMat.ofRangeGo r c s xs i m = .ub) ∧
    ((∀ k, xs[k]? = some true → i + k < r * r) → s ≤ i + xs.length → ∃ m' g', BMat.ofRangeGo r c s xs i m = .ok m' ∧ Stores m' r c g' ∧
      ∀ a < r, ∀ b < c, (g' a b = true ↔ g a b = true ∨ ∃ k, xs[k]? = some true ∧ (i + k) / r = a ∧ (i + k) % c = b)) := by
  induction xs with
  | nil =>
    intro i m g h
    refine ⟨by simp, fun _ hlt => ?_, fun _ hge => ⟨m, g, ?_, h, by simp⟩⟩
    · rw [BMat.ofRangeGo, if_pos (by simpa using hlt)]
    · rw [BMat.ofRangeGo, if_neg (by simp at hge; omega)]
  | cons x xs ih =>
    intro i m g h
    cases x with
    | false =>
      obtain ⟨i1, i2, i3⟩ := ih (i + 1) m g h
      have e : BMat.ofRangeGo r c s (false :: xs) i m = BMat.ofRangeGo r c s xs (i + 1) m := by rw [BMat.ofRangeGo]; simp
      rw [e]
      refine ⟨?_, fun hk hl => i2 (fun k hk' => ?_) (by simp at hl; omega), fun hk hl => ?_⟩
      · rintro ⟨k, hk, hr'⟩
        cases k with
        | zero => simp at hk
        | succ k => exact i1 ⟨k, by simpa using hk, by omega⟩
      · have := hk (k + 1) (by simpa using hk')
        omega
      · obtain ⟨m', g', a1, a2, a3⟩ := i3 (fun k hk' => by have := hk (k + 1) (by simpa using hk'); omega) (by simp at hl; omega)
        refine ⟨m', g', a1, a2, fun a ha b hb => ?_⟩
        rw [a3 a ha b hb]
        refine or_congr_right ⟨?_, ?_⟩
        · rintro ⟨k, h1, h2, h3⟩
          exact ⟨k + 1, by simpa using h1, by rw [← h2]; congr 1; omega, by rw [← h3]; congr 1; omega⟩
        · rintro ⟨k, h1, h2, h3⟩
          cases k with
          | zero => simp at h1
          | succ k => exact ⟨k, by simpa using h1, by rw [← h2]; congr 1; omega, by rw [← h3]; congr 1; omega⟩
    | true =>
      have e : BMat.ofRangeGo r c s (true :: xs) i m =
          (m.set ((i / r : Nat) : Int) ((i % c : Nat) : Int) >>= fun m' => BMat.ofRangeGo r c s xs (i + 1) m') := by
        rw [BMat.ofRangeGo, if_pos rfl, if_neg (by omega)]
      have hj : i % c < c := Nat.mod_lt _ hc
      by_cases hi : i / r < r
      · obtain ⟨m1, b1, b2⟩ := h.set hi hj
        obtain ⟨i1, i2, i3⟩ := ih (i + 1) m1 _ b2
        rw [e, b1]
        simp only [Res.ok_bind]
        have hir : i < r * r := (Nat.div_lt_iff_lt_mul hr).1 hi
        refine ⟨?_, fun hk hl => i2 (fun k hk' => ?_) (by simp at hl; omega), fun hk hl => ?_⟩
        · rintro ⟨k, hk, hr'⟩
          cases k with
          | zero => omega
          | succ k => exact i1 ⟨k, by simpa using hk, by omega⟩
        · have := hk (k + 1) (by simpa using hk')
          omega
        · obtain ⟨m', g', a1, a2, a3⟩ := i3 (fun k hk' => by have := hk (k + 1) (by simpa using hk'); omega) (by simp at hl; omega)
          refine ⟨m', g', a1, a2, fun a ha b hb => ?_⟩
          rw [a3 a ha b hb]
          constructor
          · rintro (h0 | ⟨k, h1, h2, h3⟩)
            · split at h0
              · rename_i hab
                exact Or.inr ⟨0, by simp, by rw [hab.1]; rfl, by rw [hab.2]; rfl⟩
              · exact Or.inl h0
            · exact Or.inr ⟨k + 1, by simpa using h1, by rw [← h2]; congr 1; omega, by rw [← h3]; congr 1; omega⟩
          · rintro (h0 | ⟨k, h1, h2, h3⟩)
            · left
              split
              · rfl
              · exact h0
            · cases k with
              | zero =>
                left
                rw [if_pos ⟨h2.symm, h3.symm⟩]
              | succ k => exact Or.inr ⟨k, by simpa using h1, by rw [← h2]; congr 1; omega, by rw [← h3]; congr 1; omega⟩
      · have hir : r * r ≤ i := by
          by_contra hn
          exact hi ((Nat.div_lt_iff_lt_mul hr).2 (by omega))
        have hth : m.set ((i / r : Nat) : Int) ((i % c : Nat) : Int) = .throws := set_throws m _ _ (by rw [h.2.1]; omega)
        rw [e, hth]
        refine ⟨fun _ => rfl, fun hk _ => ?_, fun hk _ => ?_⟩
        all_goals
          have := hk 0 (by simp)
          omega

/-- **C09**: what construction of an `r × c` matrix from a range does, for every range of any length: it throws if a true element has a number of at least
`r * r`, otherwise reads past the end if the range is shorter than the matrix, and otherwise sets the coefficient `(k / r, k % c)` for every true
element `k`. -/
theorem C09_answer (r c : Nat) (hr : 0 < r) (hc : 0 < c) (xs : List Bool) :
    ((∃ k, xs[k]? = some true ∧ r * r ≤ k) → BMat.ofRange xs r c = .throws) ∧
    ((∀ k, xs[k]? = some true → k < r * r) → xs.length < r * c → BMat.ofRange xs r c = .ub) ∧
    ((∀ k, xs[k]? = some true → k < r * r) → r * c ≤ xs.length → ∃ m g, BMat.ofRange xs r c = .ok m ∧ m.WF ∧ Represents m r c g ∧
      ∀ a < r, ∀ b < c, (g a b = true ↔ ∃ k, xs[k]? = some true ∧ k / r = a ∧ k % c = b)) := by
  obtain ⟨h1, h2, h3⟩ := ofRangeGo_answer r c (r * c) hr hc xs 0 (BMat.zero r c) _ (zero_stores r c)
  simp only [Nat.zero_add, Bool.false_eq_true, false_or] at h1 h2 h3
  refine ⟨h1, h2, fun a b => ?_⟩
  obtain ⟨m, g, e1, e2, e3⟩ := h3 a b
  exact ⟨m, g, e1, e2.1, e2.represents, e3⟩

/-- **C09**: the shapes for which construction from a range is right, whatever the content: the square ones and the empty ones. -/
theorem C09_when_right (r c : Nat) :
    (∀ xs : List Bool, xs.length = r * c → ∃ m, BMat.ofRange xs r c = .ok m ∧ Represents m r c fun i j => xs[i * c + j]?.getD false) ↔
      r = c ∨ r * c = 0 := by
  constructor
  · intro H
    by_contra hn
    push Not at hn
    obtain ⟨hne, h0⟩ := hn
    have hr : 0 < r := Nat.pos_of_ne_zero fun h => h0 (by simp [h])
    have hc : 0 < c := Nat.pos_of_ne_zero fun h => h0 (by simp [h])
    by_cases hlt : r < c
    · obtain ⟨m, e, _⟩ := H (List.replicate (r * c) true) (by simp)
      have h1 : r * r < r * c := Nat.mul_lt_mul_of_pos_left hlt hr
      rw [(C09_answer r c hr hc _).1 ⟨r * r, by simp [h1], le_rfl⟩] at e
      cases e
    · have hcr : c < r := by omega
      have hl : c < r * c := by
        have := Nat.mul_lt_mul_of_pos_right (show 1 < r by omega) hc
        omega
      obtain ⟨m, e, hm⟩ := H ((List.range (r * c)).map fun k => decide (k = c)) (by simp)
      have hx : ∀ k, ((List.range (r * c)).map fun k => decide (k = c))[k]? = some true ↔ k = c := by
        intro k
        simp only [List.getElem?_map, Option.map_eq_some_iff, decide_eq_true_eq]
        constructor
        · rintro ⟨a, h1, rfl⟩
          rw [List.getElem?_eq_some_iff] at h1
          obtain ⟨h2, h3⟩ := h1
          simpa using h3
        · rintro rfl
          exact ⟨k, by simp [hl], rfl⟩
      obtain ⟨m', g, e1, _, e2, e3⟩ := (C09_answer r c hr hc ((List.range (r * c)).map fun k => decide (k = c))).2.2
        (fun k hk => by
          rw [(hx k).1 hk]
          exact lt_of_lt_of_le hcr (Nat.le_mul_self r)) (by simp)
      rw [e] at e1
      injection e1 with e1
      subst e1
      have a1 := hm.2.2 1 0 (by omega) hc
      have a2 := e2.2.2 1 0 (by omega) hc
      rw [a1] at a2
      injection a2 with a2
      have a3 : (((List.range (r * c)).map fun k => decide (k = c))[1 * c + 0]?).getD false = true := by
        rw [show 1 * c + 0 = c by omega, (hx c).2 rfl]
        rfl
      dsimp only at a2
      rw [a3] at a2
      obtain ⟨k, k1, k2, _⟩ := (e3 1 (by omega) 0 hc).1 a2.symm
      rw [(hx k).1 k1, Nat.div_eq_of_lt hcr] at k2
      omega
  · rintro (rfl | h0) xs hl
    · exact C09_range_square_partial r xs hl
    · have hx : xs = [] := List.length_eq_zero_iff.1 (by rw [hl, h0])
      subst hx
      refine ⟨BMat.zero r c, by simp [BMat.ofRange, BMat.ofRangeGo, h0], rfl, rfl, fun i j hi hj => ?_⟩
      have := Nat.mul_pos (show 0 < r by omega) (show 0 < c by omega)
      omega

/-- A tall matrix, filled without exception but in the wrong places. -/
example : ∃ m g, BMat.ofRange [false, false, true, false, true, false] 3 2 = .ok m ∧ m.WF ∧ Represents m 3 2 g ∧
    ∀ a < 3, ∀ b < 2, (g a b = true ↔ ∃ k, [false, false, true, false, true, false][k]? = some true ∧ k / 3 = a ∧ k % 2 = b) :=
  (C09_answer 3 2 (by norm_num) (by norm_num) _).2.2 (fun k hk => by
    have : k < 6 := by
      by_contra hn
      rw [List.getElem?_eq_none (by simp; omega)] at hk
      cases hk
    omega) (by simp)

end Fdapde.BinMtx
