import Verif.BinMtx.IntModel
import Verif.BinMtx.Spec
import Verif.BinMtx.Lemmas3
import Verif.BinMtx.Rounding
import Mathlib.Tactic.Linarith
/- C137 : the indices of binary matrices in 32 bit integers. -/
namespace Fdapde.BinMtx

/-- All sizes which occur in an expression are `int`s: those of its matrices, of its repetitions and of its reshapings. -/
def Xpr.Fits : Xpr → Prop
  | .mat m => m.rows < 2 ^ 31 ∧ m.cols < 2 ^ 31 ∧ m.rows * m.cols < 2 ^ 31
  | .not e => e.Fits
  | .bin _ a b => a.Fits ∧ b.Fits
  | .block e _ _ _ _ => e.Fits
  | .rep e a b => e.Fits ∧ e.rows * a < 2 ^ 31 ∧ e.cols * b < 2 ^ 31 ∧ e.rows * a * (e.cols * b) < 2 ^ 31
  | .resh e r c => e.Fits ∧ r < 2 ^ 31 ∧ c < 2 ^ 31 ∧ r * c < 2 ^ 31

theorem chk_ok {x : Nat} (h : x < 2 ^ 31) : chk x = .ok x := by simp only [chk, if_pos h]
theorem chk_ub {x : Nat} (h : 2 ^ 31 ≤ x) : chk x = .ub := by simp only [chk, if_neg (not_lt.2 h)]

theorem Xpr.Fits.sizes : ∀ {e : Xpr}, e.Fits → e.asserts = true → e.rows < 2 ^ 31 ∧ e.cols < 2 ^ 31 ∧ e.rows * e.cols < 2 ^ 31
  | .mat _, h, _ => h
  | .not e, h, ha => Xpr.Fits.sizes (e := e) h ha
  | .bin _ a b, h, ha => by
    simp only [Xpr.asserts, Bool.and_eq_true] at ha
    exact Xpr.Fits.sizes (e := a) h.1 ha.1.1.1
  | .block e r0 c0 hh w, h, ha => by
    simp only [Xpr.asserts, Bool.and_eq_true, decide_eq_true_eq] at ha
    have := Xpr.Fits.sizes (e := e) h ha.1.1
    have : hh * w ≤ e.rows * e.cols := Nat.mul_le_mul (by omega) (by omega)
    simp only [Xpr.rows, Xpr.cols]; omega
  | .rep e a b, h, _ => h.2
  | .resh e r c, h, _ => h.2

theorem posI_ok {c i j : Nat} (h : i * c + j < 2 ^ 31) : posI c i j = .ok ((i * c + j : Nat) : Int) := by
  unfold posI i32
  have e1 : ((i : Int) * (c : Int)) = ((i * c : Nat) : Int) := by push_cast; rfl
  rw [e1, if_pos ⟨by omega, by omega⟩, Res.ok_bind, if_pos ⟨by omega, by omega⟩]
  push_cast; rfl

theorem posI_ub {c i j : Nat} (h : 2 ^ 31 ≤ i * c + j) : posI c i j = .ub := by
  unfold posI i32
  have e1 : ((i : Int) * (c : Int)) = ((i * c : Nat) : Int) := by push_cast; rfl
  rw [e1]
  by_cases h1 : i * c < 2 ^ 31
  · rw [if_pos ⟨by omega, by omega⟩, Res.ok_bind, if_neg (by omega)]
  · rw [if_neg (by omega)]; rfl

theorem getWord_big {m : BMat} (hw : m.WF) (hs : m.rows * m.cols < 2 ^ 31) {p : Nat} (h : 2 ^ 31 ≤ p) :
    getWord m.data ((p / 64 : Nat) : Int) = .ub := by
  rw [getWord_nat, List.getElem?_eq_none (by rw [hw.2, hw.1]; unfold packs; omega)]; rfl

theorem readI_eq {m : BMat} (hw : m.WF) (hs : m.rows * m.cols < 2 ^ 31) (i j : Nat) : m.readI i j = m.read i j := by
  unfold BMat.readI BMat.read
  rw [packOf_nat, bitOf_nat]
  by_cases h : i * m.cols + j < 2 ^ 31
  · rw [posI_ok h, Res.ok_bind]; rfl
  · rw [posI_ub (by omega), getWord_big hw hs (by omega)]; rfl

theorem setI_eq {m : BMat} (hs : m.rows * m.cols < 2 ^ 31) (i j : Nat) : m.setI i j = m.set i j := by
  unfold BMat.setI BMat.set
  split
  · rename_i h
    have := pos_lt_size (r := m.rows) (c := m.cols) (i := i) (j := j) (by omega) (by omega)
    rw [packOf_nat, bitOf_nat, posI_ok (by omega), Res.ok_bind]; rfl
  · rfl

theorem clearI_eq {m : BMat} (hs : m.rows * m.cols < 2 ^ 31) (i j : Nat) : m.clearI i j = m.clear i j := by
  unfold BMat.clearI BMat.clear
  split
  · rename_i h
    have := pos_lt_size (r := m.rows) (c := m.cols) (i := i) (j := j) (by omega) (by omega)
    rw [packOf_nat, bitOf_nat, posI_ok (by omega), Res.ok_bind]; rfl
  · rfl

theorem coeffI_eq : ∀ (e : Xpr), e.LeavesWF → e.asserts = true → e.Fits → ∀ i j, e.coeffI i j = e.coeff i j
  | .mat m, hw, _, hf, i, j => readI_eq hw hf.2.2 i j
  | .not e, hw, ha, hf, i, j => by
    simp only [Xpr.coeffI, Xpr.coeff, coeffI_eq e hw ha hf]
  | .bin op a b, hw, ha, hf, i, j => by
    simp only [Xpr.asserts, Bool.and_eq_true] at ha
    simp only [Xpr.coeffI, Xpr.coeff, coeffI_eq a hw.1 ha.1.1.1 hf.1, coeffI_eq b hw.2 ha.1.1.2 hf.2]
  | .block e r0 c0 h w, hw, ha, hf, i, j => by
    simp only [Xpr.asserts, Bool.and_eq_true, decide_eq_true_eq] at ha
    have hsz := Xpr.Fits.sizes (e := e) hf ha.1.1
    simp only [Xpr.coeffI, Xpr.coeff]
    split
    · rw [chk_ok (show i + r0 < 2 ^ 31 by omega), Res.ok_bind, chk_ok (show j + c0 < 2 ^ 31 by omega), Res.ok_bind]
      exact coeffI_eq e hw ha.1.1 hf _ _
    · rfl
  | .rep e a b, hw, ha, hf, i, j => by
    simp only [Xpr.coeffI, Xpr.coeff, coeffI_eq e hw ha hf.1]
  | .resh e r c, hw, ha, hf, i, j => by
    simp only [Xpr.asserts, Bool.and_eq_true] at ha
    simp only [Xpr.coeffI, Xpr.coeff]
    split
    · rename_i h
      have := pos_lt_size h.1 h.2
      have := hf.2.2.2
      rw [chk_ok (show i * c < 2 ^ 31 by omega), Res.ok_bind, chk_ok (show i * c + j < 2 ^ 31 by omega), Res.ok_bind]
      split
      · rfl
      · exact coeffI_eq e hw ha.1 hf.1 _ _
    · rfl

theorem buildI_eq : ∀ (e : Xpr), e.asserts = true → e.Fits → e.buildI = .ok ()
  | .mat _, _, _ => rfl
  | .not e, ha, hf => by
    simp only [Xpr.buildI, buildI_eq e ha hf, Res.ok_bind, chk_ok (Xpr.Fits.sizes (e := e) hf ha).2.2, Res.pure_eq]
  | .bin op a b, ha, hf => by
    simp only [Xpr.asserts, Bool.and_eq_true, beq_iff_eq] at ha
    simp only [Xpr.buildI, buildI_eq a ha.1.1.1 hf.1, buildI_eq b ha.1.1.2 hf.2, Res.ok_bind,
      chk_ok (Xpr.Fits.sizes (e := a) hf.1 ha.1.1.1).2.2, if_pos (show a.rows = b.rows ∧ a.cols = b.cols from ⟨ha.1.2, ha.2⟩)]
  | .block e r0 c0 h w, ha, hf => by
    have hs := Xpr.Fits.sizes (e := .block e r0 c0 h w) hf ha
    simp only [Xpr.asserts, Bool.and_eq_true, decide_eq_true_eq] at ha
    have hsz := Xpr.Fits.sizes (e := e) hf ha.1.1
    simp only [Xpr.buildI, buildI_eq e ha.1.1 hf, Res.ok_bind, chk_ok (show h * w < 2 ^ 31 from hs.2.2),
      chk_ok (show r0 + h < 2 ^ 31 by omega), if_pos ha.1.2, chk_ok (show c0 + w < 2 ^ 31 by omega), if_pos ha.2]
  | .rep e a b, ha, hf => by
    simp only [Xpr.buildI, buildI_eq e ha hf.1, Res.ok_bind, chk_ok hf.2.1, chk_ok hf.2.2.1, chk_ok hf.2.2.2, Res.pure_eq]
  | .resh e r c, ha, hf => by
    simp only [Xpr.asserts, Bool.and_eq_true, beq_iff_eq] at ha
    simp only [Xpr.buildI, buildI_eq e ha.1 hf.1, Res.ok_bind, chk_ok hf.2.2.2,
      chk_ok (Xpr.Fits.sizes (e := e) hf.1 ha.1).2.2, if_pos ha.2]

theorem assembleI_eq (start size : Nat) (hs : size < 2 ^ 31) (bit bit' : Nat → Res Bool) (hb : ∀ j < 64, start + j < size → bit j = bit' j) :
    ∀ (n j : Nat), j + n = 64 → start + j ≤ size ∨ j = 0 ∧ start < 2 ^ 31 → ∀ out,
      assembleI start size bit n j out = forLoop (fun j (out : Word) => do
        let b ← bit' j
        let s ← shl (if b then 1#64 else 0#64) j
        return out ||| s) j (min n (size - (start + j))) out := by
  intro n
  induction n with
  | zero => intro j _ _ out; simp only [assembleI, Nat.zero_min, forLoop]
  | succ n ih =>
    intro j hj hst out
    rw [assembleI, chk_ok (show start + j < 2 ^ 31 by omega), Res.ok_bind]
    by_cases h : start + j < size
    · rw [if_pos h, hb j (by omega) h]
      have e : min (n + 1) (size - (start + j)) = min n (size - (start + (j + 1))) + 1 := by omega
      rw [e]
      simp only [forLoop]
      cases bit' j with
      | ok b =>
        simp only [Res.ok_bind]
        cases hsh : shl (if b = true then 1#64 else 0#64) (j : Int) with
        | ok s => simp only [Res.ok_bind, Res.pure_eq]; exact ih (j + 1) (by omega) (Or.inl (by omega)) _
        | throws => rfl
        | ub => rfl
      | throws => rfl
      | ub => rfl
    · rw [if_neg h]
      have e : min (n + 1) (size - (start + j)) = 0 := by omega
      rw [e]; rfl

theorem bitpackI_eq : ∀ (e : Xpr), e.LeavesWF → e.asserts = true → e.Fits → ∀ k, k * 64 ≤ e.size → e.bitpackI k = e.bitpack k
  | .mat m, _, _, _, k, _ => rfl
  | .not e, hw, ha, hf, k, hk => by
    simp only [Xpr.bitpackI, Xpr.bitpack, bitpackI_eq e hw ha hf k hk]
  | .bin op a b, hw, ha, hf, k, hk => by
    simp only [Xpr.asserts, Bool.and_eq_true, beq_iff_eq] at ha
    have hb : k * 64 ≤ b.size := by unfold Xpr.size; rw [← ha.1.2, ← ha.2]; exact hk
    simp only [Xpr.bitpackI, Xpr.bitpack, bitpackI_eq a hw.1 ha.1.1.1 hf.1 k hk, bitpackI_eq b hw.2 ha.1.1.2 hf.2 k hb]
  | .block e r0 c0 h w, hw, ha, hf, k, hk => by
    have hs := Xpr.Fits.sizes (e := .block e r0 c0 h w) hf ha
    simp only [Xpr.asserts, Bool.and_eq_true, decide_eq_true_eq] at ha
    have hsz := Xpr.Fits.sizes (e := e) hf ha.1.1
    simp only [Xpr.bitpackI, Xpr.bitpack]
    simp only [Xpr.size, Xpr.rows, Xpr.cols] at hs hk
    split
    · rfl
    rename_i hw0
    have hw1 : 0 < w := by omega
    have hk31 : k * 64 < 2 ^ 31 := by omega
    -- the row
    have hdiv : k * 64 / w ≤ h := by
      calc k * 64 / w ≤ h * w / w := Nat.div_le_div_right hk
        _ = h := Nat.mul_div_cancel _ hw1
    have hrow : rowOff k w ≤ k * 64 / w := by
      rcases rowOff_near k w hw1 hk31 with h1 | ⟨_, h1⟩ <;> omega
    have hmod : k * 64 % w < w := Nat.mod_lt _ hw1
    have hcol : (if k = 0 then 0 else k * 64 % w) = k * 64 % w := by
      split
      · rename_i h0; rw [h0]; simp
      · rfl
    rw [chk_ok hk31, Res.ok_bind, hcol, chk_ok (show c0 + k * 64 % w < 2 ^ 31 by omega), Res.ok_bind,
      chk_ok (show r0 + rowOff k w < 2 ^ 31 by omega), Res.ok_bind, chk_ok hs.2.2, Res.ok_bind]
    unfold assemble
    rw [assembleI_eq (k * 64) (h * w) hs.2.2 _ (fun j => e.coeff (r0 + rowOff k w + j / w) (c0 + k * 64 % w + j % w)) ?_ 64 0 rfl
      (Or.inl (by omega))]
    · rfl
    intro j hj hlt
    have hjm : j % w < w := Nat.mod_lt _ hw1
    have hjd : k * 64 / w + j / w < h := by
      have h1 : (k * 64 / w + j / w) * w ≤ k * 64 + j := by
        rw [Nat.add_mul]; exact Nat.add_le_add (Nat.div_mul_le_self _ _) (Nat.div_mul_le_self _ _)
      by_contra hc
      have h2 : h * w ≤ (k * 64 / w + j / w) * w := Nat.mul_le_mul_right _ (by omega)
      omega
    have hc2 : c0 + k * 64 % w + j % w < 2 ^ 31 := by
      rcases Nat.lt_or_ge h 2 with h1 | h1
      · have h3 : h = 1 := by
          rcases Nat.eq_zero_or_pos h with h2 | h2
          · rw [h2] at hjd; exact absurd hjd (Nat.not_lt_zero _)
          · omega
        rw [h3, Nat.one_mul] at hlt
        have : k * 64 % w = k * 64 := Nat.mod_eq_of_lt (by omega)
        have : j % w = j := Nat.mod_eq_of_lt (by omega)
        omega
      · have h3 : 2 * e.cols ≤ e.rows * e.cols := Nat.mul_le_mul_right _ (by omega)
        omega
    rw [chk_ok (show r0 + rowOff k w + j / w < 2 ^ 31 by omega), Res.ok_bind, chk_ok hc2, Res.ok_bind]
    exact coeffI_eq e hw ha.1.1 hf _ _
  | .rep e a b, hw, ha, hf, k, hk => by
    simp only [Xpr.bitpackI, Xpr.bitpack]
    simp only [Xpr.size, Xpr.rows, Xpr.cols] at hk
    have hs := hf.2.2.2
    rw [chk_ok (show k * 64 < 2 ^ 31 by omega), Res.ok_bind, chk_ok hs, Res.ok_bind]
    unfold assemble
    rw [assembleI_eq (k * 64) _ hs _ (fun j => if e.rows = 0 ∨ e.cols = 0 then .ub
      else e.coeff (((k * 64 + j) / (e.cols * b)) % e.rows) ((k * 64 + j) % e.cols)) ?_ 64 0 rfl (Or.inl (by omega))]
    · rfl
    intro j _ _
    simp only [coeffI_eq e hw ha hf.1]
  | .resh e r c, hw, ha, hf, k, hk => by
    simp only [Xpr.asserts, Bool.and_eq_true, beq_iff_eq] at ha
    simp only [Xpr.bitpackI, Xpr.bitpack]
    exact bitpackI_eq e hw ha.1 hf.1 k (by unfold Xpr.size; rw [← ha.2]; exact hk)

theorem readPacksI_eq (e : Xpr) (hw : e.LeavesWF) (ha : e.asserts = true) (hf : e.Fits) (n : Nat) :
    ∀ a, a + n ≤ packs e.size → e.readPacksI a n = e.readPacks a n := by
  induction n with
  | zero => intro a _; rfl
  | succ n ih =>
    intro a h
    rw [Xpr.readPacksI, Xpr.readPacks, bitpackI_eq e hw ha hf a (by unfold packs at h; omega), ih (a + 1) (by omega)]

theorem visitFullI_eq (v : PackVisitor) (e : Xpr) (hw : e.LeavesWF) (ha : e.asserts = true) (hf : e.Fits) (hs : e.size < 2 ^ 31 - 64) :
    ∀ (n k i : Nat) (res : Bool), e.size - i ≤ n → i = k * 64 → i ≤ e.size → visitFullI v e e.size k i res = visitFull v e e.size k i res := by
  intro n
  induction n with
  | zero =>
    intro k i res h hk hi
    rw [visitFullI, visitFull, chk_ok (by omega)]
    simp only
    rw [if_neg (by omega), if_neg (by omega)]
  | succ n ih =>
    intro k i res h hk hi
    rw [visitFullI, visitFull, chk_ok (by omega)]
    simp only
    by_cases hc : i + 64 - 1 < e.size
    · rw [if_pos hc, if_pos hc, dif_pos hc, bitpackI_eq e hw ha hf k (by omega)]
      cases e.bitpack k with
      | ok b =>
        simp only [Res.ok_bind]
        rw [ih (k + 1) (i + 64) _ (by omega) (by omega) (by omega)]
      | throws => rfl
      | ub => rfl
    · rw [if_neg hc, if_neg hc]

theorem visitFull_pos (v : PackVisitor) (e : Xpr) : ∀ (n k i : Nat) (res : Bool), e.size - i ≤ n → i = k * 64 → i ≤ e.size →
    ∀ s k' i' r', visitFull v e e.size k i res = .ok (s, k', i', r') → i' = k' * 64 ∧ i' ≤ e.size := by
  intro n
  induction n with
  | zero =>
    intro k i res h hk hi s k' i' r' hv
    rw [visitFull, if_neg (by omega)] at hv
    cases Res.ok.inj hv; exact ⟨hk, hi⟩
  | succ n ih =>
    intro k i res h hk hi s k' i' r' hv
    rw [visitFull] at hv
    split at hv
    · rename_i hc
      obtain ⟨b, _, h2⟩ := Res.bind_eq_ok.1 hv
      simp only at h2
      split at h2
      · cases Res.ok.inj h2; exact ⟨hk, hi⟩
      · exact ih (k + 1) (i + 64) _ (by omega) (by omega) (by omega) _ _ _ _ h2
    · cases Res.ok.inj hv; exact ⟨hk, hi⟩

theorem visitPacksI_eq (v : PackVisitor) (e : Xpr) (hw : e.LeavesWF) (ha : e.asserts = true) (hf : e.Fits) (hs : e.size < 2 ^ 31 - 64)
    (init : Bool) : visitPacksI v e init = visitPacks v e init := by
  unfold visitPacksI visitPacks
  rw [chk_ok (by omega), Res.ok_bind]
  simp only
  rw [bitpackI_eq e hw ha hf 0 (by omega), visitFullI_eq v e hw ha hf hs e.size 0 0 init (by omega) rfl (by omega)]
  split
  · rfl
  split
  · rfl
  cases hv : visitFull v e e.size 0 0 init with
  | ok x =>
    obtain ⟨s, k, i, r⟩ := x
    have := visitFull_pos v e e.size 0 0 init (by omega) rfl (by omega) s k i r hv
    simp only [Res.ok_bind]
    rw [bitpackI_eq e hw ha hf k (by omega)]
  | throws => rfl
  | ub => rfl

theorem countPacksI_eq (e : Xpr) (hw : e.LeavesWF) (ha : e.asserts = true) (hf : e.Fits) (hs : e.size < 2 ^ 31 - 64) (n : Nat) :
    ∀ k i res, k + n ≤ packs e.size → i ≤ e.size → countPacksI e e.size n k i res = countPacks e e.size n k i res := by
  induction n with
  | zero => intro k i res _ _; rfl
  | succ n ih =>
    intro k i res hk hi
    rw [countPacksI, countPacks, bitpackI_eq e hw ha hf k (by unfold packs at hk; omega), chk_ok (show i + 64 < 2 ^ 31 by omega)]
    simp only [Res.ok_bind]
    cases e.bitpack k with
    | ok b =>
      simp only [Res.ok_bind]
      split
      · exact ih _ _ _ (by omega) (by omega)
      · exact ih _ _ _ (by omega) (by omega)
    | throws => rfl
    | ub => rfl

theorem forLoop_congr {σ : Type} (f g : Nat → σ → Res σ) (n : Nat) : ∀ (a : Nat) (s : σ), (∀ k s, a ≤ k → k < a + n → f k s = g k s) →
    forLoop f a n s = forLoop g a n s := by
  induction n with
  | zero => intro a s _; rfl
  | succ n ih =>
    intro a s h
    rw [forLoop, forLoop, h a s le_rfl (by omega)]
    cases g a s with
    | ok s' => exact ih (a + 1) s' fun k s hk hk' => h k s (by omega) (by omega)
    | throws => rfl
    | ub => rfl

/-- **C137**, what is proved: when the sizes of the matrices, of the repetitions and of the reshapings of an expression are `int`s, no
index overflows in the construction, in the access to a coefficient and to the packs, in the evaluation into a matrix and in `which`: the
results are those of unbounded integers. -/
theorem C137_expressions_partial (e : Xpr) (hw : e.LeavesWF) (ha : e.asserts = true) (hf : e.Fits) :
    e.buildI = .ok () ∧ (∀ i j, e.coeffI i j = e.coeff i j) ∧ (∀ k < e.bitpacks, e.bitpackI k = e.bitpack k) ∧
      BMat.ofXprI e = BMat.ofXpr e ∧ ∀ b, e.whichI b = e.which b := by
  have hbp := Xpr.bitpacks_eq e hw
  refine ⟨buildI_eq e ha hf, coeffI_eq e hw ha hf, fun k hk => bitpackI_eq e hw ha hf k ?_, ?_, fun b => ?_⟩
  · rw [hbp] at hk; unfold packs at hk; omega
  · unfold BMat.ofXprI BMat.ofXpr
    rw [buildI_eq e ha hf, Res.ok_bind, readPacksI_eq e hw ha hf _ 0 (by rw [hbp]; omega)]
  · unfold Xpr.whichI Xpr.which
    refine forLoop_congr _ _ _ _ _ fun i acc _ hi => forLoop_congr _ _ _ _ _ fun j acc _ hj => ?_
    rw [coeffI_eq e hw ha hf]
    cases e.coeff i j with
    | ok x =>
      simp only [Res.ok_bind, Res.pure_eq]
      have := pos_lt_size (r := e.rows) (c := e.cols) (i := i) (j := j) (by omega) (by omega)
      have := (Xpr.Fits.sizes hf ha).2.2
      rw [chk_ok (show i * e.cols < 2 ^ 31 by omega), Res.ok_bind, chk_ok (show i * e.cols + j < 2 ^ 31 by omega), Res.ok_bind]
      split <;> rfl
    | throws => rfl
    | ub => rfl

/-- **C137**, what is proved of the visits: `all`, `any` and `count` do not overflow for fewer than `2^31 - 64` coefficients. -/
theorem C137_visits_partial (e : Xpr) (hw : e.LeavesWF) (ha : e.asserts = true) (hf : e.Fits) (hs : e.size < 2 ^ 31 - 64) :
    e.allI = e.all ∧ e.anyI = e.any ∧ e.countI = e.count := by
  refine ⟨visitPacksI_eq _ e hw ha hf hs _, visitPacksI_eq _ e hw ha hf hs _, ?_⟩
  unfold Xpr.countI Xpr.count
  rw [chk_ok (by omega), Res.ok_bind, countPacksI_eq e hw ha hf hs _ 0 0 0 (by rw [Xpr.bitpacks_eq e hw]; omega) (by omega)]

/-- **C137**, writes: on a matrix with fewer than `2^31` coefficients they do not overflow. -/
theorem C137_writes (m : BMat) (hs : m.rows * m.cols < 2 ^ 31) (i j : Nat) : m.setI i j = m.set i j ∧ m.clearI i j = m.clear i j :=
  ⟨setI_eq hs i j, clearI_eq hs i j⟩

/-- **C137**, rejected expressions: with operands which can be built and numbers which are `int`s, a combination of matrices of different
sizes, a block which exceeds the matrix and a reshaping to another number of coefficients throw: the comparisons are not affected by the
width of the indices. -/
theorem C137_rejected :
    (∀ op a b, a.buildI = .ok () → b.buildI = .ok () → a.rows * a.cols < 2 ^ 31 → ¬(a.rows = b.rows ∧ a.cols = b.cols) →
      (Xpr.bin op a b).buildI = .throws) ∧
    (∀ e r0 c0 h w, e.buildI = .ok () → h * w < 2 ^ 31 → r0 + h < 2 ^ 31 → c0 + w < 2 ^ 31 → e.rows < r0 + h ∨ e.cols < c0 + w →
      (Xpr.block e r0 c0 h w).buildI = .throws) ∧
    (∀ e r c, e.buildI = .ok () → r * c < 2 ^ 31 → e.rows * e.cols < 2 ^ 31 → r * c ≠ e.rows * e.cols →
      (Xpr.resh e r c).buildI = .throws) := by
  refine ⟨fun op a b ha hb h1 h2 => ?_, fun e r0 c0 h w he h1 h2 h3 h4 => ?_, fun e r c he h1 h2 h3 => ?_⟩
  · rw [Xpr.buildI, ha, Res.ok_bind, hb, Res.ok_bind, chk_ok h1, Res.ok_bind, if_neg h2]
  · rw [Xpr.buildI, he, Res.ok_bind, chk_ok h1, Res.ok_bind, chk_ok h2, Res.ok_bind]
    by_cases hx : r0 + h ≤ e.rows
    · rw [if_pos hx, chk_ok h3, Res.ok_bind, if_neg (by omega)]
    · rw [if_neg hx]
  · rw [Xpr.buildI, he, Res.ok_bind, chk_ok h1, Res.ok_bind, chk_ok h2, Res.ok_bind, if_neg h3]

/-- Two matrices of 3 and 4 rows, a block of two columns in a matrix of one column and a vector of 5 coefficients reshaped to 2 × 3. -/
example : (Xpr.bin .and (.mat (BMat.zero 3 2)) (.mat (BMat.zero 4 2))).buildI = .throws ∧
    (Xpr.block (.mat (BMat.zero 3 1)) 0 0 3 2).buildI = .throws ∧ (Xpr.resh (.mat (BMat.zero 5 1)) 2 3).buildI = .throws :=
  ⟨C137_rejected.1 _ _ _ rfl rfl (by decide) (by decide), C137_rejected.2.1 _ _ _ _ _ rfl (by decide) (by decide) (by decide) (by decide),
    C137_rejected.2.2 _ _ _ rfl (by decide) (by decide) (by decide)⟩

/-- The sizes of a matrix are `int`s, but their product is computed as an `int` as well (binary_matrix.h:57, 146, 510): constructing a matrix
with `2^31` coefficients or more, such as 50000 rows and columns (300 MB), is undefined behaviour. -/
theorem C137_bug_constructor (r c : Nat) : BMat.zeroI r c = (if r * c < 2 ^ 31 then .ok (BMat.zero r c) else .ub) := by
  unfold BMat.zeroI chk
  split <;> rfl

/-- binary_matrix.h:394 computes `i + PackSize` also for the last pack: counting in a matrix whose number of coefficients is an `int` not
less than `2^31 - 64` is undefined behaviour, whatever the coefficients. -/
theorem C137_bug_count (e : Xpr) (hw : e.LeavesWF) (ha : e.asserts = true) (hf : e.Fits) (hs : 2 ^ 31 - 64 ≤ e.size)
    (hok : ∀ k < packs e.size, ∃ w, e.bitpack k = .ok w) : e.countI = .ub := by
  have h31 : e.size < 2 ^ 31 := (Xpr.Fits.sizes hf ha).2.2
  have key : ∀ n k i res, k + n = packs e.size → i = k * 64 → i ≤ 2 ^ 31 - 64 → countPacksI e e.size n k i res = .ub := by
    intro n
    induction n with
    | zero => intro k i res hk hi hi2; unfold packs at hk; omega
    | succ n ih =>
      intro k i res hk hi hi2
      obtain ⟨w, hb⟩ := hok k (by omega)
      rw [countPacksI, bitpackI_eq e hw ha hf k (by unfold packs at hk; omega), hb, Res.ok_bind]
      by_cases hc : i + 64 < 2 ^ 31
      · rw [chk_ok hc, Res.ok_bind]
        by_cases hlt : i + 64 < e.size
        · rw [if_pos hlt]; exact ih (k + 1) (i + 64) _ (by omega) (by omega) (by omega)
        · -- the size is a multiple of the pack, which is visited to its end, and one more pack is left
          rw [if_neg hlt]
          have he : max i e.size = (k + 1) * 64 := by unfold packs at hk; omega
          rw [he]
          exact ih (k + 1) _ _ (by omega) rfl (by unfold packs at hk; omega)
      · rw [chk_ub (by omega)]; rfl
  unfold Xpr.countI
  rw [chk_ok h31, Res.ok_bind, if_neg (by omega), Xpr.bitpacks_eq e hw]
  exact key _ 0 0 0 (by omega) rfl (by omega)

/-- Likewise `any` (binary_matrix.h:373 computes `i + PackSize` for the pack after the last full one) on a matrix without ones. -/
theorem C137_bug_any (r c : Nat) (hr : r < 2 ^ 31) (hc : c < 2 ^ 31) (h1 : 2 ^ 31 - 64 ≤ r * c) (h2 : r * c < 2 ^ 31) :
    (Xpr.mat (BMat.zero r c)).anyI = .ub := by
  set e := Xpr.mat (BMat.zero r c) with he
  have hsz : e.size = r * c := rfl
  have hb : ∀ k < packs (r * c), e.bitpackI k = .ok 0#64 := by
    intro k hk
    show getWord (List.replicate _ _) (k : Int) = _
    rw [getWord_nat, List.getElem?_replicate, if_pos hk]; rfl
  have key : ∀ n k i, e.size - i ≤ n → i = k * 64 → i ≤ e.size → visitFullI anyVisitor e e.size k i false = .ub := by
    intro n
    induction n with
    | zero =>
      intro k i h hk hi
      rw [visitFullI, chk_ub (by omega)]
    | succ n ih =>
      intro k i h hk hi
      rw [visitFullI]
      by_cases hlt : i + 64 < 2 ^ 31
      · rw [chk_ok hlt]
        simp only
        rw [if_pos (by omega), dif_pos (by omega), hb k (by unfold packs; omega), Res.ok_bind]
        have hf : anyVisitor.full 0#64 false = false := rfl
        have hst : anyVisitor.stop false = false := rfl
        simp only [hf, hst]
        exact ih (k + 1) (i + 64) (by omega) (by omega) (by omega)
      · rw [chk_ub (by omega)]
  unfold Xpr.anyI visitPacksI
  rw [chk_ok (by omega), Res.ok_bind, if_neg (by omega), if_neg (by omega), key e.size 0 0 (by omega) rfl (by omega)]
  rfl

/-- A vector of 2^31 - 64 coefficients (256 MB), and one of 2^31 - 65. -/
example : (Xpr.mat (BMat.zero (2 ^ 31 - 64) 1)).anyI = .ub ∧ (Xpr.mat (BMat.zero (2 ^ 31 - 65) 1)).anyI = (Xpr.mat (BMat.zero (2 ^ 31 - 65) 1)).any :=
  ⟨C137_bug_any _ 1 (by norm_num) (by norm_num) (by norm_num) (by norm_num),
   (C137_visits_partial (Xpr.mat (BMat.zero (2 ^ 31 - 65) 1)) (zero_WF _ _) rfl ⟨by show (2 ^ 31 - 65 : Nat) < 2 ^ 31; norm_num, by show (1 : Nat) < 2 ^ 31; norm_num,
     by show ((2 ^ 31 - 65) * 1 : Nat) < 2 ^ 31; norm_num⟩ (by show ((2 ^ 31 - 65) * 1 : Nat) < 2 ^ 31 - 64; norm_num)).2.1⟩

/-- Every matrix of 2^31 - 1 coefficients. -/
example (m : BMat) (hw : m.WF) (hr : m.rows = 2 ^ 31 - 1) (hc : m.cols = 1) : (Xpr.mat m).countI = .ub := by
  refine C137_bug_count _ hw rfl ⟨by omega, by omega, by rw [hc]; omega⟩ (by show 2 ^ 31 - 64 ≤ m.rows * m.cols; rw [hc]; omega) fun k hk => ?_
  show ∃ w, getWord m.data (k : Int) = .ok w
  rw [getWord_nat, List.getElem?_eq_getElem (show k < m.data.length by rw [hw.2, hw.1]; exact hk)]
  exact ⟨_, rfl⟩

/-- 50000 rows and columns, and an expression with a block, a repetition and a reshaping. -/
example : BMat.zeroI 50000 50000 = .ub := by rw [C137_bug_constructor, if_neg (by norm_num)]

example : let e := Xpr.resh (.rep (.block (.not (.mat (BMat.zero 6 5))) 1 2 3 2) 2 4) 12 4
    e.LeavesWF ∧ e.asserts = true ∧ e.Fits :=
  ⟨zero_WF 6 5, by decide, by simp [Xpr.Fits, BMat.zero, Xpr.rows, Xpr.cols]⟩

end Fdapde.BinMtx
