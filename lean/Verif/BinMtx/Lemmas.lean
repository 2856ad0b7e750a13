import Verif.BinMtx.Rounding
import Verif.BinMtx.Spec
namespace Fdapde.BinMtx

theorem getWord_nat (d : List Word) (k : Nat) : getWord d (k : Int) = Res.ofOptionUB d[k]? := by
  unfold getWord
  have : ¬ ((k : Int) < 0) := by omega
  simp [this]

theorem packOf_nat (c i j : Nat) : packOf c i j = (((i * c + j) / 64 : Nat) : Int) := by
  unfold packOf
  have : ((i : Int) * c + j) = ((i * c + j : Nat) : Int) := by push_cast; rfl
  rw [this]; rfl

theorem bitOf_nat (c i j : Nat) : bitOf c i j = (((i * c + j) % 64 : Nat) : Int) := by
  unfold bitOf
  have : ((i : Int) * c + j) = ((i * c + j : Nat) : Int) := by push_cast; rfl
  rw [this]; rfl

theorem shl_nat (w : Word) (s : Nat) (h : s < 64) : shl w (s : Int) = .ok (w <<< s) := by
  unfold shl
  have h1 : ¬ ((s : Int) < 0 ∨ 64 ≤ (s : Int)) := by omega
  rw [if_neg h1]; simp

theorem and_one_shl_ne (w : Word) (s : Nat) (h : s < 64) :
    ((w &&& (1#64 <<< s)) != 0#64) = w.getLsbD s := by
  cases hb : w.getLsbD s
  · simp only [bne_eq_false_iff_eq]
    apply BitVec.eq_of_getLsbD_eq
    intro i hi
    simp only [BitVec.getLsbD_and, BitVec.getLsbD_shiftLeft, BitVec.getLsbD_zero, BitVec.getLsbD_one]
    by_cases his : i = s
    · subst his; simp [hb]
    · by_cases hlt : i < s
      · simp [hlt]
      · have : i - s ≠ 0 := by omega
        simp [this]
  · simp only [bne_iff_ne, ne_eq]
    intro h0
    have := congrArg (fun x => x.getLsbD s) h0
    rw [BitVec.getLsbD_eq_getElem h] at hb
    simp [h, hb] at this

/-- bit `p` of the storage -/
def storeBit (d : List Word) (p : Nat) : Bool := (d[p / 64]?.getD 0#64).getLsbD (p % 64)

theorem read_nat (m : BMat) (i j : Nat) (h : i * m.cols + j < 64 * m.data.length) :
    m.read i j = .ok (storeBit m.data (i * m.cols + j)) := by
  unfold BMat.read storeBit
  rw [packOf_nat, bitOf_nat, getWord_nat, shl_nat _ _ (Nat.mod_lt _ (by omega))]
  have hlt : (i * m.cols + j) / 64 < m.data.length := by omega
  rw [List.getElem?_eq_getElem hlt]
  simp only [Res.ofOptionUB_some, Res.ok_bind, Res.pure_eq, Option.getD_some]
  rw [and_one_shl_ne _ _ (Nat.mod_lt _ (by omega))]

theorem pos_lt_size {r c i j : Nat} (hi : i < r) (hj : j < c) : i * c + j < r * c := by
  have : i * c + c ≤ r * c := by
    rw [← Nat.succ_mul]; exact Nat.mul_le_mul_right _ hi
  omega

theorem size_lt_packs (s : Nat) : s < 64 * packs s := by unfold packs; omega

theorem BMat.WF.pos_lt {m : BMat} (h : m.WF) {i j : Nat} (hi : i < m.rows) (hj : j < m.cols) :
    i * m.cols + j < 64 * m.data.length := by
  have := pos_lt_size hi hj
  have h2 := size_lt_packs (m.rows * m.cols)
  rw [h.2, h.1]; omega

theorem BMat.WF.read {m : BMat} (h : m.WF) {i j : Nat} (hi : i < m.rows) (hj : j < m.cols) :
    m.read i j = .ok (storeBit m.data (i * m.cols + j)) := read_nat m i j (h.pos_lt hi hj)

theorem getLsbD_one_shl (s b : Nat) (hb : b < 64) : (1#64 <<< s).getLsbD b = decide (b = s) := by
  simp only [BitVec.getLsbD_shiftLeft, BitVec.getLsbD_one]
  by_cases h : b = s
  · subst h; simp [hb]
  · by_cases hlt : b < s
    · simp [hlt, h]
    · have : b - s ≠ 0 := by omega
      simp [this, h]

theorem storeBit_set (d : List Word) (p q : Nat) (w : Word) (hp : p < 64 * d.length) :
    storeBit (d.set (p / 64) w) q =
      if q / 64 = p / 64 then w.getLsbD (q % 64) else storeBit d q := by
  unfold storeBit
  have hlt : p / 64 < d.length := by omega
  by_cases h : q / 64 = p / 64
  · simp [h, hlt]
  · have : ¬ (p / 64 = q / 64) := fun e => h e.symm
    simp [h, List.getElem?_set_ne this]

theorem storeBit_getElem (d : List Word) (p : Nat) (hp : p / 64 < d.length) :
    storeBit d p = (d[p / 64]).getLsbD (p % 64) := by
  unfold storeBit; simp [hp]

/-- Effect of `set` in range. -/
theorem set_spec (m : BMat) (h : m.WF) {i j : Nat} (hi : i < m.rows) (hj : j < m.cols) :
    ∃ m', m.set i j = .ok m' ∧ m'.WF ∧ m'.rows = m.rows ∧ m'.cols = m.cols ∧
      ∀ q, storeBit m'.data q = if q = i * m.cols + j then true else storeBit m.data q := by
  have hp := h.pos_lt hi hj
  have hlt : (i * m.cols + j) / 64 < m.data.length := by omega
  unfold BMat.set
  have hc : ((i : Int) < m.rows ∧ (j : Int) < m.cols) := by omega
  rw [if_pos hc, packOf_nat, bitOf_nat, getWord_nat, shl_nat _ _ (Nat.mod_lt _ (by omega)),
    List.getElem?_eq_getElem hlt]
  refine ⟨_, rfl, ?_, rfl, rfl, ?_⟩
  · exact ⟨h.1, by simpa using h.2⟩
  · intro q
    simp only [Int.toNat_natCast]
    rw [storeBit_set _ _ _ _ hp]
    have hq : q % 64 < 64 := Nat.mod_lt _ (by omega)
    by_cases h1 : q / 64 = (i * m.cols + j) / 64
    · rw [if_pos h1, BitVec.getLsbD_or, getLsbD_one_shl _ _ hq]
      by_cases h2 : q = i * m.cols + j
      · simp [h2]
      · have : ¬ (q % 64 = (i * m.cols + j) % 64) := by omega
        simp only [this, decide_false, Bool.or_false, h2, if_false]
        rw [storeBit_getElem _ _ (by omega)]
        simp [h1]
    · rw [if_neg h1]
      have h2 : q ≠ i * m.cols + j := by intro e; exact h1 (by rw [e])
      simp [h2]

/-- Effect of `clear` in range. -/
theorem clear_spec (m : BMat) (h : m.WF) {i j : Nat} (hi : i < m.rows) (hj : j < m.cols) :
    ∃ m', m.clear i j = .ok m' ∧ m'.WF ∧ m'.rows = m.rows ∧ m'.cols = m.cols ∧
      ∀ q, storeBit m'.data q = if q = i * m.cols + j then false else storeBit m.data q := by
  have hp := h.pos_lt hi hj
  have hlt : (i * m.cols + j) / 64 < m.data.length := by omega
  unfold BMat.clear
  have hc : ((i : Int) < m.rows ∧ (j : Int) < m.cols) := by omega
  rw [if_pos hc, packOf_nat, bitOf_nat, getWord_nat, shl_nat _ _ (Nat.mod_lt _ (by omega)),
    List.getElem?_eq_getElem hlt]
  refine ⟨_, rfl, ?_, rfl, rfl, ?_⟩
  · exact ⟨h.1, by simpa using h.2⟩
  · intro q
    simp only [Int.toNat_natCast]
    rw [storeBit_set _ _ _ _ hp]
    have hq : q % 64 < 64 := Nat.mod_lt _ (by omega)
    by_cases h1 : q / 64 = (i * m.cols + j) / 64
    · rw [if_pos h1, BitVec.getLsbD_and, BitVec.getLsbD_not, getLsbD_one_shl _ _ hq]
      by_cases h2 : q = i * m.cols + j
      · simp [h2]
      · have : ¬ (q % 64 = (i * m.cols + j) % 64) := by omega
        simp only [this, decide_false, h2, if_false, Bool.not_false, hq, decide_true, Bool.and_true]
        rw [storeBit_getElem _ _ (by omega)]
        simp [h1]
    · rw [if_neg h1]
      have h2 : q ≠ i * m.cols + j := by intro e; exact h1 (by rw [e])
      simp [h2]

theorem set_throws (m : BMat) (i j : Nat) (h : ¬ (i < m.rows ∧ j < m.cols)) :
    m.set i j = .throws := by
  unfold BMat.set; rw [if_neg]; omega

theorem clear_throws (m : BMat) (i j : Nat) (h : ¬ (i < m.rows ∧ j < m.cols)) :
    m.clear i j = .throws := by
  unfold BMat.clear; rw [if_neg]; omega

theorem pos_inj {c i j a b : Nat} (hj : j < c) (hb : b < c) :
    (a * c + b = i * c + j) ↔ (a = i ∧ b = j) := by
  constructor
  · intro h
    have h1 : (a * c + b) / c = a := by
      rw [Nat.mul_comm, Nat.mul_add_div (by omega), Nat.div_eq_of_lt hb]; simp
    have h2 : (i * c + j) / c = i := by
      rw [Nat.mul_comm, Nat.mul_add_div (by omega), Nat.div_eq_of_lt hj]; simp
    have h3 : (a * c + b) % c = b := by
      rw [Nat.mul_comm, Nat.mul_add_mod, Nat.mod_eq_of_lt hb]
    have h4 : (i * c + j) % c = j := by
      rw [Nat.mul_comm, Nat.mul_add_mod, Nat.mod_eq_of_lt hj]
    rw [h] at h1 h3
    exact ⟨by omega, by omega⟩
  · rintro ⟨rfl, rfl⟩; rfl

theorem pos_div {c i j : Nat} (hj : j < c) : (i * c + j) / c = i := by
  rw [Nat.mul_comm, Nat.mul_add_div (by omega), Nat.div_eq_of_lt hj]; simp
theorem pos_mod {c i j : Nat} (hj : j < c) : (i * c + j) % c = j := by
  rw [Nat.mul_comm, Nat.mul_add_mod, Nat.mod_eq_of_lt hj]

theorem zero_WF (r c : Nat) : (BMat.zero r c).WF := by
  simp [BMat.WF, BMat.zero]

theorem storeBit_zero (n p : Nat) : storeBit (List.replicate n 0#64) p = false := by
  unfold storeBit
  rw [List.getElem?_replicate]
  split <;> simp


/-! ### loops -/

theorem forLoop_succ_ok {σ : Type} (body : Nat → σ → Res σ) (a n : Nat) (s s' : σ)
    (h : body a s = .ok s') : forLoop body a (n + 1) s = forLoop body (a + 1) n s' := by
  simp [forLoop, h]

/-- Invariant rule for `forLoop`. -/
theorem forLoop_inv {σ : Type} (body : Nat → σ → Res σ) (P : Nat → σ → Prop) (n : Nat) :
    ∀ (a : Nat) (s : σ), P a s →
      (∀ k s, a ≤ k → k < a + n → P k s → ∃ s', body k s = .ok s' ∧ P (k + 1) s') →
      ∃ s', forLoop body a n s = .ok s' ∧ P (a + n) s' := by
  induction n with
  | zero => intro a s hp _; exact ⟨s, rfl, hp⟩
  | succ n ih =>
    intro a s hp hstep
    obtain ⟨s1, h1, hp1⟩ := hstep a s (Nat.le_refl _) (by omega) hp
    obtain ⟨s2, h2, hp2⟩ := ih (a + 1) s1 hp1 (fun k s hk hk' => hstep k s (by omega) (by omega))
    refine ⟨s2, ?_, ?_⟩
    · rw [forLoop_succ_ok _ _ _ _ _ h1, h2]
    · have : a + (n + 1) = a + 1 + n := by omega
      rw [this]; exact hp2

theorem getLsbD_bit_shl (b : Bool) (s q : Nat) (hq : q < 64) :
    ((if b then 1#64 else 0#64) <<< s).getLsbD q = (b && decide (q = s)) := by
  cases b
  · simp
  · simpa using getLsbD_one_shl s q hq

theorem assemble_spec (bit : Nat → Res Bool) (f : Nat → Bool) (n : Nat) (hn : n ≤ 64)
    (h : ∀ j, j < n → bit j = .ok (f j)) :
    ∃ w, assemble bit n = .ok w ∧ ∀ q, q < 64 → w.getLsbD q = (decide (q < n) && f q) := by
  unfold assemble
  obtain ⟨w, h1, h2⟩ := forLoop_inv
    (fun j (out : Word) => do
      let b ← bit j
      let s ← shl (if b then 1#64 else 0#64) j
      return out ||| s)
    (fun k (out : Word) => ∀ q, q < 64 → out.getLsbD q = (decide (q < k) && f q)) n 0 0#64
    (by intro q _; simp)
    (by
      intro k s _ hk hp
      refine ⟨s ||| ((if f k then 1#64 else 0#64) <<< k), ?_, ?_⟩
      · rw [h k (by omega)]
        simp only [Res.ok_bind]
        rw [shl_nat _ _ (by omega)]
        rfl
      · intro q hq
        rw [BitVec.getLsbD_or, hp q hq, getLsbD_bit_shl _ _ _ hq]
        by_cases h1 : q = k
        · subst h1; simp
        · by_cases h2 : q < k
          · have : q < k + 1 := by omega
            simp [h1, h2, this]
          · have : ¬ q < k + 1 := by omega
            simp [h1, h2, this])
  refine ⟨w, h1, ?_⟩
  simpa using h2

/-! ### expressions -/

theorem Xpr.bitpacks_eq : ∀ (e : Xpr), e.LeavesWF → e.bitpacks = packs e.size
  | .mat _, h => h.1
  | .not _, _ => rfl
  | .bin _ _ _, _ => rfl
  | .block _ _ _ _ _, _ => rfl
  | .rep _ _ _, _ => rfl
  | .resh _ _ _, _ => rfl

theorem div_lt_rows {p r c : Nat} (h : p < r * c) : p / c < r := by
  rw [Nat.mul_comm] at h
  exact Nat.div_lt_of_lt_mul h

theorem cols_pos {p r c : Nat} (h : p < r * c) : 0 < c := by
  rcases Nat.eq_zero_or_pos c with h0 | h0
  · subst h0; simp at h
  · exact h0

/-- Coefficient access never fails in range and computes the pointwise meaning. -/
theorem Xpr.coeff_den : ∀ (e : Xpr), e.LeavesWF → e.asserts = true →
    ∀ i j, i < e.rows → j < e.cols → e.coeff i j = .ok (e.den i j) := by
  intro e
  induction e with
  | mat m =>
    intro hw _ i j hi hj
    simp only [Xpr.coeff, Xpr.den]
    have hw : m.WF := hw
    rw [hw.read hi hj]
    cases storeBit m.data (i * m.cols + j) <;> rfl
  | not e ih =>
    intro hw ha i j hi hj
    simp only [Xpr.coeff, Xpr.den]
    rw [ih hw ha i j hi hj]; rfl
  | bin op a b iha ihb =>
    intro hw ha i j hi hj
    simp only [Xpr.asserts, Bool.and_eq_true, beq_iff_eq] at ha
    obtain ⟨⟨⟨ha1, ha2⟩, hr⟩, hc⟩ := ha
    simp only [Xpr.rows, Xpr.cols] at hi hj
    simp only [Xpr.coeff]
    rw [iha hw.1 ha1 i j hi hj, ihb hw.2 ha2 i j (hr ▸ hi) (hc ▸ hj)]
    cases op <;> simp [Xpr.den, BOp.onBool]
  | block e r0 c0 h w ih =>
    intro hw ha i j hi hj
    simp only [Xpr.asserts, Bool.and_eq_true, decide_eq_true_eq] at ha
    obtain ⟨⟨ha1, hr⟩, hc⟩ := ha
    simp only [Xpr.rows, Xpr.cols] at hi hj
    simp only [Xpr.coeff, Xpr.den]
    rw [if_pos ⟨hi, hj⟩, ih hw ha1 _ _ (by omega) (by omega), Nat.add_comm r0, Nat.add_comm c0]
  | rep e a b ih =>
    intro hw ha i j hi hj
    simp only [Xpr.rows, Xpr.cols] at hi hj
    simp only [Xpr.coeff, Xpr.den]
    have hr : 0 < e.rows := by
      rcases Nat.eq_zero_or_pos e.rows with h | h
      · rw [h] at hi; simp at hi
      · exact h
    have hc : 0 < e.cols := by
      rcases Nat.eq_zero_or_pos e.cols with h | h
      · rw [h] at hj; simp at hj
      · exact h
    have hn : ¬ (e.rows = 0 ∨ e.cols = 0) := by omega
    rw [if_pos ⟨hi, hj⟩, if_neg hn, ih hw ha _ _ (Nat.mod_lt _ hr) (Nat.mod_lt _ hc)]
  | resh e r c ih =>
    intro hw ha i j hi hj
    simp only [Xpr.asserts, Bool.and_eq_true, beq_iff_eq] at ha
    simp only [Xpr.rows, Xpr.cols] at hi hj
    simp only [Xpr.coeff, Xpr.den]
    have hp := pos_lt_size hi hj
    rw [ha.2] at hp
    have hc := cols_pos hp
    have hn : ¬ e.cols = 0 := by omega
    rw [if_pos ⟨hi, hj⟩, if_neg hn, ih hw ha.1 _ _ (div_lt_rows hp) (Nat.mod_lt _ hc)]

/-- `bitpack` agrees with the coefficients on the meaningful bits. -/
def Xpr.Faithful (e : Xpr) : Prop :=
  ∀ k, k < packs e.size → ∃ w, e.bitpack k = .ok w ∧
    ∀ b, b < 64 → k * 64 + b < e.size →
      w.getLsbD b = e.den ((k * 64 + b) / e.cols) ((k * 64 + b) % e.cols)

theorem pack_div (k b : Nat) (hb : b < 64) : (k * 64 + b) / 64 = k := by omega
theorem pack_mod (k b : Nat) (hb : b < 64) : (k * 64 + b) % 64 = b := by omega

theorem faithful_mat (m : BMat) (h : m.WF) : (Xpr.mat m).Faithful := by
  intro k hk
  have hlt : k < m.data.length := by
    rw [h.2, h.1]; exact hk
  refine ⟨m.data[k], ?_, ?_⟩
  · simp [Xpr.bitpack, getWord_nat, hlt]
  · intro b hb hs
    simp only [Xpr.den, Xpr.cols]
    have hp : k * 64 + b < m.rows * m.cols := hs
    have hc := cols_pos hp
    have hr := div_lt_rows hp
    rw [h.read hr (Nat.mod_lt _ hc)]
    have : (k * 64 + b) / m.cols * m.cols + (k * 64 + b) % m.cols = k * 64 + b := by
      rw [Nat.mul_comm]; exact Nat.div_add_mod _ _
    show _ = (Res.ok (storeBit m.data ((k * 64 + b) / m.cols * m.cols + (k * 64 + b) % m.cols)) == _)
    rw [this]
    unfold storeBit
    rw [pack_div k b hb, pack_mod k b hb]
    simp only [hlt, List.getElem?_eq_getElem, Option.getD_some]
    cases (m.data[k]).getLsbD b <;> rfl

theorem wrap_aligned {w q j : Nat} (hw : 0 < w) (hq : q % w = 0) :
    (q + j) / w = q / w + j / w ∧ (q + j) % w = j % w := by
  obtain ⟨t, ht⟩ := Nat.dvd_of_mod_eq_zero hq
  subst ht
  rw [Nat.mul_add_div hw, Nat.mul_div_cancel_left _ hw, Nat.mul_add_mod]
  exact ⟨rfl, rfl⟩

theorem wrap_short {w q j : Nat} (h : q % w + j < w) :
    (q + j) / w = q / w ∧ (q + j) % w = q % w + j := by
  have hw : 0 < w := by omega
  have e : q + j = w * (q / w) + (q % w + j) := by
    have := Nat.div_add_mod q w; omega
  constructor
  · rw [e, Nat.mul_add_div hw, Nat.div_eq_of_lt h]; rfl
  · rw [e, Nat.mul_add_mod, Nat.mod_eq_of_lt h]

theorem Xpr.faithful : ∀ (e : Xpr), e.LeavesWF → e.asserts = true → e.BlocksAligned →
    e.Faithful := by
  intro e
  induction e with
  | mat m => intro hw _ _; exact faithful_mat m hw
  | not e ih =>
    intro hw ha hb k hk
    obtain ⟨w, h1, h2⟩ := ih hw ha hb k hk
    refine ⟨~~~w, by simp [Xpr.bitpack, h1], ?_⟩
    intro b hb' hs
    simp only [Xpr.den]
    rw [BitVec.getLsbD_not, h2 b hb' hs]
    simp [hb', Xpr.cols]
  | bin op a b iha ihb =>
    intro hw ha hb k hk
    simp only [Xpr.asserts, Bool.and_eq_true, beq_iff_eq] at ha
    obtain ⟨⟨⟨ha1, ha2⟩, hr⟩, hc⟩ := ha
    have hsz : a.size = b.size := by unfold Xpr.size; rw [hr, hc]
    obtain ⟨w1, h1, h1'⟩ := iha hw.1 ha1 hb.1 k hk
    obtain ⟨w2, h2, h2'⟩ := ihb hw.2 ha2 hb.2 k (hsz ▸ hk)
    refine ⟨op.onWord w1 w2, by simp [Xpr.bitpack, h1, h2], ?_⟩
    intro q hq hs
    have e1 := h1' q hq hs
    have e2 := h2' q hq (hsz ▸ hs)
    rw [← hc] at e2
    cases op <;> simp [BOp.onWord, Xpr.den, Xpr.cols, e1, e2, -BitVec.getLsbD_eq_getElem] 
  | block e r0 c0 h w ih =>
    intro hw ha hb k hk
    have hcoeff := Xpr.coeff_den (.block e r0 c0 h w) hw ha
    simp only [Xpr.asserts, Bool.and_eq_true, decide_eq_true_eq] at ha
    obtain ⟨⟨ha1, hr⟩, hc⟩ := ha
    obtain ⟨hb1, hw0, hint, hal⟩ := hb
    have hidx : ∀ j, j < min 64 (h * w - k * 64) →
        rowOff k w + j / w = (k * 64 + j) / w ∧
        (if k = 0 then 0 else (k * 64) % w) + j % w = (k * 64 + j) % w := by
      intro j hj
      by_cases hk0 : k = 0
      · subst hk0; simp [rowOff, round53]
      · rw [if_neg hk0]
        rcases hal k (by omega) (by omega) with ⟨h0, p, hp⟩ | ⟨hne, h0⟩
        · obtain ⟨e1, e2⟩ := wrap_aligned (j := j) hw0 h0
          have hro : rowOff k w = k * 64 / w := by
            subst hp; exact rowOff_pow k p (by omega)
          rw [hro, e1, e2, h0]; simp
        · rw [rowOff_inside k w hw0 (by omega) hne]
          have hlt : (k * 64) % w + j < w := by omega
          obtain ⟨e1, e2⟩ := wrap_short hlt
          have hj' : j < w := by omega
          rw [e1, e2, Nat.div_eq_of_lt hj', Nat.mod_eq_of_lt hj']; simp
    obtain ⟨v, hv1, hv2⟩ := assemble_spec
      (fun j => e.coeff (r0 + rowOff k w + j / w) (c0 + (if k = 0 then 0 else (k * 64) % w) + j % w))
      (fun j => e.den (r0 + (k * 64 + j) / w) (c0 + (k * 64 + j) % w))
      (min 64 (h * w - k * 64)) (by omega)
      (by
        intro j hj
        obtain ⟨e1, e2⟩ := hidx j hj
        have hp : k * 64 + j < h * w := by omega
        have hrr := div_lt_rows hp
        have hcc := Nat.mod_lt (k * 64 + j) hw0
        have := ih
        show e.coeff _ _ = _
        rw [Nat.add_assoc, e1, Nat.add_assoc, e2]
        exact Xpr.coeff_den e hw ha1 _ _ (by omega) (by omega))
    refine ⟨v, ?_, ?_⟩
    · simp only [Xpr.bitpack]
      rw [if_neg (by omega)]
      exact hv1
    · intro b hb' hs
      simp only [Xpr.size, Xpr.rows, Xpr.cols] at hs
      rw [hv2 b hb']
      have : b < min 64 (h * w - k * 64) := by omega
      simp [this, Xpr.den, Xpr.cols]
  | rep e a b ih =>
    intro hw ha hb k hk
    have ha' : e.asserts = true := ha
    obtain ⟨v, hv1, hv2⟩ := assemble_spec
      (fun j =>
        if e.rows = 0 ∨ e.cols = 0 then .ub
        else e.coeff (((k * 64 + j) / (e.cols * b)) % e.rows) ((k * 64 + j) % e.cols))
      (fun j => e.den (((k * 64 + j) / (e.cols * b)) % e.rows) (((k * 64 + j) % (e.cols * b)) % e.cols))
      (min 64 (e.rows * a * (e.cols * b) - k * 64)) (by omega)
      (by
        intro j hj
        have hp : k * 64 + j < e.rows * a * (e.cols * b) := by omega
        have hc : 0 < e.cols := by
          rcases Nat.eq_zero_or_pos e.cols with h | h
          · rw [h] at hp; simp at hp
          · exact h
        have hr : 0 < e.rows := by
          rcases Nat.eq_zero_or_pos e.rows with h | h
          · rw [h] at hp; simp at hp
          · exact h
        have hn : ¬ (e.rows = 0 ∨ e.cols = 0) := by omega
        show (if e.rows = 0 ∨ e.cols = 0 then Res.ub else _) = _
        rw [if_neg hn, Nat.mod_mul_right_mod]
        exact Xpr.coeff_den e hw ha' _ _ (Nat.mod_lt _ hr) (Nat.mod_lt _ hc))
    refine ⟨v, hv1, ?_⟩
    intro q hq hs
    simp only [Xpr.size, Xpr.rows, Xpr.cols] at hs
    rw [hv2 q hq]
    have : q < min 64 (e.rows * a * (e.cols * b) - k * 64) := by omega
    simp [this, Xpr.den, Xpr.cols]
  | resh e r c ih =>
    intro hw ha hb k hk
    simp only [Xpr.asserts, Bool.and_eq_true, beq_iff_eq] at ha
    have hsz : (Xpr.resh e r c).size = e.size := ha.2
    rw [hsz] at hk
    obtain ⟨w, h1, h2⟩ := ih hw ha.1 hb k hk
    refine ⟨w, h1, ?_⟩
    intro b hb' hs
    rw [hsz] at hs
    rw [h2 b hb' hs]
    have e1 : (k * 64 + b) / c * c + (k * 64 + b) % c = k * 64 + b := by
      rw [Nat.mul_comm]; exact Nat.div_add_mod _ _
    simp only [Xpr.den, Xpr.cols]
    rw [e1]

end Fdapde.BinMtx
