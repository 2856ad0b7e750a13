import Verif.BinMtx.Lemmas
namespace Fdapde.BinMtx

/-! ### materialisation -/

theorem readPacks_spec (e : Xpr) (g : Nat → Nat → Bool) (n : Nat) :
    ∀ a, (∀ k, a ≤ k → k < a + n → ∃ w, e.bitpack k = .ok w ∧
        ∀ b, b < 64 → k * 64 + b < e.size → w.getLsbD b = g ((k * 64 + b) / e.cols) ((k * 64 + b) % e.cols)) →
      ∃ ws, e.readPacks a n = .ok ws ∧ ws.length = n ∧
        ∀ k, (hk : k < ws.length) → ∀ b, b < 64 → (a + k) * 64 + b < e.size →
          (ws[k]).getLsbD b = g (((a + k) * 64 + b) / e.cols) (((a + k) * 64 + b) % e.cols) := by
  induction n with
  | zero => intro a _; exact ⟨[], rfl, rfl, by intro k hk; simp at hk⟩
  | succ n ih =>
    intro a h
    obtain ⟨w, hw1, hw2⟩ := h a (Nat.le_refl _) (by omega)
    obtain ⟨ws, h1, h2, h3⟩ := ih (a + 1) (fun k hk hk' => h k (by omega) (by omega))
    refine ⟨w :: ws, ?_, ?_, ?_⟩
    · simp [Xpr.readPacks, hw1, h1]
    · simp [h2]
    · intro k hk b hb hs
      cases k with
      | zero => simpa using hw2 b hb (by simpa using hs)
      | succ k =>
        have e1 : a + (k + 1) = a + 1 + k := by omega
        rw [e1] at hs ⊢
        simpa using h3 k (by simpa using hk) b hb hs

theorem ofXpr_spec (e : Xpr) (hw : e.LeavesWF) (hf : e.Faithful) :
    ∃ m, BMat.ofXpr e = .ok m ∧ m.WF ∧ m.rows = e.rows ∧ m.cols = e.cols ∧
      ∀ p, p < e.size → storeBit m.data p = e.den (p / e.cols) (p % e.cols) := by
  have hbp := e.bitpacks_eq hw
  obtain ⟨ws, h1, h2, h3⟩ := readPacks_spec e e.den e.bitpacks 0
    (fun k _ hk => hf k (by rw [← hbp]; omega))
  refine ⟨⟨e.rows, e.cols, e.bitpacks, ws⟩, by simp [BMat.ofXpr, h1], ⟨hbp, h2⟩, rfl, rfl, ?_⟩
  intro p hp
  have hlt : p / 64 < ws.length := by
    have := size_lt_packs e.size
    rw [h2, hbp]; omega
  show storeBit ws p = _
  rw [storeBit_getElem _ _ hlt]
  have e1 : p / 64 * 64 + p % 64 = p := by omega
  have := h3 (p / 64) hlt (p % 64) (Nat.mod_lt _ (by omega)) (by simpa [e1] using hp)
  simpa [e1] using this

theorem ofXprVec_spec (e : Xpr) (hw : e.LeavesWF) (hf : e.Faithful) (hr : e.rows = 1) :
    ∃ m, BMat.ofXprVec e = .ok m ∧ m.WF ∧ m.rows = e.cols ∧ m.cols = 1 ∧
      ∀ p, p < e.cols → storeBit m.data p = e.den 0 p := by
  have hbp := e.bitpacks_eq hw
  obtain ⟨ws, h1, h2, h3⟩ := readPacks_spec e e.den e.bitpacks 0
    (fun k _ hk => hf k (by rw [← hbp]; omega))
  have hsz : e.size = e.cols := by simp [Xpr.size, hr]
  refine ⟨⟨e.cols, 1, e.bitpacks, ws⟩, by simp [BMat.ofXprVec, h1], ⟨?_, h2⟩, rfl, rfl, ?_⟩
  · simp [hbp, hsz]
  intro p hp
  have hlt : p / 64 < ws.length := by
    have := size_lt_packs e.size
    rw [h2, hbp]; omega
  show storeBit ws p = _
  rw [storeBit_getElem _ _ hlt]
  have e1 : p / 64 * 64 + p % 64 = p := by omega
  have := h3 (p / 64) hlt (p % 64) (Nat.mod_lt _ (by omega)) (by simp [e1]; omega)
  simp only [Nat.zero_add, e1] at this
  rw [this, Nat.div_eq_of_lt hp, Nat.mod_eq_of_lt hp]

/-! ### words -/

theorem word_not_eq_zero_iff (w : Word) : (~~~w == 0#64) = true ↔ ∀ b, b < 64 → w.getLsbD b = true := by
  rw [beq_iff_eq]
  constructor
  · intro h b hb
    have := congrArg (fun x => x.getLsbD b) h
    simpa [BitVec.getLsbD_not, hb] using this
  · intro h
    apply BitVec.eq_of_getLsbD_eq
    intro b hb
    rw [BitVec.getLsbD_not, h b hb]; simp

theorem word_ne_zero_iff (w : Word) : (w != 0#64) = true ↔ ∃ b, b < 64 ∧ w.getLsbD b = true := by
  constructor
  · intro h
    rw [bne_iff_ne] at h
    apply Classical.byContradiction
    intro hn
    apply h
    apply BitVec.eq_of_getLsbD_eq
    intro b hb
    cases hbb : w.getLsbD b
    · simp
    · exact absurd ⟨b, hb, hbb⟩ hn
  · rintro ⟨b, hb, h⟩
    rw [bne_iff_ne]
    intro h0; rw [h0] at h; simp at h

/-- `(1 << n) - 1` has exactly the low `n` bits set. -/
theorem getLsbD_lowmask (n b : Nat) (hn : n < 64) (_hb : b < 64) :
    ((1#64 <<< n) - 1#64).getLsbD b = decide (b < n) := by
  have h1 : ((1#64 <<< n) - 1#64).toNat = 2 ^ n - 1 := by
    have hlt : 2 ^ n < 2 ^ 64 := Nat.pow_lt_pow_right (by omega) hn
    have hpos : 0 < 2 ^ n := Nat.two_pow_pos n
    rw [BitVec.toNat_sub, BitVec.toNat_shiftLeft]
    have e1 : (1#64).toNat <<< n = 2 ^ n := by simp [Nat.shiftLeft_eq]
    rw [e1, Nat.mod_eq_of_lt hlt]
    have e2 : (1#64).toNat = 1 := rfl
    rw [e2]
    omega
  rw [BitVec.getLsbD, h1, Nat.testBit_two_pow_sub_one]

/-- `~0 >> (64 - n)` has exactly the low `n` bits set. -/
theorem getLsbD_highmask (n b : Nat) (hn : n ≤ 64) (_hb : b < 64) :
    ((~~~ 0#64) >>> (64 - n)).getLsbD b = decide (b < n) := by
  rw [BitVec.getLsbD_ushiftRight, BitVec.getLsbD_not]
  by_cases h : b < n
  · have : 64 - n + b < 64 := by omega
    simp [h, this]
  · have : ¬ (64 - n + b < 64) := by omega
    simp [h, this]

theorem mask_and_eq_mask (mask w : Word) (n : Nat)
    (hm : ∀ b, b < 64 → mask.getLsbD b = decide (b < n)) :
    ((mask &&& w) == mask) = true ↔ ∀ b, b < 64 → b < n → w.getLsbD b = true := by
  rw [beq_iff_eq]
  constructor
  · intro h b hb hn
    have := congrArg (fun x => x.getLsbD b) h
    simp only [BitVec.getLsbD_and, hm b hb, hn, decide_true, Bool.true_and] at this
    exact this
  · intro h
    apply BitVec.eq_of_getLsbD_eq
    intro b hb
    rw [BitVec.getLsbD_and, hm b hb]
    by_cases hn : b < n
    · simp only [hn, decide_true, Bool.true_and]; exact h b hb hn
    · simp [hn]

theorem mask_and_ne_zero (mask w : Word) (n : Nat)
    (hm : ∀ b, b < 64 → mask.getLsbD b = decide (b < n)) :
    ((mask &&& w) != 0#64) = true ↔ ∃ b, b < 64 ∧ b < n ∧ w.getLsbD b = true := by
  rw [word_ne_zero_iff]
  constructor
  · rintro ⟨b, hb, h⟩
    rw [BitVec.getLsbD_and, hm b hb] at h
    by_cases hn : b < n
    · simp only [hn, decide_true, Bool.true_and] at h
      exact ⟨b, hb, hn, h⟩
    · simp [hn] at h
  · rintro ⟨b, hb, hn, h⟩
    refine ⟨b, hb, ?_⟩
    rw [BitVec.getLsbD_and, hm b hb, h]; simp [hn]

theorem mask_and_eq (mask x y : Word) (n : Nat)
    (hm : ∀ b, b < 64 → mask.getLsbD b = decide (b < n)) :
    ((mask &&& x) == (mask &&& y)) = true ↔ ∀ b, b < 64 → b < n → x.getLsbD b = y.getLsbD b := by
  rw [beq_iff_eq]
  constructor
  · intro h b hb hn
    have := congrArg (fun v => v.getLsbD b) h
    simp only [BitVec.getLsbD_and, hm b hb, hn, decide_true, Bool.true_and] at this
    exact this
  · intro h
    apply BitVec.eq_of_getLsbD_eq
    intro b hb
    rw [BitVec.getLsbD_and, BitVec.getLsbD_and, hm b hb]
    by_cases hn : b < n
    · simp only [hn, decide_true, Bool.true_and]; exact h b hb hn
    · simp [hn]

/-! ### the linear view of an expression -/

/-- The coefficient at row-major position `p`. -/
def Xpr.lin (e : Xpr) (p : Nat) : Bool := e.den (p / e.cols) (p % e.cols)

theorem all_lin_iff (e : Xpr) (P : Bool → Prop) :
    (∀ p, p < e.size → P (e.lin p)) ↔ ∀ i j, i < e.rows → j < e.cols → P (e.den i j) := by
  constructor
  · intro h i j hi hj
    have := h (i * e.cols + j) (pos_lt_size hi hj)
    unfold Xpr.lin at this
    rwa [pos_div hj, pos_mod hj] at this
  · intro h p hp
    exact h _ _ (div_lt_rows hp) (Nat.mod_lt _ (cols_pos hp))

theorem ex_lin_iff (e : Xpr) (P : Bool → Prop) :
    (∃ p, p < e.size ∧ P (e.lin p)) ↔ ∃ i j, i < e.rows ∧ j < e.cols ∧ P (e.den i j) := by
  constructor
  · rintro ⟨p, hp, h⟩
    exact ⟨_, _, div_lt_rows hp, Nat.mod_lt _ (cols_pos hp), h⟩
  · rintro ⟨i, j, hi, hj, h⟩
    refine ⟨i * e.cols + j, pos_lt_size hi hj, ?_⟩
    unfold Xpr.lin
    rwa [pos_div hj, pos_mod hj]

theorem bitpack_lin (e : Xpr) (hf : e.Faithful) (k : Nat) (hk : k < packs e.size) :
    ∃ w, e.bitpack k = .ok w ∧ ∀ b, b < 64 → k * 64 + b < e.size → w.getLsbD b = e.lin (k * 64 + b) :=
  hf k hk

theorem pack_in (s k : Nat) (h : k * 64 ≤ s) : k < packs s := by unfold packs; omega

/-! ### all -/

/-- The loop over full packs for `all()`. -/
theorem visitFull_all (e : Xpr) (hf : e.Faithful) (n : Nat) :
    ∀ k, (e.size / 64 - k) = n → k ≤ e.size / 64 →
      (∀ p, p < k * 64 → e.lin p = true) →
      ∃ st k' i' res, visitFull allVisitor e e.size k (k * 64) true = .ok (st, k', i', res) ∧
        (st = true → res = false ∧ ∃ p, p < e.size / 64 * 64 ∧ e.lin p = false) ∧
        (st = false → res = true ∧ k' = e.size / 64 ∧ i' = k' * 64 ∧ ∀ p, p < k' * 64 → e.lin p = true) := by
  induction n with
  | zero =>
    intro k hn hk hall
    have hk' : k = e.size / 64 := by omega
    rw [visitFull, if_neg (by omega)]
    exact ⟨false, k, k * 64, true, rfl, by simp, fun _ => ⟨rfl, hk', rfl, hall⟩⟩
  | succ n ih =>
    intro k hn hk hall
    rw [visitFull, if_pos (by omega)]
    obtain ⟨w, hw1, hw2⟩ := bitpack_lin e hf k (pack_in _ _ (by omega))
    rw [hw1]
    simp only [Res.ok_bind]
    by_cases hfull : (~~~w == 0#64) = true
    · have hb := (word_not_eq_zero_iff w).1 hfull
      have e1 : allVisitor.full w true = true := by simp only [allVisitor, hfull, Bool.and_true]
      have e2 : allVisitor.stop true = false := rfl
      rw [e1, e2]
      simp only [Bool.false_eq_true, if_false]
      have e3 : k * 64 + 64 = (k + 1) * 64 := by omega
      rw [e3]
      apply ih (k + 1) (by omega) (by omega)
      intro p hp
      by_cases h : p < k * 64
      · exact hall p h
      · have := hw2 (p - k * 64) (by omega) (by omega)
        rw [hb _ (by omega)] at this
        have e4 : k * 64 + (p - k * 64) = p := by omega
        rw [e4] at this; exact this.symm
    · have e1 : allVisitor.full w true = false := by
        simp only [allVisitor, Bool.not_eq_true] at hfull ⊢
        simp only [hfull, Bool.and_false]
      have e2 : allVisitor.stop false = true := rfl
      rw [e1, e2]
      refine ⟨true, k, k * 64, false, by simp, fun _ => ⟨rfl, ?_⟩, by simp⟩
      apply Classical.byContradiction
      intro hne
      apply hfull
      rw [word_not_eq_zero_iff]
      intro b hb
      rw [hw2 b hb (by omega)]
      cases hl : e.lin (k * 64 + b)
      · exact absurd ⟨_, by omega, hl⟩ hne
      · rfl

theorem all_part (w : Word) (n : Nat) (h1 : 1 ≤ n) (h2 : n ≤ 63) (res : Bool) :
    ∃ r, allVisitor.part w (64 - n) res = .ok r ∧
      (r = true ↔ res = true ∧ ∀ b, b < n → w.getLsbD b = true) := by
  have e1 : (64 - ((64 - n : Nat) : Int)) = (n : Int) := by omega
  simp only [allVisitor]
  rw [e1, shl_nat _ _ (by omega)]
  refine ⟨_, rfl, ?_⟩
  rw [Bool.and_eq_true, mask_and_eq_mask _ _ n (fun b hb => getLsbD_lowmask n b (by omega) hb)]
  constructor
  · rintro ⟨a, b⟩; exact ⟨a, fun q hq => b q (by omega) hq⟩
  · rintro ⟨a, b⟩; exact ⟨a, fun q _ hq => b q hq⟩

/-- What `all()` actually computes: the trailing partial pack of `r` bits is tested on its first
`64 - r` bits. -/
theorem all_spec (e : Xpr) (hf : e.Faithful) :
    ∃ r, e.all = .ok r ∧
      (e.size % 64 = 0 ∨ e.size < 64 → (r = true ↔ ∀ p, p < e.size → e.lin p = true)) ∧
      (r = true → 64 ≤ e.size → ∀ p, p < e.size → e.size / 64 * 64 + (64 - e.size % 64) ≤ p ∨ e.lin p = true) ∧
      (32 ≤ e.size % 64 → (∀ p, p < e.size → e.lin p = true) → r = true) := by
  unfold Xpr.all visitPacks
  by_cases h0 : e.size = 0
  · simp only [h0, if_true]
    exact ⟨true, rfl, by simp, by simp, by simp⟩
  · simp only [h0, if_false]
    by_cases h1 : e.size < 64
    · rw [if_pos h1]
      obtain ⟨w, hw1, hw2⟩ := bitpack_lin e hf 0 (pack_in _ _ (by omega))
      obtain ⟨r, hr1, hr2⟩ := all_part w e.size (by omega) (by omega) true
      have key : r = true ↔ ∀ p, p < e.size → e.lin p = true := by
        rw [hr2]
        constructor
        · rintro ⟨_, h⟩ p hp
          have := hw2 p (by omega) (by omega)
          rw [h p hp] at this; simpa using this.symm
        · intro h
          refine ⟨rfl, fun b hb => ?_⟩
          rw [hw2 b (by omega) (by omega)]; simpa using h b hb
      refine ⟨r, by rw [hw1]; exact hr1, fun _ => key, by omega, fun _ h => key.2 h⟩
    · rw [if_neg h1]
      obtain ⟨st, k', i', res, hv, hst, hnst⟩ := visitFull_all e hf (e.size / 64 - 0) 0 rfl (by omega)
        (by intro p hp; omega)
      have hv' : visitFull allVisitor e e.size 0 0 true = .ok (st, k', i', res) := by simpa using hv
      rw [hv']
      simp only [Res.ok_bind]
      cases st with
      | true =>
        obtain ⟨hr, p, hp, hl⟩ := hst rfl
        subst hr
        refine ⟨false, by simp, ?_, by simp, ?_⟩
        · intro _
          simp only [Bool.false_eq_true, false_iff]
          intro h
          rw [h p (by omega)] at hl; simp at hl
        · intro _ h
          rw [h p (by omega)] at hl; simp at hl
      | false =>
        obtain ⟨hr, hk', hi', hall⟩ := hnst rfl
        subst hr
        simp only [Bool.false_eq_true, if_false]
        by_cases h2 : i' < e.size
        · rw [if_pos h2]
          obtain ⟨w, hw1, hw2⟩ := bitpack_lin e hf k' (pack_in _ _ (by omega))
          have hrm : e.size - i' = 64 - (64 - e.size % 64) := by omega
          obtain ⟨r, hr1, hr2⟩ := all_part w (64 - e.size % 64) (by omega) (by omega) true
          refine ⟨r, by rw [hw1, hrm]; exact hr1, ?_, ?_, ?_⟩
          · intro h; omega
          · intro hrt _ p hp
            obtain ⟨_, hb⟩ := hr2.1 hrt
            by_cases h3 : p < k' * 64
            · right; exact hall p h3
            · by_cases h4 : p - k' * 64 < 64 - e.size % 64
              · right
                have h5 := hb _ h4
                rw [hw2 _ (by omega) (by omega)] at h5
                have e4 : k' * 64 + (p - k' * 64) = p := by omega
                rwa [e4] at h5
              · left; omega
          · intro h32 h
            rw [hr2]
            refine ⟨rfl, fun b hb => ?_⟩
            rw [hw2 b (by omega) (by omega)]
            exact h _ (by omega)
        · rw [if_neg h2]
          refine ⟨true, rfl, ?_, ?_, fun _ _ => rfl⟩
          · intro _
            simp only [true_iff]
            intro p hp; exact hall p (by omega)
          · intro _ _ p hp; right; exact hall p (by omega)

/-! ### any -/

theorem any_part (w : Word) (n : Nat) (h1 : 1 ≤ n) (h2 : n ≤ 63) (res : Bool) :
    ∃ r, anyVisitor.part w n res = .ok r ∧
      (r = true ↔ res = true ∨ ∃ b, b < n ∧ w.getLsbD b = true) := by
  simp only [anyVisitor]
  have e1 : (64 - (n : Int)) = ((64 - n : Nat) : Int) := by omega
  have e2 : shr (~~~ 0#64) (64 - (n : Int)) = .ok ((~~~ 0#64) >>> (64 - n)) := by
    rw [e1]; unfold shr
    rw [if_neg (by omega)]; simp
  rw [e2]
  refine ⟨_, rfl, ?_⟩
  rw [Bool.or_eq_true, mask_and_ne_zero _ _ n (fun b hb => getLsbD_highmask n b (by omega) hb)]
  constructor
  · rintro (a | ⟨b, h, h', h''⟩)
    · exact Or.inl a
    · exact Or.inr ⟨b, h', h''⟩
  · rintro (a | ⟨b, h, h'⟩)
    · exact Or.inl a
    · exact Or.inr ⟨b, by omega, h, h'⟩

theorem visitFull_any (e : Xpr) (hf : e.Faithful) (n : Nat) :
    ∀ k, (e.size / 64 - k) = n → k ≤ e.size / 64 →
      (∀ p, p < k * 64 → e.lin p = false) →
      ∃ st k' i' res, visitFull anyVisitor e e.size k (k * 64) false = .ok (st, k', i', res) ∧
        (st = true → res = true ∧ ∃ p, p < e.size / 64 * 64 ∧ e.lin p = true) ∧
        (st = false → res = false ∧ k' = e.size / 64 ∧ i' = k' * 64 ∧ ∀ p, p < k' * 64 → e.lin p = false) := by
  induction n with
  | zero =>
    intro k hn hk hall
    have hk' : k = e.size / 64 := by omega
    rw [visitFull, if_neg (by omega)]
    exact ⟨false, k, k * 64, false, rfl, by simp, fun _ => ⟨rfl, hk', rfl, hall⟩⟩
  | succ n ih =>
    intro k hn hk hall
    rw [visitFull, if_pos (by omega)]
    obtain ⟨w, hw1, hw2⟩ := bitpack_lin e hf k (pack_in _ _ (by omega))
    rw [hw1]
    simp only [Res.ok_bind]
    by_cases hne : (w != 0#64) = true
    · obtain ⟨b, hb, hb1⟩ := (word_ne_zero_iff w).1 hne
      have e1 : anyVisitor.full w false = true := by simp only [anyVisitor, hne, Bool.or_true]
      have e2 : anyVisitor.stop true = true := rfl
      rw [e1, e2]
      refine ⟨true, k, k * 64, true, by simp, fun _ => ⟨rfl, k * 64 + b, by omega, ?_⟩, by simp⟩
      rw [← hw2 b hb (by omega)]; exact hb1
    · have e1 : anyVisitor.full w false = false := by
        simp only [anyVisitor, Bool.not_eq_true] at hne ⊢
        simp only [hne, Bool.or_false]
      have e2 : anyVisitor.stop false = false := rfl
      rw [e1, e2]
      simp only [Bool.false_eq_true, if_false]
      have e3 : k * 64 + 64 = (k + 1) * 64 := by omega
      rw [e3]
      apply ih (k + 1) (by omega) (by omega)
      intro p hp
      by_cases h : p < k * 64
      · exact hall p h
      · have := hw2 (p - k * 64) (by omega) (by omega)
        have e4 : k * 64 + (p - k * 64) = p := by omega
        rw [e4] at this
        cases hl : e.lin p
        · rfl
        · exfalso; apply hne; rw [word_ne_zero_iff]
          exact ⟨p - k * 64, by omega, by rw [this, hl]⟩

/-- What `any()` computes: right from 64 coefficients on; below it looks at the first
`64 - size` bits of the pack (padding included when `size < 32`). -/
theorem any_spec (e : Xpr) (hf : e.Faithful) :
    ∃ r, e.any = .ok r ∧
      (e.size = 0 ∨ e.size = 32 ∨ 64 ≤ e.size → (r = true ↔ ∃ p, p < e.size ∧ e.lin p = true)) ∧
      (e.size < 32 → (∃ p, p < e.size ∧ e.lin p = true) → r = true) ∧
      (32 ≤ e.size → e.size < 64 → (r = true ↔ ∃ p, p < 64 - e.size ∧ e.lin p = true)) := by
  unfold Xpr.any visitPacks
  by_cases h0 : e.size = 0
  · simp only [h0, if_true]
    exact ⟨false, rfl, by simp, by simp, by simp⟩
  · simp only [h0, if_false]
    by_cases h1 : e.size < 64
    · rw [if_pos h1]
      obtain ⟨w, hw1, hw2⟩ := bitpack_lin e hf 0 (pack_in _ _ (by omega))
      obtain ⟨r, hr1, hr2⟩ := any_part w (64 - e.size) (by omega) (by omega) false
      have key : 32 ≤ e.size → (r = true ↔ ∃ p, p < 64 - e.size ∧ e.lin p = true) := by
        intro h32
        rw [hr2]
        constructor
        · rintro (h | ⟨b, hb, h⟩)
          · simp at h
          · refine ⟨b, hb, ?_⟩
            rw [hw2 b (by omega) (by omega)] at h; simpa using h
        · rintro ⟨p, hp, h⟩
          right; refine ⟨p, hp, ?_⟩
          rw [hw2 p (by omega) (by omega)]; simpa using h
      refine ⟨r, by rw [hw1]; exact hr1, ?_, ?_, fun h _ => key h⟩
      · rintro (h | h | h)
        · exact h.elim
        · rw [key (by omega), h]
        · omega
      · rintro h32 ⟨p, hp, h⟩
        rw [hr2]
        right
        refine ⟨p, by omega, ?_⟩
        rw [hw2 p (by omega) (by omega)]; simpa using h
    · rw [if_neg h1]
      obtain ⟨st, k', i', res, hv, hst, hnst⟩ := visitFull_any e hf (e.size / 64 - 0) 0 rfl (by omega)
        (by intro p hp; omega)
      have hv' : visitFull anyVisitor e e.size 0 0 false = .ok (st, k', i', res) := by simpa using hv
      rw [hv']
      simp only [Res.ok_bind]
      cases st with
      | true =>
        obtain ⟨hr, p, hp, hl⟩ := hst rfl
        subst hr
        refine ⟨true, by simp, ?_, fun _ _ => rfl, by omega⟩
        intro _
        simp only [true_iff]
        exact ⟨p, by omega, hl⟩
      | false =>
        obtain ⟨hr, hk', hi', hall⟩ := hnst rfl
        subst hr
        simp only [Bool.false_eq_true, if_false]
        by_cases h2 : i' < e.size
        · rw [if_pos h2]
          obtain ⟨w, hw1, hw2⟩ := bitpack_lin e hf k' (pack_in _ _ (by omega))
          obtain ⟨r, hr1, hr2⟩ := any_part w (e.size - i') (by omega) (by omega) false
          refine ⟨r, by rw [hw1]; exact hr1, ?_, by omega, by omega⟩
          intro _
          rw [hr2]
          constructor
          · rintro (h | ⟨b, hb, h⟩)
            · simp at h
            · refine ⟨k' * 64 + b, by omega, ?_⟩
              rwa [hw2 b (by omega) (by omega)] at h
          · rintro ⟨p, hp, h⟩
            right
            by_cases h3 : p < k' * 64
            · rw [hall p h3] at h; simp at h
            · refine ⟨p - k' * 64, by omega, ?_⟩
              rw [hw2 _ (by omega) (by omega)]
              have e4 : k' * 64 + (p - k' * 64) = p := by omega
              rwa [e4]
        · rw [if_neg h2]
          refine ⟨false, rfl, ?_, by omega, by omega⟩
          intro _
          simp only [Bool.false_eq_true, false_iff]
          rintro ⟨p, hp, h⟩
          rw [hall p (by omega)] at h; simp at h

end Fdapde.BinMtx
