import Verif.BinMtx.PropsExact
/- C07: for which blocks copying is right. -/
namespace Fdapde.BinMtx

/-- Quotient and remainder of a sum. -/
theorem div_mod_add (s j w : Nat) (hw : 0 < w) :
    (s % w + j % w < w ∧ (s + j) / w = s / w + j / w ∧ (s + j) % w = s % w + j % w) ∨
    (w ≤ s % w + j % w ∧ (s + j) / w = s / w + j / w + 1 ∧ (s + j) % w + w = s % w + j % w) := by
  have e : s + j = w * (s / w + j / w) + (s % w + j % w) := by
    have h1 := Nat.div_add_mod s w
    have h2 := Nat.div_add_mod j w
    rw [Nat.mul_add]
    omega
  have hs := Nat.mod_lt s hw
  have hj := Nat.mod_lt j hw
  by_cases h : s % w + j % w < w
  · left
    refine ⟨h, ?_, ?_⟩
    · rw [e, Nat.mul_add_div hw, Nat.div_eq_of_lt h]; rfl
    · rw [e, Nat.mul_add_mod, Nat.mod_eq_of_lt h]
  · right
    have e' : s + j = w * (s / w + j / w + 1) + (s % w + j % w - w) := by rw [Nat.mul_add w _ 1]; omega
    have hl : s % w + j % w - w < w := by omega
    refine ⟨by omega, ?_, ?_⟩
    · rw [e', Nat.mul_add_div hw, Nat.div_eq_of_lt hl]
    · rw [e', Nat.mul_add_mod, Nat.mod_eq_of_lt hl]; omega

/-- When the positions read for a pack which starts at `s` are the right ones. -/
theorem positions_iff (q s w c n : Nat) (hw : 0 < w) (hc : w ≤ c) (hn : 0 < n) :
    (∀ j < n, (q + j / w) * c + (s % w + j % w) = (s + j) / w * c + (s + j) % w) ↔
      q = s / w ∧ (w = c ∨ s % w = 0 ∨ s % w + n ≤ w) := by
  have hs := Nat.mod_lt s hw
  have hc0 : 0 < c := by omega
  constructor
  · intro H
    have hq : q = s / w := by
      have := H 0 hn
      simp only [Nat.zero_div, Nat.zero_mod, Nat.add_zero] at this
      exact Nat.eq_of_mul_eq_mul_right hc0 (by omega)
    refine ⟨hq, ?_⟩
    by_contra hne
    push Not at hne
    obtain ⟨h1, h2, h3⟩ := hne
    -- the first position after the end of the row
    have hj : w - s % w < n := by omega
    have hjw : w - s % w < w := by omega
    have := H _ hj
    rcases div_mod_add s (w - s % w) w hw with ⟨a1, _, _⟩ | ⟨_, a2, a3⟩
    · rw [Nat.mod_eq_of_lt hjw] at a1
      omega
    · rw [a2, hq, Nat.add_mul _ 1 c] at this
      omega
  · rintro ⟨rfl, H⟩ j hj
    rcases div_mod_add s j w hw with ⟨a1, a2, a3⟩ | ⟨a1, a2, a3⟩
    · rw [a2, a3]
    · have hwc : w = c := by
        rcases H with h | h | h
        · exact h
        · have := Nat.mod_lt j hw
          omega
        · have := Nat.mod_le j w
          omega
      rw [a2, Nat.add_mul _ 1 c]
      omega

theorem forLoop_ok_all {σ : Type} (body : Nat → σ → Res σ) : ∀ (n a : Nat) (s t : σ), forLoop body a n s = .ok t →
    ∀ j, a ≤ j → j < a + n → ∃ s1 s2, body j s1 = .ok s2
  | 0, a, s, t, _, j, h1, h2 => by omega
  | n + 1, a, s, t, h, j, h1, h2 => by
    simp only [forLoop] at h
    obtain ⟨s', e1, e2⟩ := (Res.bind_eq_ok).1 h
    by_cases hj : j = a
    · exact ⟨s, s', by rw [hj]; exact e1⟩
    · exact forLoop_ok_all body n (a + 1) s' t e2 j (by omega) (by omega)

theorem assemble_ok {bit : Nat → Res Bool} {n : Nat} {w : Word} (h : assemble bit n = .ok w) : ∀ j < n, ∃ b, bit j = .ok b := by
  intro j hj
  obtain ⟨s1, s2, e⟩ := forLoop_ok_all _ n 0 _ _ h j (by omega) (by omega)
  obtain ⟨b, e1, _⟩ := (Res.bind_eq_ok).1 e
  exact ⟨b, e1⟩

theorem readPacks_ok (e : Xpr) : ∀ (n a : Nat) (ws : List Word), e.readPacks a n = .ok ws → ∀ k < n, ∃ w, e.bitpack (a + k) = .ok w ∧ ws[k]? = some w
  | 0, a, ws, _, k, hk => by omega
  | n + 1, a, ws, h, k, hk => by
    simp only [Xpr.readPacks] at h
    obtain ⟨w, e1, e2⟩ := (Res.bind_eq_ok).1 h
    obtain ⟨ws', e3, e4⟩ := (Res.bind_eq_ok).1 e2
    cases e4
    cases k with
    | zero => exact ⟨w, e1, rfl⟩
    | succ k =>
      obtain ⟨w', f1, f2⟩ := readPacks_ok e n (a + 1) ws' e3 k (by omega)
      exact ⟨w', by rw [← f1]; congr 1; omega, by simpa using f2⟩

theorem read_ok {m : BMat} {i j : Nat} {b : Bool} (h : m.read i j = .ok b) : b = storeBit m.data (i * m.cols + j) := by
  by_cases hl : i * m.cols + j < 64 * m.data.length
  · rw [read_nat m i j hl] at h
    injection h with h
    exact h.symm
  · unfold BMat.read at h
    rw [packOf_nat, getWord_nat, List.getElem?_eq_none (by omega)] at h
    cases h

/-- **C07**: the blocks which are copied correctly, whatever the content of the matrix: those for which every pack after the first one starts in the row
computed in floating point, and either the block is as wide as the matrix, or the pack starts a row of the block, or it does not go beyond the
row of the block in which it starts. -/
theorem C07_when_right (r c r0 c0 h w : Nat) (hr : r0 + h ≤ r) (hc : c0 + w ≤ c) (hw : 0 < w) :
    (∀ f : Nat → Nat → Bool, ∃ m v, BMat.ofDense r c f = .ok m ∧ BMat.ofXpr (.block (.mat m) r0 c0 h w) = .ok v ∧
      Represents v h w fun i j => f (r0 + i) (c0 + j)) ↔
    ∀ k, 1 ≤ k → k * 64 < h * w →
      rowOff k w = k * 64 / w ∧ (w = c ∨ k * 64 % w = 0 ∨ k * 64 % w + min 64 (h * w - k * 64) ≤ w) := by
  have hsz : ∀ m : BMat, (Xpr.block (.mat m) r0 c0 h w).size = h * w := fun _ => rfl
  constructor
  · intro H k hk hlt
    rw [← positions_iff (rowOff k w) (k * 64) w c _ hw (by omega) (by omega)]
    intro j hj
    by_contra hne
    have hp : k * 64 + j < h * w := by omega
    have hi := div_lt_rows hp
    have hjw := Nat.mod_lt (k * 64 + j) hw
    obtain ⟨m, v, e1, e2, e3⟩ := H fun a b => decide (a = r0 + (k * 64 + j) / w ∧ b = c0 + (k * 64 + j) % w)
    obtain ⟨m', a1, a2, a3, a4⟩ := ofDense_unused r c fun a b => decide (a = r0 + (k * 64 + j) / w ∧ b = c0 + (k * 64 + j) % w)
    rw [e1] at a1
    injection a1 with a1
    subst a1
    obtain ⟨ws, f1, f2⟩ := (Res.bind_eq_ok).1 e2
    cases f2
    have hkp : k < packs (h * w) := pack_in _ _ (by omega)
    obtain ⟨x, g1, g2⟩ := readPacks_ok _ _ 0 ws f1 k hkp
    rw [Nat.zero_add] at g1
    simp only [Xpr.bitpack] at g1
    rw [if_neg (by omega), if_neg (by omega)] at g1
    have hbits := assemble_ok g1
    have hval : ∀ j < min 64 (h * w - k * 64), (Xpr.mat m).coeff (r0 + rowOff k w + j / w) (c0 + k * 64 % w + j % w) =
        .ok (storeBit m.data ((r0 + rowOff k w + j / w) * m.cols + (c0 + k * 64 % w + j % w))) := by
      intro j hj
      obtain ⟨b, hb⟩ := hbits j hj
      have := read_ok (m := m) hb
      rw [← this]
      exact hb
    obtain ⟨y, y1, y2⟩ := assemble_spec _ (fun j => storeBit m.data ((r0 + rowOff k w + j / w) * m.cols + (c0 + k * 64 % w + j % w)))
      (min 64 (h * w - k * 64)) (by omega) hval
    rw [g1] at y1
    injection y1 with y1
    subst y1
    -- what the copy holds
    have t1 := (e3.2.2 _ _ hi hjw)
    have t2 := read_ok t1
    have epos : (k * 64 + j) / w * w + (k * 64 + j) % w = k * 64 + j := by rw [Nat.mul_comm]; exact Nat.div_add_mod _ _
    simp only [Xpr.cols, epos, and_self, decide_true] at t2
    have hst : storeBit ws (k * 64 + j) = x.getLsbD j := by
      unfold storeBit
      rw [show (k * 64 + j) / 64 = k by omega, show (k * 64 + j) % 64 = j by omega, g2]
      rfl
    rw [hst, y2 j (by omega), decide_eq_true hj, Bool.true_and] at t2
    -- the position read
    have hR := a3.1
    have hC := a3.2.1
    rw [hC] at t2
    have hin : (r0 + rowOff k w + j / w) * c + (c0 + k * 64 % w + j % w) < r * c := by
      by_contra hn
      rw [a4 _ (by rw [hR, hC]; omega)] at t2
      cases t2
    have hi' := div_lt_rows hin
    have hj' := Nat.mod_lt ((r0 + rowOff k w + j / w) * c + (c0 + k * 64 % w + j % w)) (show 0 < c by omega)
    have t3 := storeBit_table a2 a3 hi' hj'
    rw [Nat.mul_comm (_ / c) c, Nat.div_add_mod, ← t2] at t3
    have t4 := of_decide_eq_true t3.symm
    have t5 := Nat.div_add_mod ((r0 + rowOff k w + j / w) * c + (c0 + k * 64 % w + j % w)) c
    rw [t4.1, t4.2] at t5
    apply hne
    have u1 : (r0 + rowOff k w + j / w) * c = r0 * c + (rowOff k w + j / w) * c := by ring
    have u2 : c * (r0 + (k * 64 + j) / w) = r0 * c + (k * 64 + j) / w * c := by ring
    rw [u1, u2] at t5
    omega
  · intro H f
    obtain ⟨m, a1, a2, a3, a4⟩ := ofDense_unused r c f
    have hR := a3.1
    have hC := a3.2.1
    have hpk : ∀ k, 0 ≤ k → k < 0 + packs (h * w) → ∃ x, (Xpr.block (.mat m) r0 c0 h w).bitpack k = .ok x ∧
        ∀ b, b < 64 → k * 64 + b < (Xpr.block (.mat m) r0 c0 h w).size → x.getLsbD b =
          (fun i j => f (r0 + i) (c0 + j)) ((k * 64 + b) / (Xpr.block (.mat m) r0 c0 h w).cols) ((k * 64 + b) % (Xpr.block (.mat m) r0 c0 h w).cols) := by
      intro k _ _
      obtain ⟨x, x1, x2⟩ := assemble_spec
        (fun j => (Xpr.mat m).coeff (r0 + rowOff k w + j / w) (c0 + (if k = 0 then 0 else (k * 64) % w) + j % w))
        (fun j => f (r0 + (k * 64 + j) / w) (c0 + (k * 64 + j) % w)) (min 64 (h * w - k * 64)) (by omega) (by
          intro j hj
          have hp : k * 64 + j < h * w := by omega
          have hi := div_lt_rows hp
          have hjw := Nat.mod_lt (k * 64 + j) hw
          have hpos : (rowOff k w + j / w) * c + ((if k = 0 then 0 else (k * 64) % w) + j % w) = (k * 64 + j) / w * c + (k * 64 + j) % w := by
            by_cases hk : k = 0
            · subst hk
              simp [rowOff, round53]
            · rw [if_neg hk]
              exact (positions_iff (rowOff k w) (k * 64) w c _ hw (by omega) (by omega)).2 (H k (by omega) (by omega)) j hj
          have hlin : (r0 + rowOff k w + j / w) * m.cols + (c0 + (if k = 0 then 0 else (k * 64) % w) + j % w) =
              (r0 + (k * 64 + j) / w) * m.cols + (c0 + (k * 64 + j) % w) := by
            rw [hC]
            have u1 : (r0 + rowOff k w + j / w) * c = r0 * c + (rowOff k w + j / w) * c := by ring
            have u2 : (r0 + (k * 64 + j) / w) * c = r0 * c + (k * 64 + j) / w * c := by ring
            rw [u1, u2]
            omega
          have hlt := a2.pos_lt (i := r0 + (k * 64 + j) / w) (j := c0 + (k * 64 + j) % w) (by rw [hR]; omega) (by rw [hC]; omega)
          show m.read _ _ = _
          rw [read_nat m _ _ (by rw [hlin]; exact hlt), hlin, hC, storeBit_table a2 a3 (by omega) (by omega)])
      refine ⟨x, ?_, fun b hb hs => ?_⟩
      · simp only [Xpr.bitpack]
        rw [if_neg (by omega)]
        exact x1
      · rw [hsz] at hs
        rw [x2 b hb, decide_eq_true (by omega), Bool.true_and]
        rfl
    obtain ⟨ws, b1, b2, b3⟩ := readPacks_spec (Xpr.block (.mat m) r0 c0 h w) (fun i j => f (r0 + i) (c0 + j)) (packs (h * w)) 0 hpk
    refine ⟨m, ⟨h, w, packs (h * w), ws⟩, a1, ?_, rfl, rfl, fun i j hi hj => ?_⟩
    · unfold BMat.ofXpr
      show (Xpr.readPacks _ 0 (packs (h * w)) >>= _) = _
      rw [b1]
      rfl
    · have hp := pos_lt_size hi hj
      have hlen : i * w + j < 64 * ws.length := by
        rw [b2]; unfold packs; omega
      have := read_nat ⟨h, w, packs (h * w), ws⟩ i j hlen
      refine this.trans ?_
      congr 1
      have hk : (i * w + j) / 64 < ws.length := by omega
      rw [storeBit_getElem _ _ hk, b3 _ hk _ (Nat.mod_lt _ (by norm_num)) (by rw [hsz]; show (0 + (i * w + j) / 64) * 64 + (i * w + j) % 64 < h * w; omega)]
      show f (r0 + ((0 + (i * w + j) / 64) * 64 + (i * w + j) % 64) / w) (c0 + ((0 + (i * w + j) / 64) * 64 + (i * w + j) % 64) % w) = _
      rw [show (0 + (i * w + j) / 64) * 64 + (i * w + j) % 64 = i * w + j by omega, pos_div hj, pos_mod hj]

/-- **C07**: blocks of consecutive whole rows are copied correctly if the floating point row is right, whatever their width. -/
theorem C07_whole_rows (r c r0 h : Nat) (hr : r0 + h ≤ r) (hc : 0 < c) (hoff : ∀ k, 1 ≤ k → k * 64 < h * c → rowOff k c = k * 64 / c) (f : Nat → Nat → Bool) :
    ∃ m v, BMat.ofDense r c f = .ok m ∧ BMat.ofXpr (.block (.mat m) r0 0 h c) = .ok v ∧ Represents v h c fun i j => f (r0 + i) j := by
  obtain ⟨m, v, h1, h2, h3⟩ := (C07_when_right r c r0 0 h c hr (by omega) hc).2 (fun k hk hl => ⟨hoff k hk hl, Or.inl rfl⟩) f
  exact ⟨m, v, h1, h2, by simpa using h3⟩

/-- Two of three rows of 50 coefficients are copied correctly, 30 rows of 3 of 4 columns are not. -/
example : (∀ f : Nat → Nat → Bool, ∃ m v, BMat.ofDense 3 50 f = .ok m ∧ BMat.ofXpr (.block (.mat m) 1 0 2 50) = .ok v ∧ Represents v 2 50 fun i j => f (1 + i) j) ∧
    ¬ ∀ f : Nat → Nat → Bool, ∃ m v, BMat.ofDense 30 4 f = .ok m ∧ BMat.ofXpr (.block (.mat m) 0 0 30 3) = .ok v ∧
      Represents v 30 3 fun i j => f (0 + i) (0 + j) := by
  constructor
  · refine C07_whole_rows 3 50 1 2 (by norm_num) (by norm_num) fun k hk hl => ?_
    have : k = 1 := by omega
    subst this
    decide +kernel
  · rw [C07_when_right 30 4 0 0 30 3 (by norm_num) (by norm_num) (by norm_num)]
    intro H
    have := (H 1 le_rfl (by norm_num)).2
    norm_num at this

end Fdapde.BinMtx
