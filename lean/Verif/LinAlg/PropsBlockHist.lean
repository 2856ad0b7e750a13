import Verif.LinAlg.BlockModel
import Verif.LinAlg.PropsBlock
/- C141: SparseBlockMatrix under histories of writes. -/
namespace Fdapde.LinAlg

/-! ### Specification: a dense matrix -/

/-- The effect of a use on the dense matrix: block rows have heights `h`, block columns widths `w`; positions outside
leave the matrix as it is. -/
def denseStep {α : Type} (R C : Nat) (h w : Nat → Nat) (D : Int → Int → α) : WOp α → Int → Int → α
  | .write i j v => fun x y => if x = i ∧ y = j then v else D x y
  | .put r c M => fun x y =>
      if 0 ≤ r ∧ r < R ∧ 0 ≤ c ∧ c < C ∧ (psum h r.toNat : Int) ≤ x ∧ x < psum h (r.toNat + 1) ∧
        (psum w c.toNat : Int) ≤ y ∧ y < psum w (c.toNat + 1)
      then M.coeff (x.toNat - psum h r.toNat) (y.toNat - psum w c.toNat) else D x y
  | .poke r c a b v => fun x y =>
      if 0 ≤ r ∧ r < R ∧ 0 ≤ c ∧ c < C ∧ x = psum h r.toNat + a ∧ y = psum w c.toNat + b then v else D x y

/-- A use keeps the sizes: a matrix put in place of a block has its size, positions in a block are inside of it. -/
def WOp.Fits {α : Type} (R C : Nat) (h w : Nat → Nat) : WOp α → Prop
  | .write _ _ _ => True
  | .put r c M => 0 ≤ r → r < R → 0 ≤ c → c < C → M.rows = h r.toNat ∧ M.cols = w c.toNat
  | .poke r c a b _ => 0 ≤ r → r < R → 0 ≤ c → c < C → a < h r.toNat ∧ b < w c.toNat

/-! ### Proof -/

/-- The object represents the dense matrix. -/
structure SB.Rep {α : Type} (R C : Nat) (h w : Nat → Nat) (s : SB α) (D : Int → Int → α) : Prop where
  rows : s.shape.rows = psum h R
  cols : s.shape.cols = psum w C
  inner : s.shape.innerOffset = (List.range (R + 1)).map (psum h)
  outer : s.shape.outerOffset = (List.range (C + 1)).map (psum w)
  len : s.blocks.length = R * C
  blk : ∀ r < R, ∀ c < C, ∃ M, s.blocks[r * C + c]? = some M ∧ M.rows = h r ∧ M.cols = w c ∧
    ∀ a < h r, ∀ b < w c, M.coeff a b = D (psum h r + a : Nat) (psum w c + b : Nat)

theorem psum_inj (h : Nat → Nat) {r r' a a' : Nat} (ha : a < h r) (ha' : a' < h r') (e : psum h r + a = psum h r' + a') :
    r = r' ∧ a = a' := by
  have : r = r' := by
    rcases Nat.lt_trichotomy r r' with hlt | he | hgt
    · have := psum_mono h (show r + 1 ≤ r' by omega); rw [psum_succ] at this; omega
    · exact he
    · have := psum_mono h (show r' + 1 ≤ r by omega); rw [psum_succ] at this; omega
  subst this
  exact ⟨rfl, by omega⟩

theorem pos_inj {C r c r' c' : Nat} (hc : c < C) (hc' : c' < C) (e : r * C + c = r' * C + c') : r = r' ∧ c = c' := by
  have h1 : (r * C + c) / C = r := by
    rw [Nat.mul_comm, Nat.mul_add_div (by omega), Nat.div_eq_of_lt hc, Nat.add_zero]
  have h2 : (r' * C + c') / C = r' := by
    rw [Nat.mul_comm, Nat.mul_add_div (by omega), Nat.div_eq_of_lt hc', Nat.add_zero]
  have : r = r' := by rw [← h1, e, h2]
  subst this
  exact ⟨rfl, by omega⟩

theorem pos_lt {R C r c : Nat} (hr : r < R) (hc : c < C) : r * C + c < R * C := by
  have : (r + 1) * C ≤ R * C := Nat.mul_le_mul_right C (by omega)
  rw [Nat.add_mul] at this; omega

/-- Where a position of the matrix is found. -/
theorem SB.Rep.locate {α : Type} {R C : Nat} {h w : Nat → Nat} {s : SB α} {D : Int → Int → α} (H : s.Rep R C h w D)
    {r c a b : Nat} (hr : r < R) (hc : c < C) (ha : a < h r) (hb : b < w c) :
    blockIndex s.shape.innerOffset (psum h r + a) = r ∧ blockIndex s.shape.outerOffset (psum w c + b) = c ∧
    indexToBlock s.shape.innerOffset (psum h r + a) = .ok a ∧ indexToBlock s.shape.outerOffset (psum w c + b) = .ok b ∧
    psum h r + a < psum h R ∧ psum w c + b < psum w C := by
  have u1 := upperBound_spec h R r (psum h r + a) hr (by omega) (by rw [psum_succ]; omega)
  have u2 := upperBound_spec w C c (psum w c + b) hc (by omega) (by rw [psum_succ]; omega)
  have lr : psum h r + a < psum h R := by
    have := psum_mono h (show r + 1 ≤ R by omega); rw [psum_succ] at this; omega
  have lc : psum w c + b < psum w C := by
    have := psum_mono w (show c + 1 ≤ C by omega); rw [psum_succ] at this; omega
  have g1 : ((List.range (R + 1)).map (psum h))[r]? = some (psum h r) := by
    rw [List.getElem?_map, List.getElem?_range (show r < R + 1 by omega)]; rfl
  have g2 : ((List.range (C + 1)).map (psum w))[c]? = some (psum w c) := by
    rw [List.getElem?_map, List.getElem?_range (show c < C + 1 by omega)]; rfl
  rw [H.inner, H.outer]
  refine ⟨?_, ?_, ?_, ?_, lr, lc⟩
  · simp [blockIndex, u1]
  · simp [blockIndex, u2]
  · simp only [indexToBlock, u1, Nat.succ_ne_zero, if_false, Nat.add_sub_cancel, g1, Res.ofOptionUB_some, Res.map_ok]
    congr 1; omega
  · simp only [indexToBlock, u2, Nat.succ_ne_zero, if_false, Nat.add_sub_cancel, g2, Res.ofOptionUB_some, Res.map_ok]
    congr 1; omega

theorem SB.Rep.read {α : Type} {R C : Nat} {h w : Nat → Nat} {s : SB α} {D : Int → Int → α} (H : s.Rep R C h w D)
    (i j : Int) : s.read C i j =
      if 0 ≤ i ∧ i < psum h R ∧ 0 ≤ j ∧ j < psum w C then .ok (D i j) else .throws := by
  by_cases h0 : 0 ≤ i ∧ 0 ≤ j
  · rw [SB.read, if_pos h0]
    by_cases h1 : i < psum h R ∧ j < psum w C
    · rw [if_pos ⟨h0.1, h1.1, h0.2, h1.2⟩]
      obtain ⟨r, hr, a, ha, e⟩ := C37_covers h R i.toNat (by omega)
      obtain ⟨c, hc, b, hb, e'⟩ := C37_covers w C j.toNat (by omega)
      obtain ⟨l1, l2, l3, l4, l5, l6⟩ := H.locate hr hc ha hb
      obtain ⟨M, m1, m2, m3, m4⟩ := H.blk r hr c hc
      rw [e, e', sbCoeff, if_pos ⟨by rw [H.rows]; exact l5, by rw [H.cols]; exact l6⟩, l1, l2, l3, l4, m1]
      simp only [Res.ofOptionUB_some, Res.ok_bind, Mat.get, m2, m3, ha, hb, and_self, if_true]
      rw [m4 a ha b hb, ← e, ← e', Int.toNat_of_nonneg h0.1, Int.toNat_of_nonneg h0.2]
    · rw [if_neg (by tauto), sbCoeff, if_neg]
      rw [H.rows, H.cols]; omega
  · rw [SB.read, if_neg h0, if_neg (by tauto)]

/-- Replacing one block. -/
theorem SB.Rep.replace {α : Type} {R C : Nat} {h w : Nat → Nat} {s : SB α} {D D' : Int → Int → α} (H : s.Rep R C h w D)
    {r c : Nat} (hr : r < R) (hc : c < C) (M : Mat α) (h1 : M.rows = h r) (h2 : M.cols = w c)
    (hM : ∀ a < h r, ∀ b < w c, M.coeff a b = D' (psum h r + a : Nat) (psum w c + b : Nat))
    (ho : ∀ r' < R, ∀ c' < C, (r' ≠ r ∨ c' ≠ c) → ∀ a < h r', ∀ b < w c',
      D (psum h r' + a : Nat) (psum w c' + b : Nat) = D' (psum h r' + a : Nat) (psum w c' + b : Nat)) :
    SB.Rep R C h w ⟨s.shape, s.blocks.set (r * C + c) M⟩ D' := by
  refine ⟨H.rows, H.cols, H.inner, H.outer, by simpa using H.len, fun r' hr' c' hc' => ?_⟩
  by_cases e : r' = r ∧ c' = c
  · obtain ⟨rfl, rfl⟩ := e
    refine ⟨M, ?_, h1, h2, hM⟩
    dsimp only
    rw [List.getElem?_set_self (by rw [H.len]; exact pos_lt hr hc)]
  · obtain ⟨N, n1, n2, n3, n4⟩ := H.blk r' hr' c' hc'
    refine ⟨N, ?_, n2, n3, fun a ha b hb => ?_⟩
    · dsimp only
      rw [List.getElem?_set_ne, n1]
      intro he
      have := pos_inj hc hc' he
      exact e ⟨this.1.symm, this.2.symm⟩
    · rw [n4 a ha b hb]
      exact ho r' hr' c' hc' (by tauto) a ha b hb

theorem SB.Rep.write {α : Type} {R C : Nat} {h w : Nat → Nat} {s : SB α} {D : Int → Int → α} (H : s.Rep R C h w D)
    {r c a b : Nat} (hr : r < R) (hc : c < C) (ha : a < h r) (hb : b < w c) (v : α) {M : Mat α}
    (hM : s.blocks[r * C + c]? = some M) :
    ∃ M', M.set a b v = .ok M' ∧ SB.Rep R C h w ⟨s.shape, s.blocks.set (r * C + c) M'⟩
      (fun x y => if x = (psum h r + a : Nat) ∧ y = (psum w c + b : Nat) then v else D x y) := by
  obtain ⟨N, n1, n2, n3, n4⟩ := H.blk r hr c hc
  rw [hM] at n1
  have e : M = N := Option.some.inj n1
  subst e
  refine ⟨_, if_pos ⟨by omega, by omega⟩, H.replace hr hc _ n2 n3 ?_ ?_⟩
  · intro a' ha' b' hb'
    dsimp only
    by_cases e : a' = a ∧ b' = b
    · rw [if_pos e, if_pos (by rw [e.1, e.2]; exact ⟨rfl, rfl⟩)]
    · rw [if_neg e, if_neg, n4 a' ha' b' hb']
      intro ⟨e1, e2⟩
      exact e ⟨by omega, by omega⟩
  · intro r' hr' c' hc' hne a' ha' b' hb'
    rw [if_neg]
    intro ⟨e1, e2⟩
    have i1 := psum_inj h ha' ha (by omega)
    have i2 := psum_inj w hb' hb (by omega)
    tauto

theorem SB.Rep.congr {α : Type} {R C : Nat} {h w : Nat → Nat} {s : SB α} {D D' : Int → Int → α} (H : s.Rep R C h w D)
    (e : ∀ i j : Int, 0 ≤ i → i < psum h R → 0 ≤ j → j < psum w C → D i j = D' i j) : s.Rep R C h w D' := by
  refine ⟨H.rows, H.cols, H.inner, H.outer, H.len, fun r hr c hc => ?_⟩
  obtain ⟨M, m1, m2, m3, m4⟩ := H.blk r hr c hc
  refine ⟨M, m1, m2, m3, fun a ha b hb => ?_⟩
  obtain ⟨_, _, _, _, l5, l6⟩ := H.locate hr hc ha hb
  rw [m4 a ha b hb]
  exact e _ _ (by omega) (by exact_mod_cast l5) (by omega) (by exact_mod_cast l6)

theorem SB.Rep.blockPos {α : Type} {R C : Nat} {h w : Nat → Nat} {s : SB α} {D : Int → Int → α} (H : s.Rep R C h w D)
    {r c : Int} (h1 : 0 ≤ r ∧ r < R ∧ 0 ≤ c ∧ c < C) : s.blockPos R C r c = .ok (r.toNat * C + c.toNat) := by
  rw [SB.blockPos, if_pos h1, if_pos]
  rw [H.len]; exact pos_lt (by omega) (by omega)

/-- One use: it succeeds with the effect on the dense matrix, or throws at a position outside, where the dense matrix keeps
its coefficients. -/
theorem SB.Rep.step {α : Type} {R C : Nat} {h w : Nat → Nat} {s : SB α} {D : Int → Int → α} (H : s.Rep R C h w D)
    (o : WOp α) (ho : o.Fits R C h w) :
    (∃ s', s.step R C o = .ok s' ∧ s'.Rep R C h w (denseStep R C h w D o)) ∨
    (s.step R C o = .throws ∧ s.Rep R C h w (denseStep R C h w D o)) := by
  cases o with
  | write i j v =>
      by_cases h1 : 0 ≤ i ∧ i < psum h R ∧ 0 ≤ j ∧ j < psum w C
      · left
        obtain ⟨r, hr, a, ha, e⟩ := C37_covers h R i.toNat (by omega)
        obtain ⟨c, hc, b, hb, e'⟩ := C37_covers w C j.toNat (by omega)
        obtain ⟨l1, l2, l3, l4, l5, l6⟩ := H.locate hr hc ha hb
        obtain ⟨M, m1, _⟩ := H.blk r hr c hc
        obtain ⟨M', n1, n2⟩ := H.write hr hc ha hb v m1
        refine ⟨_, ?_, n2.congr fun x y _ _ _ _ => ?_⟩
        · simp only [SB.step, SB.write, H.rows, H.cols]
          rw [if_pos h1, e, e', l1, l2, l3, l4, m1]
          simp only [Res.ofOptionUB_some, Res.ok_bind, n1]
        · simp only [denseStep]
          rw [← e, ← e', Int.toNat_of_nonneg h1.1, Int.toNat_of_nonneg h1.2.2.1]
      · right
        refine ⟨by simp only [SB.step, SB.write, H.rows, H.cols]; rw [if_neg h1], H.congr fun x y x0 x1 y0 y1 => ?_⟩
        simp only [denseStep]
        rw [if_neg]
        rintro ⟨rfl, rfl⟩
        exact h1 ⟨x0, x1, y0, y1⟩
  | put r c M =>
      by_cases h1 : 0 ≤ r ∧ r < R ∧ 0 ≤ c ∧ c < C
      · left
        obtain ⟨f1, f2⟩ := ho h1.1 h1.2.1 h1.2.2.1 h1.2.2.2
        refine ⟨_, by simp only [SB.step, H.blockPos h1, Res.ok_bind],
          H.replace (by omega) (by omega) M f1 f2 ?_ ?_⟩
        · intro a ha b hb
          simp only [denseStep, psum_succ]
          rw [if_pos (by omega)]
          congr 1 <;> omega
        · intro r' hr' c' hc' hne a ha b hb
          simp only [denseStep]
          rw [if_neg]
          rintro ⟨_, _, _, _, b1, b2, b3, b4⟩
          rw [psum_succ] at b2 b4
          have i1 := psum_inj h ha (show psum h r' + a - psum h r.toNat < h r.toNat by omega) (by omega)
          have i2 := psum_inj w hb (show psum w c' + b - psum w c.toNat < w c.toNat by omega) (by omega)
          tauto
      · right
        refine ⟨by simp only [SB.step, SB.blockPos]; rw [if_neg h1]; rfl, H.congr fun x y _ _ _ _ => ?_⟩
        simp only [denseStep]
        rw [if_neg (by tauto)]
  | poke r c a b v =>
      by_cases h1 : 0 ≤ r ∧ r < R ∧ 0 ≤ c ∧ c < C
      · left
        obtain ⟨f1, f2⟩ := ho h1.1 h1.2.1 h1.2.2.1 h1.2.2.2
        obtain ⟨M, m1, _⟩ := H.blk r.toNat (by omega) c.toNat (by omega)
        obtain ⟨M', n1, n2⟩ := H.write (by omega) (by omega) f1 f2 v m1
        refine ⟨_, by simp only [SB.step, H.blockPos h1, Res.ok_bind, m1, Res.ofOptionUB_some, n1],
          n2.congr fun x y _ _ _ _ => ?_⟩
        simp only [denseStep]
        congr! 1
        simp only [Nat.cast_add]
        tauto
      · right
        refine ⟨by simp only [SB.step, SB.blockPos]; rw [if_neg h1]; rfl, H.congr fun x y _ _ _ _ => ?_⟩
        simp only [denseStep]
        rw [if_neg (by tauto)]

theorem SB.Rep.run {α : Type} {R C : Nat} {h w : Nat → Nat} (os : List (WOp α)) :
    ∀ {s : SB α} {D : Int → Int → α}, s.Rep R C h w D → (∀ o ∈ os, o.Fits R C h w) →
    ∃ s', s.run R C os = .ok s' ∧ s'.Rep R C h w (os.foldl (denseStep R C h w) D) := by
  induction os with
  | nil => intro s D H _; exact ⟨s, rfl, H⟩
  | cons o os ih =>
      intro s D H hf
      have hf' : ∀ o ∈ os, o.Fits R C h w := fun x hx => hf x (List.mem_cons_of_mem _ hx)
      rcases H.step o (hf o (by simp)) with ⟨s', e, H'⟩ | ⟨e, H'⟩
      · obtain ⟨s'', e', H''⟩ := ih H' hf'
        exact ⟨s'', by simp only [SB.run, e]; exact e', H''⟩
      · obtain ⟨s'', e', H''⟩ := ih H' hf'
        exact ⟨s'', by simp only [SB.run, e]; exact e', H''⟩

/-- The matrix made of blocks of heights `h` and widths `w`. -/
theorem SB.make_rep {α : Type} {R C : Nat} (hR : 0 < R) (hC : 0 < C) (blocks : List (Mat α)) (h w : Nat → Nat)
    (D : Int → Int → α) (hlen : blocks.length = R * C)
    (hs : ∀ r < R, ∀ c < C, ∃ M, blocks[r * C + c]? = some M ∧ M.rows = h r ∧ M.cols = w c ∧
      ∀ a < h r, ∀ b < w c, M.coeff a b = D (psum h r + a : Nat) (psum w c + b : Nat)) :
    ∃ s, SB.make R C blocks = .ok s ∧ s.Rep R C h w D := by
  have hel : ∀ i < R * C, ((blocks[i]?).elim (0, 0) fun M => (M.rows, M.cols)) = (h (i / C), w (i % C)) := by
    intro i hi
    have hr : i / C < R := Nat.div_lt_of_lt_mul (by rw [Nat.mul_comm]; exact hi)
    obtain ⟨M, m1, m2, m3, _⟩ := hs (i / C) hr (i % C) (Nat.mod_lt _ hC)
    rw [Nat.mul_comm, Nat.div_add_mod] at m1
    rw [m1]; simp [m2, m3]
  have hh : ∀ r < R, ((blocks[r * C]?).elim (0, 0) fun M => (M.rows, M.cols)).1 = h r := by
    intro r hr
    rw [hel _ (by simpa using pos_lt hr hC)]
    simp [Nat.mul_div_cancel _ hC]
  have hw : ∀ c < C, ((blocks[c]?).elim (0, 0) fun M => (M.rows, M.cols)).2 = w c := by
    intro c hc
    rw [hel c (by simpa using pos_lt hR hc)]
    simp [Nat.mod_eq_of_lt hc]
  have hcompat : Compat C (R * C) (fun i => ((blocks[i]?).elim (0, 0) fun M => (M.rows, M.cols))) := by
    intro i hi
    have hr : i / C < R := Nat.div_lt_of_lt_mul (by rw [Nat.mul_comm]; exact hi)
    dsimp only
    rw [hh _ hr, hw _ (Nat.mod_lt _ hC), hel i hi]
  have hN : (R * C + C - 1) / C = R := by
    apply Nat.div_eq_of_lt_le
    · omega
    · rw [Nat.add_mul]; omega
  have hmin : min (R * C) C = C := by
    have : 1 * C ≤ R * C := Nat.mul_le_mul_right C (by omega)
    omega
  have pcongr : ∀ (f g : Nat → Nat) (k : Nat), (∀ i < k, f i = g i) → psum f k = psum g k := by
    intro f g k hfg
    unfold psum
    congr 1
    exact List.map_congr_left (fun i hi => hfg i (List.mem_range.1 hi))
  refine ⟨_, by rw [SB.make, (sbBuild_spec hC _ _).1 hcompat]; rfl, ?_, ?_, ?_, ?_, hlen, hs⟩
  · simp only [shapeOf, hN]; exact pcongr _ _ _ hh
  · simp only [shapeOf, hmin]; exact pcongr _ _ _ hw
  · simp only [shapeOf, hN]
    apply List.map_congr_left
    intro i hi
    have := List.mem_range.1 hi
    exact pcongr _ _ _ (fun j hj => hh j (by omega))
  · simp only [shapeOf, hmin]
    apply List.map_congr_left
    intro i hi
    have := List.mem_range.1 hi
    exact pcongr _ _ _ (fun j hj => hw j (by omega))

/-! ### Theorems -/

/-- A block matrix behaves as the dense matrix of its size, for every history of writes by coefficient, by block and by
coefficient of a block, as long as a block is only replaced by a matrix of its size: the dimensions stay, reading any
position returns what the dense matrix holds and throws outside, reading any block returns that part of the dense matrix and
throws outside.
Missing: replacing a block by a matrix of another size (C141_bug_resize). -/
theorem C141_history_partial {α : Type} {R C : Nat} (hR : 0 < R) (hC : 0 < C) (blocks : List (Mat α)) (h w : Nat → Nat)
    (D : Int → Int → α) (hlen : blocks.length = R * C)
    (hs : ∀ r < R, ∀ c < C, ∃ M, blocks[r * C + c]? = some M ∧ M.rows = h r ∧ M.cols = w c ∧
      ∀ a < h r, ∀ b < w c, M.coeff a b = D (psum h r + a : Nat) (psum w c + b : Nat))
    (os : List (WOp α)) (hf : ∀ o ∈ os, o.Fits R C h w) :
    ∃ s s', SB.make R C blocks = .ok s ∧ s.run R C os = .ok s' ∧ s'.shape.rows = psum h R ∧ s'.shape.cols = psum w C ∧
      (∀ i j : Int, s'.read C i j = if 0 ≤ i ∧ i < psum h R ∧ 0 ≤ j ∧ j < psum w C
        then .ok (os.foldl (denseStep R C h w) D i j) else .throws) ∧
      (∀ r < R, ∀ c < C, ∃ M, s'.block R C r c = .ok M ∧ M.rows = h r ∧ M.cols = w c ∧ ∀ a < h r, ∀ b < w c,
        M.coeff a b = os.foldl (denseStep R C h w) D (psum h r + a : Nat) (psum w c + b : Nat)) ∧
      (∀ r c : Int, ¬ (0 ≤ r ∧ r < R ∧ 0 ≤ c ∧ c < C) → s'.block R C r c = .throws) := by
  obtain ⟨s, e, H⟩ := SB.make_rep hR hC blocks h w D hlen hs
  obtain ⟨s', e', H'⟩ := H.run os hf
  refine ⟨s, s', e, e', H'.rows, H'.cols, H'.read, fun r hr c hc => ?_, fun r c hn => ?_⟩
  · obtain ⟨M, m1, m2, m3, m4⟩ := H'.blk r hr c hc
    refine ⟨M, ?_, m2, m3, m4⟩
    rw [SB.block, H'.blockPos (by omega), Res.ok_bind]
    simp [m1]
  · rw [SB.block, SB.blockPos, if_neg hn]; rfl

/-- The last write wins and writes elsewhere do not matter: what a position holds after a history that writes to it once
and then only to other positions. -/
theorem C141_last_write {α : Type} {R C : Nat} (h w : Nat → Nat) (D : Int → Int → α) (i j : Int) (v : α)
    (before after : List (WOp α)) (ha : ∀ o ∈ after, ∃ i' j' v', o = .write i' j' v' ∧ (i' ≠ i ∨ j' ≠ j)) :
    (before ++ WOp.write i j v :: after).foldl (denseStep R C h w) D i j = v := by
  rw [List.foldl_append, List.foldl_cons]
  generalize hE : denseStep R C h w (List.foldl (denseStep R C h w) D before) (.write i j v) = E
  have hv : E i j = v := by rw [← hE]; simp [denseStep]
  clear hE
  induction after generalizing E with
  | nil => exact hv
  | cons o os ih =>
      rw [List.foldl_cons]
      refine ih (fun x hx => ha x (List.mem_cons_of_mem _ hx)) _ ?_
      obtain ⟨i', j', v', rfl, hne⟩ := ha o (by simp)
      simp only [denseStep]
      rw [if_neg (by rintro ⟨rfl, rfl⟩; simp at hne), hv]

/-- Assigning a matrix of another size to `block(r, c)`, which hands out a writable reference to the block, goes unnoticed:
the dimensions and offsets are those of the constructor.  For every block of at least two rows and one column in the corner
of the matrix: after `block(0, 0) = M` with M one row shorter, rows() is unchanged and reading the last row of the
block, a position inside the matrix, is an access outside the storage. -/
theorem C141_bug_resize {α : Type} {R C : Nat} (hR : 0 < R) (hC : 0 < C) (blocks : List (Mat α)) (h w : Nat → Nat)
    (D : Int → Int → α) (hlen : blocks.length = R * C)
    (hs : ∀ r < R, ∀ c < C, ∃ M, blocks[r * C + c]? = some M ∧ M.rows = h r ∧ M.cols = w c ∧
      ∀ a < h r, ∀ b < w c, M.coeff a b = D (psum h r + a : Nat) (psum w c + b : Nat))
    (h0 : 0 < h 0) (w0 : 0 < w 0) (M : Mat α) (hM : M.rows + 1 = h 0) :
    ∃ s s', SB.make R C blocks = .ok s ∧ s.run R C [.put 0 0 M] = .ok s' ∧ s'.shape.rows = psum h R ∧
      (0 : Int) ≤ M.rows ∧ M.rows < s'.shape.rows ∧ 0 < s'.shape.cols ∧ s'.read C M.rows 0 = .ub := by
  obtain ⟨s, e, H⟩ := SB.make_rep hR hC blocks h w D hlen hs
  have hp := H.blockPos (r := 0) (c := 0) (by omega)
  obtain ⟨l1, l2, l3, l4, l5, l6⟩ := H.locate hR hC (show M.rows < h 0 by omega) w0
  simp only [psum, List.range_zero, List.map_nil, List.sum_nil, Nat.zero_add] at l1 l2 l3 l4
  have z0 : ∀ f : Nat → Nat, psum f 0 = 0 := fun f => rfl
  rw [z0] at l5 l6
  refine ⟨s, ⟨s.shape, s.blocks.set 0 M⟩, e, ?_, H.rows, by omega, ?_, ?_, ?_⟩
  · simp only [SB.run, SB.step, hp, Res.ok_bind]
    simp
  · dsimp only; rw [H.rows]; omega
  · dsimp only; rw [H.cols]; omega
  · rw [SB.read, if_pos (by omega), sbCoeff, if_pos (by dsimp only; rw [H.rows, H.cols]; simp; omega)]
    dsimp only
    rw [show ((M.rows : Int)).toNat = M.rows by simp, show (0 : Int).toNat = 0 by rfl, l1, l2, l3, l4]
    have hl : 0 < s.blocks.length := by rw [H.len]; exact Nat.mul_pos hR hC
    rw [Nat.zero_mul, Nat.add_zero, List.getElem?_set_self hl]
    simp [Mat.get]

/-- **C141**, why the histories are asked to write inside the blocks: `block(r, c)` is an Eigen matrix that knows its own size
only, so a write through it to a row or column the block does not have is undefined also when the position lies inside of the
whole matrix. -/
theorem C141_poke_outside {α : Type} {R C : Nat} (hR : 0 < R) (hC : 0 < C) (blocks : List (Mat α)) (h w : Nat → Nat)
    (D : Int → Int → α) (hlen : blocks.length = R * C)
    (hs : ∀ r < R, ∀ c < C, ∃ M, blocks[r * C + c]? = some M ∧ M.rows = h r ∧ M.cols = w c ∧
      ∀ a < h r, ∀ b < w c, M.coeff a b = D (psum h r + a : Nat) (psum w c + b : Nat))
    (r c a b : Nat) (hr : r < R) (hc : c < C) (v : α) (ho : h r ≤ a ∨ w c ≤ b) :
    ∃ s, SB.make R C blocks = .ok s ∧ s.run R C [.poke r c a b v] = .ub := by
  obtain ⟨s, e, H⟩ := SB.make_rep hR hC blocks h w D hlen hs
  have hp := H.blockPos (r := r) (c := c) (by omega)
  obtain ⟨M, m1, m2, m3, -⟩ := H.blk r hr c hc
  refine ⟨s, e, ?_⟩
  have e1 : M.set a b v = .ub := by rw [Mat.set, if_neg (by omega)]
  have e2 : s.step R C (.poke r c a b v) = .ub := by
    simp only [SB.step, hp, Res.ok_bind, Int.toNat_natCast, m1, Res.ofOptionUB_some, e1]; rfl
  rw [SB.run, e2]

/-- A default constructed block matrix has no blocks: `block(r, c)` accepts every position of the block structure and
subscripts an empty vector, so the matrix cannot be filled block by block. -/
theorem C141_bug_default (α : Type) {R C : Nat} (r c : Nat) (hr : r < R) (hc : c < C) (M : Mat α) :
    (SB.default α R C).block R C r c = .ub ∧ (SB.default α R C).run R C [.put r c M] = .ub := by
  have hp : (SB.default α R C).blockPos R C r c = .ub := by
    rw [SB.blockPos, if_pos (by omega), if_neg (by simp [SB.default])]
  constructor
  · rw [SB.block, hp]; rfl
  · simp only [SB.run, SB.step, hp]; rfl

/-- **C141**, the default object as far as it can be used: it has no rows and no columns, all its offsets and sizes are
zero, there are as many of them as the template arguments say, and every access to a coefficient throws.  A caller that
catches these exceptions is left with the same object after any number of such writes. -/
theorem C141_default (α : Type) (R C : Nat) :
    (SB.default α R C).shape.rows = 0 ∧ (SB.default α R C).shape.cols = 0 ∧
    (∀ k, (SB.default α R C).shape.outerOffset[k]? = if k < C + 1 then some 0 else none) ∧
    (∀ k, (SB.default α R C).shape.innerOffset[k]? = if k < R + 1 then some 0 else none) ∧
    (∀ k, (SB.default α R C).shape.outerSize[k]? = if k < C then some 0 else none) ∧
    (∀ k, (SB.default α R C).shape.innerSize[k]? = if k < R then some 0 else none) ∧
    (∀ i j : Int, (SB.default α R C).read C i j = .throws) ∧
    (∀ (i j : Int) (v : α), (SB.default α R C).write C i j v = .throws) ∧
    (∀ r c : Int, ¬ (0 ≤ r ∧ r < R ∧ 0 ≤ c ∧ c < C) → (SB.default α R C).block R C r c = .throws) ∧
    (∀ os : List (WOp α), (∀ o ∈ os, ∃ i j v, o = .write i j v) → (SB.default α R C).run R C os = .ok (SB.default α R C)) := by
  have hw : ∀ (i j : Int) (v : α), (SB.default α R C).write C i j v = .throws := by
    intro i j v
    rw [SB.write, if_neg (by simp only [SB.default]; omega)]
  refine ⟨rfl, rfl, fun k => ?_, fun k => ?_, fun k => ?_, fun k => ?_, fun i j => ?_, hw, fun r c h => ?_, fun os => ?_⟩
  · simp [SB.default, List.getElem?_replicate]
  · simp [SB.default, List.getElem?_replicate]
  · simp [SB.default, List.getElem?_replicate]
  · simp [SB.default, List.getElem?_replicate]
  · rw [SB.read]
    split_ifs
    · rw [sbCoeff, if_neg (by simp only [SB.default]; omega)]
    · rfl
  · rw [SB.block, SB.blockPos, if_neg h]; rfl
  · induction os with
    | nil => exact fun _ => rfl
    | cons o os ih =>
      intro ho
      obtain ⟨i, j, v, rfl⟩ := ho _ List.mem_cons_self
      have e : (SB.default α R C).step R C (.write i j v) = .throws := hw i j v
      rw [SB.run, e]
      exact ih fun o h => ho o (List.mem_cons_of_mem _ h)

/-- 2 x 2 blocks with different heights and widths; a history with all kinds of writes, two of them outside. -/
example : ∃ s', (SB.make 2 2 [⟨1, 1, fun _ _ => 7⟩, ⟨1, 2, fun _ _ => 8⟩, ⟨2, 1, fun i _ => 10 * i⟩, ⟨2, 2, fun i j => 100 * i + j⟩] >>=
      fun s => s.run 2 2 [.write 2 1 (5 : Nat), .write 3 0 6, .put 0 1 ⟨1, 2, fun _ j => 30 + j⟩, .put 2 0 ⟨9, 9, fun _ _ => 0⟩,
        .poke 1 1 0 1 9]) = .ok s' ∧
    s'.read 2 2 1 = .ok 5 ∧ s'.read 2 0 2 = .ok 31 ∧ s'.read 2 1 2 = .ok 9 ∧ s'.read 2 2 0 = .ok 10 ∧ s'.read 2 3 0 = .throws :=
  ⟨_, rfl, by decide, by decide, by decide, by decide, by decide⟩
example : ∀ o ∈ ([.write 2 1 5, .write 3 0 6, .put 0 1 ⟨1, 2, fun _ j => 30 + j⟩, .put 2 0 ⟨9, 9, fun _ _ => 0⟩,
    .poke 1 1 0 1 9] : List (WOp Nat)), o.Fits 2 2 (fun r => r + 1) (fun c => c + 1) := by
  intro o ho
  simp only [List.mem_cons, List.not_mem_nil, or_false] at ho
  rcases ho with rfl | rfl | rfl | rfl | rfl <;> simp [WOp.Fits]
end Fdapde.LinAlg
