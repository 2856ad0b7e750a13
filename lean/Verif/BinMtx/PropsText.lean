import Mathlib.Data.List.SplitOn
import Verif.BinMtx.Lemmas3
/-
C130 : text output of binary matrices (`operator<<`) and selection on sparse matrices.
-/
namespace Fdapde.BinMtx

theorem forLoop_append {α : Type} (f : Nat → Res α) (g : Nat → α) (n : Nat) :
    ∀ (a : Nat) (out : List α), (∀ j, a ≤ j → j < a + n → f j = .ok (g j)) →
      forLoop (fun j (out : List α) => do
        let b ← f j
        return out ++ [b]) a n out = .ok (out ++ (List.range' a n).map g) := by
  induction n with
  | zero => intro a out _; simp [forLoop]
  | succ n ih =>
    intro a out h
    rw [forLoop_succ_ok _ a n out (out ++ [g a]) (by
      rw [h a (le_refl _) (by omega)]; rfl)]
    rw [ih (a + 1) _ (fun j h1 h2 => h j (by omega) (by omega))]
    simp [List.range'_succ]

/-- The line of text for row `i` of the Boolean matrix `f` with `c` columns. -/
def line (c : Nat) (f : Nat → Bool) : List Char := (List.range c).map (fun j => if f j then '1' else '0')

theorem line_no_newline (c : Nat) (f : Nat → Bool) : '\n' ∉ line c f := by
  unfold line
  rw [List.mem_map]
  rintro ⟨j, _, h⟩
  split at h <;> exact absurd h (by decide)

theorem printRow_spec (m : BMat) (r c : Nat) (f : Nat → Nat → Bool) (h : Represents m r c f) (i : Nat)
    (hi : i < r) (out : List Char) : m.printRow i out = .ok (out ++ line c (f i)) := by
  unfold BMat.printRow
  have e := forLoop_append (fun j => bitChar <$> m.read i j) (fun j => bitChar (f i j)) c 0 out
    (fun j _ hj => by rw [h.2.2 i j hi (by omega)]; rfl)
  rw [h.2.1]
  rw [line, List.range_eq_range']
  refine Eq.trans ?_ e
  congr 1
  funext j out
  cases m.read i j <;> rfl

theorem print_rows (m : BMat) (r c : Nat) (f : Nat → Nat → Bool) (h : Represents m r c f) (n : Nat) :
    ∀ (a : Nat) (out : List Char), a + n ≤ r →
      forLoop (fun i (out : List Char) => do
        let out ← m.printRow i out
        return out ++ ['\n']) a n out =
      .ok (out ++ ((List.range' a n).map (fun i => line c (f i) ++ ['\n'])).flatten) := by
  induction n with
  | zero => intro a out _; simp [forLoop]
  | succ n ih =>
    intro a out hr
    rw [forLoop_succ_ok _ a n out (out ++ line c (f a) ++ ['\n']) (by
      rw [printRow_spec m r c f h a (by omega)]; rfl)]
    rw [ih (a + 1) _ (by omega)]
    simp [List.range'_succ]

theorem intercalate_snoc (ls : List (List Char)) (l : List Char) :
    (ls.map (fun x => x ++ ['\n'])).flatten ++ l = List.intercalate ['\n'] (ls ++ [l]) := by
  induction ls with
  | nil => simp [List.intercalate]
  | cons a ls ih =>
    cases ls with
    | nil => simp [List.intercalate]
    | cons b ls =>
      rw [List.map_cons, List.flatten_cons, List.append_assoc, ih]
      simp [List.intercalate]

theorem ofXpr_represents (e : Xpr) (hw : e.LeavesWF) (ha : e.asserts = true) (hal : e.BlocksAligned) :
    ∃ m, BMat.ofXpr e = .ok m ∧ Represents m e.rows e.cols e.den := by
  obtain ⟨m, h1, h2, h3, h4, h5⟩ := ofXpr_spec e hw (e.faithful hw ha hal)
  refine ⟨m, h1, ?_⟩
  have hst : Stores m e.rows e.cols e.den := by
    refine ⟨h2, h3, h4, ?_⟩
    intro i j hi hj
    have hp : i * e.cols + j < e.size := pos_lt_size hi hj
    rw [h5 _ hp, pos_div hj, pos_mod hj]
  exact hst.represents

/-! ## C130 -/

/-- **C130 (text).** Sending an expression with at least one row to a stream appends one line per row,
the lines separated (not ended) by line feeds, each line holding one character per column: `1` where
the coefficient is true, `0` where it is false. -/
theorem C130_text_partial (e : Xpr) (hw : e.LeavesWF) (ha : e.asserts = true) (hal : e.BlocksAligned)
    (hr : 0 < e.rows) (out : List Char) :
    ∃ txt, e.print out = .ok (out ++ txt) ∧
      txt = List.intercalate ['\n'] ((List.range e.rows).map (fun i =>
        (List.range e.cols).map (fun j => if e.coeff i j = .ok true then '1' else '0'))) := by
  obtain ⟨m, h1, h2⟩ := ofXpr_represents e hw ha hal
  refine ⟨_, ?_, rfl⟩
  have hl : (List.range e.rows).map (fun i =>
        (List.range e.cols).map (fun j => if e.coeff i j = .ok true then '1' else '0')) =
      (List.range e.rows).map (fun i => line e.cols (e.den i)) := by
    apply List.map_congr_left
    intro i hi
    apply List.map_congr_left
    intro j hj
    rw [List.mem_range] at hi hj
    rw [e.coeff_den hw ha i j hi hj]
    cases e.den i j <;> simp
  rw [hl]
  obtain ⟨r, hr'⟩ : ∃ r, e.rows = r + 1 := ⟨e.rows - 1, by omega⟩
  unfold Xpr.print
  rw [h1, Res.ok_bind, h2.1, hr', Nat.add_sub_cancel,
    print_rows m e.rows e.cols e.den h2 r 0 out (by omega), Res.ok_bind]
  have hc : (((r + 1 : Nat) : Int) - 1) = (r : Nat) := by omega
  rw [hc, printRow_spec m e.rows e.cols e.den h2 r (by omega), List.append_assoc]
  rw [List.range_succ, List.map_append, List.map_singleton, ← intercalate_snoc, List.map_map,
    List.range_eq_range']
  rfl

/-- **C130 (read back).** Splitting the text at the line feeds gives back the rows, so that two
expressions with at least one row that print the same text have the same shape and the same
coefficients. -/
theorem C130_read_back_partial (a b : Xpr) (hwa : a.LeavesWF) (haa : a.asserts = true)
    (hala : a.BlocksAligned) (hra : 0 < a.rows) (hwb : b.LeavesWF) (hab : b.asserts = true)
    (halb : b.BlocksAligned) (hrb : 0 < b.rows) (out : List Char) (h : a.print out = b.print out) :
    a.rows = b.rows ∧ a.cols = b.cols ∧
      ∀ i j, i < a.rows → j < a.cols → a.coeff i j = b.coeff i j := by
  obtain ⟨ta, ea, fa⟩ := C130_text_partial a hwa haa hala hra out
  obtain ⟨tb, eb, fb⟩ := C130_text_partial b hwb hab halb hrb out
  rw [ea, eb] at h
  have ht : ta = tb := List.append_cancel_left (Res.ok.inj h)
  have split : ∀ (e : Xpr), 0 < e.rows →
      (List.intercalate ['\n'] ((List.range e.rows).map (fun i =>
        (List.range e.cols).map (fun j => if e.coeff i j = .ok true then '1' else '0')))).splitOn '\n' =
      (List.range e.rows).map (fun i =>
        (List.range e.cols).map (fun j => if e.coeff i j = .ok true then '1' else '0')) := by
    intro e he
    apply List.splitOn_intercalate
    · intro l hl
      rw [List.mem_map] at hl
      obtain ⟨i, _, rfl⟩ := hl
      rw [List.mem_map]
      rintro ⟨j, _, h⟩
      split at h <;> exact absurd h (by decide)
    · intro hn
      have := congrArg List.length hn
      simp at this; omega
  have hh : (List.range a.rows).map (fun i =>
        (List.range a.cols).map (fun j => if a.coeff i j = .ok true then '1' else '0')) =
      (List.range b.rows).map (fun i =>
        (List.range b.cols).map (fun j => if b.coeff i j = .ok true then '1' else '0')) := by
    rw [← split a hra, ← split b hrb, ← fa, ← fb, ht]
  have hrows : a.rows = b.rows := by simpa using congrArg List.length hh
  have hrow : ∀ i, i < a.rows →
      (List.range a.cols).map (fun j => if a.coeff i j = .ok true then '1' else '0') =
      (List.range b.cols).map (fun j => if b.coeff i j = .ok true then '1' else '0') := by
    intro i hi
    have := congrArg (fun l => l[i]?) hh
    simpa [hi, hrows ▸ hi] using this
  have hcols : a.cols = b.cols := by simpa using congrArg List.length (hrow 0 hra)
  refine ⟨hrows, hcols, ?_⟩
  intro i j hi hj
  have h0 := congrArg (fun l => l[j]?) (hrow i hi)
  have hj' : j < b.cols := hcols ▸ hj
  simp only [List.getElem?_map, List.getElem?_range hj, List.getElem?_range hj', Option.map_some,
    Option.some.injEq] at h0
  rw [a.coeff_den hwa haa i j hi hj, b.coeff_den hwb hab i j (hrows ▸ hi) hj'] at h0 ⊢
  cases ha : a.den i j <;> cases hb : b.den i j <;> simp [ha, hb] at h0 ⊢

/-- **C130, refuted without rows.** Printing an expression with no rows and at least one column reads
the coefficients of row -1 of the temporary: every such call is undefined behaviour (negative shift or
negative index), although there is nothing to print. -/
theorem C130_bug_no_rows (e : Xpr) (hw : e.LeavesWF) (ha : e.asserts = true) (hal : e.BlocksAligned)
    (hr : e.rows = 0) (hc : 0 < e.cols) (out : List Char) : e.print out = .ub := by
  obtain ⟨m, h1, h2⟩ := ofXpr_represents e hw ha hal
  unfold Xpr.print
  rw [h1, Res.ok_bind, h2.1, hr]
  obtain ⟨c, hc'⟩ : ∃ c, e.cols = c + 1 := ⟨e.cols - 1, by omega⟩
  have hread : m.read (-1) 0 = .ub := by
    unfold BMat.read packOf bitOf
    rw [h2.2.1, hc']
    rcases Nat.eq_zero_or_pos ((c + 1) % 64) with h | h
    · have : (-1 * ((c + 1 : Nat) : Int) + 0).tdiv 64 < 0 := by
        rw [show (-1 * ((c + 1 : Nat) : Int) + 0) = -((c + 1 : Nat) : Int) by omega, Int.neg_tdiv]
        have : ((c + 1 : Nat) : Int).tdiv 64 = (((c + 1) / 64 : Nat) : Int) := rfl
        omega
      unfold getWord
      rw [if_pos this]; rfl
    · have hneg : (-1 * ((c + 1 : Nat) : Int) + 0).tmod 64 < 0 := by
        rw [show (-1 * ((c + 1 : Nat) : Int) + 0) = -((c + 1 : Nat) : Int) by omega, Int.neg_tmod]
        have : ((c + 1 : Nat) : Int).tmod 64 = (((c + 1) % 64 : Nat) : Int) := rfl
        omega
      have hs : shl 1#64 ((-1 * ((c + 1 : Nat) : Int) + 0).tmod 64) = .ub := by
        unfold shl; rw [if_pos (Or.inl hneg)]
      rw [hs]
      unfold getWord
      split
      · rfl
      · cases m.data[((-1 * ((c + 1 : Nat) : Int) + 0).tdiv 64).toNat]? <;> rfl
  show BMat.printRow m (((0 : Nat) : Int) - 1) out = .ub
  unfold BMat.printRow
  rw [h2.2.1, hc']
  show (do
    let b ← m.read (-1) 0
    return out ++ [bitChar b]) >>= _ = Res.ub
  rw [hread]; rfl

/-- **C130 (selection on sparse matrices).** `m.select(x)` for a sparse `x`, whose stored positions lie
in its shape, keeps the stored positions of `x` in their order; the stored value is the one of `x` where
the mask is true and zero elsewhere.  A shape mismatch throws. -/
theorem C130_select_sparse {α : Type} (zero : α) (e : Xpr) (hw : e.LeavesWF) (ha : e.asserts = true)
    (r c : Nat) (x : List (Nat × Nat × α)) (hx : ∀ t ∈ x, t.1 < r ∧ t.2.1 < c) :
    (¬ (e.rows = r ∧ e.cols = c) → e.selectSparse zero r c x = .throws) ∧
    (e.rows = r ∧ e.cols = c → ∃ y, e.selectSparse zero r c x = .ok y ∧ y.length = x.length ∧
      ∀ (k i j : Nat) (v : α), x[k]? = some (i, j, v) →
        (e.coeff i j = .ok true ∧ y[k]? = some (i, j, v)) ∨
        (e.coeff i j = .ok false ∧ y[k]? = some (i, j, zero))) := by
  constructor
  · intro h; unfold Xpr.selectSparse; rw [if_neg h]
  rintro ⟨rfl, rfl⟩
  unfold Xpr.selectSparse
  rw [if_pos ⟨rfl, rfl⟩]
  obtain ⟨y, h1, h2, h3, h4⟩ := forLoop_inv (fun k (acc : List (Nat × Nat × α)) => do
      let t ← Res.ofOptionUB acc[k]?
      let x ← e.coeff t.1 t.2.1
      return (if !x then acc.set k (t.1, t.2.1, zero) else acc))
    (fun n (y : List (Nat × Nat × α)) => y.length = x.length ∧
      (∀ (k i j : Nat) (v : α), k < n → x[k]? = some (i, j, v) →
        (e.coeff i j = .ok true ∧ y[k]? = some (i, j, v)) ∨
        (e.coeff i j = .ok false ∧ y[k]? = some (i, j, zero))) ∧
      ∀ (k : Nat), n ≤ k → y[k]? = x[k]?) x.length 0 x
    ⟨rfl, fun k i j v hk => absurd hk (by omega), fun _ _ => rfl⟩ (by
      intro k y _ hk ⟨hl, hlo, hhi⟩
      rw [Nat.zero_add] at hk
      obtain ⟨⟨i, j, v⟩, hxk⟩ : ∃ t, x[k]? = some t := ⟨x[k], List.getElem?_eq_getElem hk⟩
      have hyk : y[k]? = some (i, j, v) := by rw [hhi k (le_refl _), hxk]
      obtain ⟨hi, hj⟩ := hx (i, j, v) (List.mem_of_getElem? hxk)
      have hco := e.coeff_den hw ha i j hi hj
      rw [hyk]
      simp only [Res.ofOptionUB, Res.ok_bind, hco, Res.pure_eq]
      refine ⟨_, rfl, ?_⟩
      cases hd : e.den i j with
      | true =>
        rw [hd] at hco
        refine ⟨hl, ?_, fun k' hk' => hhi k' (by omega)⟩
        intro k' i' j' v' hk' hx'
        rcases Nat.lt_succ_iff_lt_or_eq.mp hk' with h | rfl
        · exact hlo k' i' j' v' h hx'
        · rw [hxk] at hx'
          cases hx'
          exact Or.inl ⟨hco, hyk⟩
      | false =>
        rw [hd] at hco
        simp only [Bool.not_false, if_true]
        refine ⟨by rw [List.length_set]; exact hl, ?_, fun k' hk' => ?_⟩
        · intro k' i' j' v' hk' hx'
          rcases Nat.lt_succ_iff_lt_or_eq.mp hk' with h | rfl
          · rw [List.getElem?_set_ne (by omega)]
            exact hlo k' i' j' v' h hx'
          · rw [hxk] at hx'
            cases hx'
            refine Or.inr ⟨hco, ?_⟩
            rw [List.getElem?_set_self (by omega)]
        · rw [List.getElem?_set_ne (by omega)]
          exact hhi k' (by omega))
  refine ⟨y, h1, h2, ?_⟩
  intro k i j v hk
  exact h3 k i j v (by
    obtain ⟨h, _⟩ := List.getElem?_eq_some_iff.mp hk
    omega) hk

/-- A 2 × 3 matrix prints as two lines of three characters. -/
example : ∃ m, (BMat.zero 2 3).set 1 0 = .ok m ∧ (Xpr.mat m).print [] = .ok "000\n100".toList := by
  refine ⟨_, rfl, ?_⟩
  decide +kernel
example : (Xpr.mat (BMat.zero 0 5)).print [] = .ub := by decide +kernel
example : (Xpr.not (.mat (BMat.zero 2 2))).print "m = ".toList = .ok "m = 11\n11".toList := by
  decide +kernel
example : (Xpr.mat (BMat.ones 2 2)).LeavesWF ∧ (Xpr.mat (BMat.ones 2 2)).asserts = true ∧
    (Xpr.mat (BMat.ones 2 2)).BlocksAligned ∧ 0 < (Xpr.mat (BMat.ones 2 2)).rows :=
  ⟨⟨rfl, rfl⟩, rfl, trivial, by decide⟩
example : ∃ m, (BMat.zero 2 2).set 1 0 = .ok m ∧
    (Xpr.mat m).selectSparse (0 : Nat) 2 2 [(1, 0, 5), (0, 1, 7)] = .ok [(1, 0, 5), (0, 1, 0)] := by
  refine ⟨_, rfl, ?_⟩
  decide +kernel

end Fdapde.BinMtx
