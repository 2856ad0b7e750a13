import Verif.BinMtx.AliasSpec
import Verif.BinMtx.Props
import Mathlib.Tactic.FinCases
import Mathlib.Tactic.SplitIfs
/- C166: programs with named binary matrices. -/
namespace Fdapde.BinMtx

/-! ### Expressions read while the matrices change -/

theorem upd_same (env : Env) (x : Nat) (m : BMat) : env.upd x m x = m := by simp [Env.upd]
theorem upd_other (env : Env) {x y : Nat} (m : BMat) (h : y ≠ x) : env.upd x m y = env y := by simp [Env.upd, h]
theorem upd_upd (env : Env) (x : Nat) (m n : BMat) : (env.upd x m).upd x n = env.upd x n := by
  funext y; by_cases h : y = x <;> simp [Env.upd, h]

/-- Two states of the matrices which agree on those of an expression. -/
def Src.Same (e : Src) (env env' : Env) : Prop := ∀ x, e.Mentions x → env' x = env x

theorem Src.rows_same (e : Src) (old env env' : Env) (h : e.Same env env') : e.rowsNow old env' = e.rowsNow old env := by
  cases e <;> simp_all [Src.rowsNow, Src.Same, Src.Mentions]
theorem Src.cols_same (e : Src) (old env env' : Env) (h : e.Same env env') : e.colsNow old env' = e.colsNow old env := by
  cases e <;> simp_all [Src.colsNow, Src.Same, Src.Mentions]

theorem Src.coeff_same (old env env' : Env) : ∀ (e : Src), e.Same env env' → ∀ i j, e.coeff old env' i j = e.coeff old env i j := by
  intro e
  induction e with
  | var x => intro h i j; simp only [Src.coeff, h x rfl]
  | not e ih => intro h i j; simp only [Src.coeff, ih h]
  | bin op a b iha ihb =>
    intro h i j
    simp only [Src.coeff, iha (fun x hx => h x (Or.inl hx)), ihb (fun x hx => h x (Or.inr hx))]
  | block e r0 c0 hh w ih => intro h i j; simp only [Src.coeff, ih h]
  | rep e a b ih => intro h i j; simp only [Src.coeff, ih h, e.rows_same old env env' h, e.cols_same old env env' h]
  | resh e r c ih => intro h i j; simp only [Src.coeff, ih h, e.cols_same old env env' h]

theorem Src.bitpack_same (old env env' : Env) : ∀ (e : Src), e.Same env env' → ∀ k, e.bitpack old env' k = e.bitpack old env k := by
  intro e
  induction e with
  | var x => intro h k; simp only [Src.bitpack, h x rfl]
  | not e ih => intro h k; simp only [Src.bitpack, ih h]
  | bin op a b iha ihb =>
    intro h k
    simp only [Src.bitpack, iha (fun x hx => h x (Or.inl hx)), ihb (fun x hx => h x (Or.inr hx))]
  | block e r0 c0 hh w ih => intro h k; simp only [Src.bitpack, e.coeff_same old env env' h]
  | rep e a b ih => intro h k; simp only [Src.bitpack, e.coeff_same old env env' h, e.rows_same old env env' h, e.cols_same old env env' h]
  | resh e r c ih => intro h k; simp only [Src.bitpack, ih h]

/-- The matrices of an expression have in `env` the shapes they had in `old`. -/
def Src.SameShape (e : Src) (old env : Env) : Prop := ∀ x, e.Mentions x → (env x).rows = (old x).rows ∧ (env x).cols = (old x).cols

theorem Src.shape_now (old env : Env) : ∀ (e : Src), e.SameShape old env →
    (e.xpr old).rows = (e.xpr env).rows ∧ (e.xpr old).cols = (e.xpr env).cols := by
  intro e
  induction e with
  | var x => intro h; exact ⟨(h x rfl).1.symm, (h x rfl).2.symm⟩
  | not e ih => intro h; exact ih h
  | bin op a b iha ihb => intro h; exact iha (fun x hx => h x (Or.inl hx))
  | block e r0 c0 hh w ih => intro h; exact ⟨rfl, rfl⟩
  | rep e a b ih => intro h; simp [Src.xpr, Xpr.rows, Xpr.cols, (ih h).1, (ih h).2]
  | resh e r c ih => intro h; exact ⟨rfl, rfl⟩

theorem Src.rows_now (e : Src) (old env : Env) (h : e.SameShape old env) : e.rowsNow old env = (e.xpr env).rows := by
  have := (Src.shape_now old env e h).1
  cases e <;> first | rfl | exact this
theorem Src.cols_now (e : Src) (old env : Env) (h : e.SameShape old env) : e.colsNow old env = (e.xpr env).cols := by
  have := (Src.shape_now old env e h).2
  cases e <;> first | rfl | exact this

theorem Src.coeff_now (old env : Env) : ∀ (e : Src), e.SameShape old env → ∀ i j, e.coeff old env i j = (e.xpr env).coeff i j := by
  intro e
  induction e with
  | var x => intro h i j; rfl
  | not e ih => intro h i j; simp only [Src.coeff, Src.xpr, Xpr.coeff, ih h]
  | bin op a b iha ihb =>
    intro h i j
    simp only [Src.coeff, Src.xpr, Xpr.coeff, iha (fun x hx => h x (Or.inl hx)), ihb (fun x hx => h x (Or.inr hx))]
  | block e r0 c0 hh w ih => intro h i j; simp only [Src.coeff, Src.xpr, Xpr.coeff, ih h]
  | rep e a b ih =>
    intro h i j
    have hs := Src.shape_now old env e h
    simp only [Src.coeff, Src.xpr, Xpr.coeff, ih h, e.rows_now old env h, e.cols_now old env h, hs.1, hs.2]
  | resh e r c ih => intro h i j; simp only [Src.coeff, Src.xpr, Xpr.coeff, ih h, e.cols_now old env h]

theorem Src.bitpack_now (old env : Env) : ∀ (e : Src), e.SameShape old env → ∀ k, e.bitpack old env k = (e.xpr env).bitpack k := by
  intro e
  induction e with
  | var x => intro h k; rfl
  | not e ih => intro h k; simp only [Src.bitpack, Src.xpr, Xpr.bitpack, ih h]
  | bin op a b iha ihb =>
    intro h k
    simp only [Src.bitpack, Src.xpr, Xpr.bitpack, iha (fun x hx => h x (Or.inl hx)), ihb (fun x hx => h x (Or.inr hx))]
  | block e r0 c0 hh w ih => intro h k; simp only [Src.bitpack, Src.xpr, Xpr.bitpack, e.coeff_now old env h]
  | rep e a b ih =>
    intro h k
    have hs := Src.shape_now old env e h
    simp only [Src.bitpack, Src.xpr, Xpr.bitpack, e.coeff_now old env h, e.rows_now old env h, e.cols_now old env h, hs.1, hs.2]
  | resh e r c ih => intro h k; simp only [Src.bitpack, Src.xpr, Xpr.bitpack, ih h]

theorem Src.sameShape_refl (e : Src) (env : Env) : e.SameShape env env := fun _ _ => ⟨rfl, rfl⟩

/-- A pack of a plain expression depends on that pack of its matrices. -/
theorem Src.bitpack_plain (old env env' : Env) (k : Nat) : ∀ (e : Src), e.Plain →
    (∀ x, e.Mentions x → getWord (env' x).data k = getWord (env x).data k) → e.bitpack old env' k = e.bitpack old env k := by
  intro e
  induction e with
  | var x => intro _ h; exact h x rfl
  | not e ih => intro hp h; simp only [Src.bitpack, ih hp h]
  | bin op a b iha ihb =>
    intro hp h
    simp only [Src.bitpack, iha hp.1 (fun x hx => h x (Or.inl hx)), ihb hp.2 (fun x hx => h x (Or.inr hx))]
  | block e r0 c0 hh w ih => intro hp; exact hp.elim
  | rep e a b ih => intro hp; exact hp.elim
  | resh e r c ih => intro hp h; simp only [Src.bitpack, ih hp h]

/-- The matrices of a plain expression have as many coefficients as the expression. -/
theorem Src.size_plain (env : Env) : ∀ (e : Src), e.Plain → (e.xpr env).asserts = true →
    ∀ x, e.Mentions x → (env x).rows * (env x).cols = (e.xpr env).size := by
  intro e
  induction e with
  | var y => intro _ _ x hx; cases hx; rfl
  | not e ih => intro hp ha x hx; exact ih hp ha x hx
  | bin op a b iha ihb =>
    intro hp ha x hx
    simp only [Src.xpr, Xpr.asserts, Bool.and_eq_true, beq_iff_eq] at ha
    obtain ⟨⟨⟨h1, h2⟩, h3⟩, h4⟩ := ha
    rcases hx with hx | hx
    · exact iha hp.1 h1 x hx
    · rw [ihb hp.2 h2 x hx]
      simp only [Src.xpr, Xpr.size, Xpr.rows, Xpr.cols, h3, h4]
  | block e r0 c0 hh w ih => intro hp; exact hp.elim
  | rep e a b ih => intro hp; exact hp.elim
  | resh e r c ih =>
    intro hp ha x hx
    simp only [Src.xpr, Xpr.asserts, Bool.and_eq_true, beq_iff_eq] at ha
    rw [ih hp ha.1 x hx]
    exact ha.2.symm

/-! ### Assignments -/

theorem resizeWords_length (d : List Word) (n : Nat) : (resizeWords d n).length = n := by
  simp only [resizeWords, List.length_append, List.length_take, List.length_replicate]; omega
theorem resizeWords_self (d : List Word) : resizeWords d d.length = d := by simp [resizeWords]

/-- The loop which writes the packs, if every pack is read as in `v`. -/
theorem assign_loop (env : Env) (x : Nat) (e : Src) (v : Xpr) (r c n : Nat) (d0 : List Word)
    (H : ∀ (k : Nat) (d : List Word), d.length = n → (∀ j, k ≤ j → d[j]? = d0[j]?) →
      e.bitpack env (env.upd x ⟨r, c, n, d⟩) k = v.bitpack k) :
    ∀ (m k : Nat) (d : List Word), k + m = n → d.length = n → (∀ j, k ≤ j → d[j]? = d0[j]?) →
      foldRes (assignPack env x e) (env.upd x ⟨r, c, n, d⟩) (List.range' k m) =
        (fun ws => env.upd x ⟨r, c, n, d.take k ++ ws⟩) <$> v.readPacks k m := by
  intro m
  induction m with
  | zero =>
    intro k d hk hd _
    simp only [List.range'_zero, foldRes_nil, Xpr.readPacks, Res.map_ok, List.append_nil]
    rw [List.take_of_length_le (by omega)]
  | succ m ih =>
    intro k d hk hd hj
    rw [List.range'_succ, foldRes_cons]
    simp only [assignPack, H k d hd hj, Xpr.readPacks]
    cases hv : v.bitpack k with
    | throws => rfl
    | ub => rfl
    | ok w =>
      simp only [Res.ok_bind, upd_same, upd_upd, hd]
      rw [if_pos (by omega), Res.ok_bind,
        ih (k + 1) (d.set k w) (by omega) (by rw [List.length_set, hd])
          (fun j h => by rw [List.getElem?_set_ne (by omega)]; exact hj j (by omega))]
      have ht : (d.set k w).take (k + 1) = d.take k ++ [w] := by
        rw [List.take_add_one, List.take_set_of_le (Nat.le_refl k), List.getElem?_set_self (by omega)]; rfl
      cases v.readPacks (k + 1) m with
      | throws => rfl
      | ub => rfl
      | ok ws => simp only [Res.map_ok, Res.ok_bind, Res.pure_eq, ht, List.append_assoc, List.singleton_append]

/-- An assignment which does not read what it overwrites, or reads it through a plain expression, writes the value the right-hand side had
before. -/
theorem assign_eq (env : Env) (hw : ∀ x, (env x).WF) (x : Nat) (e : Src) (hs : e.Plain ∨ ¬ e.Mentions x) :
    assign env x e = ((e.xpr env).build >>= fun v => (fun m => env.upd x m) <$> BMat.ofXpr v) := by
  have main : ((e.xpr env).asserts = true → ∀ n, (e.xpr env).bitpacks = n → n = packs (e.xpr env).size →
      foldRes (assignPack env x e) (env.upd x ⟨(e.xpr env).rows, (e.xpr env).cols, n, resizeWords (env x).data n⟩) (List.range n) =
        (fun m => env.upd x m) <$> BMat.ofXpr (e.xpr env)) := by
    intro ha n hn hn'
    rw [List.range_eq_range', assign_loop env x e (e.xpr env) _ _ n (resizeWords (env x).data n) ?_ n 0 _ (by omega)
      (resizeWords_length _ _) (fun _ _ => rfl)]
    · unfold BMat.ofXpr
      rw [hn]
      cases (e.xpr env).readPacks 0 n <;> rfl
    · intro k d hd hj
      rw [← Src.bitpack_now env env e (e.sameShape_refl env)]
      rcases hs with hp | hnm
      · refine Src.bitpack_plain env env _ k e hp fun y hy => ?_
        by_cases hyx : y = x
        · subst hyx
          rw [upd_same]
          have hlen : (env y).data.length = n := by
            rw [(hw y).2, (hw y).1, Src.size_plain env e hp ha y hy, hn']
          have h1 := hj k (Nat.le_refl k)
          rw [← hlen, resizeWords_self] at h1
          simp only [getWord, Int.toNat_natCast, h1]
        · rw [upd_other _ _ hyx]
      · refine Src.bitpack_same env env _ e (fun y hy => ?_) k
        exact upd_other _ _ (fun h => hnm (h ▸ hy))
  have hvar : ∀ y, e = .var y → assign env x e = ((e.xpr env).build >>= fun v => (fun m => env.upd x m) <$> BMat.ofXpr v) := by
    rintro y rfl
    have hm : BMat.ofXpr (.mat (env y)) = .ok (env y) := by
      have hread : ∀ (n k : Nat), k + n = (env y).data.length → (Xpr.mat (env y)).readPacks k n = .ok ((env y).data.drop k) := by
        intro n
        induction n with
        | zero => intro k hk; simp [Xpr.readPacks, List.drop_of_length_le (show (env y).data.length ≤ k by omega)]
        | succ n ih =>
          intro k hk
          have hlt : k < (env y).data.length := by omega
          simp only [Xpr.readPacks, Xpr.bitpack, getWord, Int.toNat_natCast, List.getElem?_eq_getElem hlt]
          rw [if_neg (by omega), Res.ofOptionUB_some, Res.ok_bind, ih (k + 1) (by omega), Res.ok_bind, Res.pure_eq,
            List.drop_eq_getElem_cons hlt]
      unfold BMat.ofXpr
      rw [show (Xpr.mat (env y)).bitpacks = (env y).data.length from (hw y).2.symm, hread _ 0 (by omega)]
      simp only [List.drop_zero, Res.ok_bind, Res.pure_eq, Xpr.rows, Xpr.cols, (hw y).2]
    simp only [assign, Src.xpr, Xpr.build, Xpr.asserts, if_true, Res.ok_bind, hm, Res.map_ok]
  have key : (assign env x e = ((e.xpr env).build >>= fun v => foldRes (assignPack env x e)
        (env.upd x ⟨v.rows, v.cols, v.bitpacks, resizeWords (env x).data v.bitpacks⟩) (List.range v.bitpacks))) →
      (e.xpr env).bitpacks = packs (e.xpr env).size →
      assign env x e = ((e.xpr env).build >>= fun v => (fun m => env.upd x m) <$> BMat.ofXpr v) := by
    intro h hp
    rw [h]
    by_cases ha : (e.xpr env).asserts = true
    · simp only [Xpr.build, ha, if_true, Res.ok_bind]
      exact main ha _ rfl hp
    · simp only [Xpr.build, ha]
      rfl
  cases e with
  | var y => exact hvar y rfl
  | not e => exact key rfl rfl
  | bin op a b => exact key rfl rfl
  | block e r0 c0 h w => exact key rfl rfl
  | rep e a b => exact key rfl rfl
  | resh e r c => exact key rfl rfl

theorem forLoop_map {σ τ : Type} (φ : σ → τ) (f : Nat → σ → Res σ) (g : Nat → τ → Res τ) (h : ∀ a s, g a (φ s) = φ <$> f a s) :
    ∀ (n a : Nat) (s : σ), forLoop g a n (φ s) = φ <$> forLoop f a n s := by
  intro n
  induction n with
  | zero => intro a s; rfl
  | succ n ih =>
    intro a s
    simp only [forLoop, h]
    cases f a s with
    | ok s' => exact ih (a + 1) s'
    | throws => rfl
    | ub => rfl

/-- An assignment to a block from an expression which does not mention the matrix. -/
theorem assignBlockTo_eq (env : Env) (x r0 c0 h w : Nat) (e : Src) (hs : ¬ e.Mentions x) :
    assignBlockTo env x r0 c0 h w e =
      if r0 + h ≤ (env x).rows ∧ c0 + w ≤ (env x).cols then
        (e.xpr env).build >>= fun v => (fun m => env.upd x m) <$> BMat.assignBlock (env x) r0 c0 h w v
      else .throws := by
  unfold assignBlockTo
  by_cases hb : r0 + h ≤ (env x).rows ∧ c0 + w ≤ (env x).cols
  · rw [if_pos hb, if_pos hb]
    by_cases ha : (e.xpr env).asserts = true
    · simp only [Xpr.build, ha, if_true, Res.ok_bind, BMat.assignBlock, if_pos hb]
      by_cases hsz : (e.xpr env).rows = h ∧ (e.xpr env).cols = w
      · rw [if_pos hsz, if_pos hsz]
        have h0 : env = env.upd x (env x) := by funext y; by_cases hy : y = x <;> simp [Env.upd, hy]
        have hc : ∀ m i j, e.coeff env (env.upd x m) i j = (e.xpr env).coeff i j := fun m i j => by
          have hsame : e.Same env (env.upd x m) := fun y hy => upd_other env m (fun hyx : y = x => hs (hyx ▸ hy))
          rw [Src.coeff_same env env _ e hsame, Src.coeff_now env env e (e.sameShape_refl env)]
        have hstart : ∀ g : Nat → Env → Res Env, forLoop g 0 h env = forLoop g 0 h (env.upd x (env x)) := fun g => by rw [← h0]
        rw [hstart]
        refine forLoop_map (fun m => env.upd x m) _ _ (fun i m => ?_) h 0 (env x)
        refine forLoop_map (fun m => env.upd x m) _ _ (fun j m => ?_) w 0 m
        simp only [hc, upd_same]
        cases (e.xpr env).coeff i j with
        | throws => rfl
        | ub => rfl
        | ok b =>
          cases b with
          | false => rfl
          | true =>
            simp only [Res.ok_bind, if_true]
            cases m.set (i + r0 : Nat) (j + c0 : Nat) with
            | ok m' => simp only [Res.map_ok, upd_upd]
            | throws => rfl
            | ub => rfl
      · rw [if_neg hsz, if_neg hsz]; rfl
    · simp only [Xpr.build, ha]; rfl
  · rw [if_neg hb, if_neg hb]

/-! ### Well-formed matrices -/

theorem forLoop_keeps {σ : Type} (body : Nat → σ → Res σ) (P : σ → Prop) (hb : ∀ a s s', P s → body a s = .ok s' → P s') :
    ∀ (n a : Nat) (s s' : σ), P s → forLoop body a n s = .ok s' → P s' := by
  intro n
  induction n with
  | zero => intro a s s' hs h; cases h; exact hs
  | succ n ih =>
    intro a s s' hs h
    simp only [forLoop] at h
    cases hc : body a s with
    | ok t => rw [hc] at h; exact ih (a + 1) t s' (hb a s t hs hc) h
    | throws => rw [hc] at h; cases h
    | ub => rw [hc] at h; cases h

theorem set_keeps_WF {m m' : BMat} {i j : Int} (hw : m.WF) (h : m.set i j = .ok m') : m'.WF := by
  unfold BMat.set at h
  split_ifs at h
  simp only [Res.bind_eq_ok] at h
  obtain ⟨w, _, b, _, h⟩ := h
  cases h
  exact ⟨hw.1, by simpa using hw.2⟩

theorem clear_keeps_WF {m m' : BMat} {i j : Int} (hw : m.WF) (h : m.clear i j = .ok m') : m'.WF := by
  unfold BMat.clear at h
  split_ifs at h
  simp only [Res.bind_eq_ok] at h
  obtain ⟨w, _, b, _, h⟩ := h
  cases h
  exact ⟨hw.1, by simpa using hw.2⟩

theorem readPacks_length (v : Xpr) : ∀ (n k : Nat) (ws : List Word), v.readPacks k n = .ok ws → ws.length = n := by
  intro n
  induction n with
  | zero => intro k ws h; cases h; rfl
  | succ n ih =>
    intro k ws h
    simp only [Xpr.readPacks, Res.bind_eq_ok] at h
    obtain ⟨w, _, us, h2, h3⟩ := h
    cases h3
    simp [ih (k + 1) us h2]

theorem Src.leavesWF (env : Env) (hw : ∀ x, (env x).WF) : ∀ (e : Src), (e.xpr env).LeavesWF
  | .var x => hw x
  | .not e => Src.leavesWF env hw e
  | .bin _ a b => ⟨Src.leavesWF env hw a, Src.leavesWF env hw b⟩
  | .block e _ _ _ _ => Src.leavesWF env hw e
  | .rep e _ _ => Src.leavesWF env hw e
  | .resh e _ _ => Src.leavesWF env hw e

theorem upd_keeps_WF {env : Env} (hw : ∀ x, (env x).WF) (x : Nat) {m : BMat} (hm : m.WF) : ∀ y, (env.upd x m y).WF := by
  intro y
  by_cases h : y = x
  · subst h; rw [upd_same]; exact hm
  · rw [upd_other _ _ h]; exact hw y

theorem build_ok {v u : Xpr} (h : v.build = .ok u) : v.asserts = true ∧ u = v := by
  unfold Xpr.build at h
  split_ifs at h with ha
  cases h
  exact ⟨ha, rfl⟩

theorem ref_keeps_WF {env env' : Env} (hw : ∀ x, (env x).WF) (s : Stmt) (h : s.ref env = .ok env') : ∀ x, (env' x).WF := by
  cases s with
  | set x i j =>
    simp only [Stmt.ref, Res.map_eq_ok] at h
    obtain ⟨m, h1, rfl⟩ := h
    exact upd_keeps_WF hw x (set_keeps_WF (hw x) h1)
  | clear x i j =>
    simp only [Stmt.ref, Res.map_eq_ok] at h
    obtain ⟨m, h1, rfl⟩ := h
    exact upd_keeps_WF hw x (clear_keeps_WF (hw x) h1)
  | assign x e =>
    simp only [Stmt.ref, Res.bind_eq_ok, Res.map_eq_ok, BMat.ofXpr] at h
    obtain ⟨v, h0, m, ⟨ws, h1, h2⟩, rfl⟩ := h
    obtain ⟨_, rfl⟩ := build_ok h0
    cases h2
    exact upd_keeps_WF hw x ⟨Xpr.bitpacks_eq _ (Src.leavesWF env hw e), readPacks_length _ _ _ _ h1⟩
  | block x r0 c0 hh w e =>
    simp only [Stmt.ref] at h
    split_ifs at h
    simp only [Res.bind_eq_ok, Res.map_eq_ok, BMat.assignBlock] at h
    obtain ⟨v, h0, m, h1, rfl⟩ := h
    split_ifs at h1
    refine upd_keeps_WF hw x (forLoop_keeps _ BMat.WF (fun i s s' hs hi => ?_) hh 0 _ _ (hw x) h1)
    refine forLoop_keeps _ BMat.WF (fun j s s' hs hj => ?_) w 0 _ _ hs hi
    simp only [Res.bind_eq_ok] at hj
    obtain ⟨b, _, hj⟩ := hj
    split_ifs at hj
    · exact set_keeps_WF hs hj
    · cases hj; exact hs

theorem run_eq_ref {env : Env} (hw : ∀ x, (env x).WF) (s : Stmt) (hs : s.Safe) : s.run env = s.ref env := by
  cases s with
  | set x i j => rfl
  | clear x i j => rfl
  | assign x e => exact assign_eq env hw x e hs
  | block x r0 c0 h w e => exact assignBlockTo_eq env x r0 c0 h w e hs

/-- **C166 (assignments).** A program on named binary matrices -- writes of coefficients, assignments of expressions to matrices and to
blocks -- behaves as if every right-hand side were evaluated before the assignment starts, including its exceptions, for every program in
which no statement overwrites a matrix it reads through a block or a repetition: `a = ~a & b`, `a = (a ^ b).reshaped(r, c)` and the like are
right although `a` is read while it is written. -/
theorem C166_programs (p : List Stmt) (hp : ∀ s ∈ p, s.Safe) (env : Env) (hw : ∀ x, (env x).WF) :
    runStmts env p = foldRes Stmt.ref env p := by
  unfold runStmts
  induction p generalizing env with
  | nil => rfl
  | cons s p ih =>
    rw [foldRes_cons, foldRes_cons, run_eq_ref hw s (hp s (by simp))]
    cases h : s.ref env with
    | ok env' => exact ih (fun t ht => hp t (by simp [ht])) env' (ref_keeps_WF hw s h)
    | throws => rfl
    | ub => rfl

/-! ### Programs on Boolean matrices -/

theorem val_spec {env : Env} {t : Nat → Tab} (h : Shows env t) : ∀ (e : Src),
    (e.val t = none → (e.xpr env).asserts = false) ∧
    ∀ a, e.val t = some a → (e.xpr env).asserts = true ∧ (e.xpr env).rows = a.rows ∧ (e.xpr env).cols = a.cols ∧
      ∀ i j, i < a.rows → j < a.cols → (e.xpr env).den i j = a.at' i j := by
  intro e
  induction e with
  | var x =>
    refine ⟨fun h => (nomatch h), fun a ha => ?_⟩
    cases ha
    refine ⟨rfl, (h x).2.1, (h x).2.2.1, fun i j hi hj => ?_⟩
    simp only [Src.xpr, Xpr.den, (h x).2.2.2 i j hi hj]
    cases (t x).at' i j <;> rfl
  | not e ih =>
    refine ⟨fun hn => ih.1 (by simpa [Src.val] using hn), fun a ha => ?_⟩
    simp only [Src.val, Option.map_eq_some_iff] at ha
    obtain ⟨u, hu, rfl⟩ := ha
    obtain ⟨h1, h2, h3, h4⟩ := ih.2 u hu
    exact ⟨h1, h2, h3, fun i j hi hj => by simp only [Src.xpr, Xpr.den, h4 i j hi hj]⟩
  | bin op a b iha ihb =>
    simp only [Src.val]
    cases hu : a.val t with
    | none =>
      refine ⟨fun _ => by simp [Src.xpr, Xpr.asserts, iha.1 hu], fun c hc => by simp at hc⟩
    | some u =>
      cases hv : b.val t with
      | none => exact ⟨fun _ => by simp [Src.xpr, Xpr.asserts, ihb.1 hv], fun c hc => by simp at hc⟩
      | some v =>
        obtain ⟨h1, h2, h3, h4⟩ := iha.2 u hu
        obtain ⟨k1, k2, k3, k4⟩ := ihb.2 v hv
        simp only [Option.bind_some]
        by_cases hs : u.rows = v.rows ∧ u.cols = v.cols
        · rw [if_pos hs]
          refine ⟨fun h => by simp at h, fun c hc => ?_⟩
          simp only [Option.some.injEq] at hc
          subst hc
          refine ⟨by simp [Src.xpr, Xpr.asserts, h1, k1, h2, h3, k2, k3, hs.1, hs.2], h2, h3, fun i j hi hj => ?_⟩
          have e1 := h4 i j hi hj
          have e2 := k4 i j (hs.1 ▸ hi) (hs.2 ▸ hj)
          cases op <;> simp only [Src.xpr, Xpr.den, e1, e2]
        · rw [if_neg hs]
          refine ⟨fun _ => ?_, fun c hc => by simp at hc⟩
          simp only [Src.xpr, Xpr.asserts, h1, k1, h2, h3, k2, k3, Bool.true_and, Bool.and_eq_false_iff, beq_eq_false_iff_ne]
          omega
  | block e r0 c0 hh w ih =>
    simp only [Src.val]
    cases hu : e.val t with
    | none => exact ⟨fun _ => by simp [Src.xpr, Xpr.asserts, ih.1 hu], fun c hc => by simp at hc⟩
    | some u =>
      obtain ⟨h1, h2, h3, h4⟩ := ih.2 u hu
      simp only [Option.bind_some]
      by_cases hs : r0 + hh ≤ u.rows ∧ c0 + w ≤ u.cols
      · rw [if_pos hs]
        refine ⟨fun h => by simp at h, fun c hc => ?_⟩
        simp only [Option.some.injEq] at hc
        subst hc
        refine ⟨by simp [Src.xpr, Xpr.asserts, h1, h2, h3, hs.1, hs.2], rfl, rfl, fun i j hi hj => ?_⟩
        dsimp only at hi hj
        simp only [Src.xpr, Xpr.den]
        exact h4 _ _ (by omega) (by omega)
      · rw [if_neg hs]
        refine ⟨fun _ => ?_, fun c hc => by simp at hc⟩
        simp only [Src.xpr, Xpr.asserts, h1, h2, h3, Bool.true_and, Bool.and_eq_false_iff, decide_eq_false_iff_not]
        omega
  | rep e a b ih =>
    refine ⟨fun hn => ih.1 (by simpa [Src.val] using hn), fun c hc => ?_⟩
    simp only [Src.val, Option.map_eq_some_iff] at hc
    obtain ⟨u, hu, rfl⟩ := hc
    obtain ⟨h1, h2, h3, h4⟩ := ih.2 u hu
    refine ⟨h1, by simp only [Src.xpr, Xpr.rows, h2], by simp only [Src.xpr, Xpr.cols, h3], fun i j hi hj => ?_⟩
    dsimp only at hi hj
    simp only [Src.xpr, Xpr.den, h2, h3]
    refine h4 _ _ (Nat.mod_lt _ ?_) (Nat.mod_lt _ ?_)
    · rcases Nat.eq_zero_or_pos u.rows with h0 | h0
      · rw [h0, Nat.zero_mul] at hi; omega
      · exact h0
    · rcases Nat.eq_zero_or_pos u.cols with h0 | h0
      · rw [h0, Nat.zero_mul] at hj; omega
      · exact h0
  | resh e r c ih =>
    simp only [Src.val]
    cases hu : e.val t with
    | none => exact ⟨fun _ => by simp [Src.xpr, Xpr.asserts, ih.1 hu], fun c hc => by simp at hc⟩
    | some u =>
      obtain ⟨h1, h2, h3, h4⟩ := ih.2 u hu
      simp only [Option.bind_some]
      by_cases hs : r * c = u.rows * u.cols
      · rw [if_pos hs]
        refine ⟨fun h => by simp at h, fun d hd => ?_⟩
        simp only [Option.some.injEq] at hd
        subst hd
        refine ⟨by simp [Src.xpr, Xpr.asserts, h1, h2, h3, hs], rfl, rfl, fun i j hi hj => ?_⟩
        dsimp only at hi hj
        simp only [Src.xpr, Xpr.den, h3]
        have hp : i * c + j < u.rows * u.cols := hs ▸ pos_lt_size hi hj
        have hc : 0 < u.cols := by
          rcases Nat.eq_zero_or_pos u.cols with h0 | h0
          · rw [h0, Nat.mul_zero] at hp; omega
          · exact h0
        exact h4 _ _ (div_lt_rows hp) (Nat.mod_lt _ hc)
      · rw [if_neg hs]
        refine ⟨fun _ => ?_, fun c hc => by simp at hc⟩
        simp only [Src.xpr, Xpr.asserts, h1, h2, h3, Bool.true_and, beq_eq_false_iff_ne]
        exact hs

theorem Src.aligned_xpr (env : Env) : ∀ (e : Src), e.Aligned → (e.xpr env).BlocksAligned
  | .var _, _ => trivial
  | .not e, h => Src.aligned_xpr env e h
  | .bin _ a b, h => ⟨Src.aligned_xpr env a h.1, Src.aligned_xpr env b h.2⟩
  | .block e _ _ _ _, h => ⟨Src.aligned_xpr env e h.1, h.2⟩
  | .rep e _ _, h => Src.aligned_xpr env e h
  | .resh e _ _, h => Src.aligned_xpr env e h

theorem shows_upd {env : Env} {t : Nat → Tab} (h : Shows env t) (x : Nat) {m : BMat} {a : Tab} (hm : m.WF)
    (ha : Represents m a.rows a.cols a.at') : Shows (env.upd x m) (updTab t x a) := by
  intro y
  by_cases hy : y = x
  · subst hy; rw [upd_same]; simp only [updTab, if_true]; exact ⟨hm, ha⟩
  · rw [upd_other _ _ hy]; simp only [updTab, if_neg hy]; exact h y

theorem step_shows {env : Env} {t : Nat → Tab} (h : Shows env t) (s : Stmt) (hs : s.Whole) :
    (s.val t = none → s.run env = .throws) ∧
    ∀ t', s.val t = some t' → ∃ env', s.run env = .ok env' ∧ Shows env' t' := by
  have hw : ∀ x, (env x).WF := fun x => (h x).1
  cases s with
  | set x i j =>
    simp only [Stmt.val, Stmt.run]
    by_cases hb : i < (t x).rows ∧ j < (t x).cols
    · rw [if_pos hb]
      refine ⟨fun h => by simp at h, fun t' ht => ?_⟩
      simp only [Option.some.injEq] at ht
      subst ht
      obtain ⟨m, h1, h2⟩ := (Represents.stores (hw x) (h x).2).set hb.1 hb.2
      refine ⟨env.upd x m, by rw [h1]; rfl, shows_upd h x h2.1 h2.represents⟩
    · rw [if_neg hb]
      refine ⟨fun _ => ?_, fun t' ht => by simp at ht⟩
      have : ¬ ((i : Int) < ((env x).rows : Int) ∧ (j : Int) < ((env x).cols : Int)) := by
        rw [(h x).2.1, (h x).2.2.1]; omega
      unfold BMat.set
      rw [if_neg this]; rfl
  | clear x i j =>
    simp only [Stmt.val, Stmt.run]
    by_cases hb : i < (t x).rows ∧ j < (t x).cols
    · rw [if_pos hb]
      refine ⟨fun h => by simp at h, fun t' ht => ?_⟩
      simp only [Option.some.injEq] at ht
      subst ht
      obtain ⟨m, h1, h2⟩ := (Represents.stores (hw x) (h x).2).clear hb.1 hb.2
      refine ⟨env.upd x m, by rw [h1]; rfl, shows_upd h x h2.1 h2.represents⟩
    · rw [if_neg hb]
      refine ⟨fun _ => ?_, fun t' ht => by simp at ht⟩
      have : ¬ ((i : Int) < ((env x).rows : Int) ∧ (j : Int) < ((env x).cols : Int)) := by
        rw [(h x).2.1, (h x).2.2.1]; omega
      unfold BMat.clear
      rw [if_neg this]; rfl
  | assign x e =>
    have hv := val_spec h e
    simp only [Stmt.val, Stmt.run, assign_eq env hw x e hs.1]
    constructor
    · intro hn
      have := hv.1 (by simpa using hn)
      simp [Xpr.build, this]
    · intro t' ht
      simp only [Option.map_eq_some_iff] at ht
      obtain ⟨a, ha, rfl⟩ := ht
      obtain ⟨h1, h2, h3, h4⟩ := hv.2 a ha
      have hl := Src.leavesWF env hw e
      obtain ⟨m, g1, g2, g3, g4, g5⟩ := ofXpr_spec (e.xpr env) hl ((e.xpr env).faithful hl h1 (Src.aligned_xpr env e hs.2))
      refine ⟨env.upd x m, by simp only [Xpr.build, h1, if_true, Res.ok_bind, g1, Res.map_ok], shows_upd h x g2 ?_⟩
      refine Stores.represents ⟨g2, g3.trans h2, g4.trans h3, fun i j hi hj => ?_⟩
      have hlt : i * a.cols + j < (e.xpr env).size := by
        unfold Xpr.size; rw [h2, h3]; exact pos_lt_size hi hj
      rw [g5 _ hlt, h3, pos_div hj, pos_mod hj, h4 i j hi hj]
  | block => exact hs.elim

/-- **C166 (Boolean matrices).** A program of writes of coefficients and of assignments of whole matrices computes what it says about
Boolean matrices: every assignment replaces the matrix, shape included, with the table of the coefficients of its right-hand side over the
tables before the assignment; the program throws exactly where shapes do not fit or a coefficient out of range is written.  Partial: the
assigned matrix is not read through a block or a repetition, and blocks can be copied (`blockAligned`). -/
theorem C166_tables_partial (p : List Stmt) (hp : ∀ s ∈ p, s.Whole) (env : Env) (t : Nat → Tab) (h : Shows env t) :
    (valStmts t p = none → runStmts env p = .throws) ∧
    ∀ t', valStmts t p = some t' → ∃ env', runStmts env p = .ok env' ∧ Shows env' t' := by
  unfold runStmts
  induction p generalizing env t with
  | nil =>
    refine ⟨fun h => (nomatch h), fun t' ht => ?_⟩
    cases ht
    exact ⟨env, rfl, h⟩
  | cons s p ih =>
    have hs := step_shows h s (hp s (by simp))
    rw [foldRes_cons]
    simp only [valStmts]
    cases hv : s.val t with
    | none =>
      rw [hs.1 hv]
      exact ⟨fun _ => rfl, fun t' ht => by simp at ht⟩
    | some t1 =>
      obtain ⟨env1, h1, h2⟩ := hs.2 t1 hv
      rw [h1]
      exact ih (fun s hs => hp s (by simp [hs])) env1 t1 h2

/-- **C166 (stored expressions).** An expression stored in a variable shows the present coefficients of its matrices, not those at the time
it was written, as long as they keep their shapes. -/
theorem C166_stored (old env : Env) (t : Nat → Tab) (h : Shows env t) (e : Src) (hs : e.SameShape old env) (a : Tab) (ha : e.val t = some a)
    (i j : Nat) (hi : i < a.rows) (hj : j < a.cols) : e.coeff old env i j = .ok (a.at' i j) := by
  obtain ⟨h1, h2, h3, h4⟩ := (val_spec h e).2 a ha
  rw [Src.coeff_now old env e hs, Xpr.coeff_den _ (Src.leavesWF env (fun x => (h x).1) e) h1 i j (h2 ▸ hi) (h3 ▸ hj), h4 i j hi hj]

/-! ### Programs which read what they overwrite -/

/-- The identity of size three under the name 0. -/
def threeEye : Env := fun _ => ⟨3, 3, 1, [273#64]⟩

/-- **C166 (bug).** `a = a.block(0, 0, 2, 2)` for the 3 × 3 identity does not store its upper left block, which is the 2 × 2 identity: the
number of columns of `a` is changed before its coefficients are read. -/
theorem C166_bug_block :
    BMat.identity 3 3 = .ok (threeEye 0) ∧
    (∃ env', runStmts threeEye [.assign 0 (.block (.var 0) 0 0 2 2)] = .ok env' ∧ env' 0 = ⟨2, 2, 1, [1#64]⟩ ∧ (env' 0).read 1 1 = .ok false) ∧
    ((Src.block (.var 0) 0 0 2 2).xpr threeEye).coeff 1 1 = .ok true := by
  refine ⟨by decide +kernel, ⟨_, rfl, by decide +kernel, by decide +kernel⟩, by decide +kernel⟩

/-- **C166 (bug).** `a = a.repeat(1, 2)` for the 3 × 3 identity gives a matrix whose second copy is not the identity: the coefficient (0, 3)
of the repetition is true, the one stored is false. -/
theorem C166_bug_repeat :
    (∃ env', runStmts threeEye [.assign 0 (.rep (.var 0) 1 2)] = .ok env' ∧ (env' 0).read 0 3 = .ok false) ∧
    ((Src.rep (.var 0) 1 2).xpr threeEye).coeff 0 3 = .ok true := by
  refine ⟨⟨_, rfl, by decide +kernel⟩, by decide +kernel⟩

theorem ub_of_match {α : Type} {r : Res α} (h : (match r with | .ub => true | _ => false) = true) : r = .ub := by
  cases r <;> first | rfl | cases h

/-- **C166 (bug).** `a = a.bottomRows(1)` for a 3 × 50 matrix is undefined: the storage of `a` is shortened to one pack before the last row,
which is in the second and third one, is read. -/
theorem C166_bug_rows : runStmts (fun _ => BMat.ones 3 50) [.assign 0 (.block (.var 0) 2 0 1 50)] = .ub ∧
    ∃ m, BMat.ofXpr ((Src.block (.var 0) 2 0 1 50).xpr fun _ => BMat.ones 3 50) = .ok m := by
  refine ⟨ub_of_match (by decide +kernel), ⟨_, rfl⟩⟩

/-- **C166 (bug).** `a.block(1, 0, 2, 2) = a.block<2, 2>(0, 0)` for a 3 × 2 matrix whose first row is true and whose other rows are false sets
the last row, although the second row it is assigned from is false: the rows written are read again. -/
theorem C166_bug_overlap : let env : Env := fun _ => ⟨3, 2, 1, [3#64]⟩
    (∃ env', runStmts env [.block 0 1 0 2 2 (.block (.var 0) 0 0 2 2)] = .ok env' ∧ (env' 0).read 2 0 = .ok true) ∧
    ((Src.block (.var 0) 0 0 2 2).xpr env).coeff 1 0 = .ok false ∧ (env 0).read 2 0 = .ok false := by
  refine ⟨⟨_, rfl, by decide +kernel⟩, by decide +kernel, by decide +kernel⟩

/-- **C166 (bug).** An expression stored in a variable reads out of the storage of a matrix which was assigned a smaller one since: the
complement of a 10 × 10 matrix, copied after the matrix has become 1 × 1. -/
theorem C166_bug_stored : (Src.not (.var 0)).bitpack (fun _ => BMat.zero 10 10) (fun _ => BMat.zero 1 1) 1 = .ub ∧
    ((Src.not (.var 0)).xpr fun _ => BMat.zero 10 10).bitpacks = 2 := by
  refine ⟨by decide +kernel, by decide +kernel⟩

/-- Non-vacuity: a program on two matrices of two packs, which reads what it overwrites, changes the shape of a matrix and copies a block
of another one, and its value. -/
def demoStmts : List Stmt :=
  [.set 0 8 7, .assign 0 (.bin .xor (.not (.var 0)) (.var 1)), .assign 0 (.resh (.bin .and (.var 0) (.var 1)) 8 9),
   .assign 2 (.block (.var 0) 3 1 4 4), .assign 1 (.rep (.var 2) 2 1), .clear 1 0 0]

example : (∀ s ∈ demoStmts, s.Safe) ∧ (∀ s ∈ demoStmts, s.Whole) := by
  have ha : blockAligned 4 4 := C07_aligned_small 4 4 (by decide) (by decide)
  constructor
  · intro s hs
    fin_cases hs <;> simp [Stmt.Safe, Src.Plain, Src.Mentions]
  · intro s hs
    fin_cases hs <;> simp [Stmt.Whole, Src.Plain, Src.Mentions, Src.Aligned, ha]

example : Shows (fun _ => BMat.ones 9 8) (fun _ => ⟨9, 8, fun _ _ => true⟩) := fun _ => ⟨⟨rfl, rfl⟩, C01_ones 9 8⟩

example : ∃ t', valStmts (fun _ => ⟨9, 8, fun _ _ => true⟩) demoStmts = some t' ∧ (t' 1).rows = 8 ∧ (t' 1).cols = 4 ∧
    (t' 1).at' 7 3 = true ∧ (t' 1).at' 0 0 = false ∧ (t' 0).rows = 8 ∧ (t' 0).cols = 9 := ⟨_, rfl, rfl, rfl, rfl, rfl, rfl, rfl⟩

end Fdapde.BinMtx
