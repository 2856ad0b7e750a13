import Verif.BinMtx.Lemmas2
namespace Fdapde.BinMtx

/-! ### count -/

theorem and_one_eq (w : Word) : ((w &&& 1#64) == 1#64) = w.getLsbD 0 := by
  have h := and_one_shl_ne w 0 (by omega)
  simp only [BitVec.shiftLeft_zero] at h
  rw [← h]
  cases hb : w.getLsbD 0
  · rw [hb] at h
    have h0 : w &&& 1#64 = 0#64 := by simpa using h
    rw [h0]; rfl
  · have h1 : w &&& 1#64 = 1#64 := by
      apply BitVec.eq_of_getLsbD_eq
      intro i hi
      rw [BitVec.getLsbD_and, BitVec.getLsbD_one]
      by_cases h2 : i = 0
      · subst h2; rw [hb]; simp
      · simp [h2]
    rw [h1]; rfl

theorem countBits_spec (n : Nat) : ∀ (w : Word) (res : Nat),
    countBits w n res = res + (List.range n).countP (fun b => w.getLsbD b) := by
  induction n with
  | zero => intro w res; simp [countBits]
  | succ n ih =>
    intro w res
    rw [countBits, ih, List.range_succ_eq_map, List.countP_cons, List.countP_map, and_one_eq]
    have e : (fun b => (w >>> 1).getLsbD b) = ((fun b => w.getLsbD b) ∘ Nat.succ) := by
      funext b
      simp only [Function.comp, BitVec.getLsbD_ushiftRight]
      rw [Nat.add_comm]
    rw [e]
    cases w.getLsbD 0 <;> simp <;> omega

theorem countP_shift (f : Nat → Bool) (a n : Nat) :
    (List.range (a + n)).countP f = (List.range a).countP f + (List.range n).countP (fun b => f (a + b)) := by
  rw [List.range_add, List.countP_append, List.countP_map]; rfl

theorem countP_congr_range (f g : Nat → Bool) (n : Nat) (h : ∀ b, b < n → f b = g b) :
    (List.range n).countP f = (List.range n).countP g := by
  apply List.countP_congr
  intro b hb
  rw [h b (List.mem_range.1 hb)]

theorem countPacks_spec (e : Xpr) (hf : e.Faithful) (n : Nat) :
    ∀ k, k + n = packs e.size →
      countPacks e e.size n k (min (k * 64) e.size) ((List.range (min (k * 64) e.size)).countP e.lin)
        = .ok ((List.range e.size).countP e.lin) := by
  induction n with
  | zero =>
    intro k hk
    have : min (k * 64) e.size = e.size := by
      have := size_lt_packs e.size; omega
    rw [this]; rfl
  | succ n ih =>
    intro k hk
    have hks : k * 64 ≤ e.size := by unfold packs at hk; omega
    obtain ⟨w, hw1, hw2⟩ := bitpack_lin e hf k (by omega)
    rw [countPacks, hw1]
    simp only [Res.ok_bind]
    have hmin : min (k * 64) e.size = k * 64 := by omega
    rw [hmin, countBits_spec, countBits_spec]
    have key : ∀ c, c ≤ 64 → k * 64 + c ≤ e.size →
        (List.range (k * 64)).countP e.lin + (List.range c).countP (fun b => w.getLsbD b)
          = (List.range (k * 64 + c)).countP e.lin := by
      intro c hc hcs
      rw [countP_shift, countP_congr_range _ _ c (fun b hb => hw2 b (by omega) (by omega))]
    by_cases h : k * 64 + 64 < e.size
    · rw [if_pos h, key 64 (by omega) (by omega)]
      have := ih (k + 1) (by omega)
      have e1 : min ((k + 1) * 64) e.size = k * 64 + 64 := by omega
      rw [e1] at this
      exact this
    · rw [if_neg h, key (e.size - k * 64) (by omega) (by omega)]
      have := ih (k + 1) (by omega)
      have e1 : min ((k + 1) * 64) e.size = e.size := by omega
      rw [e1] at this
      have e2 : k * 64 + (e.size - k * 64) = e.size := by omega
      have e3 : max (k * 64) e.size = e.size := by omega
      rw [e2, e3]
      exact this

theorem count_lin (e : Xpr) (hw : e.LeavesWF) (hf : e.Faithful) :
    e.count = .ok ((List.range e.size).countP e.lin) := by
  unfold Xpr.count
  by_cases h : e.size = 0
  · simp [h]
  · rw [if_neg h, e.bitpacks_eq hw]
    have := countPacks_spec e hf (packs e.size) 0 (by omega)
    simpa using this

/-- Row-major counting. -/
theorem countP_grid (f : Nat → Nat → Bool) (c r : Nat) (hc : 0 < c) :
    (List.range (r * c)).countP (fun p => f (p / c) (p % c)) =
      ((List.range r).map (fun i => (List.range c).countP (f i))).sum := by
  induction r with
  | zero => simp
  | succ r ih =>
    rw [Nat.succ_mul, countP_shift, ih, List.range_succ, List.map_append, List.sum_append]
    congr 1
    simp only [List.map_cons, List.map_nil, List.sum_cons, List.sum_nil, Nat.add_zero]
    apply countP_congr_range
    intro b hb
    rw [pos_div hb, pos_mod hb]

/-! ### nested loops -/

theorem forLoop2_inv {σ : Type} (body : Nat → Nat → σ → Res σ) (P : Nat → Nat → σ → Prop)
    (r c : Nat) (s : σ) (h0 : P 0 0 s)
    (hrow : ∀ i s, i < r → P i c s → P (i + 1) 0 s)
    (hstep : ∀ i j s, i < r → j < c → P i j s → ∃ s', body i j s = .ok s' ∧ P i (j + 1) s') :
    ∃ s', forLoop (fun i s => forLoop (fun j s => body i j s) 0 c s) 0 r s = .ok s' ∧ P r 0 s' := by
  obtain ⟨s', h1, h2⟩ := forLoop_inv (fun i s => forLoop (fun j s => body i j s) 0 c s)
    (fun i s => P i 0 s) r 0 s h0
    (by
      intro i s _ hi hp
      obtain ⟨s1, h1, h2⟩ := forLoop_inv (fun j s => body i j s) (fun j s => P i j s) c 0 s hp
        (fun j s _ hj hp => hstep i j s (by omega) (by omega) hp)
      refine ⟨s1, h1, hrow i s1 (by omega) ?_⟩
      simpa using h2)
  exact ⟨s', h1, by simpa using h2⟩

/-! ### which -/

theorem filter_range_succ (f : Nat → Bool) (n : Nat) :
    (List.range (n + 1)).filter f = (List.range n).filter f ++ (if f n then [n] else []) := by
  rw [List.range_succ, List.filter_append]
  congr 1
  simp only [List.filter_cons, List.filter_nil]

theorem which_spec (e : Xpr) (hw : e.LeavesWF) (ha : e.asserts = true) (b : Bool) :
    e.which b = .ok ((List.range e.size).filter (fun p => e.lin p == b)) := by
  unfold Xpr.which
  obtain ⟨s', h1, h2⟩ := forLoop2_inv
    (fun i j (acc : List Nat) => do
      let x ← e.coeff i j
      return (if x == b then acc ++ [i * e.cols + j] else acc))
    (fun i j (acc : List Nat) => acc = (List.range (i * e.cols + j)).filter (fun p => e.lin p == b))
    e.rows e.cols [] (by simp)
    (by
      intro i s _ hp
      rw [hp, Nat.succ_mul]; simp)
    (by
      intro i j s hi hj hp
      refine ⟨_, ?_, rfl⟩
      rw [Xpr.coeff_den e hw ha i j hi hj, ← Nat.add_assoc, filter_range_succ, ← hp]
      simp only [Res.ok_bind, Res.pure_eq]
      unfold Xpr.lin
      rw [pos_div hj, pos_mod hj]
      congr 1
      split <;> simp)
  rw [h1, h2]; simp [Xpr.size]

/-! ### matrices as stores -/

/-- `m` has shape `r × c` and stores `f` in row-major order. -/
def Stores (m : BMat) (r c : Nat) (f : Nat → Nat → Bool) : Prop :=
  m.WF ∧ m.rows = r ∧ m.cols = c ∧ ∀ i j, i < r → j < c → storeBit m.data (i * c + j) = f i j

theorem Stores.represents {m : BMat} {r c : Nat} {f : Nat → Nat → Bool} (h : Stores m r c f) :
    Represents m r c f := by
  obtain ⟨hw, hr, hc, hs⟩ := h
  refine ⟨hr, hc, ?_⟩
  intro i j hi hj
  try dsimp only
  rw [hw.read (hr ▸ hi) (hc ▸ hj), hc, hs i j hi hj]

theorem Represents.stores {m : BMat} (hw : m.WF) {r c : Nat} {f : Nat → Nat → Bool}
    (h : Represents m r c f) : Stores m r c f := by
  obtain ⟨hr, hc, hs⟩ := h
  refine ⟨hw, hr, hc, ?_⟩
  intro i j hi hj
  try dsimp only
  have := hs i j hi hj
  rw [hw.read (hr ▸ hi) (hc ▸ hj), hc] at this
  injection this

theorem Stores.set {m : BMat} {r c : Nat} {f : Nat → Nat → Bool} (h : Stores m r c f)
    {i j : Nat} (hi : i < r) (hj : j < c) :
    ∃ m', m.set i j = .ok m' ∧ Stores m' r c (fun a b => if a = i ∧ b = j then true else f a b) := by
  obtain ⟨hw, hr, hc, hs⟩ := h
  obtain ⟨m', h1, h2, h3, h4, h5⟩ := set_spec m hw (hr ▸ hi) (hc ▸ hj)
  refine ⟨m', h1, h2, by omega, by omega, ?_⟩
  intro a b ha hb
  try dsimp only
  rw [h5, hc]
  by_cases he : a = i ∧ b = j
  · rw [if_pos ((pos_inj hj hb).2 he), if_pos he]
  · rw [if_neg (fun q => he ((pos_inj hj hb).1 q)), if_neg he, hs a b ha hb]

theorem Stores.clear {m : BMat} {r c : Nat} {f : Nat → Nat → Bool} (h : Stores m r c f)
    {i j : Nat} (hi : i < r) (hj : j < c) :
    ∃ m', m.clear i j = .ok m' ∧ Stores m' r c (fun a b => if a = i ∧ b = j then false else f a b) := by
  obtain ⟨hw, hr, hc, hs⟩ := h
  obtain ⟨m', h1, h2, h3, h4, h5⟩ := clear_spec m hw (hr ▸ hi) (hc ▸ hj)
  refine ⟨m', h1, h2, by omega, by omega, ?_⟩
  intro a b ha hb
  try dsimp only
  rw [h5, hc]
  by_cases he : a = i ∧ b = j
  · rw [if_pos ((pos_inj hj hb).2 he), if_pos he]
  · rw [if_neg (fun q => he ((pos_inj hj hb).1 q)), if_neg he, hs a b ha hb]

theorem Stores.congr {m : BMat} {r c : Nat} {f g : Nat → Nat → Bool} (h : Stores m r c f)
    (hfg : ∀ i j, i < r → j < c → f i j = g i j) : Stores m r c g := by
  obtain ⟨hw, hr, hc, hs⟩ := h
  exact ⟨hw, hr, hc, fun i j hi hj => by rw [hs i j hi hj, hfg i j hi hj]⟩

theorem zero_stores (r c : Nat) : Stores (BMat.zero r c) r c (fun _ _ => false) := by
  refine ⟨zero_WF r c, rfl, rfl, ?_⟩
  intro i j _ _
  try dsimp only
  exact storeBit_zero _ _

/-- Lexicographic "already processed" predicate of the nested loops. -/
def before (i j a b : Nat) : Prop := a < i ∨ (a = i ∧ b < j)

instance (i j a b : Nat) : Decidable (before i j a b) := by unfold before; infer_instance

theorem ofDense_stores (r c : Nat) (f : Nat → Nat → Bool) :
    ∃ m, BMat.ofDense r c f = .ok m ∧ Stores m r c f := by
  unfold BMat.ofDense
  obtain ⟨m, h1, h2⟩ := forLoop2_inv
    (fun i j m => if f i j then BMat.set m i j else .ok m)
    (fun i j m => Stores m r c (fun a b => if before i j a b then f a b else false))
    r c (BMat.zero r c)
    ((zero_stores r c).congr (by
      intro i j _ _
      try dsimp only
      rw [if_neg]; unfold before; omega))
    (by
      intro i m hi hp
      apply hp.congr
      intro a b ha hb
      try dsimp only
      have : before i c a b ↔ before (i + 1) 0 a b := by unfold before; omega
      simp only [this])
    (by
      intro i j m hi hj hp
      cases hf : f i j
      · refine ⟨m, by simp, hp.congr ?_⟩
        intro a b ha hb
        try dsimp only
        by_cases he : a = i ∧ b = j
        · obtain ⟨rfl, rfl⟩ := he
          simp only [hf]; simp
        · have : before i (j + 1) a b ↔ before i j a b := by unfold before; omega
          simp only [this]
      · obtain ⟨m', hm, hs⟩ := hp.set hi hj
        refine ⟨m', by simpa using hm, hs.congr ?_⟩
        intro a b ha hb
        try dsimp only
        by_cases he : a = i ∧ b = j
        · rw [if_pos he]
          obtain ⟨rfl, rfl⟩ := he
          rw [if_pos (by unfold before; omega), hf]
        · have : before i (j + 1) a b ↔ before i j a b := by unfold before; omega
          rw [if_neg he]
          simp only [this])
  refine ⟨m, h1, h2.congr ?_⟩
  intro i j hi hj
  try dsimp only
  rw [if_pos (by unfold before; omega)]

/-- The actual effect of block assignment: it only ever sets bits. -/
theorem assignBlock_or {m : BMat} {r c : Nat} {f : Nat → Nat → Bool} (hm : Stores m r c f)
    (r0 c0 : Nat) (rhs : Xpr) (hw : rhs.LeavesWF) (ha : rhs.asserts = true)
    (hr : r0 + rhs.rows ≤ r) (hc : c0 + rhs.cols ≤ c) :
    ∃ m', m.assignBlock r0 c0 rhs.rows rhs.cols rhs = .ok m' ∧
      Stores m' r c (fun a b => if r0 ≤ a ∧ a < r0 + rhs.rows ∧ c0 ≤ b ∧ b < c0 + rhs.cols
        then f a b || rhs.den (a - r0) (b - c0) else f a b) := by
  unfold BMat.assignBlock
  have hmr := hm.2.1
  have hmc := hm.2.2.1
  rw [if_pos (by omega), if_pos ⟨rfl, rfl⟩]
  obtain ⟨m', h1, h2⟩ := forLoop2_inv
    (fun i j m => do
      let b ← rhs.coeff i j
      if b then BMat.set m (i + r0 : Nat) (j + c0 : Nat) else .ok m)
    (fun i j m => Stores m r c (fun a b =>
      if r0 ≤ a ∧ a < r0 + rhs.rows ∧ c0 ≤ b ∧ b < c0 + rhs.cols ∧ before i j (a - r0) (b - c0)
        then f a b || rhs.den (a - r0) (b - c0) else f a b))
    rhs.rows rhs.cols m
    (hm.congr (by intro a b _ _; (try dsimp only); rw [if_neg]; unfold before; omega))
    (by
      intro i m hi hp
      apply hp.congr
      intro a b _ _
      try dsimp only
      have : (r0 ≤ a ∧ a < r0 + rhs.rows ∧ c0 ≤ b ∧ b < c0 + rhs.cols ∧ before i rhs.cols (a - r0) (b - c0)) ↔
          (r0 ≤ a ∧ a < r0 + rhs.rows ∧ c0 ≤ b ∧ b < c0 + rhs.cols ∧ before (i + 1) 0 (a - r0) (b - c0)) := by
        unfold before; omega
      simp only [this])
    (by
      intro i j m hi hj hp
      rw [Xpr.coeff_den rhs hw ha i j hi hj]
      simp only [Res.ok_bind]
      cases hf : rhs.den i j
      · refine ⟨m, by simp, hp.congr ?_⟩
        intro a b _ _
        try dsimp only
        by_cases he : a = i + r0 ∧ b = j + c0
        · obtain ⟨rfl, rfl⟩ := he
          have e1 : i + r0 - r0 = i := by omega
          have e2 : j + c0 - c0 = j := by omega
          simp only [e1, e2, hf, Bool.or_false]; simp
        · have : (r0 ≤ a ∧ a < r0 + rhs.rows ∧ c0 ≤ b ∧ b < c0 + rhs.cols ∧ before i j (a - r0) (b - c0)) ↔
            (r0 ≤ a ∧ a < r0 + rhs.rows ∧ c0 ≤ b ∧ b < c0 + rhs.cols ∧ before i (j + 1) (a - r0) (b - c0)) := by
            unfold before; omega
          simp only [this]
      · obtain ⟨m', hm', hs⟩ := hp.set (i := i + r0) (j := j + c0) (by omega) (by omega)
        refine ⟨m', by simpa using hm', hs.congr ?_⟩
        intro a b _ _
        try dsimp only
        by_cases he : a = i + r0 ∧ b = j + c0
        · rw [if_pos he]
          obtain ⟨rfl, rfl⟩ := he
          rw [if_pos (by unfold before; omega)]
          have e1 : i + r0 - r0 = i := by omega
          have e2 : j + c0 - c0 = j := by omega
          rw [e1, e2, hf]; simp
        · rw [if_neg he]
          have : (r0 ≤ a ∧ a < r0 + rhs.rows ∧ c0 ≤ b ∧ b < c0 + rhs.cols ∧ before i j (a - r0) (b - c0)) ↔
            (r0 ≤ a ∧ a < r0 + rhs.rows ∧ c0 ≤ b ∧ b < c0 + rhs.cols ∧ before i (j + 1) (a - r0) (b - c0)) := by
            unfold before; omega
          simp only [this])
  refine ⟨m', h1, h2.congr ?_⟩
  intro a b _ _
  try dsimp only
  have : (r0 ≤ a ∧ a < r0 + rhs.rows ∧ c0 ≤ b ∧ b < c0 + rhs.cols ∧ before rhs.rows 0 (a - r0) (b - c0)) ↔
    (r0 ≤ a ∧ a < r0 + rhs.rows ∧ c0 ≤ b ∧ b < c0 + rhs.cols) := by
    unfold before; omega
  simp only [this]

/-- `block.set()` and `block.clear()` (generic over the write). -/
theorem writeBlock_spec {m : BMat} {r c : Nat} {f : Nat → Nat → Bool} (hm : Stores m r c f)
    (r0 c0 h w : Nat) (hr : r0 + h ≤ r) (hc : c0 + w ≤ c) (v : Bool) :
    ∃ m', (if v then m.setBlock r0 c0 h w else m.clearBlock r0 c0 h w) = .ok m' ∧
      Stores m' r c (fun a b => if r0 ≤ a ∧ a < r0 + h ∧ c0 ≤ b ∧ b < c0 + w then v else f a b) := by
  have hmr := hm.2.1
  have hmc := hm.2.2.1
  have main : ∀ (wr : Nat → Nat → BMat → Res BMat)
      (_ : ∀ (m : BMat) (g : Nat → Nat → Bool) i j, Stores m r c g → i < r → j < c →
        ∃ m', wr i j m = .ok m' ∧ Stores m' r c (fun a b => if a = i ∧ b = j then v else g a b)),
      ∃ m', forLoop (fun i m => forLoop (fun j m => wr (i + r0) (j + c0) m) 0 w m) 0 h m = .ok m' ∧
        Stores m' r c (fun a b => if r0 ≤ a ∧ a < r0 + h ∧ c0 ≤ b ∧ b < c0 + w then v else f a b) := by
    intro wr hwr
    obtain ⟨m', h1, h2⟩ := forLoop2_inv (fun i j m => wr (i + r0) (j + c0) m)
      (fun i j m => Stores m r c (fun a b =>
        if r0 ≤ a ∧ a < r0 + h ∧ c0 ≤ b ∧ b < c0 + w ∧ before i j (a - r0) (b - c0) then v else f a b))
      h w m
      (hm.congr (by intro a b _ _; (try dsimp only); rw [if_neg]; unfold before; omega))
      (by
        intro i m hi hp
        apply hp.congr
        intro a b _ _
        try dsimp only
        have : (r0 ≤ a ∧ a < r0 + h ∧ c0 ≤ b ∧ b < c0 + w ∧ before i w (a - r0) (b - c0)) ↔
            (r0 ≤ a ∧ a < r0 + h ∧ c0 ≤ b ∧ b < c0 + w ∧ before (i + 1) 0 (a - r0) (b - c0)) := by
          unfold before; omega
        simp only [this])
      (by
        intro i j m hi hj hp
        obtain ⟨m', hm', hs⟩ := hwr m _ (i + r0) (j + c0) hp (by omega) (by omega)
        refine ⟨m', hm', hs.congr ?_⟩
        intro a b _ _
        try dsimp only
        by_cases he : a = i + r0 ∧ b = j + c0
        · rw [if_pos he, if_pos (by unfold before; omega)]
        · rw [if_neg he]
          have : (r0 ≤ a ∧ a < r0 + h ∧ c0 ≤ b ∧ b < c0 + w ∧ before i j (a - r0) (b - c0)) ↔
            (r0 ≤ a ∧ a < r0 + h ∧ c0 ≤ b ∧ b < c0 + w ∧ before i (j + 1) (a - r0) (b - c0)) := by
            unfold before; omega
          simp only [this])
    refine ⟨m', h1, h2.congr ?_⟩
    intro a b _ _
    try dsimp only
    have : (r0 ≤ a ∧ a < r0 + h ∧ c0 ≤ b ∧ b < c0 + w ∧ before h 0 (a - r0) (b - c0)) ↔
      (r0 ≤ a ∧ a < r0 + h ∧ c0 ≤ b ∧ b < c0 + w) := by unfold before; omega
    simp only [this]
  cases v with
  | true =>
    simp only [if_true]
    unfold BMat.setBlock
    rw [if_pos (by omega)]
    exact main (fun i j m => BMat.set m (i : Nat) (j : Nat)) (fun m g i j hs hi hj => hs.set hi hj)
  | false =>
    simp only [Bool.false_eq_true, if_false]
    unfold BMat.clearBlock
    rw [if_pos (by omega)]
    exact main (fun i j m => BMat.clear m (i : Nat) (j : Nat)) (fun m g i j hs hi hj => hs.clear hi hj)

/-! ### construction from a range -/

/-- The code writes element `p` at `(p / n_rows, p % n_cols)`; for square matrices this is
row-major order. -/
theorem ofRangeGo_square (n : Nat) (hn : 0 < n) (all : List Bool) (hlen : all.length = n * n) :
    ∀ (xs pre : List Bool) (m : BMat), pre ++ xs = all →
      Stores m n n (fun a b => if a * n + b < pre.length then all[a * n + b]?.getD false else false) →
      ∃ m', BMat.ofRangeGo n n (n * n) xs pre.length m = .ok m' ∧
        Stores m' n n (fun a b => all[a * n + b]?.getD false) := by
  intro xs
  induction xs with
  | nil =>
    intro pre m hpre hs
    have hl : pre.length = n * n := by rw [← hlen, ← hpre]; simp
    refine ⟨m, ?_, hs.congr ?_⟩
    · simp [BMat.ofRangeGo, hl]
    · intro a b ha hb
      rw [if_pos]; rw [hl]; exact pos_lt_size ha hb
  | cons x xs ih =>
    intro pre m hpre hs
    have hl : pre.length < n * n := by rw [← hlen, ← hpre]; simp
    have hx : all[pre.length]? = some x := by rw [← hpre]; simp
    have hlen' : (pre ++ [x]).length = pre.length + 1 := by simp
    have hpre' : (pre ++ [x]) ++ xs = all := by rw [← hpre]; simp
    have hpos : pre.length / n * n + pre.length % n = pre.length := by
      rw [Nat.mul_comm]; exact Nat.div_add_mod _ _
    cases x with
    | false =>
      rw [BMat.ofRangeGo]
      simp only [Bool.false_eq_true, if_false]
      have := ih (pre ++ [false]) m hpre' (hs.congr ?_)
      · rwa [hlen'] at this
      · intro a b ha hb
        rw [hlen']
        by_cases he : a * n + b = pre.length
        · rw [if_neg (by omega), if_pos (by omega), he, hx]; rfl
        · have : a * n + b < pre.length ↔ a * n + b < pre.length + 1 := by omega
          simp only [this]
    | true =>
      rw [BMat.ofRangeGo]
      simp only [if_true]
      rw [if_neg (by omega)]
      have hi := div_lt_rows hl
      have hj := Nat.mod_lt pre.length hn
      obtain ⟨m', hm', hs'⟩ := hs.set hi hj
      rw [hm']
      simp only [Res.ok_bind]
      have := ih (pre ++ [true]) m' hpre' (hs'.congr ?_)
      · rwa [hlen'] at this
      · intro a b ha hb
        rw [hlen']
        by_cases he : a * n + b = pre.length
        · have : a = pre.length / n ∧ b = pre.length % n := by
            rw [← he, pos_div hb, pos_mod hb]; exact ⟨rfl, rfl⟩
          rw [if_pos this, if_pos (by omega), he, hx]; rfl
        · have h1 : ¬ (a = pre.length / n ∧ b = pre.length % n) := by
            rintro ⟨rfl, rfl⟩; exact he hpos
          rw [if_neg h1]
          have : a * n + b < pre.length ↔ a * n + b < pre.length + 1 := by omega
          simp only [this]

theorem ofRangeVecGo_spec (n : Nat) (all : List Bool) (hlen : all.length = n) :
    ∀ (xs pre : List Bool) (m : BMat), pre ++ xs = all →
      Stores m n 1 (fun a _ => if a < pre.length then all[a]?.getD false else false) →
      ∃ m', BMat.ofRangeVecGo n xs pre.length m = .ok m' ∧
        Stores m' n 1 (fun a _ => all[a]?.getD false) := by
  intro xs
  induction xs with
  | nil =>
    intro pre m hpre hs
    have hl : pre.length = n := by rw [← hlen, ← hpre]; simp
    refine ⟨m, ?_, hs.congr ?_⟩
    · simp [BMat.ofRangeVecGo, hl]
    · intro a b ha hb
      rw [if_pos]; rw [hl]; exact ha
  | cons x xs ih =>
    intro pre m hpre hs
    have hl : pre.length < n := by rw [← hlen, ← hpre]; simp
    have hx : all[pre.length]? = some x := by rw [← hpre]; simp
    have hlen' : (pre ++ [x]).length = pre.length + 1 := by simp
    have hpre' : (pre ++ [x]) ++ xs = all := by rw [← hpre]; simp
    cases x with
    | false =>
      rw [BMat.ofRangeVecGo]
      simp only [Bool.false_eq_true, if_false]
      have := ih (pre ++ [false]) m hpre' (hs.congr ?_)
      · rwa [hlen'] at this
      · intro a b ha hb
        rw [hlen']
        by_cases he : a = pre.length
        · rw [if_neg (by omega), if_pos (by omega), he, hx]; rfl
        · have : a < pre.length ↔ a < pre.length + 1 := by omega
          simp only [this]
    | true =>
      rw [BMat.ofRangeVecGo]
      simp only [if_true]
      obtain ⟨m', hm', hs'⟩ := hs.set hl (j := 0) (by omega)
      have hm'' : m.set (pre.length : Int) 0 = .ok m' := by simpa using hm'
      rw [hm'']
      simp only [Res.ok_bind]
      have := ih (pre ++ [true]) m' hpre' (hs'.congr ?_)
      · rwa [hlen'] at this
      · intro a b ha hb
        rw [hlen']
        by_cases he : a = pre.length
        · rw [if_pos ⟨he, by omega⟩, if_pos (by omega), he, hx]; rfl
        · rw [if_neg (by omega)]
          have : a < pre.length ↔ a < pre.length + 1 := by omega
          simp only [this]

/-! ### comparison -/

theorem shr_ones (n : Nat) (h1 : 1 ≤ n) (h2 : n ≤ 63) :
    shr (~~~ 0#64) (64 - (n : Int)) = .ok ((~~~ 0#64) >>> (64 - n)) := by
  have e1 : (64 - (n : Int)) = ((64 - n : Nat) : Int) := by omega
  rw [e1]; unfold shr
  rw [if_neg (by omega)]; simp

theorem word_eq_iff (x y : Word) : (x == y) = true ↔ ∀ b, b < 64 → x.getLsbD b = y.getLsbD b := by
  rw [beq_iff_eq]
  constructor
  · rintro rfl b _; rfl
  · intro h; exact BitVec.eq_of_getLsbD_eq h

theorem eqLoop_spec (a b : Xpr) (ha : a.Faithful) (hb : b.Faithful) (hs : a.size = b.size) (n : Nat) :
    ∀ i (res : Bool), (i + n) * 64 ≤ a.size →
      (res = true ↔ ∀ p, p < i * 64 → a.lin p = b.lin p) →
      ∃ r, eqLoop a b i n res = .ok r ∧ (r = true ↔ ∀ p, p < (i + n) * 64 → a.lin p = b.lin p) := by
  induction n with
  | zero => intro i res _ h; exact ⟨res, rfl, h⟩
  | succ n ih =>
    intro i res hle h
    rw [eqLoop]
    by_cases hr : res = true
    · rw [if_pos hr]
      obtain ⟨x, hx1, hx2⟩ := bitpack_lin a ha i (pack_in _ _ (by omega))
      obtain ⟨y, hy1, hy2⟩ := bitpack_lin b hb i (pack_in _ _ (by omega))
      rw [hx1, hy1]
      simp only [Res.ok_bind]
      have := ih (i + 1) (res && (x == y)) (by omega) (by
        rw [Bool.and_eq_true, h, word_eq_iff]
        constructor
        · rintro ⟨h1, h2⟩ p hp
          by_cases hp' : p < i * 64
          · exact h1 p hp'
          · have h3 := h2 (p - i * 64) (by omega)
            rw [hx2 _ (by omega) (by omega), hy2 _ (by omega) (by omega)] at h3
            have e : i * 64 + (p - i * 64) = p := by omega
            rwa [e] at h3
        · intro h1
          refine ⟨fun p hp => h1 p (by omega), fun c hc => ?_⟩
          rw [hx2 _ (by omega) (by omega), hy2 _ (by omega) (by omega)]
          exact h1 _ (by omega))
      obtain ⟨r, h1, h2⟩ := this
      refine ⟨r, h1, ?_⟩
      rw [h2]
      have e : i + 1 + n = i + (n + 1) := by omega
      rw [e]
    · rw [if_neg hr]
      refine ⟨res, rfl, ?_⟩
      constructor
      · intro h1; exact absurd h1 hr
      · intro h1
        exact h.2 (fun p hp => h1 p (by omega))

theorem neLoop_eq (a b : Xpr) (n : Nat) : ∀ i res,
    neLoop a b i n res = (fun r => !r) <$> eqLoop a b i n (!res) := by
  induction n with
  | zero => intro i res; simp [neLoop, eqLoop]
  | succ n ih =>
    intro i res
    rw [neLoop, eqLoop]
    cases res
    · simp only [Bool.not_false, if_true]
      cases a.bitpack i with
      | ok x =>
        cases b.bitpack i with
        | ok y =>
          simp only [Res.ok_bind]
          rw [ih]
          congr 2
          simp [bne]
        | throws => rfl
        | ub => rfl
      | throws => rfl
      | ub => rfl
    · simp

/-- `operator==` when the number of coefficients is not a multiple of 64. -/
theorem eq_spec (a b : Xpr) (hwa : a.LeavesWF) (ha : a.Faithful) (hb : b.Faithful)
    (hr : a.rows = b.rows) (hc : a.cols = b.cols) (hm : a.size % 64 ≠ 0) :
    ∃ r, a.eq b = .ok r ∧ (r = true ↔ ∀ p, p < a.size → a.lin p = b.lin p) := by
  have hs : a.size = b.size := by unfold Xpr.size; rw [hr, hc]
  unfold Xpr.eq
  rw [if_pos ⟨hr, hc⟩, a.bitpacks_eq hwa]
  have hn : packs a.size - 1 = a.size / 64 := by unfold packs; omega
  rw [hn]
  dsimp only
  obtain ⟨r, h1, h2⟩ := eqLoop_spec a b ha hb hs (a.size / 64) 0 true (by omega) (by
    simp)
  simp only [Nat.zero_add] at h2
  have e1 : ((a.size : Int) - 64 * ((a.size / 64 : Nat) : Int)) = ((a.size % 64 : Nat) : Int) := by omega
  rw [h1]
  simp only [Res.ok_bind]
  rw [e1, shr_ones _ (by omega) (by omega)]
  obtain ⟨x, hx1, hx2⟩ := bitpack_lin a ha (a.size / 64) (pack_in _ _ (by omega))
  obtain ⟨y, hy1, hy2⟩ := bitpack_lin b hb (a.size / 64) (pack_in _ _ (by omega))
  rw [hx1, hy1]
  refine ⟨_, rfl, ?_⟩
  rw [Bool.and_eq_true, h2, mask_and_eq _ _ _ (a.size % 64)
    (fun b hb => getLsbD_highmask _ b (by omega) hb)]
  constructor
  · rintro ⟨h3, h4⟩ p hp
    by_cases hp' : p < a.size / 64 * 64
    · exact h3 p hp'
    · have h5 := h4 (p - a.size / 64 * 64) (by omega) (by omega)
      rw [hx2 _ (by omega) (by omega), hy2 _ (by omega) (by omega)] at h5
      have e : a.size / 64 * 64 + (p - a.size / 64 * 64) = p := by omega
      rwa [e] at h5
  · intro h3
    refine ⟨fun p hp => h3 p (by omega), fun c hc hc' => ?_⟩
    rw [hx2 _ (by omega) (by omega), hy2 _ (by omega) (by omega)]
    exact h3 _ (by omega)

theorem ne_eq_not_eq (a b : Xpr) : a.ne b = (fun r => !r) <$> a.eq b := by
  unfold Xpr.ne Xpr.eq
  by_cases h : a.rows = b.rows ∧ a.cols = b.cols
  · rw [if_pos h, if_pos h]
    simp only []
    rw [neLoop_eq, Bool.not_false]
    cases eqLoop a b 0 (a.bitpacks - 1) true with
    | ok r =>
      simp only [Res.map_ok, Res.ok_bind]
      cases shr (~~~ 0#64) (64 - ((a.size : Int) - 64 * ((a.bitpacks - 1 : Nat) : Int))) with
      | ok m =>
        simp only [Res.ok_bind]
        cases a.bitpack (a.bitpacks - 1) with
        | ok x =>
          simp only [Res.ok_bind]
          cases b.bitpack (a.bitpacks - 1) with
          | ok y =>
            simp only [Res.ok_bind, Res.pure_eq, Res.map_ok, bne]
            cases r <;> simp
          | throws => rfl
          | ub => rfl
        | throws => rfl
        | ub => rfl
      | throws => rfl
      | ub => rfl
    | throws => rfl
    | ub => rfl
  · rw [if_neg h, if_neg h]; rfl

/-- When the number of coefficients is a multiple of 64 the comparison always reaches the
over-wide shift. -/
theorem eq_ub (a b : Xpr) (hwa : a.LeavesWF) (ha : a.Faithful) (hb : b.Faithful)
    (hr : a.rows = b.rows) (hc : a.cols = b.cols) (hm : a.size % 64 = 0) : a.eq b = .ub := by
  have hs : a.size = b.size := by unfold Xpr.size; rw [hr, hc]
  unfold Xpr.eq
  rw [if_pos ⟨hr, hc⟩, a.bitpacks_eq hwa]
  have hn : packs a.size - 1 = a.size / 64 := by unfold packs; omega
  rw [hn]
  dsimp only
  obtain ⟨r, h1, _⟩ := eqLoop_spec a b ha hb hs (a.size / 64) 0 true (by omega) (by simp)
  rw [h1]
  simp only [Res.ok_bind]
  have e1 : ((a.size : Int) - 64 * ((a.size / 64 : Nat) : Int)) = 0 := by omega
  rw [e1]
  rfl

/-! ### select -/

theorem select_spec {α : Type} (zero : α) (e : Xpr) (hw : e.LeavesWF) (ha : e.asserts = true)
    (mtx : Nat → Nat → α) :
    ∃ g, e.select zero e.rows e.cols mtx = .ok g ∧
      ∀ i j, i < e.rows → j < e.cols → g i j = if e.den i j then mtx i j else zero := by
  unfold Xpr.select
  rw [if_pos ⟨rfl, rfl⟩]
  obtain ⟨g, h1, h2⟩ := forLoop2_inv
    (fun i j (acc : Nat → Nat → α) => do
      let x ← e.coeff i j
      return (if !x then (fun i' j' => if i' = i ∧ j' = j then zero else acc i' j') else acc))
    (fun i j acc => ∀ a b, a < e.rows → b < e.cols →
      acc a b = if before i j a b then (if e.den a b then mtx a b else zero) else mtx a b)
    e.rows e.cols mtx
    (by intro a b _ _; (try dsimp only); rw [if_neg]; unfold before; omega)
    (by
      intro i s hi hp a b ha hb
      rw [hp a b ha hb]
      have : before i e.cols a b ↔ before (i + 1) 0 a b := by unfold before; omega
      simp only [this])
    (by
      intro i j s hi hj hp
      rw [Xpr.coeff_den e hw ha i j hi hj]
      refine ⟨_, rfl, ?_⟩
      intro a b ha hb
      try dsimp only
      by_cases he : a = i ∧ b = j
      · obtain ⟨rfl, rfl⟩ := he
        have hbf : before a (b + 1) a b := by unfold before; omega
        rw [if_pos hbf]
        cases hd : e.den a b
        · simp
        · simp only [Bool.not_true, Bool.false_eq_true, if_false, if_true]
          rw [hp a b ha hb, if_neg]; unfold before; omega
      · have : before i (j + 1) a b ↔ before i j a b := by unfold before; omega
        simp only [this]
        rw [← hp a b ha hb]
        cases e.den i j
        · simp only [Bool.not_false, if_true, if_neg he]
        · simp)
  refine ⟨g, h1, ?_⟩
  intro i j hi hj
  try dsimp only
  rw [h2 i j hi hj, if_pos]; unfold before; omega

end Fdapde.BinMtx
