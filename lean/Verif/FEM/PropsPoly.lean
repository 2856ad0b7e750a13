import Verif.FEM.Poly
import Verif.Combinatorics.Lemmas
import Mathlib.Analysis.Calculus.Deriv.Pow
import Mathlib.Analysis.Calculus.Deriv.Add
import Mathlib.Analysis.Calculus.Deriv.Mul
import Mathlib.Algebra.BigOperators.Intervals
import Mathlib.Tactic.Ring
import Mathlib.Tactic.SplitIfs
/- C53, C54 : the table of exponents, values and gradients of polynomials. -/
namespace Fdapde.FEM
open Fdapde.Combinatorics

/-! ### The enumeration -/

/-- Exponent vectors of total degree at most R, in the order of the code. -/
def enum (R : Nat) : Nat → List (List Nat)
  | 0 => [[]]
  | N + 1 => (enum R N).flatMap fun r => (List.range (R - r.sum + 1)).map (· :: r)

/-- The next vector, if any. -/
def succ (R : Nat) : List Nat → Option (List Nat)
  | [] => none
  | k :: r => if k + 1 + r.sum ≤ R then some ((k + 1) :: r) else (succ R r).map (0 :: ·)

theorem mem_enum (R : Nat) : ∀ N v, v ∈ enum R N ↔ v.length = N ∧ v.sum ≤ R
  | 0, v => by
    simp only [enum, List.mem_singleton]
    constructor
    · rintro rfl; simp
    · rintro ⟨h, _⟩; exact List.length_eq_zero_iff.1 h
  | N + 1, v => by
    simp only [enum, List.mem_flatMap, List.mem_map, List.mem_range]
    constructor
    · rintro ⟨r, hr, k, hk, rfl⟩
      have := (mem_enum R N r).1 hr
      simp only [List.length_cons, List.sum_cons]
      omega
    · rintro ⟨h1, h2⟩
      match v, h1 with
      | k :: r, h1 =>
        simp only [List.length_cons, List.sum_cons] at h1 h2
        exact ⟨r, (mem_enum R N r).2 ⟨by omega, by omega⟩, k, by omega, rfl⟩

theorem enum_nodup (R : Nat) : ∀ N, (enum R N).Nodup
  | 0 => by simp [enum]
  | N + 1 => by
    rw [enum, List.nodup_flatMap]
    refine ⟨fun r _ => List.nodup_range.map (fun a b h => by simpa using h), ?_⟩
    refine (enum_nodup R N).imp ?_
    intro a b hab
    rw [Function.onFun, List.disjoint_left]
    intro v hv hv'
    simp only [List.mem_map] at hv hv'
    obtain ⟨k, _, rfl⟩ := hv
    obtain ⟨k', _, h⟩ := hv'
    exact hab (by simpa using (List.cons.inj h).2.symm)

/-- Consecutive elements of a list are related by `succ`, the last has no successor. -/
def Chained (R : Nat) : List (List Nat) → Prop
  | [] => False
  | [v] => succ R v = none
  | v :: w :: l => succ R v = some w ∧ Chained R (w :: l)

theorem chained_append (R : Nat) (w : List Nat) (l' : List (List Nat)) : ∀ (l : List (List Nat)) (last : List Nat),
    (∀ v, l.getLast? = some v → True) → List.IsChain (fun a b => succ R a = some b) (l ++ [last]) → succ R last = some w →
      Chained R (w :: l') → Chained R (l ++ [last] ++ w :: l')
  | [], last, _, _, h2, h3 => ⟨h2, h3⟩
  | [v], last, _, h1, h2, h3 => by
    simp only [List.cons_append, List.nil_append, List.isChain_cons_cons] at h1 ⊢
    exact ⟨h1.1, h2, h3⟩
  | v :: u :: l, last, _, h1, h2, h3 => by
    simp only [List.cons_append, List.isChain_cons_cons] at h1
    have := chained_append R w l' (u :: l) last (fun _ _ => trivial) (by simpa using h1.2) h2 h3
    simp only [List.cons_append] at this ⊢
    exact ⟨h1.1, this⟩

theorem block_chain (R : Nat) (r : List Nat) (h : r.sum ≤ R) : ∀ n, n + r.sum ≤ R →
    List.IsChain (fun a b => succ R a = some b) ((List.range (n + 1)).map (· :: r)) := by
  intro n hn
  rw [List.isChain_map, List.isChain_iff_getElem]
  intro i hi
  simp only [List.length_range] at hi
  simp only [List.getElem_range]
  rw [succ, if_pos (by omega)]

theorem enum_chained (R : Nat) : ∀ N, (enum R N).head? = some (List.replicate N 0) ∧ Chained R (enum R N)
  | 0 => ⟨rfl, rfl⟩
  | N + 1 => by
    obtain ⟨hd, hc⟩ := enum_chained R N
    have key : ∀ l : List (List Nat), (∀ r ∈ l, r.sum ≤ R) → Chained R l →
        Chained R (l.flatMap fun r => (List.range (R - r.sum + 1)).map (· :: r)) ∧
        (l.flatMap fun r => (List.range (R - r.sum + 1)).map (· :: r)).head? = l.head?.map (0 :: ·) := by
      intro l
      induction l with
      | nil => intro _ h; exact h.elim
      | cons r l ih =>
        intro hs hch
        have hr := hs r (by simp)
        have hsplit : (List.range (R - r.sum + 1)).map (· :: r) =
            (List.range (R - r.sum)).map (· :: r) ++ [(R - r.sum) :: r] := by rw [List.range_succ, List.map_append]; rfl
        have hhead : ((List.range (R - r.sum + 1)).map (· :: r)).head? = some (0 :: r) := by
          rw [List.range_succ_eq_map]; rfl
        have hlastnone : ∀ x, succ R r = x → succ R ((R - r.sum) :: r) = x.map (0 :: ·) := by
          intro x hx; rw [succ, if_neg (by omega), hx]
        refine ⟨?_, ?_⟩
        · match l, ih, hch with
          | [], _, hch =>
            rw [List.flatMap_cons, List.flatMap_nil, List.append_nil]
            have hb := block_chain R r hr (R - r.sum) (by omega)
            have hn := hlastnone none hch
            revert hb
            rw [hsplit]
            generalize (List.range (R - r.sum)).map (· :: r) = l
            intro hb
            induction l with
            | nil => exact hn
            | cons a l ihl =>
              match l, ihl, hb with
              | [], _, hb =>
                simp only [List.cons_append, List.nil_append, List.isChain_cons_cons] at hb
                exact ⟨hb.1, hn⟩
              | b :: l, ihl, hb =>
                simp only [List.cons_append, List.isChain_cons_cons] at hb
                exact ⟨hb.1, ihl (by simpa using hb.2)⟩
          | w :: l, ih, hch =>
            obtain ⟨i1, i2⟩ := ih (fun q hq => hs q (by simp [hq])) hch.2
            rw [List.flatMap_cons, hsplit]
            generalize hG : (List.flatMap (fun r => (List.range (R - r.sum + 1)).map (· :: r)) (w :: l)) = G at i1 i2
            match G, i1, i2 with
            | g :: G, i1, i2 =>
              have hg : g = 0 :: w := by simpa using i2
              apply chained_append R g G _ _ (fun _ _ => trivial)
              · rw [← hsplit]; exact block_chain R r hr _ (by omega)
              · rw [hlastnone _ hch.1, hg]; rfl
              · exact i1
        · rw [List.flatMap_cons, List.head?_append, hhead]; rfl
    obtain ⟨k1, k2⟩ := key (enum R N) (fun r hr => ((mem_enum R N r).1 hr).2) hc
    refine ⟨?_, k1⟩
    show ((enum R N).flatMap _).head? = _
    rw [k2, hd]; rfl

theorem enum_length (R : Nat) : ∀ N, (enum R N).length = (R + N).choose R := by
  -- generating sums: number of vectors with N entries and sum exactly at most R
  suffices H : ∀ N, ∀ R' ≤ R, ((enum R N).filter fun v => decide (v.sum ≤ R')).length = (R' + N).choose R' by
    intro N
    have := H N R le_rfl
    rwa [List.filter_eq_self.2 (fun v hv => by simpa using ((mem_enum R N v).1 hv).2)] at this
  intro N
  induction N with
  | zero => intro R' _; simp [enum]
  | succ N ih =>
    intro R'
    have cons_count : ∀ R' (r : List Nat), r.sum ≤ R → R' ≤ R →
        (((List.range (R - r.sum + 1)).map (· :: r)).filter fun v => decide (v.sum ≤ R')).length =
          if r.sum ≤ R' then R' - r.sum + 1 else 0 := by
      intro R' r hr hR
      rw [List.filter_map, List.length_map]
      have : (fun v => decide (v.sum ≤ R')) ∘ (fun x => x :: r) = fun k => decide (k + r.sum ≤ R') := by
        funext k; exact decide_eq_decide.2 (by simp)
      rw [this]
      have hcount : ∀ n, ((List.range n).filter fun k => decide (k + r.sum ≤ R')).length =
          if r.sum ≤ R' then min n (R' - r.sum + 1) else 0 := by
        intro n
        induction n with
        | zero => simp
        | succ n ihn =>
          rw [List.range_succ, List.filter_append, List.length_append, ihn]
          by_cases h1 : r.sum ≤ R'
          · by_cases h2 : n + r.sum ≤ R'
            · simp [h1, h2]; omega
            · simp [h1, h2]; omega
          · simp [h1, show ¬ n + r.sum ≤ R' by omega]
      rw [hcount]
      split_ifs <;> omega
    induction R' with
    | zero =>
      intro _
      have h0 := ih 0 (by omega)
      simp only [Nat.zero_add, Nat.choose_zero_right] at h0 ⊢
      refine Eq.trans ?_ h0
      rw [show enum R (N + 1) = (enum R N).flatMap fun r => (List.range (R - r.sum + 1)).map (· :: r) from rfl]
      have : ∀ l : List (List Nat), (∀ r ∈ l, r.sum ≤ R) →
          ((l.flatMap fun r => (List.range (R - r.sum + 1)).map (· :: r)).filter fun v => decide (v.sum ≤ 0)).length =
          (l.filter fun v => decide (v.sum ≤ 0)).length := by
        intro l
        induction l with
        | nil => intro _; rfl
        | cons r l ihl =>
          intro h
          rw [List.flatMap_cons, List.filter_append, List.length_append, ihl (fun q hq => h q (by simp [hq])),
            cons_count 0 r (h r (by simp)) (by omega), List.filter_cons]
          by_cases hr : r.sum ≤ 0
          · simp [hr]; omega
          · simp [hr]
      exact this _ (fun r hr => ((mem_enum R N r).1 hr).2)
    | succ R' ihR =>
      intro hR
      have h1 := ihR (by omega)
      have h2 := ih (R' + 1) hR
      have e : (R' + 1 + (N + 1)).choose (R' + 1) = (R' + (N + 1)).choose R' + (R' + 1 + N).choose (R' + 1) := by
        rw [show R' + 1 + (N + 1) = (R' + N + 1) + 1 by omega, Nat.choose_succ_succ]
        congr 2 <;> omega
      rw [e, ← h1, ← h2, show enum R (N + 1) = (enum R N).flatMap fun r => (List.range (R - r.sum + 1)).map (· :: r) from rfl]
      have : ∀ l : List (List Nat), (∀ r ∈ l, r.sum ≤ R) →
          ((l.flatMap fun r => (List.range (R - r.sum + 1)).map (· :: r)).filter fun v => decide (v.sum ≤ R' + 1)).length =
          ((l.flatMap fun r => (List.range (R - r.sum + 1)).map (· :: r)).filter fun v => decide (v.sum ≤ R')).length +
          (l.filter fun v => decide (v.sum ≤ R' + 1)).length := by
        intro l
        induction l with
        | nil => intro _; rfl
        | cons r l ihl =>
          intro h
          rw [List.flatMap_cons, List.filter_append, List.length_append, ihl (fun q hq => h q (by simp [hq])),
            List.filter_append, List.length_append,
            cons_count (R' + 1) r (h r (by simp)) hR, cons_count R' r (h r (by simp)) (by omega), List.filter_cons]
          by_cases hr : r.sum ≤ R'
          · simp [hr, show r.sum ≤ R' + 1 by omega]; omega
          · by_cases hr' : r.sum ≤ R' + 1
            · simp [hr, hr']; omega
            · simp [hr, hr']
      exact this _ (fun r hr => ((mem_enum R N r).1 hr).2)

/-! ### The code produces the enumeration -/

theorem sum_zeros (i : Nat) (r : List Nat) : (List.replicate i 0 ++ r).sum = r.sum := by simp

theorem modify_after (i : Nat) (l : List Nat) (f : Nat → Nat) :
    (List.replicate i 0 ++ 0 :: l).modify (i + 1) f = List.replicate i 0 ++ ([0] ++ l.modify 0 f) := by
  induction i with
  | zero => simp [List.modify_succ_cons]
  | succ i ih => rw [List.replicate_succ, List.cons_append, List.modify_succ_cons, ih]; rfl

theorem nextRow_succ (R : Nat) : ∀ (r : List Nat) (N i : Nat), r ≠ [] → i + r.length = N →
    nextRow N R r.length i (List.replicate i 0 ++ r.modify 0 (· + 1)) =
      match succ R r with
      | some s => .ok (List.replicate i 0 ++ s, (List.replicate i 0 ++ s).modify 0 (· + 1))
      | none => .ub
  | [], _, _, h, _ => absurd rfl h
  | k :: r, N, i, _, hN => by
    have hget : (List.replicate i 0 ++ (k :: r).modify 0 (· + 1))[i]? = some (k + 1) := by
      rw [List.getElem?_append_right (by simp)]; simp
    have hsum : (List.replicate i 0 ++ (k :: r).modify 0 (· + 1)).sum = k + 1 + r.sum := by simp
    rw [List.length_cons, nextRow, hget]
    dsimp only
    rw [succ]
    by_cases hc : k + 1 + r.sum ≤ R
    · rw [if_pos ⟨by omega, by rw [hsum]; exact hc⟩, if_pos hc]; rfl
    · rw [if_neg (by rw [hsum]; omega), if_neg hc]
      match r with
      | [] =>
        rw [if_neg (by simp at hN; omega)]
        rfl
      | d :: r =>
        rw [if_pos (by simp at hN; omega)]
        have hset : ((List.replicate i 0 ++ (k + 1) :: d :: r).set i 0).modify (i + 1) (· + 1) =
            List.replicate (i + 1) 0 ++ (d :: r).modify 0 (· + 1) := by
          rw [List.set_append_right _ _ (by simp)]
          simp only [List.length_replicate, Nat.sub_self, List.set_cons_zero]
          rw [show List.replicate (i + 1) 0 = List.replicate i 0 ++ [0] from List.replicate_succ', List.append_assoc]
          exact modify_after i _ _
        rw [List.modify_zero_cons, hset, show (d :: r).length = (d :: r).length from rfl, nextRow_succ R (d :: r) N (i + 1) (by simp) (by simp at hN ⊢; omega)]
        cases succ R (d :: r) with
        | none => rfl
        | some s => simp [List.replicate_succ']

theorem polyExp_eq (N R : Nat) (hN : 1 ≤ N) : polyExp N R = .ok (enum R N) := by
  unfold polyExp
  rw [ctBinomial_eq _ _ (by omega), ← enum_length R N]
  obtain ⟨hd, hc⟩ := enum_chained R N
  have hmem := fun v => (mem_enum R N v).1
  generalize enum R N = l at hd hc hmem
  match l, hd, hc, hmem with
  | v :: l, hd, hc, hmem =>
    have hv : v = List.replicate N 0 := by simpa using hd
    have hrun : ∀ (l : List (List Nat)) (v : List Nat) (acc : List (List Nat)) (xs : List Nat), xs.length = l.length → v ≠ [] → v.length = N →
        Chained R (v :: l) → ∃ t, foldRes (fun (s : List (List Nat) × List Nat) _ =>
          (fun r => (s.1 ++ [r.1], r.2)) <$> nextRow N R N 0 s.2) (acc, v.modify 0 (· + 1)) xs = .ok (acc ++ l, t) := by
      intro l
      induction l with
      | nil => intro v acc xs hx _ _ _; rw [List.length_eq_zero_iff.1 hx, List.append_nil]; exact ⟨_, rfl⟩
      | cons w l ih =>
        intro v acc xs hx hne hl hch
        match xs, hx with
        | x :: xs, hx =>
          have h1 := nextRow_succ R v N 0 hne (by omega)
          rw [hl, hch.1] at h1
          simp only [List.replicate_zero, List.nil_append] at h1
          have hwl : w.length = N := by
            have : ∀ v w, succ R v = some w → w.length = v.length := by
              intro v
              induction v with
              | nil => intro w h; simp [succ] at h
              | cons k r ihv =>
                intro w h
                rw [succ] at h
                split_ifs at h with hc
                · rw [← Option.some.inj h]; simp
                · cases hs : succ R r with
                  | none => rw [hs] at h; simp at h
                  | some s => rw [hs] at h; rw [← Option.some.inj h]; simp [ihv s hs]
            rw [this v w hch.1, hl]
          obtain ⟨t, ht⟩ := ih w (acc ++ [w]) xs (by simpa using hx) (by intro h; rw [h] at hwl; simp at hwl; omega) hwl hch.2
          refine ⟨t, ?_⟩
          rw [foldRes_cons, h1, Res.map_ok, Res.ok_bind, ht]
          simp
    rw [List.length_cons, List.range_succ_eq_map, foldRes_cons]
    have h0 : nextRow N R N 0 (List.replicate N 0) = .ok (v, v.modify 0 (· + 1)) := by
      obtain ⟨M, rfl⟩ : ∃ m, N = m + 1 := ⟨N - 1, by omega⟩
      rw [hv]
      simp [nextRow, List.replicate_succ]
    rw [h0, Res.map_ok, Res.ok_bind]
    obtain ⟨t, ht⟩ := hrun l v ([] ++ [v]) ((List.range l.length).map Nat.succ) (by simp)
      (by rw [hv]; intro h; have := congrArg List.length h; simp at this; omega) (by rw [hv]; simp) hc
    exact (congrArg _ ht).trans rfl

/-- **C53.**  The table has binom(N + R, R) rows; its rows are the vectors of N exponents of total degree at most R, each
once; the first row is the constant monomial. -/
theorem C53_table (N R : Nat) (hN : 1 ≤ N) :
    ∃ l, polyExp N R = .ok l ∧ l.length = (N + R).choose R ∧ l.Nodup ∧
      (∀ v : List Nat, v ∈ l ↔ v.length = N ∧ v.sum ≤ R) ∧ l.head? = some (List.replicate N 0) :=
  ⟨_, polyExp_eq N R hN, by rw [enum_length, Nat.add_comm], enum_nodup R N, mem_enum R N, (enum_chained R N).1⟩

example : polyExp 2 2 = .ok [[0, 0], [1, 0], [2, 0], [0, 1], [1, 1], [0, 2]] := by decide

/-! ### Values and derivatives -/

variable {K : Type} [CommRing K]

theorem monomial_eq (p : Nat → K) (v : Nat → Nat) : ∀ n, monomial p v n = ∏ z ∈ Finset.range (n + 1), p z ^ v z
  | 0 => by
    simp only [monomial]
    rw [Finset.prod_range_one]
    split_ifs with h
    · rw [h, pow_zero]
    · rfl
  | n + 1 => by
    rw [monomial, Finset.prod_range_succ, monomial_eq p v n]
    split_ifs with h
    · rw [h, pow_zero, mul_one]
    · rw [mul_comm]

/-- **C54**, value: the polynomial with `n + 1` monomials in `M + 1` variables evaluates to the sum over the monomials of
the coefficient times the product of powers, whatever the table, coefficients and point (zero coordinates included). -/
theorem C54_value (c p : Nat → K) (tab : Nat → Nat → Nat) (M : Nat) : ∀ n,
    monomialSum c p tab M n = ∑ m ∈ Finset.range (n + 1), c m * ∏ z ∈ Finset.range (M + 1), p z ^ tab m z
  | 0 => by simp [monomialSum, monomial_eq]
  | n + 1 => by
    rw [monomialSum, Finset.sum_range_succ, C54_value c p tab M n, monomial_eq, add_comm]

theorem polyDeriv_eq (c p : Nat → K) (tab : Nat → Nat → Nat) (M i : Nat) : ∀ n,
    polyDeriv c p tab M n i = ∑ m ∈ Finset.range n, c m * (tab m i : K) * ∏ z ∈ Finset.range (M + 1), p z ^ gradRow i (tab m) z
  | 0 => rfl
  | n + 1 => by
    have ih := polyDeriv_eq c p tab M i n
    unfold polyDeriv at ih ⊢
    rw [List.range_succ, List.foldl_append, ih, Finset.sum_range_succ]
    simp only [List.foldl_cons, List.foldl_nil]
    split_ifs with h
    · rw [monomial_eq]
    · push Not at h; rw [h]; simp

/-- **C54**, gradient: the i-th component of the gradient is the partial derivative of the value with respect to the i-th
coordinate, at every point. -/
theorem C54_gradient (c p : Nat → ℝ) (tab : Nat → Nat → Nat) (M n i : Nat) (hi : i ≤ M) :
    HasDerivAt (fun t => monomialSum c (Function.update p i t) tab M n) (polyDeriv c p tab M (n + 1) i) (p i) := by
  have hfun : (fun t => monomialSum c (Function.update p i t) tab M n) = fun t => ∑ m ∈ Finset.range (n + 1),
      c m * (t ^ tab m i * ∏ z ∈ (Finset.range (M + 1)).erase i, p z ^ tab m z) := by
    funext t
    rw [C54_value]
    refine Finset.sum_congr rfl (fun m _ => ?_)
    congr 1
    rw [← Finset.mul_prod_erase _ _ (Finset.mem_range.2 (show i < M + 1 by omega)), Function.update_self]
    congr 1
    refine Finset.prod_congr rfl (fun z hz => ?_)
    rw [Function.update_of_ne (Finset.ne_of_mem_erase hz)]
  rw [hfun, polyDeriv_eq]
  apply HasDerivAt.fun_sum
  intro m _
  have h1 := ((hasDerivAt_pow (tab m i) (p i)).mul_const (∏ z ∈ (Finset.range (M + 1)).erase i, p z ^ tab m z)).const_mul (c m)
  refine h1.congr_deriv ?_
  rw [← Finset.mul_prod_erase (Finset.range (M + 1)) (fun z => p z ^ gradRow i (tab m) z) (Finset.mem_range.2 (show i < M + 1 by omega))]
  have e : ∏ z ∈ (Finset.range (M + 1)).erase i, p z ^ gradRow i (tab m) z = ∏ z ∈ (Finset.range (M + 1)).erase i, p z ^ tab m z := by
    refine Finset.prod_congr rfl (fun z hz => ?_)
    rw [gradRow, if_neg (Finset.ne_of_mem_erase hz).symm]
  rw [e]
  by_cases h0 : tab m i = 0
  · simp [h0]
  · simp only [gradRow, if_true, if_neg h0]
    ring

end Fdapde.FEM
