import Verif.FEM.Eval
import Verif.FEM.PropsLagrange
import Mathlib.Algebra.BigOperators.Field
/- C58 : evaluation matrices and basis expansions. -/
namespace Fdapde.FEM
variable {K : Type} [Field K]

theorem entry_nil (i j : Nat) : entry ([] : List (Trip K)) i j = 0 := rfl

theorem entry_append (l l' : List (Trip K)) (i j : Nat) : entry (l ++ l') i j = entry l i j + entry l' i j := by
  simp [entry]

theorem entry_single (a b : Nat) (x : K) (i j : Nat) : entry [(a, b, x)] i j = if a = i ∧ b = j then x else 0 := by
  unfold entry
  by_cases h : a = i ∧ b = j
  · simp [h]
  · rw [if_neg h, List.filter_cons, if_neg (by simpa using h)]; rfl

theorem entry_map_range (a : Nat) (f : Nat → Nat) (g : Nat → K) (i j : Nat) : ∀ n,
    entry ((List.range n).map fun h => (a, f h, g h)) i j =
      if a = i then ∑ h ∈ Finset.range n, (if f h = j then g h else 0) else 0
  | 0 => by simp [entry]
  | n + 1 => by
    rw [List.range_succ, List.map_append, entry_append, entry_map_range a f g i j n, List.map_singleton, entry_single,
      Finset.sum_range_succ]
    by_cases h : a = i
    · simp [h]
    · simp [h]

theorem entry_flatMap (f : Nat → List (Trip K)) (i j : Nat) : ∀ n,
    entry ((List.range n).flatMap f) i j = ∑ a ∈ Finset.range n, entry (f a) i j
  | 0 => by simp [entry]
  | n + 1 => by
    rw [List.range_succ, List.flatMap_append, entry_append, entry_flatMap f i j n, Finset.sum_range_succ, List.flatMap_singleton]

theorem foldl_snoc {α β : Type} (f : α → β) (acc : List β) (l : List α) :
    l.foldl (fun acc h => acc ++ [f h]) acc = acc ++ l.map f := by
  induction l generalizing acc with
  | nil => simp
  | cons a l ih => simp [ih]

/-- Triplets of one location. -/
def pRow (nb : Nat) (dofs : Nat → Nat → Nat) (ids : List Int) (psi : Nat → Nat → Nat → K) (i : Nat) : List (Trip K) :=
  if ids.getD i (-1) ≠ -1 then (List.range nb).map fun h => (i, dofs (ids.getD i (-1)).toNat h, psi (ids.getD i (-1)).toNat h i)
  else []

theorem pointEval_eq {nc nb : Nat} {dofs : Nat → Nat → Nat} {ids : List Int} {psi : Nat → Nat → Nat → K} (hne : ids.length ≠ 0)
    (hid : ∀ id ∈ ids, id = -1 ∨ (0 ≤ id ∧ id.toNat < nc)) :
    pointEval nc nb dofs ids psi = .ok ((List.range ids.length).flatMap (pRow nb dofs ids psi)) := by
  unfold pointEval
  rw [if_neg hne]
  have key : ∀ n ≤ ids.length, foldRes (pointRow nc nb dofs ids psi) [] (List.range n) =
      .ok ((List.range n).flatMap (pRow nb dofs ids psi)) := by
    intro n
    induction n with
    | zero => intro _; simp
    | succ n ih =>
      intro hn
      rw [List.range_succ, foldRes_append, ih (by omega), Res.ok_bind, foldRes_cons, List.flatMap_append, List.flatMap_singleton]
      have hget : ids[n]? = some ids[n] := List.getElem?_eq_getElem (by omega)
      have hgd : ids.getD n (-1) = ids[n] := by rw [List.getD_eq_getElem?_getD, hget]; rfl
      unfold pointRow pRow
      rw [hget, hgd]
      dsimp only
      by_cases h : ids[n] ≠ -1
      · rw [if_pos h, if_pos h, if_pos ((hid _ (List.getElem_mem _)).resolve_left h), foldl_snoc]; rfl
      · rw [if_neg h, if_neg h]; simp
  exact key _ le_rfl

theorem entry_pRow (nb : Nat) (dofs : Nat → Nat → Nat) (ids : List Int) (psi : Nat → Nat → Nat → K) (a i j : Nat) :
    entry (pRow nb dofs ids psi a) i j = if a = i ∧ ids.getD i (-1) ≠ -1 then
      ∑ h ∈ Finset.range nb, (if dofs (ids.getD i (-1)).toNat h = j then psi (ids.getD i (-1)).toNat h i else 0) else 0 := by
  unfold pRow
  by_cases h : a = i
  · subst h
    by_cases h2 : ids.getD a (-1) ≠ -1
    · rw [if_pos h2, entry_map_range, if_pos rfl, if_pos ⟨rfl, h2⟩]
    · rw [if_neg h2, if_neg (by tauto), entry_nil]
  · have h0 : ¬ (a = i ∧ ids.getD i (-1) ≠ -1) := fun e => h e.1
    by_cases h2 : ids.getD a (-1) ≠ -1
    · rw [if_pos h2, entry_map_range, if_neg h, if_neg h0]
    · rw [if_neg h2, entry_nil, if_neg h0]

/-- **C58**, pointwise evaluation.  `ids` is the result of point location: the number of a cell, or -1.  The row of a point
outside the domain is zero; the row of a point in cell c has the values of the functions of c at the columns of the dofs
of c and zeros elsewhere, and sums to the sum of the functions of c at the point, which is one by C55. -/
theorem C58_pointwise (nc nb N : Nat) (dofs : Nat → Nat → Nat) (ids : List Int) (psi : Nat → Nat → Nat → K) (hne : ids ≠ [])
    (hid : ∀ id ∈ ids, id = -1 ∨ (0 ≤ id ∧ id.toNat < nc))
    (hinj : ∀ c < nc, ∀ h < nb, ∀ h' < nb, dofs c h = dofs c h' → h = h') (hlt : ∀ c < nc, ∀ h < nb, dofs c h < N) :
    ∃ l, pointEval nc nb dofs ids psi = .ok l ∧
      (∀ i j, ids[i]? = some (-1) → entry l i j = 0) ∧
      (∀ i c : Nat, ids[i]? = some (c : Int) →
        (∀ h < nb, entry l i (dofs c h) = psi c h i) ∧ (∀ j, (∀ h < nb, dofs c h ≠ j) → entry l i j = 0) ∧
        ∑ j ∈ Finset.range N, entry l i j = ∑ h ∈ Finset.range nb, psi c h i) := by
  refine ⟨_, pointEval_eq (by simpa using hne) hid, ?_, ?_⟩
  · intro i j hi
    have : ids.getD i (-1) = -1 := by rw [List.getD_eq_getElem?_getD, hi]; rfl
    rw [entry_flatMap]
    refine Finset.sum_eq_zero (fun a _ => ?_)
    rw [entry_pRow, if_neg]
    rintro ⟨_, h⟩
    exact h this
  · intro i c hi
    have hg : ids.getD i (-1) = (c : Int) := by rw [List.getD_eq_getElem?_getD, hi]; rfl
    have hil : i < ids.length := (List.getElem?_eq_some_iff.1 hi).1
    have hc : c < nc := by
      have := hid _ (List.mem_of_getElem? hi)
      omega
    have he : ∀ j, entry ((List.range ids.length).flatMap (pRow nb dofs ids psi)) i j =
        ∑ h ∈ Finset.range nb, (if dofs c h = j then psi c h i else 0) := by
      intro j
      rw [entry_flatMap, Finset.sum_eq_single i]
      · rw [entry_pRow, if_pos ⟨rfl, by rw [hg]; omega⟩, hg, Int.toNat_natCast]
      · intro a _ ha; rw [entry_pRow, if_neg (by tauto)]
      · intro hn; exact absurd (Finset.mem_range.2 hil) hn
    refine ⟨?_, ?_, ?_⟩
    · intro h hh
      rw [he, Finset.sum_eq_single h]
      · rw [if_pos rfl]
      · intro h' hh' hne'
        rw [if_neg]
        intro e
        exact hne' (hinj c hc h' (Finset.mem_range.1 hh') h hh e)
      · intro hn; exact absurd (Finset.mem_range.2 hh) hn
    · intro j hj
      rw [he]
      exact Finset.sum_eq_zero (fun h hh => if_neg (hj h (Finset.mem_range.1 hh)))
    · simp only [he]
      rw [Finset.sum_comm]
      refine Finset.sum_congr rfl (fun h hh => ?_)
      rw [Finset.sum_ite_eq, if_pos (Finset.mem_range.2 (hlt c hc h (Finset.mem_range.1 hh)))]

/-- **C58**, rows sum to one: for the reference basis of a supported dimension and order, at any points of the reference
simplex (`xi c i` is the image of the i-th location in the reference simplex of cell c). -/
theorem C58_rows_sum_one [CharZero K] (M R nb nc N : Nat) (hs : Supported M R nb) (dofs : Nat → Nat → Nat) (ids : List Int)
    (xi : Nat → Nat → Nat → K) (hne : ids ≠ []) (hid : ∀ id ∈ ids, id = -1 ∨ (0 ≤ id ∧ id.toNat < nc))
    (hinj : ∀ c < nc, ∀ h < nb, ∀ h' < nb, dofs c h = dofs c h' → h = h') (hlt : ∀ c < nc, ∀ h < nb, dofs c h < N) :
    ∃ l, pointEval nc nb dofs ids (fun c h i => if hh : h < nb then refBasis K M R nb ⟨h, hh⟩ (xi c i) else 0) = .ok l ∧
      ∀ i c : Nat, ids[i]? = some (c : Int) → ∑ j ∈ Finset.range N, entry l i j = 1 := by
  obtain ⟨l, h1, _, h3⟩ := C58_pointwise nc nb N dofs ids
    (fun c h i => if hh : h < nb then refBasis K M R nb ⟨h, hh⟩ (xi c i) else 0) hne hid hinj hlt
  refine ⟨l, h1, fun i c hi => ?_⟩
  rw [(h3 i c hi).2.2, Finset.sum_range, ← C55_sum_one (K := K) M R nb hs (xi c i)]
  refine Finset.sum_congr rfl (fun h _ => ?_)
  rw [dif_pos h.2]

/-- **C58** (partial), expansion: if every location is in a cell and the node ids of a cell are its dofs (order 1), the
expansion is the evaluation matrix times the coefficients; a coefficient vector of the wrong size throws. -/
theorem C58_expansion_partial (nc nb N : Nat) (nodes : Nat → List Nat) (ids : List Int) (psi : Nat → Nat → Nat → K) (c : List K)
    (hne : ids ≠ []) (hid : ∀ id ∈ ids, 0 ≤ id ∧ id.toNat < nc) (hn : ∀ e < nc, (nodes e).length = nb)
    (hlt : ∀ e < nc, ∀ d ∈ nodes e, d < N) :
    (c.length ≠ N → expand nc nb N nodes ids psi c = .throws) ∧
    (c.length = N → ∃ r l, expand nc nb N nodes ids psi c = .ok r ∧ pointEval nc nb (fun e h => (nodes e).getD h 0) ids psi = .ok l ∧
      r.length = ids.length ∧ ∀ i < ids.length, r[i]? = some (∑ j ∈ Finset.range N, entry l i j * c.getD j 0)) := by
  refine ⟨fun h => by rw [expand, if_neg h], fun hc => ?_⟩
  have hval : ∀ i < ids.length, expandAt nc nb nodes ids psi c i =
      .ok (∑ h ∈ Finset.range nb, c.getD ((nodes (ids.getD i (-1)).toNat).getD h 0) 0 * psi (ids.getD i (-1)).toNat h i) := by
    intro i hi
    have hget : ids[i]? = some ids[i] := List.getElem?_eq_getElem hi
    have hgd : ids.getD i (-1) = ids[i] := by rw [List.getD_eq_getElem?_getD, hget]; rfl
    have hid' := hid _ (List.getElem_mem hi)
    unfold expandAt
    rw [hget, hgd]
    dsimp only
    rw [if_pos hid']
    have key : ∀ n ≤ nb, foldRes (fun v h =>
        match (nodes ids[i].toNat)[h]? with
        | none => Res.ub
        | some d => match c[d]? with
          | none => .ub
          | some x => .ok (v + x * psi ids[i].toNat h i)) 0 (List.range n) =
        .ok (∑ h ∈ Finset.range n, c.getD ((nodes ids[i].toNat).getD h 0) 0 * psi ids[i].toNat h i) := by
      intro n
      induction n with
      | zero => intro _; rfl
      | succ n ih =>
        intro hle
        have hl := hn _ hid'.2
        have g1 : (nodes ids[i].toNat)[n]? = some (nodes ids[i].toNat)[n] := List.getElem?_eq_getElem (by omega)
        have hd := hlt _ hid'.2 _ (List.getElem_mem (show n < (nodes ids[i].toNat).length by omega))
        have g2 : c[(nodes ids[i].toNat)[n]]? = some c[(nodes ids[i].toNat)[n]] := List.getElem?_eq_getElem (by omega)
        rw [List.range_succ, foldRes_append, ih (by omega), Res.ok_bind, foldRes_cons, g1]
        dsimp only
        rw [g2, Finset.sum_range_succ]
        have e1 : (nodes ids[i].toNat).getD n 0 = (nodes ids[i].toNat)[n] := by rw [List.getD_eq_getElem?_getD, g1]; rfl
        have e2 : c.getD (nodes ids[i].toNat)[n] 0 = c[(nodes ids[i].toNat)[n]] := by rw [List.getD_eq_getElem?_getD, g2]; rfl
        rw [e1, e2]; rfl
    exact key _ le_rfl
  have hrun : ∀ n ≤ ids.length, foldRes (fun acc i => (fun v => acc ++ [v]) <$> expandAt nc nb nodes ids psi c i) [] (List.range n) =
      .ok ((List.range n).map fun i => ∑ h ∈ Finset.range nb, c.getD ((nodes (ids.getD i (-1)).toNat).getD h 0) 0 * psi (ids.getD i (-1)).toNat h i) := by
    intro n
    induction n with
    | zero => intro _; rfl
    | succ n ih =>
      intro hle
      rw [List.range_succ, foldRes_append, ih (by omega), Res.ok_bind, foldRes_cons, hval n (by omega), List.map_append]
      rfl
  refine ⟨_, _, by rw [expand, if_pos hc]; exact hrun _ le_rfl,
    pointEval_eq (by simpa using hne) (fun id h => Or.inr (hid id h)), by simp, ?_⟩
  intro i hi
  rw [List.getElem?_map, List.getElem?_range hi, Option.map_some]
  congr 1
  have hget : ids[i]? = some ids[i] := List.getElem?_eq_getElem hi
  have hgd : ids.getD i (-1) = ids[i] := by rw [List.getD_eq_getElem?_getD, hget]; rfl
  have hid' := hid _ (List.getElem_mem hi)
  have he : ∀ j, entry ((List.range ids.length).flatMap (pRow nb (fun e h => (nodes e).getD h 0) ids psi)) i j =
      ∑ h ∈ Finset.range nb, (if (nodes (ids.getD i (-1)).toNat).getD h 0 = j then psi (ids.getD i (-1)).toNat h i else 0) := by
    intro j
    rw [entry_flatMap, Finset.sum_eq_single i]
    · rw [entry_pRow, if_pos ⟨rfl, by rw [hgd]; omega⟩]
    · intro a _ ha; rw [entry_pRow, if_neg (by tauto)]
    · intro hn; exact absurd (Finset.mem_range.2 hi) hn
  simp only [he, Finset.sum_mul]
  rw [Finset.sum_comm]
  refine Finset.sum_congr rfl (fun h hh => ?_)
  simp only [ite_mul, zero_mul]
  have hl := hn _ hid'.2
  have hd : (nodes (ids.getD i (-1)).toNat).getD h 0 < N := by
    rw [hgd, List.getD_eq_getElem?_getD, List.getElem?_eq_getElem (by have := Finset.mem_range.1 hh; omega)]
    exact hlt _ hid'.2 _ (List.getElem_mem _)
  rw [Finset.sum_ite_eq, if_pos (Finset.mem_range.2 hd), mul_comm]

example : ∃ (ids : List Int) (nodes : Nat → List Nat), ids ≠ [] ∧ (∀ id ∈ ids, 0 ≤ id ∧ id.toNat < 2) ∧
    (∀ e < 2, (nodes e).length = 3) ∧ (∀ e < 2, ∀ d ∈ nodes e, d < 4) :=
  ⟨[1, 0, 1], fun e => if e = 0 then [0, 1, 2] else [3, 2, 1], by decide, by decide, by decide, by decide⟩

/-- The basis expansion at a location outside of the domain reads a cell with number -1. -/
theorem C58_bug_outside (nc nb N : Nat) (nodes : Nat → List Nat) (ids : List Int) (psi : Nat → Nat → Nat → K) (c : List K)
    (hc : c.length = N) : expand nc nb N nodes (-1 :: ids) psi c = .ub := by
  rw [expand, if_pos hc, List.length_cons, List.range_succ_eq_map, foldRes_cons]
  rfl

/-- For second order elements the basis expansion indexes the node ids of the cell with the local number of an edge dof,
past the end, whatever the mesh and the location. -/
theorem C58_bug_order_two (nc nb N : Nat) (nodes : Nat → List Nat) (id : Nat) (ids : List Int) (psi : Nat → Nat → Nat → K) (c : List K)
    (hc : c.length = N) (hid : id < nc) (hn : (nodes id).length < nb) (hlt : ∀ d ∈ nodes id, d < N) :
    expand nc nb N nodes ((id : Int) :: ids) psi c = .ub := by
  rw [expand, if_pos hc, List.length_cons, List.range_succ_eq_map, foldRes_cons]
  have : expandAt nc nb nodes ((id : Int) :: ids) psi c 0 = .ub := by
    unfold expandAt
    simp only [List.getElem?_cons_zero, Int.toNat_natCast]
    rw [if_pos ⟨by omega, hid⟩]
    obtain ⟨m, rfl⟩ : ∃ m, nb = (nodes id).length + 1 + m := ⟨nb - ((nodes id).length + 1), by omega⟩
    rw [List.range_add, List.range_succ, foldRes_append, foldRes_append]
    have key : ∀ n ≤ (nodes id).length, ∃ v, foldRes (fun v h =>
        match (nodes id)[h]? with
        | none => Res.ub
        | some d => match c[d]? with
          | none => .ub
          | some x => .ok (v + x * psi id h 0)) 0 (List.range n) = .ok v := by
      intro n
      induction n with
      | zero => intro _; exact ⟨_, rfl⟩
      | succ n ih =>
        intro hle
        obtain ⟨v, hv⟩ := ih (by omega)
        have g1 : (nodes id)[n]? = some (nodes id)[n] := List.getElem?_eq_getElem (by omega)
        have hd := hlt _ (List.getElem_mem (show n < (nodes id).length by omega))
        have g2 : c[(nodes id)[n]]? = some c[(nodes id)[n]] := List.getElem?_eq_getElem (by omega)
        rw [List.range_succ, foldRes_append, hv, Res.ok_bind, foldRes_cons, g1]
        dsimp only
        rw [g2]
        exact ⟨_, rfl⟩
    obtain ⟨v, hv⟩ := key _ le_rfl
    erw [hv]
    rw [Res.ok_bind, foldRes_cons, List.getElem?_eq_none (by omega)]
    rfl
  rw [this]; rfl

/-! ### Areal evaluation -/

theorem modify_mid {α : Type} (p : List α) (x : α) (s : List α) (f : α → α) : (p ++ x :: s).modify p.length f = p ++ f x :: s := by
  induction p with
  | nil => simp
  | cons a p ih => simp [List.modify_succ_cons, ih]

theorem modify_range {α : Type} (f : α → α) (pre suf row : List α) :
    (List.range row.length).foldl (fun l j => l.modify (pre.length + j) f) (pre ++ row ++ suf) = pre ++ row.map f ++ suf := by
  induction row using List.reverseRecOn generalizing suf with
  | nil => simp
  | append_singleton row x ih =>
    rw [List.length_append, List.length_singleton, List.range_succ, List.foldl_append,
      show pre ++ (row ++ [x]) ++ suf = pre ++ row ++ (x :: suf) by simp, ih]
    simp only [List.foldl_cons, List.foldl_nil]
    have := modify_mid (pre ++ row.map f) x suf f
    rw [List.length_append, List.length_map] at this
    rw [this]; simp

/-- Triplets of subdomain `k` before the division. -/
def aRow (nc nb : Nat) (dofs : Nat → Nat → Nat) (inc : Nat → Nat → Bool) (int : Nat → Nat → K) (k : Nat) : List (Trip K) :=
  (List.range nc).flatMap fun l => if inc k l then (List.range nb).map fun h => (k, dofs l h, int l h) else []

theorem arealScan_eq (nc nb : Nat) (dofs : Nat → Nat → Nat) (inc : Nat → Nat → Bool) (int : Nat → Nat → K) (meas : Nat → K) (k : Nat)
    (acc : List (Trip K)) : arealScan nc nb dofs inc int meas k acc =
      (acc ++ aRow nc nb dofs inc int k, (aRow nc nb dofs inc int k).length,
        ∑ l ∈ Finset.range nc, if inc k l then meas l else 0) := by
  unfold arealScan
  have inner : ∀ l (s : List (Trip K) × Nat) n, (List.range n).foldl (fun (t : List (Trip K) × Nat) h => (t.1 ++ [(k, dofs l h, int l h)], t.2 + 1)) s =
      (s.1 ++ (List.range n).map (fun h => (k, dofs l h, int l h)), s.2 + n) := by
    intro l s n
    induction n with
    | zero => simp
    | succ n ih => rw [List.range_succ, List.foldl_append, ih]; simp [Nat.add_assoc]
  unfold aRow
  induction nc with
  | zero => simp
  | succ nc ih =>
    rw [List.range_succ, List.foldl_append, ih, List.foldl_cons, List.foldl_nil, List.flatMap_append, List.flatMap_singleton,
      Finset.sum_range_succ]
    by_cases h : inc k nc
    · simp only [h, if_true, inner]
      simp
    · simp [h]

theorem arealEval_eq (nc nb : Nat) (dofs : Nat → Nat → Nat) (inc : Nat → Nat → Bool) (int : Nat → Nat → K) (meas : Nat → K) : ∀ ns,
    arealEval ns nc nb dofs inc int meas =
      ((List.range ns).flatMap fun k => (aRow nc nb dofs inc int k).map fun t => (t.1, t.2.1, t.2.2 / ∑ l ∈ Finset.range nc, if inc k l then meas l else 0),
       (List.range ns).map fun k => ∑ l ∈ Finset.range nc, if inc k l then meas l else 0,
       ((List.range ns).flatMap fun k => aRow nc nb dofs inc int k).length)
  | 0 => rfl
  | ns + 1 => by
    have ih := arealEval_eq nc nb dofs inc int meas ns
    unfold arealEval at ih ⊢
    rw [List.range_succ, List.foldl_append, ih, List.foldl_cons, List.foldl_nil]
    unfold arealStep
    simp only [arealScan_eq]
    have hlen : ((List.range ns).flatMap fun k => aRow nc nb dofs inc int k).length =
        ((List.range ns).flatMap fun k => (aRow nc nb dofs inc int k).map fun t =>
          (t.1, t.2.1, t.2.2 / ∑ l ∈ Finset.range nc, if inc k l then meas l else 0)).length := by
      simp [List.length_flatMap]
    have := modify_range (fun t : Trip K => (t.1, t.2.1, t.2.2 / ∑ l ∈ Finset.range nc, if inc ns l then meas l else 0))
      ((List.range ns).flatMap fun k => (aRow nc nb dofs inc int k).map fun t =>
          (t.1, t.2.1, t.2.2 / ∑ l ∈ Finset.range nc, if inc k l then meas l else 0)) [] (aRow nc nb dofs inc int ns)
    rw [List.append_nil, List.append_nil, ← hlen] at this
    rw [this]
    simp [List.flatMap_append]

theorem entry_scale (l : List (Trip K)) (d : K) (i j : Nat) : entry (l.map fun t => (t.1, t.2.1, t.2.2 / d)) i j = entry l i j / d := by
  induction l with
  | nil => simp [entry]
  | cons t l ih =>
    rw [show t :: l = [t] ++ l from rfl, List.map_append, entry_append, entry_append, ih, add_div]
    congr 1
    obtain ⟨a, b, x⟩ := t
    rw [List.map_singleton, entry_single, entry_single]
    split_ifs
    · rfl
    · simp

/-- **C58**, areal evaluation: row k, column j is the sum over the cells of subdomain k and their local functions with dof j
of the integrals of those functions, divided by the total measure of the cells of the subdomain; the vector returned lists
these measures.  Rows of subdomains of non-zero measure sum to one when the integrals of the functions of a cell sum to its
measure. -/
theorem C58_areal (ns nc nb N : Nat) (dofs : Nat → Nat → Nat) (inc : Nat → Nat → Bool) (int : Nat → Nat → K) (meas : Nat → K)
    (hlt : ∀ c < nc, ∀ h < nb, dofs c h < N) :
    ∃ l D t, arealEval ns nc nb dofs inc int meas = (l, D, t) ∧ D.length = ns ∧
      ∀ k < ns, D[k]? = some (∑ c ∈ Finset.range nc, if inc k c then meas c else 0) ∧
        (∀ j, entry l k j = (∑ c ∈ Finset.range nc, if inc k c then ∑ h ∈ Finset.range nb, (if dofs c h = j then int c h else 0) else 0) /
          ∑ c ∈ Finset.range nc, if inc k c then meas c else 0) ∧
        ((∀ c < nc, ∑ h ∈ Finset.range nb, int c h = meas c) → (∑ c ∈ Finset.range nc, if inc k c then meas c else 0) ≠ 0 →
          ∑ j ∈ Finset.range N, entry l k j = 1) := by
  refine ⟨_, _, _, arealEval_eq nc nb dofs inc int meas ns, by simp, ?_⟩
  intro k hk
  have he : ∀ j, entry ((List.range ns).flatMap fun k => (aRow nc nb dofs inc int k).map fun t =>
      (t.1, t.2.1, t.2.2 / ∑ l ∈ Finset.range nc, if inc k l then meas l else 0)) k j =
      (∑ c ∈ Finset.range nc, if inc k c then ∑ h ∈ Finset.range nb, (if dofs c h = j then int c h else 0) else 0) /
        ∑ c ∈ Finset.range nc, if inc k c then meas c else 0 := by
    intro j
    rw [entry_flatMap, Finset.sum_eq_single k]
    · rw [entry_scale]
      congr 1
      unfold aRow
      rw [entry_flatMap]
      refine Finset.sum_congr rfl (fun c _ => ?_)
      split_ifs
      · rw [entry_map_range, if_pos rfl]
      · exact entry_nil k j
    · intro a _ ha
      rw [entry_scale]
      unfold aRow
      rw [entry_flatMap, Finset.sum_eq_zero, zero_div]
      intro c _
      split_ifs
      · rw [entry_map_range, if_neg ha]
      · exact entry_nil k j
    · intro hn; exact absurd (Finset.mem_range.2 hk) hn
  refine ⟨by rw [List.getElem?_map, List.getElem?_range hk]; rfl, he, ?_⟩
  intro hint hne
  simp only [he]
  rw [← Finset.sum_div, div_eq_one_iff_eq hne, Finset.sum_comm]
  refine Finset.sum_congr rfl (fun c hc => ?_)
  split_ifs with h
  · rw [Finset.sum_comm, ← hint c (Finset.mem_range.1 hc)]
    refine Finset.sum_congr rfl (fun h' hh' => ?_)
    rw [Finset.sum_ite_eq, if_pos (Finset.mem_range.2 (hlt c (Finset.mem_range.1 hc) h' (Finset.mem_range.1 hh')))]
  · simp

/-- Two triangles with 4 dofs, three locations one of which is outside, and two subdomains meet the hypotheses above. -/
example : ∃ (ids : List Int) (dofs : Nat → Nat → Nat), ids ≠ [] ∧ (∀ id ∈ ids, id = -1 ∨ (0 ≤ id ∧ id.toNat < 2)) ∧
    (∀ c < 2, ∀ h < 3, ∀ h' < 3, dofs c h = dofs c h' → h = h') ∧ (∀ c < 2, ∀ h < 3, dofs c h < 4) :=
  ⟨[1, -1, 0], fun c h => if c = 0 then [0, 1, 2].getD h 0 else [3, 2, 1].getD h 0, by decide, by decide, by decide, by decide⟩

example : (arealEval 2 2 2 (fun c h => c + h) (fun k c => decide (k = 0 ∨ c = 1)) (fun c _ => ((c : ℚ) + 1) / 2) (fun c => (c : ℚ) + 1)).2.1 =
    [3, 2] := by decide +kernel

/-- An empty list of locations throws. -/
theorem C58_no_locations (nc nb : Nat) (dofs : Nat → Nat → Nat) (psi : Nat → Nat → Nat → K) :
    pointEval nc nb dofs [] psi = .throws := rfl

end Fdapde.FEM
