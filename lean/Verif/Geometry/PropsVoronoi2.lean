import Verif.Geometry.Voronoi2Spec
import Verif.Geometry.PropsClockwise
import Mathlib.Tactic.IntervalCases
/- C95: Voronoi diagram of a planar mesh. -/
namespace Fdapde.Voronoi2
open Geometry
set_option linter.unusedSectionVars false
section
variable {K : Type} [Field K] [LinearOrder K]

/-- Invariant of the constructor: `a` cells were visited, rows from `m.nCells` to `k` are in use, and the cell of `v`
has the points `items v`. -/
structure Inv (m : Mesh K) (a k : Nat) (items : Nat → List (K × K)) (s : V K) : Prop where
  rows : s.rows = m.nCells + m.nBoundaryEdges + m.nBoundaryNodes
  hk : s.k = k
  le : m.nCells ≤ k
  pts : ∀ v, ((s.cells v).map s.nodes).Perm ((items v).map some)
  used : ∀ v, ∀ i ∈ s.cells v, i < a ∨ (m.nCells ≤ i ∧ i < k)
  bd : ∀ v, ∀ i ∈ s.cells v, m.nCells ≤ i → m.nodeBd v = true
  mark : ∀ r, s.markers r = true ↔ m.nCells ≤ r ∧ r < k
  written : ∀ r, s.nodes r ≠ none ↔ r < a ∨ (m.nCells ≤ r ∧ r < k)

theorem push_cells (s : V K) (ids : List Nat) (i : Nat) (hn : ids.Nodup) (v : Nat) :
    (s.push ids i).cells v = s.cells v ++ if v ∈ ids then [i] else [] := by
  unfold V.push
  dsimp only
  generalize s.cells = c
  induction ids generalizing c with
  | nil => simp
  | cons a t ih =>
    have hn' := List.nodup_cons.1 hn
    rw [List.foldl_cons, ih hn'.2]
    by_cases h : v = a
    · subst h
      simp [upd, hn'.1]
    · simp [upd, h]

/-- Writing a fresh row and listing it in some cells. -/
theorem pts_push {s : V K} {items : Nat → List (K × K)} {r : Nat} {x : K × K} {ids : List Nat} (hn : ids.Nodup)
    (hp : ∀ v, ((s.cells v).map s.nodes).Perm ((items v).map some)) (hr : ∀ v, r ∉ s.cells v) (v : Nat) :
    (((s.push ids r).cells v).map (upd s.nodes r (some x))).Perm
      ((items v ++ if v ∈ ids then [x] else []).map some) := by
  rw [push_cells _ _ _ hn, List.map_append, List.map_append]
  have e : (s.cells v).map (upd s.nodes r (some x)) = (s.cells v).map s.nodes := by
    apply List.map_congr_left
    intro i hi
    have : i ≠ r := fun h => hr v (h ▸ hi)
    simp [upd, this]
  rw [e]
  refine (hp v).append ?_
  split <;> simp [upd]

theorem edge_inv {m : Mesh K} {a k : Nat} {items : Nat → List (K × K)} {s : V K} (h : Inv m a k items s)
    (ha : a ≤ m.nCells) (x : K × K) (e : Nat) (hn : (m.edgeNodes e).Nodup) (hb : m.edgeBd e = true)
    (hbd : ∀ v ∈ m.edgeNodes e, m.nodeBd v = true) (hk : k < m.nCells + m.nBoundaryEdges + m.nBoundaryNodes) :
    ∃ s', edgeStep m x s e = .ok s' ∧
      Inv m a (k + 1) (fun v => items v ++ if v ∈ m.edgeNodes e then [m.project e x] else []) s' := by
  have hk' := h.hk
  have hle := h.le
  unfold edgeStep V.write
  simp only [hb, if_true, h.rows, hk', hk, Res.ok_bind]
  refine ⟨_, rfl, ?_⟩
  have fresh : ∀ v, k ∉ s.cells v := by
    intro v hv
    rcases h.used v k hv with h1 | h1 <;> omega
  constructor
  · rfl
  · simp [V.push, V.mark]
  · omega
  · intro v
    have := pts_push (x := m.project e x) hn h.pts fresh v
    simpa [V.push, V.mark, hk'] using this
  · intro v i hi
    have hi' : i ∈ (s.push (m.edgeNodes e) k).cells v := by simpa [V.push, V.mark, hk'] using hi
    rw [push_cells _ _ _ hn, List.mem_append] at hi'
    rcases hi' with hi' | hi'
    · rcases h.used v i hi' with h1 | h1
      · exact Or.inl h1
      · exact Or.inr ⟨h1.1, by omega⟩
    · split at hi'
      · simp at hi'; exact Or.inr (by omega)
      · simp at hi'
  · intro v i hi hle
    have hi' : i ∈ (s.push (m.edgeNodes e) k).cells v := by simpa [V.push, V.mark, hk'] using hi
    rw [push_cells _ _ _ hn, List.mem_append] at hi'
    rcases hi' with hi' | hi'
    · exact h.bd v i hi' hle
    · split at hi'
      · rename_i hve; exact hbd v hve
      · simp at hi'
  · intro r
    have := h.mark r
    simp only [V.push, V.mark, hk', upd]
    by_cases hr : r = k
    · subst hr; simp; omega
    · simp only [hr, if_false, this]; omega
  · intro r
    have := h.written r
    simp only [V.push, V.mark, hk', upd]
    by_cases hr : r = k
    · subst hr; simp; omega
    · simp only [hr, if_false, this]; omega

theorem edges_inv {m : Mesh K} {a : Nat} (ha : a ≤ m.nCells) (x : K × K) (es : List Nat)
    (hes : ∀ e ∈ es, (m.edgeNodes e).Nodup)
    (hbd : ∀ e ∈ es, m.edgeBd e = true → ∀ v ∈ m.edgeNodes e, m.nodeBd v = true) {k : Nat} {items : Nat → List (K × K)} {s : V K} (h : Inv m a k items s)
    (hk : k + es.countP m.edgeBd ≤ m.nCells + m.nBoundaryEdges + m.nBoundaryNodes) :
    ∃ s', foldRes (edgeStep m x) s es = .ok s' ∧
      Inv m a (k + es.countP m.edgeBd) (fun v => items v ++
        (es.filter fun e => m.edgeBd e && decide (v ∈ m.edgeNodes e)).map (fun e => m.project e x)) s' := by
  induction es generalizing k items s with
  | nil => exact ⟨s, rfl, by simpa using h⟩
  | cons e es ih =>
    rw [foldRes_cons]
    by_cases hb : m.edgeBd e = true
    · rw [List.countP_cons_of_pos hb] at hk ⊢
      obtain ⟨s1, h1, h2⟩ := edge_inv h ha x e (hes e (by simp)) hb (hbd e (by simp) hb) (by omega)
      obtain ⟨s2, h3, h4⟩ := ih (fun e he => hes e (by simp [he])) (fun e he => hbd e (by simp [he])) h2 (by omega)
      rw [h1, Res.ok_bind]
      refine ⟨s2, h3, ?_⟩
      have e1 : k + 1 + es.countP m.edgeBd = k + (es.countP m.edgeBd + 1) := by omega
      rw [e1] at h4
      refine (by convert h4 using 2 with v; by_cases hv : v ∈ m.edgeNodes e <;> simp [hb, hv])
    · have hs : edgeStep m x s e = .ok s := by simp [edgeStep, hb]
      rw [hs, Res.ok_bind]
      rw [List.countP_cons_of_neg hb] at hk ⊢
      obtain ⟨s2, h3, h4⟩ := ih (fun e he => hes e (by simp [he])) (fun e he => hbd e (by simp [he])) h hk
      refine ⟨s2, h3, ?_⟩
      convert h4 using 2 with v
      simp [hb]

/-- The items a triangle adds to the cell of `v`. -/
def cellItems (m : Mesh K) (v c : Nat) : List (K × K) :=
  (if v ∈ m.cellNodes c then [m.circumcenter c] else []) ++
    ((m.cellEdges c).filter fun e => m.edgeBd e && decide (v ∈ m.edgeNodes e)).map
      (fun e => m.project e (m.circumcenter c))

theorem cellBd_of_edge {m : Mesh K} {order : List Nat} (hm : Valid m order) {c e : Nat} (hc : c < m.nCells)
    (he : e ∈ m.cellEdges c) (hb : m.edgeBd e = true) : m.cellBd c = true := by
  unfold Mesh.cellBd
  obtain ⟨hn, hl⟩ := hm.edge_nodup c hc e he
  have hsub : (m.edgeNodes e) ⊆ (m.cellNodes c).filter m.nodeBd := by
    intro v hv
    rw [List.mem_filter]
    exact ⟨hm.edge_sub c hc e he v hv, hm.edge_bd c hc e he hb v hv⟩
  have := (hn.subperm hsub).length_le
  rw [← List.countP_eq_length_filter, hl] at this
  simpa using this

theorem cell_inv {m : Mesh K} {order : List Nat} (hm : Valid m order) {c k : Nat} {items : Nat → List (K × K)} {s : V K}
    (h : Inv m c k items s) (hc : c < m.nCells)
    (hk : k + (m.cellEdges c).countP m.edgeBd ≤ m.nCells + m.nBoundaryEdges + m.nBoundaryNodes) :
    ∃ s', cellStep m s c = .ok s' ∧
      Inv m (c + 1) (k + (m.cellEdges c).countP m.edgeBd) (fun v => items v ++ cellItems m v c) s' := by
  have hle := h.le
  unfold cellStep V.write
  have hr : c < s.rows := by rw [h.rows]; omega
  simp only [hr, if_true, Res.ok_bind]
  have fresh : ∀ v, c ∉ s.cells v := by
    intro v hv
    rcases h.used v c hv with h1 | h1 <;> omega
  have hn := hm.cell_nodup c hc
  have h1 : Inv m (c + 1) k (fun v => items v ++ if v ∈ m.cellNodes c then [m.circumcenter c] else [])
      (({ s with nodes := upd s.nodes c (some (m.circumcenter c)) } : V K).push (m.cellNodes c) c) := by
    constructor
    · exact h.rows
    · exact h.hk
    · exact h.le
    · intro v
      exact pts_push (x := m.circumcenter c) hn h.pts fresh v
    · intro v i hi
      rw [push_cells _ _ _ hn, List.mem_append] at hi
      rcases hi with hi | hi
      · rcases h.used v i hi with h1 | h1
        · exact Or.inl (by omega)
        · exact Or.inr h1
      · split at hi
        · simp at hi; exact Or.inl (by omega)
        · simp at hi
    · intro v i hi hle
      rw [push_cells _ _ _ hn, List.mem_append] at hi
      rcases hi with hi | hi
      · exact h.bd v i hi hle
      · split at hi
        · simp at hi; omega
        · simp at hi
    · exact h.mark
    · intro r
      have := h.written r
      simp only [V.push, upd]
      by_cases hr : r = c
      · subst hr; simp
      · simp only [hr, if_false, this]; omega
  by_cases hb : m.cellBd c = true
  · rw [if_pos hb]
    obtain ⟨s', h2, h3⟩ := edges_inv (by omega) (m.circumcenter c) (m.cellEdges c)
      (fun e he => (hm.edge_nodup c hc e he).1) (fun e he => hm.edge_bd c hc e he) h1 hk
    refine ⟨s', h2, ?_⟩
    convert h3 using 2 with v
    simp [cellItems, List.append_assoc]
  · rw [if_neg hb]
    have hno : ∀ e ∈ m.cellEdges c, ¬ m.edgeBd e = true := fun e he hbe => hb (cellBd_of_edge hm hc he hbe)
    have h0 : (m.cellEdges c).countP m.edgeBd = 0 := by rw [List.countP_eq_zero]; exact hno
    refine ⟨_, rfl, ?_⟩
    rw [h0]
    have e : (fun v => items v ++ cellItems m v c) =
        fun v => items v ++ if v ∈ m.cellNodes c then [m.circumcenter c] else [] := ?_
    · rw [e]; exact h1
    funext v
    have : (m.cellEdges c).filter (fun e => m.edgeBd e && decide (v ∈ m.edgeNodes e)) = [] := by
      rw [List.filter_eq_nil_iff]
      intro e he
      simp [hno e he]
    simp [cellItems, this]

theorem cells_inv {m : Mesh K} {order : List Nat} (hm : Valid m order) :
    ∃ s, foldRes (cellStep m) (init m) (List.range m.nCells) = .ok s ∧
      Inv m m.nCells (m.nCells + m.nBoundaryEdges) (fun v => (List.range m.nCells).flatMap (cellItems m v)) s := by
  have key : ∀ n ≤ m.nCells, ∃ s, foldRes (cellStep m) (init m) (List.range n) = .ok s ∧
      Inv m n (m.nCells + ((List.range n).flatMap m.cellEdges).countP m.edgeBd)
        (fun v => (List.range n).flatMap (cellItems m v)) s := by
    intro n
    induction n with
    | zero =>
      intro _
      refine ⟨_, rfl, ?_⟩
      constructor
      · rfl
      · simp [init]
      · simp
      · simp [init]
      · simp [init]
      · simp [init]
      · intro r; simp [init]
      · intro r; simp [init]
    | succ n ih =>
      intro hn
      obtain ⟨s, h1, h2⟩ := ih (by omega)
      have hcount : ((List.range n).flatMap m.cellEdges).countP m.edgeBd + (m.cellEdges n).countP m.edgeBd ≤
          m.nBoundaryEdges := by
        rw [← hm.edges_count, ← List.countP_append]
        have : (List.range n).flatMap m.cellEdges ++ m.cellEdges n = (List.range (n + 1)).flatMap m.cellEdges := by
          rw [List.range_succ, List.flatMap_append]; simp
        rw [this]
        have hsplit : List.range m.nCells = List.range (n + 1) ++ (List.range (m.nCells - (n + 1))).map (n + 1 + ·) := by
          rw [← List.range_add]; congr 1; omega
        rw [hsplit, List.flatMap_append, List.countP_append]
        omega
      obtain ⟨s', h3, h4⟩ := cell_inv hm h2 (by omega) (by omega)
      rw [List.range_succ, foldRes_append, h1, Res.ok_bind, foldRes_cons, h3, Res.ok_bind]
      refine ⟨s', rfl, ?_⟩
      rw [List.flatMap_append, List.countP_append, ← Nat.add_assoc]
      convert h4 using 2
      · simp
      · simp
  have := key m.nCells le_rfl
  rw [hm.edges_count] at this
  exact this

end

theorem center_perm {l l' : List (ℝ × ℝ)} (h : l.Perm l') : center l = center l' := by
  unfold center
  rw [(h.map Prod.fst).sum_eq, (h.map Prod.snd).sum_eq, h.length_eq]

theorem mean_eq (s : V ℝ) (l : List Nat) : mean s l = center (l.map fun i => (s.nodes i).getD (0, 0)) := by
  simp [mean, center, List.map_map, Function.comp_def]

theorem before_weak (s : V ℝ) (c : ℝ × ℝ) : StrictWeak (before s c) := by
  obtain ⟨h1, h2, h3, h4⟩ := C94_strict_total c
  refine ⟨fun a => h1 _, fun a b d => h3 _ _ _, fun a b d hab hba hbd hdb => ?_⟩
  unfold before at *
  rw [h4 _ _ hab hba, h4 _ _ hbd hdb]
  exact ⟨h1 _, h1 _⟩

/-- Points of a cell in clockwise order around their mean. -/
def Sorted (s : V ℝ) (v : Nat) : Prop := (s.points v).Pairwise fun x y => clockwise (center (s.points v)) y x = false

/-- Invariant of the second loop. -/
structure SInv (m : Mesh ℝ) (done : List Nat) (s : V ℝ) : Prop where
  inv : Inv m m.nCells (m.nCells + m.nBoundaryEdges + done.countP m.nodeBd)
    (fun v => (List.range m.nCells).flatMap (cellItems m v) ++ if v ∈ done ∧ m.nodeBd v = true then [m.node v] else []) s
  sorted : ∀ v ∈ done, Sorted s v

theorem site_inv {m : Mesh ℝ} {srt : (Nat → Nat → Bool) → List Nat → List Nat} (hs : IsSort srt) {done : List Nat}
    {s : V ℝ} (h : SInv m done s) {v : Nat} (hv : v ∉ done)
    (hk : (done ++ [v]).countP m.nodeBd ≤ m.nBoundaryNodes) :
    ∃ s', siteStep m srt s v = .ok s' ∧ SInv m (done ++ [v]) s' := by
  obtain ⟨hi, hso⟩ := h
  set k := m.nCells + m.nBoundaryEdges + done.countP m.nodeBd with hkdef
  -- the state before sorting
  have step1 : ∃ s1, addSite m s v = .ok s1 ∧
      Inv m m.nCells (m.nCells + m.nBoundaryEdges + (done ++ [v]).countP m.nodeBd) (fun u =>
        (List.range m.nCells).flatMap (cellItems m u) ++
          if u ∈ done ++ [v] ∧ m.nodeBd u = true then [m.node u] else []) s1 ∧
      ∀ u ≠ v, s1.points u = s.points u := by
    unfold addSite
    by_cases hb : m.nodeBd v = true
    · have hcnt : (done ++ [v]).countP m.nodeBd = done.countP m.nodeBd + 1 := by
        rw [List.countP_append]; simp [hb]
      have hkr : k < s.rows := by rw [hi.rows]; omega
      have hk' := hi.hk
      have fresh : ∀ u, k ∉ s.cells u := by
        intro u hu
        have := hi.le
        rcases hi.used u k hu with h1 | h1 <;> omega
      rw [if_pos hb]
      unfold V.write
      simp only [hk', hkr, if_true, Res.ok_bind]
      rw [hcnt]
      refine ⟨_, rfl, ?_, ?_⟩
      · constructor
        · exact hi.rows
        · simp only [V.push, V.mark]; omega
        · omega
        · intro u
          have := pts_push (x := m.node v) (List.nodup_singleton v) hi.pts fresh u
          have e : (List.range m.nCells).flatMap (cellItems m u) ++
              (if u ∈ done ++ [v] ∧ m.nodeBd u = true then [m.node u] else []) =
              ((List.range m.nCells).flatMap (cellItems m u) ++
              (if u ∈ done ∧ m.nodeBd u = true then [m.node u] else [])) ++ (if u ∈ [v] then [m.node v] else []) := by
            by_cases hu : u = v
            · subst hu; simp [hv, hb]
            · simp [hu]
          rw [e]
          simpa [V.push, V.mark] using this
        · intro u i hi'
          have hi'' : i ∈ (s.push [v] k).cells u := by simpa [V.push, V.mark] using hi'
          rw [push_cells _ _ _ (List.nodup_singleton v), List.mem_append] at hi''
          have := hi.le
          rcases hi'' with h1 | h1
          · rcases hi.used u i h1 with h2 | h2
            · exact Or.inl h2
            · exact Or.inr ⟨h2.1, by omega⟩
          · split at h1
            · simp at h1; exact Or.inr (by omega)
            · simp at h1
        · intro u i hi' hle
          have hi'' : i ∈ (s.push [v] k).cells u := by simpa [V.push, V.mark] using hi'
          rw [push_cells _ _ _ (List.nodup_singleton v), List.mem_append] at hi''
          rcases hi'' with h1 | h1
          · exact hi.bd u i h1 hle
          · split at h1
            · rename_i huv; simp at huv; rw [huv]; exact hb
            · simp at h1
        · intro r
          have := hi.mark r
          have := hi.le
          simp only [V.push, V.mark, upd]
          by_cases hr : r = k
          · rw [if_pos hr]; simp; omega
          · rw [if_neg hr, hi.mark r]; omega
        · intro r
          have := hi.le
          simp only [V.push, V.mark, upd]
          by_cases hr : r = k
          · rw [if_pos hr]; simp; omega
          · rw [if_neg hr, hi.written r]; omega
      · intro u hu
        have e : (s.push [v] k).cells u = s.cells u := by rw [push_cells _ _ _ (List.nodup_singleton v)]; simp [hu]
        unfold V.points
        have e2 : (V.push (V.mark { s with nodes := upd s.nodes k (some (m.node v)), k := k } k) [v] k).cells u = s.cells u := by
          simpa [V.push, V.mark] using e
        dsimp only [V.mark] at e2 ⊢
        rw [e2]
        apply List.map_congr_left
        intro i hi'
        have : i ≠ k := fun h => fresh u (h ▸ hi')
        simp [V.push, upd, this]
    · have hcnt : (done ++ [v]).countP m.nodeBd = done.countP m.nodeBd := by
        rw [List.countP_append]; simp [hb]
      rw [if_neg hb]
      refine ⟨s, rfl, ?_, fun _ _ => rfl⟩
      rw [hcnt]
      have e : (fun u => (List.range m.nCells).flatMap (cellItems m u) ++
          if u ∈ done ++ [v] ∧ m.nodeBd u = true then [m.node u] else []) =
          (fun u => (List.range m.nCells).flatMap (cellItems m u) ++
          if u ∈ done ∧ m.nodeBd u = true then [m.node u] else []) := by
        funext u
        by_cases hu : u = v
        · subst hu; simp [hb]
        · simp [hu]
      rw [e]; exact hi
  obtain ⟨s1, h1, h2, h3⟩ := step1
  unfold siteStep
  rw [h1, Res.ok_bind]
  refine ⟨_, rfl, ?_⟩
  set c := mean s1 (s1.cells v) with hc
  have hsrt := hs (before s1 c) (before_weak s1 c) (s1.cells v)
  refine ⟨?_, ?_⟩
  · constructor
    · exact h2.rows
    · exact h2.hk
    · exact h2.le
    · intro u
      by_cases hu : u = v
      · subst hu
        refine List.Perm.trans ?_ (h2.pts u)
        simp only [upd, if_true]
        exact hsrt.1.map _
      · simpa [upd, hu] using h2.pts u
    · intro u i hi'
      apply h2.used u i
      by_cases hu : u = v
      · subst hu
        simp only [upd, if_true] at hi'
        exact hsrt.1.mem_iff.1 hi'
      · simpa [upd, hu] using hi'
    · intro u i hi' hle
      refine h2.bd u i ?_ hle
      by_cases hu : u = v
      · subst hu
        simp only [upd, if_true] at hi'
        exact hsrt.1.mem_iff.1 hi'
      · simpa [upd, hu] using hi'
    · exact h2.mark
    · exact h2.written
  · intro u hu
    by_cases huv : u = v
    · subst huv
      have hpts : ({ s1 with cells := upd s1.cells u (srt (before s1 c) (s1.cells u)) } : V ℝ).points u =
          (srt (before s1 c) (s1.cells u)).map fun i => (s1.nodes i).getD (0, 0) := by
        simp [V.points, upd]
      have hcen : center ((srt (before s1 c) (s1.cells u)).map fun i => (s1.nodes i).getD (0, 0)) = c := by
        refine (center_perm (hsrt.1.map _)).trans ?_
        rw [hc, mean_eq]
      unfold Sorted
      rw [hpts, hcen, List.pairwise_map]
      exact hsrt.2
    · have hud : u ∈ done := by simpa [huv] using hu
      have hp : ({ s1 with cells := upd s1.cells v (srt (before s1 c) (s1.cells v)) } : V ℝ).points u = s.points u := by
        rw [← h3 u huv]; simp [V.points, upd, huv]
      unfold Sorted
      rw [hp]
      exact hso u hud

theorem build_inv {m : Mesh ℝ} {order : List Nat} (hm : Valid m order) {srt : (Nat → Nat → Bool) → List Nat → List Nat}
    (hs : IsSort srt) : ∃ s, build m srt order = .ok s ∧ SInv m order s := by
  obtain ⟨s0, h0, hinv⟩ := cells_inv hm
  obtain ⟨s, h1, h2⟩ := foldRes_inv (siteStep m srt) (fun done s => SInv m done s) order
    (fun done x rest s e h => by
      have hnd := hm.order_nodup
      rw [e] at hnd
      refine site_inv hs h ?_ ?_
      · intro hx
        exact (List.nodup_append.1 hnd).2.2 x hx x (by simp) rfl
      · rw [← hm.nodes_count, e]
        have : done ++ x :: rest = (done ++ [x]) ++ rest := by simp
        rw [this, List.countP_append (l₁ := done ++ [x])]
        omega)
    s0 ⟨by simpa using hinv, by simp⟩
  refine ⟨s, ?_, h2⟩
  unfold build
  rw [h0, Res.ok_bind, h1]

/-- The constructor succeeds on consistent meshes and writes every row of the table of vertices; the cell of every site
has exactly the vertices of the definition, in clockwise order around their mean; the vertices marked as boundary are the
ones that are not circumcenters. -/
theorem C95_cells (m : Mesh ℝ) (order : List Nat) (hm : Valid m order) (srt : (Nat → Nat → Bool) → List Nat → List Nat)
    (hs : IsSort srt) :
    ∃ s, build m srt order = .ok s ∧
      s.rows = m.nCells + m.nBoundaryEdges + m.nBoundaryNodes ∧ (∀ r < s.rows, s.nodes r ≠ none) ∧
      (∀ r < s.rows, s.markers r = true ↔ m.nCells ≤ r) ∧
      ∀ v ∈ order, (s.points v).Perm (vertices m v) ∧
        (s.points v).Pairwise fun x y => clockwise (center (s.points v)) y x = false := by
  obtain ⟨s, h1, h2⟩ := build_inv hm hs
  refine ⟨s, h1, h2.inv.rows, ?_, ?_, ?_⟩
  · intro r hr
    rw [h2.inv.rows] at hr
    rw [h2.inv.written, hm.nodes_count]
    omega
  · intro r hr
    rw [h2.inv.rows] at hr
    rw [h2.inv.mark, hm.nodes_count]
    omega
  · intro v hv
    refine ⟨?_, h2.sorted v hv⟩
    have := (h2.inv.pts v).map (fun o => o.getD ((0 : ℝ), (0 : ℝ)))
    simp only [List.map_map, Function.comp_def, Option.getD_some, List.map_id'] at this
    refine this.trans (List.Perm.of_eq ?_)
    simp only [vertices, hv, true_and]
    rfl

/-- The cells of interior sites are not reported on the boundary. -/
theorem C95_interior (m : Mesh ℝ) (order : List Nat) (hm : Valid m order)
    (srt : (Nat → Nat → Bool) → List Nat → List Nat) (hs : IsSort srt) (s : V ℝ) (hb : build m srt order = .ok s) (v : Nat)
    (hi : m.nodeBd v = false) : cellOnBoundary s v = false := by
  obtain ⟨s', h1, h2⟩ := build_inv hm hs
  rw [hb] at h1
  cases h1
  unfold cellOnBoundary
  rw [List.any_eq_false]
  intro e he
  simp only [cellEdges, List.mem_map, List.mem_range] at he
  obtain ⟨j, hj, rfl⟩ := he
  have hmem : (s.cells v).getD (j % (s.cells v).length) 0 ∈ s.cells v := by
    have hlt := Nat.mod_lt j (show 0 < (s.cells v).length by omega)
    rw [List.getD_eq_getElem?_getD, List.getElem?_eq_getElem hlt, Option.getD_some]
    exact List.getElem_mem _
  have hn : ¬ s.markers ((s.cells v).getD (j % (s.cells v).length) 0) = true := by
    intro h
    have := h2.inv.bd v _ hmem ((h2.inv.mark _).1 h).1
    rw [hi] at this
    cases this
  simp only [Bool.and_eq_true, not_and]
  intro h; exact absurd h hn

/-- Merge sort meets the specification of `std::sort`. -/
theorem mergeSort_isSort : IsSort fun lt l => l.mergeSort fun a b => !lt b a := by
  intro lt h l
  refine ⟨List.mergeSort_perm l _, ?_⟩
  have asymm : ∀ a b, lt a b = true → lt b a = false := by
    intro a b hab
    by_contra hn
    rw [Bool.not_eq_false] at hn
    have := h.trans a b a hab hn
    rw [h.irrefl] at this
    cases this
  have := List.pairwise_mergeSort (le := fun a b => !lt b a) (fun a b c hab hbc => ?_) (fun a b => ?_) l
  · simpa using this
  · simp only [Bool.not_eq_true'] at hab hbc ⊢
    by_contra hn
    rw [Bool.not_eq_false] at hn
    by_cases h1 : lt a b = true
    · have := h.trans c a b hn h1
      rw [hbc] at this; cases this
    · by_cases h2 : lt b c = true
      · have := h.trans b c a h2 hn
        rw [hab] at this; cases this
      · rw [Bool.not_eq_true] at h1 h2
        have := (h.incomp a b c h1 hab h2 hbc).2
        rw [hn] at this; cases this
  · by_cases h1 : lt b a = true
    · simp [asymm b a h1]
    · simp [h1]

/-- The rhombus of `PropsWalk` as a mesh: nodes (-1,0), (1,0), (0,2), (0,-2). -/
noncomputable def rhombusMesh : Mesh ℝ where
  nCells := 2
  cellNodes c := if c = 0 then [0, 1, 2] else [0, 1, 3]
  cellEdges c := if c = 0 then [0, 1, 2] else [0, 3, 4]
  edgeNodes e := [[0, 1], [0, 2], [1, 2], [0, 3], [1, 3]].getD e []
  edgeBd e := e != 0
  nodeBd _ := true
  nBoundaryEdges := 4
  nBoundaryNodes := 4
  node v := [(-1, 0), (1, 0), (0, 2), (0, -2)].getD v (0, 0)
  circumcenter c := if c = 0 then (0, 3/4) else (0, -3/4)
  project e _ := [(0, 0), (-1/2, 1), (1/2, 1), (-1/2, -1), (1/2, -1)].getD e (0, 0)

theorem rhombusMesh_valid : Valid rhombusMesh [3, 2, 1, 0] where
  cell_nodup := by simp only [rhombusMesh]; decide
  edge_nodup := by simp only [rhombusMesh]; decide
  edge_sub := by simp only [rhombusMesh]; decide
  edge_bd := by simp only [rhombusMesh]; decide
  edges_count := by simp only [rhombusMesh]; decide
  order_nodup := by decide
  order_mem v := by
    simp only [rhombusMesh]
    constructor
    · intro h
      simp only [List.mem_cons, List.not_mem_nil, or_false] at h
      rcases h with rfl | rfl | rfl | rfl
      · exact ⟨1, by decide, by decide⟩
      · exact ⟨0, by decide, by decide⟩
      · exact ⟨0, by decide, by decide⟩
      · exact ⟨0, by decide, by decide⟩
    · rintro ⟨c, hc, hv⟩
      split at hv <;> (simp only [List.mem_cons, List.not_mem_nil, or_false] at hv ⊢; omega)
  nodes_count := by simp only [rhombusMesh]; decide

example : ∃ s, build rhombusMesh (fun lt l => l.mergeSort fun a b => !lt b a) [3, 2, 1, 0] = .ok s ∧
    (s.points 2).Perm [(0, 3/4), (-1/2, 1), (1/2, 1), (0, 2)] := by
  obtain ⟨s, h, _, _, _, hp⟩ := C95_cells rhombusMesh [3, 2, 1, 0] rhombusMesh_valid _ mergeSort_isSort
  refine ⟨s, h, (hp 2 (by decide)).1.trans (List.Perm.of_eq ?_)⟩
  have e : List.range 2 = [0, 1] := by decide
  simp [vertices, rhombusMesh, e]

/-! ### Point location -/

theorem argmin3_spec (a b c : ℝ) : argmin3 a b c < 3 ∧ (∀ i < 3, [a, b, c].getD (argmin3 a b c) 0 ≤ [a, b, c].getD i 0) := by
  unfold argmin3
  refine ⟨by dsimp only; split <;> split <;> decide, ?_⟩
  intro i hi
  by_cases h1 : b < a <;> simp only [h1, if_true, if_false] <;> (split <;> interval_cases i <;> simp <;> linarith)

/-- The site returned is a vertex of the located triangle, the nearest of the three; points outside of the mesh are
reported with -1. -/
theorem C95_locate (m : Mesh ℝ) (loc : Int) (p : ℝ × ℝ) (a b c : Nat) (hn : m.cellNodes loc.toNat = [a, b, c]) :
    (loc = -1 → locate m loc p = .ok (-1)) ∧
    (loc ≠ -1 → ∃ v ∈ [a, b, c], locate m loc p = .ok (v : Int) ∧
      ∀ w ∈ [a, b, c], dist2 (m.node v) p ≤ dist2 (m.node w) p) := by
  unfold locate
  refine ⟨fun h => by simp [h], fun h => ?_⟩
  simp only [h, if_false, hn]
  obtain ⟨h1, h2⟩ := argmin3_spec (dist2 (m.node a) p) (dist2 (m.node b) p) (dist2 (m.node c) p)
  set i := argmin3 (dist2 (m.node a) p) (dist2 (m.node b) p) (dist2 (m.node c) p)
  have e : ∀ j < 3, [dist2 (m.node a) p, dist2 (m.node b) p, dist2 (m.node c) p].getD j 0 =
      dist2 (m.node ([a, b, c].getD j 0)) p := by
    intro j hj; interval_cases j <;> rfl
  refine ⟨[a, b, c].getD i 0, ?_, rfl, ?_⟩
  · interval_cases i <;> simp
  · intro w hw
    obtain ⟨j, hj, rfl⟩ : ∃ j < 3, w = [a, b, c].getD j 0 := by
      simp only [List.mem_cons, List.not_mem_nil, or_false] at hw
      rcases hw with rfl | rfl | rfl
      · exact ⟨0, by decide, rfl⟩
      · exact ⟨1, by decide, rfl⟩
      · exact ⟨2, by decide, rfl⟩
    rw [← e i h1, ← e j hj]
    exact h2 j hj

/-- **C95, defect.** `contains` of a planar cell always throws: the point is converted to a matrix with one column, and
`locate` requires two. -/
theorem C95_bug_contains {K : Type} [Field K] [LinearOrder K] (m : Mesh K) (loc : K × K → Int) (id : Nat) (p : K × K) :
    contains m loc id p = .throws := by
  simp [contains, locateAll]

/-- C95: `locate` of several locations treats each row on its own: the answers are those for the points with the coordinates of the rows. -/
theorem C95_locate_all (m : Mesh ℝ) (loc : ℝ × ℝ → Int) (pts : List (ℝ × ℝ))
    (hloc : ∀ p ∈ pts, loc p ≠ -1 → ∃ a b c, m.cellNodes (loc p).toNat = [a, b, c]) :
    ∃ ids, locateAll m loc 2 (pts.map fun p => [p.1, p.2]) = .ok ids ∧ ids.length = pts.length ∧
      ∀ i (hi : i < pts.length), ∃ r, ids[i]? = some r ∧ locate m (loc pts[i]) pts[i] = .ok r := by
  have key : ∀ (l : List (ℝ × ℝ)) (acc : List Int), (∀ p ∈ l, ∃ r, locate m (loc p) p = .ok r) →
      ∃ ids, foldRes (fun acc (r : List ℝ) => (fun i => acc ++ [i]) <$> locate m (loc (r.getD 0 0, r.getD 1 0)) (r.getD 0 0, r.getD 1 0)) acc
        (l.map fun p => [p.1, p.2]) = .ok (acc ++ ids) ∧ ids.length = l.length ∧
        ∀ i (hi : i < l.length), ∃ r, ids[i]? = some r ∧ locate m (loc l[i]) l[i] = .ok r := by
    intro l
    induction l with
    | nil => exact fun acc _ => ⟨[], by simp, rfl, fun i hi => absurd hi (by simp)⟩
    | cons p l ih =>
      intro acc h
      obtain ⟨r, hr⟩ := h p (by simp)
      obtain ⟨ids, e1, e2, e3⟩ := ih (acc ++ [r]) fun q hq => h q (by simp [hq])
      refine ⟨r :: ids, ?_, by simp [e2], fun i hi => ?_⟩
      · rw [List.map_cons, foldRes_cons]
        simp only [List.getD_cons_zero, List.getD_cons_succ]
        rw [hr, Res.map_ok, Res.ok_bind, e1]
        simp
      · cases i with
        | zero => exact ⟨r, rfl, hr⟩
        | succ i => exact e3 i (by simpa using hi)
  have hok : ∀ p ∈ pts, ∃ r, locate m (loc p) p = .ok r := by
    intro p hp
    unfold locate
    by_cases h : loc p = -1
    · exact ⟨-1, by rw [if_pos h]⟩
    · obtain ⟨a, b, c, e⟩ := hloc p hp h
      rw [if_neg h, e]
      exact ⟨_, rfl⟩
  obtain ⟨ids, e1, e2, e3⟩ := key pts [] hok
  exact ⟨ids, by simpa [locateAll] using e1, e2, e3⟩

/-- Two points of the rhombus, one in each triangle. -/
example : ∃ ids, locateAll rhombusMesh (fun p => if p.2 < 0 then 1 else 0) 2 [[0, 3 / 2], [1 / 2, -1 / 4]] = .ok ids ∧ ids.length = 2 := by
  obtain ⟨ids, h1, h2, _⟩ := C95_locate_all rhombusMesh (fun p => if p.2 < 0 then 1 else 0) [(0, 3 / 2), (1 / 2, -1 / 4)] (by
    intro p _ _
    by_cases h : p.2 < 0
    · exact ⟨_, _, _, by rw [if_pos h]; rfl⟩
    · exact ⟨_, _, _, by rw [if_neg h]; rfl⟩)
  exact ⟨ids, h1, h2⟩

end Fdapde.Voronoi2
