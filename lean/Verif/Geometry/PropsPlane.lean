import Verif.Geometry.PropsSimplex
/- C46: lines and planes. C43 for segments in the plane and segments and triangles in space. C45: nearest point. -/
namespace Fdapde.Geometry
open Matrix
variable {d M N : Nat}

/-- Points of the affine hull of the vertices. -/
theorem Simplex.mem_span_iff (S : Simplex d N) (y : Vec N) :
    y ∈ affineSpan ℝ (Set.range S.coords) ↔ ∃ c : Fin d → ℝ, y = S.coords 0 + ∑ j, c j • (S.coords j.succ - S.coords 0) := by
  constructor
  · intro h
    obtain ⟨w, hw, rfl⟩ := eq_affineCombination_of_mem_affineSpan_of_fintype h
    refine ⟨fun j => w j.succ, ?_⟩
    have hw0 : w 0 = 1 - ∑ j : Fin d, w j.succ := by rw [Fin.sum_univ_succ] at hw; linarith
    rw [Finset.affineCombination_eq_linear_combination _ _ _ hw, Fin.sum_univ_succ, hw0]
    simp only [smul_sub, Finset.sum_sub_distrib, sub_smul, one_smul, Finset.sum_smul]
    abel
  · rintro ⟨c, rfl⟩
    have hw : ∑ i, (Fin.cons (1 - ∑ j, c j) c : Fin (d + 1) → ℝ) i = 1 := by rw [Fin.sum_univ_succ]; simp
    have := affineCombination_mem_affineSpan hw S.coords
    rw [Finset.affineCombination_eq_linear_combination _ _ _ hw, Fin.sum_univ_succ] at this
    convert this using 1
    simp only [Fin.cons_zero, Fin.cons_succ, smul_sub, Finset.sum_sub_distrib, sub_smul, one_smul, Finset.sum_smul]
    abel

/-- `h` has an orthonormal basis and is the affine subspace `A`. -/
structure IsPlane (h : HyperPlane M N) (A : AffineSubspace ℝ (Vec N)) : Prop where
  ortho : ∀ i j, h.basis i ⬝ᵥ h.basis j = if i = j then 1 else 0
  span : ∀ y, y ∈ A ↔ ∃ c, y = h.point c

/-- What C46 says of a line or plane `h` that should be the affine subspace `A`. -/
structure Spec46 (h : HyperPlane M N) (A : AffineSubspace ℝ (Vec N)) : Prop where
  on_plane : ∀ x, h.project x ∈ A
  orthogonal : ∀ x, ∀ y ∈ A, (x - h.project x) ⬝ᵥ (y - h.project x) = 0
  idempotent : ∀ x, h.project (h.project x) = h.project x
  fixed : ∀ x, h.project x = x ↔ x ∈ A
  minimal : ∀ x, ∀ y ∈ A, h.distance x ≤ norm (x - y)
  zero : ∀ x, h.distance x = 0 ↔ x ∈ A
  coordinates : ∀ x, h.point (h.projectOnto x) = h.project x

theorem sum_ortho {b : Fin M → Vec N} (ho : ∀ i j, b i ⬝ᵥ b j = if i = j then 1 else 0) (c : Fin M → ℝ) (i : Fin M) :
    (∑ j, c j • b j) ⬝ᵥ b i = c i := by
  rw [sum_dotProduct]
  simp only [smul_dotProduct, ho, smul_eq_mul, mul_ite, mul_one, mul_zero]
  simp

theorem IsPlane.spec {h : HyperPlane M N} {A : AffineSubspace ℝ (Vec N)} (hp : IsPlane h A) : Spec46 h A := by
  have hco : ∀ x, h.point (h.projectOnto x) = h.project x := by
    intro x; simp only [HyperPlane.point, HyperPlane.projectOnto, HyperPlane.project]; abel
  have hon : ∀ x, h.project x ∈ A := fun x => (hp.span _).2 ⟨_, (hco x).symm⟩
  have hfix : ∀ c, h.project (h.point c) = h.point c := by
    intro c
    simp only [HyperPlane.project, HyperPlane.point, add_sub_cancel_left, sum_ortho hp.ortho]
    abel
  have horth0 : ∀ x i, (x - h.project x) ⬝ᵥ h.basis i = 0 := by
    intro x i
    have : x - h.project x = (x - h.p) - ∑ i, ((x - h.p) ⬝ᵥ h.basis i) • h.basis i := by
      simp only [HyperPlane.project]; abel
    rw [this, sub_dotProduct, sum_ortho hp.ortho]; simp
  have horth : ∀ x, ∀ y ∈ A, (x - h.project x) ⬝ᵥ (y - h.project x) = 0 := by
    intro x y hy
    obtain ⟨c, rfl⟩ := (hp.span y).1 hy
    have : h.point c - h.project x = ∑ i, (c i - h.projectOnto x i) • h.basis i := by
      rw [← hco]; simp only [HyperPlane.point, sub_smul, Finset.sum_sub_distrib]; abel
    rw [this, dotProduct_sum]
    simp only [dotProduct_smul, horth0, smul_zero, Finset.sum_const_zero]
  have hfx : ∀ x, h.project x = x ↔ x ∈ A := by
    intro x
    constructor
    · intro e; rw [← e]; exact hon x
    · intro e; obtain ⟨c, rfl⟩ := (hp.span x).1 e; exact hfix c
  refine ⟨hon, horth, fun x => (hfx _).2 (hon x), hfx, ?_, ?_, hco⟩
  · intro x y hy
    apply Real.sqrt_le_sqrt
    have e : x - y = (x - h.project x) - (y - h.project x) := by abel
    rw [e, sqNorm_sub (x - h.project x) (y - h.project x), horth x y hy]
    have := sqNorm_nonneg (y - h.project x)
    linarith
  · intro x
    rw [HyperPlane.distance, norm_eq_zero, sub_eq_zero, ← hfx x]
    exact eq_comm

theorem normalized_unit {v : Vec N} (hv : v ≠ 0) : normalized v ⬝ᵥ normalized v = 1 := by
  have h := norm_pos hv
  have h2 := norm_sq v
  rw [normalized, smul_dotProduct, dotProduct_smul, smul_eq_mul, smul_eq_mul]
  rw [sqNorm] at h2
  rw [← h2]; field_simp

theorem line_isPlane (S : Simplex 1 N) (hS : S.Nondeg) (h : HyperPlane 1 N) (hb : h.basis = fun _ => normalized (S.coords 1 - S.coords 0))
    (hp : h.p = S.coords 0) : IsPlane h (affineSpan ℝ (Set.range S.coords)) := by
  have hne : S.coords 1 - S.coords 0 ≠ 0 := by
    intro e
    exact absurd (AffineIndependent.injective (k := ℝ) (p := S.coords) hS (sub_eq_zero.1 e)) (by decide)
  refine ⟨fun i j => ?_, fun y => ?_⟩
  · rw [Subsingleton.elim i j, hb, if_pos rfl]; exact normalized_unit hne
  · rw [Simplex.mem_span_iff]
    have hn := norm_pos hne
    simp only [HyperPlane.point, hb, hp, Fin.sum_univ_one, normalized, smul_smul]
    constructor
    · rintro ⟨c, rfl⟩
      refine ⟨fun _ => c 0 * norm (S.coords 1 - S.coords 0), ?_⟩
      have : c 0 * norm (S.coords 1 - S.coords 0) * (norm (S.coords 1 - S.coords 0))⁻¹ = c 0 := by field_simp
      simp only [this]; rfl
    · rintro ⟨c, rfl⟩
      exact ⟨fun _ => c 0 * (norm (S.coords 1 - S.coords 0))⁻¹, rfl⟩

/-- Lines in the plane. -/
theorem C46_line2_partial (S : Simplex 1 2) (hS : S.Nondeg) :
    Spec46 (line2 (S.coords 0) (S.coords 1)) (affineSpan ℝ (Set.range S.coords)) :=
  (line_isPlane S hS _ rfl rfl).spec

/-- Lines in space. -/
theorem C46_line3 (S : Simplex 1 3) (hS : S.Nondeg) :
    Spec46 (line3 (S.coords 0) (S.coords 1)) (affineSpan ℝ (Set.range S.coords)) :=
  (line_isPlane S hS _ rfl rfl).spec

theorem tri_indep (S : Simplex 2 N) (hS : S.Nondeg) (s t : ℝ)
    (h : s • (S.coords 1 - S.coords 0) + t • (S.coords 2 - S.coords 0) = 0) : s = 0 ∧ t = 0 := by
  have := hS.injective (a₁ := ![s, t]) (a₂ := 0) (by
    rw [Simplex.J_mulVec, Fin.sum_univ_two, Matrix.mulVec_zero]; exact h)
  exact ⟨congrFun this 0, congrFun this 1⟩

theorem orthogonalProject_unit {v u : Vec N} (hu : u ⬝ᵥ u = 1) : orthogonalProject v u = (v ⬝ᵥ u) • u := by
  rw [orthogonalProject, sqNorm, hu, div_one]

theorem plane_isPlane (S : Simplex 2 3) (hS : S.Nondeg) :
    IsPlane (plane3 (S.coords 0) (S.coords 1) (S.coords 2)) (affineSpan ℝ (Set.range S.coords)) := by
  have hind := tri_indep S hS
  set a := S.coords 1 - S.coords 0 with ha
  set b := S.coords 2 - S.coords 0 with hb
  have hane : a ≠ 0 := by
    intro e; have := hind 1 0 (by simp [e]); exact one_ne_zero this.1
  have hu := normalized_unit hane
  have hna := norm_pos hane
  set u := normalized a with hudef
  have hau : a = norm a • u := by rw [hudef, normalized, smul_smul, mul_inv_cancel₀ hna.ne', one_smul]
  set w := b - orthogonalProject b u with hw
  have hwe : w = b - (b ⬝ᵥ u) • u := by rw [hw, orthogonalProject_unit hu]
  have hwne : w ≠ 0 := by
    intro e
    rw [hwe, hudef, normalized, smul_smul] at e
    have := hind (-((b ⬝ᵥ u) * (norm a)⁻¹)) 1 (by rw [one_smul, neg_smul, ← e, hudef, normalized]; abel)
    exact one_ne_zero this.2
  have hv := normalized_unit hwne
  have hnw := norm_pos hwne
  have hwu : w ⬝ᵥ u = 0 := by rw [hwe, sub_dotProduct, smul_dotProduct, hu]; simp
  set v := normalized w with hvdef
  have hwv : w = norm w • v := by rw [hvdef, normalized, smul_smul, mul_inv_cancel₀ hnw.ne', one_smul]
  have huv : u ⬝ᵥ v = 0 := by rw [hvdef, normalized, dotProduct_smul, dotProduct_comm, hwu, smul_zero]
  have hbv : b = (b ⬝ᵥ u) • u + norm w • v := by rw [← hwv, hwe]; abel
  have hbasis : (plane3 (S.coords 0) (S.coords 1) (S.coords 2)).basis = ![u, v] := rfl
  have hpp : (plane3 (S.coords 0) (S.coords 1) (S.coords 2)).p = S.coords 0 := rfl
  refine ⟨fun i j => ?_, fun y => ?_⟩
  · rw [hbasis]
    fin_cases i <;> fin_cases j
    · simpa using hu
    · simpa using huv
    · simpa [dotProduct_comm] using huv
    · simpa using hv
  · rw [Simplex.mem_span_iff]
    simp only [HyperPlane.point, hbasis, hpp, Fin.sum_univ_two]
    change (∃ c : Fin 2 → ℝ, y = S.coords 0 + (c 0 • a + c 1 • b)) ↔ ∃ c : Vec 2, y = S.coords 0 + (c 0 • u + c 1 • v)
    constructor
    · rintro ⟨c, rfl⟩
      refine ⟨![c 0 * norm a + c 1 * (b ⬝ᵥ u), c 1 * norm w], ?_⟩
      conv_lhs => rw [hau, hbv]
      simp only [Matrix.cons_val_zero, Matrix.cons_val_one, smul_add, smul_smul, add_smul]
      abel
    · rintro ⟨c, rfl⟩
      refine ⟨![c 0 * (norm a)⁻¹ - c 1 * (norm w)⁻¹ * (b ⬝ᵥ u) * (norm a)⁻¹, c 1 * (norm w)⁻¹], ?_⟩
      have hv2 : v = (norm w)⁻¹ • b - ((norm w)⁻¹ * (b ⬝ᵥ u) * (norm a)⁻¹) • a := by
        rw [hvdef, normalized, hwe, smul_sub, smul_smul]
        congr 1
        rw [hudef, normalized, smul_smul]
      rw [hv2, hudef, normalized]
      simp only [Matrix.cons_val_zero, Matrix.cons_val_one, smul_sub, smul_smul, sub_smul, mul_assoc]
      abel

/-- Planes in space. -/
theorem C46_plane3 (S : Simplex 2 3) (hS : S.Nondeg) :
    Spec46 (plane3 (S.coords 0) (S.coords 1) (S.coords 2)) (affineSpan ℝ (Set.range S.coords)) :=
  (plane_isPlane S hS).spec

/-! ### Any dimension -/

theorem gs_fold (bs : List (Vec N)) (h1 : ∀ b ∈ bs, b ⬝ᵥ b = 1) (h2 : bs.Pairwise fun a b => a ⬝ᵥ b = 0) : ∀ v : Vec N,
    v - bs.foldl (fun w q => w - orthogonalProject w q) v ∈ Submodule.span ℝ {b | b ∈ bs} ∧
    ∀ b ∈ bs, bs.foldl (fun w q => w - orthogonalProject w q) v ⬝ᵥ b = 0 := by
  induction bs with
  | nil => intro v; simp
  | cons q bs ih =>
    intro v
    rw [List.pairwise_cons] at h2
    have hq := h1 q List.mem_cons_self
    obtain ⟨i1, i2⟩ := ih (fun b hb => h1 b (List.mem_cons_of_mem _ hb)) h2.2 (v - orthogonalProject v q)
    rw [List.foldl_cons]
    set F := bs.foldl (fun w q => w - orthogonalProject w q) (v - orthogonalProject v q) with hF
    have hsub : Submodule.span ℝ {b | b ∈ bs} ≤ Submodule.span ℝ {b | b ∈ q :: bs} :=
      Submodule.span_mono fun b hb => List.mem_cons_of_mem _ hb
    have hqs : q ∈ Submodule.span ℝ {b | b ∈ q :: bs} := Submodule.subset_span List.mem_cons_self
    refine ⟨?_, fun b hb => ?_⟩
    · have : v - F = (v - orthogonalProject v q - F) + orthogonalProject v q := by abel
      rw [this, orthogonalProject_unit hq]
      rw [orthogonalProject_unit hq] at i1
      exact Submodule.add_mem _ (hsub i1) (Submodule.smul_mem _ _ hqs)
    · rcases List.mem_cons.1 hb with rfl | hb
      · have hperp : ∀ x ∈ Submodule.span ℝ {c | c ∈ bs}, x ⬝ᵥ b = 0 := by
          intro x hx
          induction hx using Submodule.span_induction with
          | mem x hx => rw [dotProduct_comm]; exact h2.1 x hx
          | zero => exact zero_dotProduct _
          | add x y _ _ hx hy => rw [add_dotProduct, hx, hy, add_zero]
          | smul a x _ hx => rw [smul_dotProduct, hx, smul_zero]
        have := hperp _ i1
        rw [sub_dotProduct, sub_dotProduct, orthogonalProject_unit hq, smul_dotProduct, hq, smul_eq_mul, mul_one, sub_self,
          zero_sub, neg_eq_zero] at this
        exact this
      · exact i2 b hb

theorem gs_spec (cols : List (Vec N)) (h : ∀ a v b, cols = a ++ v :: b → v ∉ Submodule.span ℝ {x | x ∈ a}) :
    (gramSchmidt cols).length = cols.length ∧ (∀ b ∈ gramSchmidt cols, b ⬝ᵥ b = 1) ∧
    (gramSchmidt cols).Pairwise (fun a b => a ⬝ᵥ b = 0) ∧
    Submodule.span ℝ {x | x ∈ gramSchmidt cols} = Submodule.span ℝ {x | x ∈ cols} := by
  induction cols using List.reverseRecOn with
  | nil => simp [gramSchmidt]
  | append_singleton l v ih =>
    obtain ⟨hl, h1, h2, h3⟩ := ih fun a w b e => h a w (b ++ [v]) (by rw [e]; simp)
    have hv : v ∉ Submodule.span ℝ {x | x ∈ l} := h l v [] (by simp)
    have e : gramSchmidt (l ++ [v]) = gramSchmidt l ++ [gsStep (gramSchmidt l) v] := by
      unfold gramSchmidt; rw [List.foldl_append]; rfl
    obtain ⟨f1, f2⟩ := gs_fold _ h1 h2 v
    rw [h3] at f1
    rw [e]
    generalize gramSchmidt l = bs at *
    unfold gsStep
    set w := bs.foldl (fun w q => w - orthogonalProject w q) v with hw
    clear_value w
    have hne : w ≠ 0 := by
      rintro rfl
      rw [sub_zero] at f1
      exact hv f1
    have hn := norm_pos hne
    refine ⟨by simp [hl], ?_, ?_, ?_⟩
    · intro b hb
      rcases List.mem_append.1 hb with hb | hb
      · exact h1 b hb
      · rw [List.mem_singleton.1 hb]; exact normalized_unit hne
    · rw [List.pairwise_append]
      refine ⟨h2, List.pairwise_singleton _ _, fun a ha b hb => ?_⟩
      rw [List.mem_singleton.1 hb, normalized, dotProduct_smul, dotProduct_comm, f2 a ha, smul_zero]
    · have s1 : {x | x ∈ bs ++ [normalized w]} = {x | x ∈ bs} ∪ {normalized w} := by ext; simp [or_comm]
      have s2 : {x | x ∈ l ++ [v]} = {x | x ∈ l} ∪ {v} := by ext; simp [or_comm]
      rw [s1, s2, Submodule.span_union, Submodule.span_union, h3]
      apply le_antisymm
      · refine sup_le le_sup_left ?_
        rw [Submodule.span_singleton_le_iff_mem, normalized]
        refine Submodule.smul_mem _ _ ?_
        have : w = v - (v - w) := by abel
        rw [this]
        exact Submodule.sub_mem _ (Submodule.mem_sup_right (Submodule.mem_span_singleton_self v)) (Submodule.mem_sup_left f1)
      · refine sup_le le_sup_left ?_
        rw [Submodule.span_singleton_le_iff_mem]
        have : v = (v - w) + norm w • normalized w := by
          rw [normalized, smul_smul, mul_inv_cancel₀ hn.ne', one_smul]; abel
        rw [this]
        exact Submodule.add_mem _ (Submodule.mem_sup_left f1)
          (Submodule.mem_sup_right (Submodule.smul_mem _ _ (Submodule.mem_span_singleton_self _)))

/-- Hyperplanes of any dimension: projection, distance and coordinates are those of the affine hull of the points. -/
theorem C46_general (S : Simplex M N) (hS : S.Nondeg) :
    Spec46 (general S.coords) (affineSpan ℝ (Set.range S.coords)) := by
  apply IsPlane.spec
  set v : Fin M → Vec N := fun j => S.coords j.succ - S.coords 0 with hv
  have hli : LinearIndependent ℝ v := by
    rw [Fintype.linearIndependent_iff]
    intro g hg
    have := hS.injective (a₁ := g) (a₂ := 0) (by rw [Simplex.J_mulVec, Matrix.mulVec_zero]; exact hg)
    exact fun i => congrFun this i
  have hind : ∀ a w b, List.ofFn v = a ++ w :: b → w ∉ Submodule.span ℝ {x | x ∈ a} := by
    intro a w b e
    have hlen : a.length < M := by
      have := congrArg List.length e
      rw [List.length_ofFn, List.length_append, List.length_cons] at this
      omega
    have hw : v ⟨a.length, hlen⟩ = w := by
      have : (List.ofFn v)[a.length]? = some w := by rw [e]; simp
      rw [List.getElem?_ofFn, dif_pos hlen] at this
      exact Option.some.inj this
    have ha : {x | x ∈ a} ⊆ v '' {i | i.1 < a.length} := by
      intro x hx
      obtain ⟨i, hi, rfl⟩ := List.getElem_of_mem hx
      refine ⟨⟨i, by omega⟩, hi, ?_⟩
      have : (List.ofFn v)[i]? = some a[i] := by rw [e, List.getElem?_append_left hi, List.getElem?_eq_getElem hi]
      rw [List.getElem?_ofFn, dif_pos (by omega)] at this
      exact Option.some.inj this
    rw [← hw]
    intro hm
    exact hli.notMem_span_image (s := {i | i.1 < a.length}) (by simp) (Submodule.span_mono ha hm)
  obtain ⟨g1, g2, g3, g4⟩ := gs_spec _ hind
  have hb : ∀ i : Fin M, (general S.coords).basis i = (gramSchmidt (List.ofFn v))[i.1]'(by rw [g1, List.length_ofFn]; exact i.2) := by
    intro i
    show (gramSchmidt (List.ofFn v)).getD i 0 = _
    rw [List.getD_eq_getElem?_getD, List.getElem?_eq_getElem (by rw [g1, List.length_ofFn]; exact i.2), Option.getD_some]
  refine ⟨fun i j => ?_, fun y => ?_⟩
  · rw [hb, hb]
    rw [List.pairwise_iff_getElem] at g3
    rcases lt_trichotomy i j with h | h | h
    · rw [if_neg h.ne, g3 i j _ _ h]
    · subst h; rw [if_pos rfl]; exact g2 _ (List.getElem_mem _)
    · rw [if_neg h.ne', dotProduct_comm, g3 j i _ _ h]
  · have hr1 : Set.range v = {x | x ∈ List.ofFn v} := by ext x; simp [List.mem_ofFn]
    have hr2 : Set.range (general S.coords).basis = {x | x ∈ gramSchmidt (List.ofFn v)} := by
      ext x
      constructor
      · rintro ⟨i, rfl⟩; rw [hb]; exact List.getElem_mem _
      · intro hx
        obtain ⟨i, hi, rfl⟩ := List.getElem_of_mem hx
        exact ⟨⟨i, by rw [g1, List.length_ofFn] at hi; exact hi⟩, hb _⟩
    have key : ∀ z : Vec N, (∃ c : Fin M → ℝ, ∑ j, c j • v j = z) ↔ ∃ c : Fin M → ℝ, ∑ j, c j • (general S.coords).basis j = z := by
      intro z
      rw [← Submodule.mem_span_range_iff_exists_fun, ← Submodule.mem_span_range_iff_exists_fun, hr1, hr2, g4]
    rw [Simplex.mem_span_iff]
    constructor
    · rintro ⟨c, hc⟩
      obtain ⟨c', h'⟩ := (key (∑ j, c j • v j)).1 ⟨c, rfl⟩
      exact ⟨c', by rw [hc]; simp only [HyperPlane.point]; rw [h']; rfl⟩
    · rintro ⟨c, hc⟩
      obtain ⟨c', h'⟩ := (key (∑ j, c j • (general S.coords).basis j)).2 ⟨c, rfl⟩
      exact ⟨c', by rw [hc]; simp only [HyperPlane.point]; rw [← h']; rfl⟩

theorem cross_ne_zero (S : Simplex 2 3) (hS : S.Nondeg) : (S.coords 1 - S.coords 0) ⨯₃ (S.coords 2 - S.coords 0) ≠ 0 := by
  intro h
  have hind := tri_indep S hS
  set a := S.coords 1 - S.coords 0 with ha
  set b := S.coords 2 - S.coords 0 with hb
  have key : (-(a ⬝ᵥ b)) • a + (a ⬝ᵥ a) • b = (a ⨯₃ b) ⨯₃ a := by
    ext i; fin_cases i <;> simp [cross_apply, dotProduct, Fin.sum_univ_three] <;> ring
  rw [h] at key
  have := (hind _ _ (key.trans (by ext i; fin_cases i <;> simp))).2
  have hane : a = 0 := dotProduct_self_eq_zero.1 this
  have := hind 1 0 (by simp [hane])
  exact one_ne_zero this.1

theorem cramer (a b w : Vec 3) :
    sqNorm (a ⨯₃ b) • w = (w ⬝ᵥ (a ⨯₃ b)) • (a ⨯₃ b) + ((w ⨯₃ b) ⬝ᵥ (a ⨯₃ b)) • a + ((a ⨯₃ w) ⬝ᵥ (a ⨯₃ b)) • b := by
  ext i
  simp only [sqNorm, cross_apply, Pi.smul_apply, Pi.add_apply, smul_eq_mul, dotProduct, Fin.sum_univ_three]
  fin_cases i <;> simp <;> ring

/-- Planes in space: eval(x) = 0 exactly for the points of the plane. -/
theorem C46_eval (S : Simplex 2 3) (hS : S.Nondeg) (x : Vec 3) :
    (plane3 (S.coords 0) (S.coords 1) (S.coords 2)).eval x = 0 ↔ x ∈ affineSpan ℝ (Set.range S.coords) := by
  have hc := cross_ne_zero S hS
  rw [Simplex.mem_span_iff]
  have e : (plane3 (S.coords 0) (S.coords 1) (S.coords 2)).eval x =
      (norm ((S.coords 1 - S.coords 0) ⨯₃ (S.coords 2 - S.coords 0)))⁻¹ *
      ((x - S.coords 0) ⬝ᵥ ((S.coords 1 - S.coords 0) ⨯₃ (S.coords 2 - S.coords 0))) := by
    simp only [HyperPlane.eval, plane3, normalized, smul_dotProduct, dotProduct_smul, smul_eq_mul, sub_dotProduct]
    rw [dotProduct_comm _ x]; ring
  rw [e, mul_eq_zero, or_iff_right (inv_ne_zero (norm_pos hc).ne')]
  simp only [Fin.sum_univ_two]
  set a := S.coords 1 - S.coords 0 with ha
  set b := S.coords 2 - S.coords 0 with hb
  change _ ↔ ∃ c : Fin 2 → ℝ, x = S.coords 0 + (c 0 • a + c 1 • b)
  have hD : sqNorm (a ⨯₃ b) ≠ 0 := fun h => hc (sqNorm_eq_zero.1 h)
  constructor
  · intro h
    set w := x - S.coords 0 with hw
    have id : sqNorm (a ⨯₃ b) • w = (w ⬝ᵥ (a ⨯₃ b)) • (a ⨯₃ b) + ((w ⨯₃ b) ⬝ᵥ (a ⨯₃ b)) • a + ((a ⨯₃ w) ⬝ᵥ (a ⨯₃ b)) • b := by
      exact cramer a b w
    rw [h, zero_smul, zero_add] at id
    refine ⟨![(sqNorm (a ⨯₃ b))⁻¹ * ((w ⨯₃ b) ⬝ᵥ (a ⨯₃ b)), (sqNorm (a ⨯₃ b))⁻¹ * ((a ⨯₃ w) ⬝ᵥ (a ⨯₃ b))], ?_⟩
    have : w = (sqNorm (a ⨯₃ b))⁻¹ • (((w ⨯₃ b) ⬝ᵥ (a ⨯₃ b)) • a + ((a ⨯₃ w) ⬝ᵥ (a ⨯₃ b)) • b) := by
      rw [← id, smul_smul, inv_mul_cancel₀ hD, one_smul]
    have hx : x = S.coords 0 + w := by rw [hw]; abel
    rw [hx]
    conv_lhs => rw [this]
    simp only [smul_add, smul_smul, Matrix.cons_val_zero, Matrix.cons_val_one]
  · rintro ⟨c, rfl⟩
    rw [add_sub_cancel_left, add_dotProduct, smul_dotProduct, smul_dotProduct, dot_self_cross, dot_cross_self]
    simp

/-- For a line in the plane the stored normal is `(-dx, dy)` instead of `(-dy, dx)`: `eval` does not vanish at the second
point the line was built from, and vanishes at a point off the line. -/
theorem C46_bug_line_normal : (line2 ![0, 0] ![1, 2]).eval ![1, 2] ≠ 0 ∧ (line2 ![0, 0] ![1, 2]).eval ![2, 1] = 0 ∧
    ¬ ∃ t : ℝ, (![2, 1] : Vec 2) = t • ![1, 2] := by
  refine ⟨?_, ?_, ?_⟩
  · simp [line2, HyperPlane.eval]; norm_num
  · simp [line2, HyperPlane.eval]
  · rintro ⟨t, ht⟩
    have h0 := congrFun ht 0
    have h1 := congrFun ht 1
    simp at h0 h1
    rw [← h0] at h1; norm_num at h1

/-- C46: `eval` vanishes at the first of the points a line, a plane or a general hyperplane was built from. -/
theorem C46_first_point (a b : Vec 2) (x y z : Vec 3) :
    (line2 a b).eval a = 0 ∧ (line3 x y).eval x = 0 ∧ (plane3 x y z).eval x = 0 := by
  refine ⟨?_, ?_, ?_⟩
  · simp only [line2, HyperPlane.eval]; rw [dotProduct_comm]; ring
  · simp only [line3, HyperPlane.eval]; rw [dotProduct_comm]; ring
  · simp only [plane3, HyperPlane.eval]; rw [dotProduct_comm]; ring

/-- For every line, in the plane and in the space, the value of `eval` at the second point the line was built from is
`dy² - dx²`: zero only for lines at 45 degrees. -/
theorem C46_bug_second_point (a b : Vec 2) (x y : Vec 3) :
    (line2 a b).eval b = (b 1 - a 1) ^ 2 - (b 0 - a 0) ^ 2 ∧ (line3 x y).eval y = (y 1 - x 1) ^ 2 - (y 0 - x 0) ^ 2 := by
  constructor
  · simp only [line2, HyperPlane.eval, dotProduct, Fin.sum_univ_two, Pi.sub_apply, Matrix.cons_val_zero, Matrix.cons_val_one]; ring
  · simp only [line3, HyperPlane.eval, dotProduct, Fin.sum_univ_three, Pi.sub_apply]; simp; ring

/-- The normal of a line in the plane is not normalised: the result of `normalized()` is discarded. -/
theorem C46_bug_not_unit : sqNorm (line2 ![0, 0] ![3, 4]).normal = 25 := by
  simp [line2, sqNorm]; norm_num

/-! ### C43 on manifolds -/

theorem contains_manifold {S : Simplex d N} (hS : S.Nondeg) (hd : d ≠ N)
    (hdist : ∀ x, S.planeDist x = 0 ↔ x ∈ affineSpan ℝ (Set.range S.coords)) (hnn : ∀ x, 0 ≤ S.planeDist x) (p : Vec N) :
    S.contains 0 p = .outside ↔ p ∉ convexHull ℝ (Set.range S.coords) := by
  by_cases hp : p ∈ affineSpan ℝ (Set.range S.coords)
  · rw [← containsB_outside hS p hp, Simplex.contains, if_neg]
    rw [(hdist p).2 hp]; simp
  · have : S.planeDist p > 0 := lt_of_le_of_ne (hnn p) (fun e => hp ((hdist p).1 e.symm))
    rw [Simplex.contains, if_pos ⟨hd, this⟩]
    simp only [true_iff]
    exact fun h => hp (convexHull_subset_affineSpan _ h)

/-- Segments in the plane, zero tolerance. -/
theorem C43_outside_seg2 {S : Simplex 1 2} (hS : S.Nondeg) (p : Vec 2) :
    S.contains 0 p = .outside ↔ p ∉ convexHull ℝ (Set.range S.coords) :=
  contains_manifold hS (by decide) (C46_line2_partial S hS).zero (fun _ => norm_nonneg _) p

/-- Segments in space, zero tolerance. -/
theorem C43_outside_seg3 {S : Simplex 1 3} (hS : S.Nondeg) (p : Vec 3) :
    S.contains 0 p = .outside ↔ p ∉ convexHull ℝ (Set.range S.coords) :=
  contains_manifold hS (by decide) (C46_line3 S hS).zero (fun _ => norm_nonneg _) p

/-- Triangles in space, zero tolerance. -/
theorem C43_outside_tri3 {S : Simplex 2 3} (hS : S.Nondeg) (p : Vec 3) :
    S.contains 0 p = .outside ↔ p ∉ convexHull ℝ (Set.range S.coords) :=
  contains_manifold hS (by decide) (C46_plane3 S hS).zero (fun _ => norm_nonneg _) p

theorem contains_vertex_manifold {S : Simplex d N} (hS : S.Nondeg) (hd : d ≠ N)
    (hdist : ∀ x, S.planeDist x = 0 ↔ x ∈ affineSpan ℝ (Set.range S.coords)) (hnn : ∀ x, 0 ≤ S.planeDist x) (p : Vec N) :
    S.contains 0 p = .onVertex ↔ ∃ i, p = S.coords i := by
  by_cases hp : p ∈ affineSpan ℝ (Set.range S.coords)
  · rw [← containsB_vertex hS p hp, Simplex.contains, if_neg]
    rw [(hdist p).2 hp]; simp
  · have : S.planeDist p > 0 := lt_of_le_of_ne (hnn p) (fun e => hp ((hdist p).1 e.symm))
    rw [Simplex.contains, if_pos ⟨hd, this⟩]
    refine ⟨fun h => absurd h (by decide), ?_⟩
    rintro ⟨i, rfl⟩
    exact absurd (subset_affineSpan ℝ _ (Set.mem_range_self i)) hp

/-- Segments in the plane: ON_VERTEX exactly at the vertices. -/
theorem C43_vertex_seg2 {S : Simplex 1 2} (hS : S.Nondeg) (p : Vec 2) : S.contains 0 p = .onVertex ↔ ∃ i, p = S.coords i :=
  contains_vertex_manifold hS (by decide) (C46_line2_partial S hS).zero (fun _ => norm_nonneg _) p

/-- Segments in space: ON_VERTEX exactly at the vertices. -/
theorem C43_vertex_seg3 {S : Simplex 1 3} (hS : S.Nondeg) (p : Vec 3) : S.contains 0 p = .onVertex ↔ ∃ i, p = S.coords i :=
  contains_vertex_manifold hS (by decide) (C46_line3 S hS).zero (fun _ => norm_nonneg _) p

/-- Triangles in space: ON_VERTEX exactly at the vertices. -/
theorem C43_vertex_tri3 {S : Simplex 2 3} (hS : S.Nondeg) (p : Vec 3) : S.contains 0 p = .onVertex ↔ ∃ i, p = S.coords i :=
  contains_vertex_manifold hS (by decide) (C46_plane3 S hS).zero (fun _ => norm_nonneg _) p

/-- With a positive tolerance, points of the simplex are never reported OUTSIDE. -/
theorem C43_tolerance {S : Simplex N N} (hS : S.Nondeg) (eps : ℝ) (he : 0 ≤ eps) (p : Vec N)
    (hp : p ∈ convexHull ℝ (Set.range S.coords)) : S.contains eps p ≠ .outside := by
  have hb := (bary_nonneg_iff hS p (mem_span_full hS p)).2 hp
  simp only [Simplex.contains, ne_eq, not_true_eq_false, false_and, if_false]
  unfold Simplex.containsB
  rw [if_neg (by rintro ⟨i, hi⟩; have := hb i; linarith)]
  dsimp only
  split_ifs <;> simp

/-- Four independent points in a space of dimension five. -/
example : ∃ S : Simplex 3 5, S.Nondeg := by
  refine ⟨⟨Fin.cons 0 fun j : Fin 3 => Pi.single (j.castLE (by decide)) 1⟩, ?_⟩
  unfold Simplex.Nondeg
  rw [affineIndependent_iff_linearIndependent_vsub ℝ _ (0 : Fin 4)]
  rw [← linearIndependent_equiv (finSuccAboveEquiv (0 : Fin 4))]
  rw [Fintype.linearIndependent_iff]
  intro g hg i
  have := congrFun hg (i.castLE (by decide))
  simpa [Finset.sum_apply, Pi.single_apply, finSuccAboveEquiv_apply] using this

end Fdapde.Geometry
