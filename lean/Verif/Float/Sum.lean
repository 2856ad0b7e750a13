import Verif.Float.Error
import Mathlib.Algebra.BigOperators.Group.Finset.Basic
/-
Rounded sums.
-/
namespace Fdapde.Fp
variable (r : Rounding)

/-- `r.Adds l s`: adding up the elements of `l` with rounded additions, in some order and grouping, may give `s`.  `start` is a sum that begins with
zero. -/
inductive Rounding.Adds : List ℝ → ℝ → Prop
  | nil : Rounding.Adds [] 0
  | one (x : ℝ) : Rounding.Adds [x] x
  | start (x : ℝ) : Rounding.Adds [x] (r.rnd (0 + x))
  | add {l l' : List ℝ} {a b : ℝ} : l ≠ [] → l' ≠ [] → Rounding.Adds l a → Rounding.Adds l' b → Rounding.Adds (l ++ l') (r.rnd (a + b))
  | perm {l l' : List ℝ} {a : ℝ} : l.Perm l' → Rounding.Adds l a → Rounding.Adds l' a

/-- `S` adds up lists, each in an order and grouping of its own. -/
def Rounding.Summation (S : List ℝ → ℝ) : Prop := ∀ l, r.Adds l (S l)

/-- From the first to the last, beginning with zero. -/
noncomputable def Rounding.sumLeft (l : List ℝ) : ℝ := l.foldl (fun s x => r.rnd (s + x)) 0

theorem Rounding.sumLeft_append (l : List ℝ) (x : ℝ) : r.sumLeft (l ++ [x]) = r.rnd (r.sumLeft l + x) := by
  simp [Rounding.sumLeft, List.foldl_append]

theorem Rounding.sumLeft_adds (l : List ℝ) : r.Adds l (r.sumLeft l) := by
  induction l using List.reverseRecOn with
  | nil => exact .nil
  | append_singleton l x ih =>
    rw [r.sumLeft_append]
    rcases List.eq_nil_or_concat l with rfl | _
    · exact .start x
    · by_cases hl : l = []
      · subst hl; exact .start x
      · exact .add hl (by simp) ih (.one x)

variable {r}

theorem Rounding.Adds.err {l : List ℝ} {s : ℝ} (h : r.Adds l s) : r.Err l.length (l.map fun x => |x|).sum l.sum s := by
  induction h with
  | nil => exact ⟨by simp, by simp⟩
  | one x => exact ⟨by simp, by simpa using mul_nonneg (sub_nonneg.2 r.one_le_b) (abs_nonneg x)⟩
  | start x =>
    have := (Rounding.Err.exact (r := r) x).rnd
    simpa using this
  | @add l l' a b hl hl' _ _ ih ih' =>
    have h1 : 0 < l.length := List.length_pos_iff.2 hl
    have h2 : 0 < l'.length := List.length_pos_iff.2 hl'
    rw [List.map_append, List.sum_append, List.sum_append, List.length_append]
    have := ((ih.mono (k := l.length + l'.length - 1) (by omega)).add (ih'.mono (by omega))).rnd
    exact this.mono (by omega)
  | @perm l l' a hp _ ih =>
    rw [hp.length_eq, (hp.map _).sum_eq, hp.sum_eq] at ih
    exact ih

/-- Errors of the terms and of the sum. -/
theorem Rounding.Adds.sum {ι : Type} {l : List ι} {m x x' : ι → ℝ} {k : Nat} {s : ℝ} (h : r.Adds (l.map x') s)
    (he : ∀ i ∈ l, r.Err k (m i) (x i) (x' i)) : r.Err (k + l.length) (l.map m).sum (l.map x).sum s := by
  have h1 : r.Err k (l.map m).sum (l.map x).sum (l.map x').sum := by
    clear h
    induction l with
    | nil => exact ⟨by simp, by simp⟩
    | cons i l ih =>
      simp only [List.map_cons, List.sum_cons]
      exact (he i (by simp)).add (ih fun j hj => he j (by simp [hj]))
  have h2 : ((l.map x').map fun y => |y|).sum ≤ r.b ^ k * (l.map m).sum := by
    clear h h1
    induction l with
    | nil => simp
    | cons i l ih =>
      simp only [List.map_cons, List.sum_cons]
      rw [mul_add]
      exact add_le_add (he i (by simp)).size (ih fun j hj => he j (by simp [hj]))
  have h3 := h.err.2
  rw [List.length_map] at h3
  refine ⟨h1.1, ?_⟩
  have e : s - (l.map x).sum = (s - (l.map x').sum) + ((l.map x').sum - (l.map x).sum) := by ring
  have hb := one_le_pow₀ r.one_le_b (n := l.length)
  rw [e]
  calc _ ≤ |s - (l.map x').sum| + |(l.map x').sum - (l.map x).sum| := abs_add_le _ _
    _ ≤ (r.b ^ l.length - 1) * (r.b ^ k * (l.map m).sum) + (r.b ^ k - 1) * (l.map m).sum :=
        add_le_add (h3.trans (mul_le_mul_of_nonneg_left h2 (by linarith))) h1.2
    _ = _ := by rw [pow_add]; ring

theorem Rounding.Adds.sum_range {n : Nat} {m x x' : Nat → ℝ} {k : Nat} {s : ℝ} (h : r.Adds ((List.range n).map x') s)
    (he : ∀ i < n, r.Err k (m i) (x i) (x' i)) : r.Err (k + n) (∑ i ∈ Finset.range n, m i) (∑ i ∈ Finset.range n, x i) s := by
  have := h.sum (m := m) (x := x) (k := k) fun i hi => he i (List.mem_range.1 hi)
  rwa [List.length_range] at this

end Fdapde.Fp
