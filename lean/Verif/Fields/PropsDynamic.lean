import Verif.Fields.DynamicSpec
import Mathlib.Data.Rat.Defs
import Mathlib.Tactic.Ring
import Mathlib.Tactic.Linarith

/-!
# Properties of fields with run-time sizes
-/

set_option linter.unusedSectionVars false

namespace Fdapde.Fields.Dyn

variable {K : Type} [Field K]

theorem app_eq (op : Op) (x y : K) : op.app x y = meaning op x y := by cases op <;> rfl

theorem dims_ne_nil (t : Term K) : t.dims ≠ [] := by
  induction t with
  | field n f => simp [Term.dims]
  | bin op a b ha hb => simp [Term.dims, ha]
  | numL op c a ha => exact ha
  | numR op a c ha => exact ha
  | un f a ha => exact ha
  | neg a ha => exact ha
  | stepped h a ha => exact ha

/-- The node has `n` variables and evaluates to `g` at points with `n` coordinates. -/
def Good (n : Nat) (g : List K → K) (e : SF K) : Prop := e.dim = n ∧ ∀ p : List K, p.length = n → e.call p = .ok (g p)

theorem good_scalar (c : K) (n : Nat) : Good n (fun _ => c) (SF.scalar c n) := ⟨rfl, fun _ _ => rfl⟩

theorem good_bin (op : Op) {n : Nat} {f g : List K → K} {a b : SF K} (ha : Good n f a) (hb : Good n g b) :
    ∃ e, SF.bin op a b = .ok e ∧ Good n (fun p => meaning op (f p) (g p)) e ∧ e.step = 1 / 1000 ∧
      ∀ p : List K, p.length ≠ n → e.call p = .throws := by
  refine ⟨⟨a.dim, defaultStep, SF.binCall op a b⟩, ?_, ⟨ha.1, ?_⟩, rfl, ?_⟩
  · rw [SF.bin, if_pos (ha.1.trans hb.1.symm)]
  · intro p hp
    show SF.binCall op a b p = _
    rw [SF.binCall, if_pos (by rw [ha.1, hp]), ha.2 p hp, hb.2 p hp, Res.ok_bind, Res.ok_bind, app_eq]
    rfl
  · intro p hp
    show SF.binCall op a b p = _
    rw [SF.binCall, if_neg (by rw [ha.1]; exact_mod_cast hp)]

theorem good_dim {n : Nat} {g : List K → K} {e : SF K} (h : Good n g e) : e.dim = n := h.1

/-- What every built expression satisfies. -/
theorem build_good (n : Nat) (t : Term K) (h : ∀ d ∈ t.dims, d = n) :
    ∃ e, t.build = .ok e ∧ Good n t.value e ∧ e.step = t.stepOf ∧
      (t.HasOp → ∀ p : List K, p.length ≠ n → e.call p = .throws) := by
  induction t with
  | field m f =>
    obtain rfl : m = n := h m (by simp [Term.dims])
    exact ⟨_, rfl, ⟨rfl, fun _ _ => rfl⟩, rfl, fun hh => hh.elim⟩
  | bin op a b iha ihb =>
    obtain ⟨x, hx, gx, -, -⟩ := iha fun d hd => h d (by simp [Term.dims, hd])
    obtain ⟨y, hy, gy, -, -⟩ := ihb fun d hd => h d (by simp [Term.dims, hd])
    obtain ⟨e, he, ge, se, te⟩ := good_bin op gx gy
    refine ⟨e, ?_, ge, se, fun _ => te⟩
    rw [Term.build, hx, hy, Res.ok_bind, Res.ok_bind, he]
  | numL op c a iha =>
    obtain ⟨x, hx, gx, -, -⟩ := iha h
    obtain ⟨e, he, ge, se, te⟩ := good_bin op (good_scalar c n) gx
    refine ⟨e, ?_, ge, se, fun _ => te⟩
    rw [Term.build, hx, Res.ok_bind, SF.binL, gx.1, he]
  | numR op a c iha =>
    obtain ⟨x, hx, gx, -, -⟩ := iha h
    obtain ⟨e, he, ge, se, te⟩ := good_bin op gx (good_scalar c n)
    refine ⟨e, ?_, ge, se, fun _ => te⟩
    rw [Term.build, hx, Res.ok_bind, SF.binR, gx.1, he]
  | un f a iha =>
    obtain ⟨x, hx, gx, -, tx⟩ := iha h
    refine ⟨SF.un f x, by rw [Term.build, hx]; rfl, ⟨gx.1, fun p hp => ?_⟩, rfl, fun hh p hp => ?_⟩
    · show (x.call p >>= _) = _
      rw [gx.2 p hp]; rfl
    · show (x.call p >>= _) = _
      rw [tx hh p hp]; rfl
  | neg a iha =>
    obtain ⟨x, hx, gx, -, tx⟩ := iha h
    refine ⟨SF.neg x, by rw [Term.build, hx]; rfl, ⟨gx.1, fun p hp => ?_⟩, rfl, fun hh p hp => ?_⟩
    · show (x.call p >>= _) = _
      rw [gx.2 p hp]; rfl
    · show (x.call p >>= _) = _
      rw [tx hh p hp]; rfl
  | stepped s a iha =>
    obtain ⟨x, hx, gx, -, tx⟩ := iha h
    exact ⟨x.setStep s, by rw [Term.build, hx]; rfl, ⟨gx.1, gx.2⟩, rfl, fun hh p hp => tx hh p hp⟩

/-- If the expression is built, all its fields have the number of variables it reports; otherwise the library throws. -/
theorem build_cases (t : Term K) :
    (∃ n e, t.build = .ok e ∧ e.dim = (n : Nat) ∧ ∀ d ∈ t.dims, d = n) ∨
      (t.build = .throws ∧ ¬ ∃ n, ∀ d ∈ t.dims, d = n) := by
  induction t with
  | field m f => exact .inl ⟨m, _, rfl, rfl, fun d hd => by simpa [Term.dims] using hd⟩
  | bin op a b iha ihb =>
    rcases iha with ⟨n, x, hx, dx, ax⟩ | ⟨hx, ax⟩
    · rcases ihb with ⟨m, y, hy, dy, ay⟩ | ⟨hy, ay⟩
      · by_cases e : n = m
        · subst e
          refine .inl ⟨n, ⟨x.dim, defaultStep, SF.binCall op x y⟩, ?_, dx, ?_⟩
          · rw [Term.build, hx, hy, Res.ok_bind, Res.ok_bind, SF.bin, if_pos (dx.trans dy.symm)]
          · intro d hd
            rcases List.mem_append.mp hd with hd | hd
            · exact ax d hd
            · exact ay d hd
        · refine .inr ⟨?_, ?_⟩
          · rw [Term.build, hx, hy, Res.ok_bind, Res.ok_bind, SF.bin, if_neg (by rw [dx, dy]; exact_mod_cast e)]
          · rintro ⟨k, hk⟩
            obtain ⟨d1, h1⟩ := List.exists_mem_of_ne_nil _ (dims_ne_nil a)
            obtain ⟨d2, h2⟩ := List.exists_mem_of_ne_nil _ (dims_ne_nil b)
            have e1 := hk d1 (List.mem_append.mpr (.inl h1))
            have e2 := hk d2 (List.mem_append.mpr (.inr h2))
            exact e ((ax d1 h1).symm.trans (e1.trans (e2.symm.trans (ay d2 h2))))
      · refine .inr ⟨by rw [Term.build, hx, hy]; rfl, ?_⟩
        rintro ⟨k, hk⟩
        exact ay ⟨k, fun d hd => hk d (List.mem_append.mpr (.inr hd))⟩
    · refine .inr ⟨by rw [Term.build, hx]; rfl, ?_⟩
      rintro ⟨k, hk⟩
      exact ax ⟨k, fun d hd => hk d (List.mem_append.mpr (.inl hd))⟩
  | numL op c a iha =>
    rcases iha with ⟨n, x, hx, dx, ax⟩ | ⟨hx, ax⟩
    · exact .inl ⟨n, ⟨x.dim, defaultStep, SF.binCall op (SF.scalar c x.dim) x⟩,
        by rw [Term.build, hx, Res.ok_bind, SF.binL, SF.bin, if_pos (show (SF.scalar c x.dim).dim = x.dim from rfl)]; rfl, dx, ax⟩
    · exact .inr ⟨by rw [Term.build, hx]; rfl, ax⟩
  | numR op a c iha =>
    rcases iha with ⟨n, x, hx, dx, ax⟩ | ⟨hx, ax⟩
    · exact .inl ⟨n, ⟨x.dim, defaultStep, SF.binCall op x (SF.scalar c x.dim)⟩,
        by rw [Term.build, hx, Res.ok_bind, SF.binR, SF.bin, if_pos (show x.dim = (SF.scalar c x.dim).dim from rfl)], dx, ax⟩
    · exact .inr ⟨by rw [Term.build, hx]; rfl, ax⟩
  | un f a iha =>
    rcases iha with ⟨n, x, hx, dx, ax⟩ | ⟨hx, ax⟩
    · exact .inl ⟨n, SF.un f x, by rw [Term.build, hx]; rfl, dx, ax⟩
    · exact .inr ⟨by rw [Term.build, hx]; rfl, ax⟩
  | neg a iha =>
    rcases iha with ⟨n, x, hx, dx, ax⟩ | ⟨hx, ax⟩
    · exact .inl ⟨n, SF.neg x, by rw [Term.build, hx]; rfl, dx, ax⟩
    · exact .inr ⟨by rw [Term.build, hx]; rfl, ax⟩
  | stepped h a iha =>
    rcases iha with ⟨n, x, hx, dx, ax⟩ | ⟨hx, ax⟩
    · exact .inl ⟨n, x.setStep h, by rw [Term.build, hx]; rfl, dx, ax⟩
    · exact .inr ⟨by rw [Term.build, hx]; rfl, ax⟩

/-- An arithmetic expression over scalar fields can be written exactly when all its fields have the same number of variables; if they
do not the library throws. -/
theorem C119_build (t : Term K) :
    ((∃ e, t.build = .ok e) ↔ ∃ n, ∀ d ∈ t.dims, d = n) ∧ (¬ (∃ n, ∀ d ∈ t.dims, d = n) → t.build = .throws) := by
  rcases build_cases t with ⟨n, e, h1, -, h3⟩ | ⟨h1, h2⟩
  · exact ⟨⟨fun _ => ⟨n, h3⟩, fun _ => ⟨e, h1⟩⟩, fun h => (h ⟨n, h3⟩).elim⟩
  · refine ⟨⟨fun ⟨e, he⟩ => ?_, fun h => (h2 h).elim⟩, fun _ => h1⟩
    rw [h1] at he; cases he

/-- An expression over fields of `n` variables reports `n` variables, carries the step last set on it and has the pointwise value at
every point with `n` coordinates; if it contains an operator, points with another number of coordinates are refused. -/
theorem C119_scalar (n : Nat) (t : Term K) (h : ∀ d ∈ t.dims, d = n) :
    ∃ e, t.build = .ok e ∧ e.dim = n ∧ e.step = t.stepOf ∧ (∀ p : List K, p.length = n → e.call p = .ok (t.value p)) ∧
      (t.HasOp → ∀ p : List K, p.length ≠ n → e.call p = .throws) := by
  obtain ⟨e, h1, h2, h3, h4⟩ := build_good n t h
  exact ⟨e, h1, h2.1, h3, h2.2, h4⟩

/-! ### Moving points -/

theorem bumpAt_eq (x : List K) (i : Nat) (d : K) (h : i < x.length) : bumpAt x i d = .ok (along x i d) := by
  rw [bumpAt, if_pos h, along]
  congr 1
  apply List.ext_getElem?
  intro j
  rw [List.getElem?_modify, List.getElem?_set]
  by_cases e : i = j
  · subst e
    simp [h]
  · simp [e]

theorem length_along (x : List K) (i : Nat) (d : K) : (along x i d).length = x.length := List.length_set

theorem along_along (x : List K) (i : Nat) (c d : K) (h : i < x.length) : along (along x i c) i d = along x i (c + d) := by
  simp only [along, List.set_set]
  congr 1
  rw [List.getD_eq_getElem?_getD, List.getElem?_set_self h, Option.getD_some, add_assoc]

theorem along_zero (x : List K) (i : Nat) : along x i 0 = x := by
  rw [along, add_zero]
  apply List.ext_getElem?
  intro j
  rw [List.getElem?_set]
  by_cases e : i = j
  · subst e
    by_cases h : i < x.length
    · simp [h]
    · simp [h]
  · simp [e]

theorem along_comm (x : List K) {i j : Nat} (h : i ≠ j) (c d : K) : along (along x i c) j d = along (along x j d) i c := by
  simp only [along, List.getD_eq_getElem?_getD, List.getElem?_set_ne h, List.getElem?_set_ne h.symm]
  rw [List.set_comm _ _ h]

theorem partial1_good {n : Nat} {f : List K → K} {e : SF K} (h : Good n f e) (i : Nat) (hi : i < n) (s : K) :
    Good n (central f s i) (e.partial1 i s) := by
  refine ⟨h.1, fun p hp => ?_⟩
  have hi' : i < p.length := by omega
  show (bumpAt p i s >>= _) = _
  rw [bumpAt_eq _ _ _ hi', Res.ok_bind, h.2 _ ((length_along _ _ _).trans hp), Res.ok_bind,
    bumpAt_eq _ _ _ (by rw [length_along]; exact hi'), Res.ok_bind, along_along _ _ _ _ hi',
    h.2 _ ((length_along _ _ _).trans hp), Res.ok_bind, show s + -(2 * s) = -s by ring]
  rfl

theorem partial2_good {n : Nat} {f : List K → K} {e : SF K} (h : Good n f e) (i j : Nat) (hi : i < n) (hj : j < n) (s : K) :
    Good n (second f s i j) (e.partial2 i j s) := by
  refine ⟨h.1, fun p hp => ?_⟩
  have hi' : i < p.length := by omega
  have hj' : j < p.length := by omega
  show (if i ≠ j then e.mixedCall i j s p else e.pureCall i s p) = _
  by_cases e0 : i = j
  · subst e0
    rw [if_neg (by simp), second, if_pos rfl, SF.pureCall]
    rw [bumpAt_eq _ _ _ hi', Res.ok_bind, h.2 _ ((length_along _ _ _).trans hp), Res.ok_bind,
      bumpAt_eq _ _ _ (by rw [length_along]; exact hi'), Res.ok_bind, along_along _ _ _ _ hi',
      h.2 _ ((length_along _ _ _).trans hp), Res.ok_bind,
      bumpAt_eq _ _ _ (by rw [length_along]; exact hi'), Res.ok_bind, along_along _ _ _ _ hi',
      h.2 _ ((length_along _ _ _).trans hp), Res.ok_bind,
      bumpAt_eq _ _ _ (by rw [length_along]; exact hi'), Res.ok_bind, along_along _ _ _ _ hi',
      h.2 _ ((length_along _ _ _).trans hp), Res.ok_bind,
      bumpAt_eq _ _ _ (by rw [length_along]; exact hi'), Res.ok_bind, along_along _ _ _ _ hi',
      h.2 _ ((length_along _ _ _).trans hp), Res.ok_bind]
    rw [show 2 * s + -s = s by ring, show s + -s = 0 by ring, show (0 : K) + -s = -s by ring,
      show -s + -s = -(2 * s) by ring, along_zero]
    rfl
  · rw [if_pos e0, second, if_neg e0, SF.mixedCall]
    have lj : ∀ a b : K, j < (along (along p i a) j b).length := fun a b => by
      rw [length_along, length_along]; exact hj'
    have li : ∀ a b : K, i < (along (along p i a) j b).length := fun a b => by
      rw [length_along, length_along]; exact hi'
    have lp : ∀ a b : K, (along (along p i a) j b).length = n := fun a b => by
      rw [length_along, length_along]; exact hp
    have mj : ∀ a b c : K, along (along (along p i a) j b) j c = along (along p i a) j (b + c) := fun a b c =>
      along_along _ _ _ _ (by rw [length_along]; exact hj')
    have mi : ∀ a b c : K, along (along (along p i a) j b) i c = along (along p i (a + c)) j b := fun a b c => by
      rw [along_comm _ (Ne.symm e0), along_along _ _ _ _ hi']
    rw [bumpAt_eq _ _ _ hi', Res.ok_bind, bumpAt_eq _ _ _ (by rw [length_along]; exact hj'), Res.ok_bind, h.2 _ (lp _ _),
      Res.ok_bind, bumpAt_eq _ _ _ (lj _ _), Res.ok_bind, mj, h.2 _ (lp _ _),
      Res.ok_bind, bumpAt_eq _ _ _ (li _ _), Res.ok_bind, mi, h.2 _ (lp _ _),
      Res.ok_bind, bumpAt_eq _ _ _ (lj _ _), Res.ok_bind, mj, h.2 _ (lp _ _), Res.ok_bind]
    rw [show s + -(2 * s) = -s by ring, show -s + 2 * s = s by ring]
    rfl

/-! ### Vector expressions -/

/-- The node maps `m` variables to `n` components, the `i`-th one being the scalar node of `m` variables with value `g i`. -/
def GoodV (m n : Nat) (g : Nat → List K → K) (v : VF K) : Prop :=
  v.inner = m ∧ v.outer = n ∧ ∀ i, i < n → ∃ e, v.sub i = .ok (.fld e) ∧ Good m (g i) e

theorem goodV_entries {m n : Nat} {g : Nat → List K → K} {v : VF K} (h : GoodV m n g v) (p : List K) (hp : p.length = m) :
    v.call p = .ok ((List.range n).map fun i => g i p) := by
  rw [VF.call, if_pos (by rw [h.1, hp]), if_pos (by rw [h.2.1]; exact Int.natCast_nonneg n), h.2.1, Int.toNat_natCast, VF.entries]
  obtain ⟨s, hs, is⟩ := foldRes_inv (fun acc i => do
      let c ← v.sub i
      let x ← c.call p
      return acc ++ [x]) (fun done (acc : List K) => acc = done.map fun i => g i p) (List.range n)
    (by
      intro done i rest acc hl hacc
      have hi : i < n := by
        have : i ∈ List.range n := by rw [hl]; simp
        simpa using this
      obtain ⟨e, he, ge⟩ := h.2.2 i hi
      refine ⟨acc ++ [g i p], ?_, by rw [hacc]; simp⟩
      rw [he, Res.ok_bind]
      show (e.call p >>= _) = _
      rw [ge.2 p hp]; rfl) [] rfl
  rw [hs, is]

theorem goodV_wrong {m n : Nat} {g : Nat → List K → K} {v : VF K} (h : GoodV m n g v) (p : List K) (hp : p.length ≠ m) :
    v.call p = .throws := by
  rw [VF.call, if_neg (by rw [h.1]; exact_mod_cast Ne.symm hp)]

theorem vectorField_eq (m : Nat) (fs : List (List K → K)) :
    vectorField m fs = .ok ⟨m, fs.length, fs.map fun f => ⟨m, defaultStep, fun p => .ok (f p)⟩⟩ := by
  rw [vectorField]
  obtain ⟨v, hv, h1, h2, h3, h4⟩ := foldRes_inv
    (fun v (fi : (List K → K) × Nat) => VectorField.assign v fi.2 fun p => .ok (fi.1 p))
    (fun done (v : VectorField K) => v.inner = m ∧ v.outer = fs.length ∧ v.comps.length = fs.length ∧
      ∀ i (hi : i < fs.length), v.comps[i]? = some (if i < done.length then ⟨m, defaultStep, fun p => .ok (fs[i] p)⟩ else SF.empty m))
    fs.zipIdx
    (by
      intro done x rest v hl ⟨h1, h2, h3, h4⟩
      have hx : fs.zipIdx[done.length]? = some x := by rw [hl]; simp
      rw [List.getElem?_zipIdx] at hx
      have hlen : done.length < fs.length := by
        have := congrArg List.length hl
        simp at this; omega
      rw [List.getElem?_eq_getElem hlen] at hx
      simp only [Option.map_some, Option.some.injEq, Nat.zero_add] at hx
      subst hx
      refine ⟨{ v with comps := v.comps.modify done.length (fun s => s.assign fun p => .ok (fs[done.length] p)) }, ?_, h1, h2, ?_, ?_⟩
      · dsimp only
        rw [VectorField.assign, if_pos (by omega)]
      · simpa using h3
      · intro i hi
        dsimp only
        rw [List.getElem?_modify, h4 i hi]
        by_cases e : done.length = i
        · subst e
          simp [SF.assign, SF.empty]
        · simp only [e, if_false, List.length_append, List.length_singleton]
          by_cases l : i < done.length
          · rw [if_pos l, if_pos (by omega)]; rfl
          · rw [if_neg l, if_neg (by omega)]; rfl) (VectorField.sized m fs.length)
    ⟨rfl, rfl, by simp [VectorField.sized], fun i hi => by simp [VectorField.sized, hi]⟩
  rw [hv]
  obtain ⟨a, b, c⟩ := v
  simp only at h1 h2 h3 h4
  subst h1 h2
  congr 2
  apply List.ext_getElem?
  intro i
  by_cases hi : i < fs.length
  · rw [h4 i hi]; simp [hi]
  · simp [hi, h3]

theorem goodV_field (m : Nat) (fs : List (List K → K)) :
    GoodV m fs.length (fun i => fs.getD i fun _ => 0)
      (VectorField.expr ⟨m, fs.length, fs.map fun f => ⟨m, defaultStep, fun p => .ok (f p)⟩⟩) := by
  refine ⟨rfl, rfl, fun i hi => ⟨⟨m, defaultStep, fun p => .ok (fs[i] p)⟩, ?_, rfl, fun p _ => ?_⟩⟩
  · simp [VectorField.expr, hi]
  · simp [hi]

theorem goodV_bin (op : Op) {m n : Nat} {f g : Nat → List K → K} {a b : VF K} (ha : GoodV m n f a) (hb : GoodV m n g b) :
    ∃ e, VF.bin op a b = .ok e ∧ GoodV m n (fun i p => meaning op (f i p) (g i p)) e := by
  refine ⟨⟨a.inner, a.outer, VF.binSub op a b⟩, ?_, ha.1, ha.2.1, fun i hi => ?_⟩
  · rw [VF.bin, if_pos ⟨ha.1.trans hb.1.symm, ha.2.1.trans hb.2.1.symm⟩]
  · obtain ⟨x, hx, gx⟩ := ha.2.2 i hi
    obtain ⟨y, hy, gy⟩ := hb.2.2 i hi
    obtain ⟨e, he, ge, -, -⟩ := good_bin op gx gy
    refine ⟨e, ?_, ge⟩
    show VF.binSub op a b i = _
    rw [VF.binSub, hx, hy, Res.ok_bind, Res.ok_bind, Cell.bin, he]; rfl

/-- The node is a constant: its components are the numbers `c i`. -/
def ConstV (m n : Nat) (c : Nat → K) (v : VF K) : Prop :=
  v.inner = m ∧ v.outer = n ∧ ∀ i, i < n → v.sub i = .ok (.num (c i))

theorem constV_const (v : List K) (m : Nat) : ConstV m v.length (fun i => v.getD i 0) (VF.const v m v.length) := by
  refine ⟨rfl, rfl, fun i hi => ?_⟩
  simp [VF.const, hi]

theorem constV_scal (c : K) (m n : Nat) : ConstV m n (fun _ => c) (VF.scal c m n) := ⟨rfl, rfl, fun _ _ => rfl⟩

theorem constV_left (op : Op) {m n : Nat} {c : Nat → K} {g : Nat → List K → K} {a b : VF K} (ha : ConstV m n c a) (hb : GoodV m n g b) :
    ∃ e, VF.bin op a b = .ok e ∧ GoodV m n (fun i p => meaning op (c i) (g i p)) e := by
  refine ⟨⟨a.inner, a.outer, VF.binSub op a b⟩, ?_, ha.1, ha.2.1, fun i hi => ?_⟩
  · rw [VF.bin, if_pos ⟨ha.1.trans hb.1.symm, ha.2.1.trans hb.2.1.symm⟩]
  · obtain ⟨y, hy, gy⟩ := hb.2.2 i hi
    obtain ⟨e, he, ge, -, -⟩ := good_bin op (good_scalar (c i) m) gy
    refine ⟨e, ?_, ge⟩
    show VF.binSub op a b i = _
    rw [VF.binSub, ha.2.2 i hi, hy, Res.ok_bind, Res.ok_bind, Cell.bin, SF.binL, gy.1, he]; rfl

theorem constV_right (op : Op) {m n : Nat} {c : Nat → K} {g : Nat → List K → K} {a b : VF K} (ha : GoodV m n g a) (hb : ConstV m n c b) :
    ∃ e, VF.bin op a b = .ok e ∧ GoodV m n (fun i p => meaning op (g i p) (c i)) e := by
  refine ⟨⟨a.inner, a.outer, VF.binSub op a b⟩, ?_, ha.1, ha.2.1, fun i hi => ?_⟩
  · rw [VF.bin, if_pos ⟨ha.1.trans hb.1.symm, ha.2.1.trans hb.2.1.symm⟩]
  · obtain ⟨y, hy, gy⟩ := ha.2.2 i hi
    obtain ⟨e, he, ge, -, -⟩ := good_bin op gy (good_scalar (c i) m)
    refine ⟨e, ?_, ge⟩
    show VF.binSub op a b i = _
    rw [VF.binSub, hb.2.2 i hi, hy, Res.ok_bind, Res.ok_bind, Cell.bin, SF.binR, gy.1, he]; rfl

theorem goodV_derive {n : Nat} {f : List K → K} {e : SF K} (h : Good n f e) : GoodV n n (fun i => central f e.step i) e.derive :=
  ⟨h.1, h.1, fun i hi => ⟨_, rfl, partial1_good h i hi e.step⟩⟩

theorem buildV_good (m n : Nat) (t : VTerm K) (h : t.Maps m n) : ∃ e, t.build = .ok e ∧ GoodV m n t.value e := by
  induction t with
  | field m' fs =>
    obtain ⟨rfl, rfl⟩ := h
    exact ⟨_, by rw [VTerm.build, vectorField_eq]; rfl, goodV_field m' fs⟩
  | grad t =>
    obtain ⟨h1, rfl⟩ := h
    obtain ⟨e, he, ge, se, -⟩ := build_good m t h1
    refine ⟨e.derive, by rw [VTerm.build, he]; rfl, ?_⟩
    have := goodV_derive ge
    rw [se] at this
    exact this
  | bin op a b iha ihb =>
    obtain ⟨x, hx, gx⟩ := iha h.1
    obtain ⟨y, hy, gy⟩ := ihb h.2
    obtain ⟨e, he, ge⟩ := goodV_bin op gx gy
    exact ⟨e, by rw [VTerm.build, hx, hy, Res.ok_bind, Res.ok_bind, he], ge⟩
  | constL op v a iha =>
    obtain ⟨h1, h2⟩ := h
    obtain ⟨x, hx, gx⟩ := iha h2
    subst h1
    obtain ⟨e, he, ge⟩ := constV_left op (constV_const v m) gx
    exact ⟨e, by rw [VTerm.build, hx, Res.ok_bind, VF.constL, gx.1, gx.2.1, he], ge⟩
  | constR op a v iha =>
    obtain ⟨h2, h1⟩ := h
    obtain ⟨x, hx, gx⟩ := iha h2
    subst h1
    obtain ⟨e, he, ge⟩ := constV_right op gx (constV_const v m)
    exact ⟨e, by rw [VTerm.build, hx, Res.ok_bind, VF.constR, gx.1, gx.2.1, he], ge⟩
  | scaleL c a iha =>
    obtain ⟨x, hx, gx⟩ := iha h
    obtain ⟨e, he, ge⟩ := constV_left .mul (constV_scal c m n) gx
    exact ⟨e, by rw [VTerm.build, hx, Res.ok_bind, VF.scaleL, gx.1, gx.2.1, he], ge⟩
  | scaleR a c iha =>
    obtain ⟨x, hx, gx⟩ := iha h
    obtain ⟨e, he, ge⟩ := constV_right .mul gx (constV_scal c m n)
    exact ⟨e, by rw [VTerm.build, hx, Res.ok_bind, VF.scaleR, gx.1, gx.2.1, he], ge⟩

/-- Sums, differences, multiples and gradients: an expression that maps `m` variables to `n` components can be written, reports these
sizes, evaluates component by component at every point with `m` coordinates and refuses any other point.  (Partial: negations and
products with matrices are left out, see the bugs.) -/
theorem C119_vector_partial (m n : Nat) (t : VTerm K) (h : t.Maps m n) :
    ∃ e, t.build = .ok e ∧ e.inner = m ∧ e.outer = n ∧
      (∀ p : List K, p.length = m → e.call p = .ok ((List.range n).map fun i => t.value i p)) ∧
      (∀ p : List K, p.length ≠ m → e.call p = .throws) := by
  obtain ⟨e, he, ge⟩ := buildV_good m n t h
  exact ⟨e, he, ge.1, ge.2.1, goodV_entries ge, goodV_wrong ge⟩

/-- Adding or subtracting vector expressions whose sizes differ is refused. -/
theorem C119_vector_mismatch (op : Op) (a b : VTerm K) {m n m' n' : Nat} (ha : a.Maps m n) (hb : b.Maps m' n') (h : ¬ (m = m' ∧ n = n')) :
    (VTerm.bin op a b).build = .throws := by
  obtain ⟨x, hx, gx⟩ := buildV_good m n a ha
  obtain ⟨y, hy, gy⟩ := buildV_good m' n' b hb
  rw [VTerm.build, hx, hy, Res.ok_bind, Res.ok_bind, VF.bin, if_neg]
  rw [gx.1, gx.2.1, gy.1, gy.2.1]
  exact_mod_cast h

theorem foldRes_sum (f : Nat → K) (g : K → Nat → Res K) (l : List Nat) (hg : ∀ i ∈ l, ∀ acc, g acc i = .ok (acc + f i)) (s : K) :
    foldRes g s l = .ok (s + (l.map f).sum) := by
  induction l generalizing s with
  | nil => simp
  | cons a l ih =>
    rw [foldRes_cons, hg a (by simp), Res.ok_bind, ih (fun i hi => hg i (by simp [hi])), List.map_cons, List.sum_cons, add_assoc]

/-- The dot product of two expressions from `m` variables to `n` components is the sum of the products of the components at every point
with `m` coordinates, and refuses any other point. -/
theorem C119_dot (m n : Nat) (a b : VTerm K) (ha : a.Maps m n) (hb : b.Maps m n) :
    ∃ x y, a.build = .ok x ∧ b.build = .ok y ∧
      (∀ p : List K, p.length = m → (x.dot y).call p = .ok ((List.range n).map fun i => a.value i p * b.value i p).sum) ∧
      (∀ p : List K, p.length ≠ m → (x.dot y).call p = .throws) := by
  obtain ⟨x, hx, gx⟩ := buildV_good m n a ha
  obtain ⟨y, hy, gy⟩ := buildV_good m n b hb
  refine ⟨x, y, hx, hy, fun p hp => ?_, fun p hp => ?_⟩
  · show VF.dotCall x y p = _
    rw [VF.dotCall, if_pos ⟨by rw [gx.1, hp], by rw [gy.1, hp], gx.2.1.trans gy.2.1.symm⟩, gx.2.1, Int.toNat_natCast,
      foldRes_sum (fun i => a.value i p * b.value i p), zero_add]
    intro i hi acc
    have hi : i < n := by simpa using hi
    obtain ⟨u, hu, gu⟩ := gx.2.2 i hi
    obtain ⟨w, hw, gw⟩ := gy.2.2 i hi
    obtain ⟨e, he, ge, -, -⟩ := good_bin .mul gu gw
    rw [hu, hw, Res.ok_bind, Res.ok_bind, dotTerm, he, Res.ok_bind, ge.2 p hp]
    rfl
  · show VF.dotCall x y p = _
    rw [VF.dotCall, if_neg]
    rw [gx.1]
    intro hh
    exact hp (by exact_mod_cast hh.1)

/-- The dot product with a constant vector. -/
theorem C119_dot_const (m n : Nat) (a : VTerm K) (ha : a.Maps m n) (v : List K) (hv : v.length = n) :
    ∃ x, a.build = .ok x ∧ ∀ p : List K, p.length = m →
      (x.dot (VF.const v x.inner x.outer)).call p = .ok ((List.range n).map fun i => a.value i p * v.getD i 0).sum := by
  obtain ⟨x, hx, gx⟩ := buildV_good m n a ha
  refine ⟨x, hx, fun p hp => ?_⟩
  subst hv
  have hc := constV_const v m
  rw [gx.1, gx.2.1]
  show VF.dotCall x _ p = _
  rw [VF.dotCall, if_pos ⟨by rw [gx.1, hp], by rw [hc.1, hp], gx.2.1.trans hc.2.1.symm⟩, gx.2.1, Int.toNat_natCast,
    foldRes_sum (fun i => a.value i p * v.getD i 0), zero_add]
  intro i hi acc
  have hi : i < v.length := by simpa using hi
  obtain ⟨u, hu, gu⟩ := gx.2.2 i hi
  rw [hu, hc.2.2 i hi, Res.ok_bind, Res.ok_bind]
  simp only [dotTerm, Cell.call, gu.2 p hp, Res.ok_bind]
  rfl

/-! ### Matrix fields -/

theorem foldRes_rows (n k : Nat) (A : Nat → Nat → K) (row : Nat → Res (List K))
    (h : ∀ i, i < n → row i = .ok ((List.range k).map (A i))) :
    foldRes (fun acc i => do
      let r ← row i
      return acc ++ [r]) [] (List.range n) = .ok ((List.range n).map fun i => (List.range k).map (A i)) := by
  obtain ⟨s, hs, is⟩ := foldRes_inv (fun acc i => do
      let r ← row i
      return acc ++ [r]) (fun done (acc : List (List K)) => acc = done.map fun i => (List.range k).map (A i)) (List.range n)
    (by
      intro done i rest acc hl hacc
      have hi : i < n := by
        have : i ∈ List.range n := by rw [hl]; simp
        simpa using this
      refine ⟨acc ++ [(List.range k).map (A i)], ?_, by rw [hacc]; simp⟩
      rw [h i hi]; rfl) [] rfl
  rw [hs, is]

theorem rowEntries_eq (a : MF K) (p : List K) (k i : Nat) (A : Nat → K)
    (h : ∀ j, j < k → ∃ c, a.coeff i j = .ok c ∧ c.call p = .ok (A j)) : a.rowEntries p k i = .ok ((List.range k).map A) := by
  rw [MF.rowEntries]
  obtain ⟨s, hs, is⟩ := foldRes_inv (fun acc j => do
      let c ← a.coeff i j
      let x ← c.call p
      return acc ++ [x]) (fun done (acc : List K) => acc = done.map A) (List.range k)
    (by
      intro done j rest acc hl hacc
      have hj : j < k := by
        have : j ∈ List.range k := by rw [hl]; simp
        simpa using this
      obtain ⟨c, hc, gc⟩ := h j hj
      refine ⟨acc ++ [A j], ?_, by rw [hacc]; simp⟩
      rw [hc, Res.ok_bind, gc]; rfl) [] rfl
  rw [hs, is]

theorem mf_call (a : MF K) (n k : Nat) (p : List K) (A : Nat → Nat → K) (hr : a.rows = n) (hc : a.cols = k)
    (h : ∀ i j, i < n → j < k → ∃ c, a.coeff i j = .ok c ∧ c.call p = .ok (A i j)) :
    a.call p = .ok ((List.range n).map fun i => (List.range k).map (A i)) := by
  rw [MF.call, if_pos ⟨by rw [hr]; exact Int.natCast_nonneg n, by rw [hc]; exact Int.natCast_nonneg k⟩, hr, hc, Int.toNat_natCast,
    Int.toNat_natCast]
  exact foldRes_rows n k A _ fun i hi => rowEntries_eq a p k i (A i) fun j hj => h i j hi hj

/-- The Hessian of an expression over fields of `n` variables is the matrix of the difference quotients with the step set on it. -/
theorem C119_hessian (n : Nat) (t : Term K) (h : ∀ d ∈ t.dims, d = n) :
    ∃ e, t.build = .ok e ∧ e.deriveTwice.inner = n ∧ ∀ p : List K, p.length = n →
      e.deriveTwice.call p = .ok ((List.range n).map fun i => (List.range n).map fun j => second t.value t.stepOf i j p) := by
  obtain ⟨e, he, ge, se, -⟩ := build_good n t h
  refine ⟨e, he, ge.1, fun p hp => ?_⟩
  apply mf_call _ n n p _ ge.1 ge.1
  intro i j hi hj
  refine ⟨.fld (e.partial2 i j e.step), rfl, ?_⟩
  show (e.partial2 i j e.step).call p = _
  rw [(partial2_good ge i j hi hj e.step).2 p hp, se]

theorem matrixField_eq (m n k : Nat) (f : Nat → Nat → List K → K) :
    ∃ a, matrixField m n k f = .ok a ∧ a.inner = m ∧ a.rows = n ∧ a.cols = k ∧
      ∀ i j, i < n → j < k → a.comps[j + i * k]? = some ⟨m, defaultStep, fun p => .ok (f i j p)⟩ := by
  rw [matrixField]
  have key : ∀ L : List (Nat × Nat), (∀ ij ∈ L, ij.1 < n ∧ ij.2 < k) →
      ∃ a, foldRes (fun a (ij : Nat × Nat) => MatrixField.assign a ij.1 ij.2 fun p => .ok (f ij.1 ij.2 p)) (MatrixField.sized m n k) L = .ok a ∧
        a.inner = m ∧ a.rows = n ∧ a.cols = k ∧ a.comps.length = n * k ∧
        (∀ i j, i < n → j < k → ∃ s : SF K, a.comps[j + i * k]? = some s ∧ s.dim = m ∧ s.step = defaultStep ∧
          ((i, j) ∈ L → s.call = fun p => .ok (f i j p))) := by
    intro L hL
    obtain ⟨a, ha, h1⟩ := foldRes_inv
      (fun a (ij : Nat × Nat) => MatrixField.assign a ij.1 ij.2 fun p => .ok (f ij.1 ij.2 p))
      (fun done (a : MatrixField K) => a.inner = m ∧ a.rows = n ∧ a.cols = k ∧ a.comps.length = n * k ∧
        (∀ i j, i < n → j < k → ∃ s : SF K, a.comps[j + i * k]? = some s ∧ s.dim = m ∧ s.step = defaultStep ∧
          ((i, j) ∈ done → s.call = fun p => .ok (f i j p)))) L
      (by
        rintro done ⟨i0, j0⟩ rest a hl ⟨h1, h2, h3, h4, h5⟩
        obtain ⟨hi0, hj0⟩ := hL (i0, j0) (by rw [hl]; simp)
        have hb : j0 + i0 * k < n * k := by
          have : (i0 + 1) * k ≤ n * k := Nat.mul_le_mul_right k hi0
          simp only at hj0
          linarith only [this, hj0, Nat.add_mul i0 1 k]
        refine ⟨{ a with comps := a.comps.modify (j0 + i0 * k) (fun s => s.assign fun p => .ok (f i0 j0 p)) }, ?_, h1, h2, h3, ?_, ?_⟩
        · dsimp only
          rw [MatrixField.assign, h3, Int.toNat_natCast, if_pos (by omega)]
        · simpa using h4
        · intro i j hi hj
          obtain ⟨s, hs, ds, ss, cs⟩ := h5 i j hi hj
          dsimp only
          rw [List.getElem?_modify, hs]
          by_cases e : j0 + i0 * k = j + i * k
          · have ej : j0 = j := by
              have := congrArg (· % k) e
              simpa [Nat.add_mul_mod_self_right, Nat.mod_eq_of_lt hj, Nat.mod_eq_of_lt hj0] using this
            subst ej
            have ei : i0 = i := by
              have hk : 0 < k := by omega
              exact Nat.eq_of_mul_eq_mul_right hk (by omega)
            subst ei
            exact ⟨s.assign fun p => .ok (f i0 j0 p), by simp, ds, ss, fun _ => rfl⟩
          · refine ⟨s, by simp [e], ds, ss, fun hm => ?_⟩
            rcases List.mem_append.mp hm with hm | hm
            · exact cs hm
            · simp only [List.mem_singleton, Prod.mk.injEq] at hm
              exact (e (by rw [hm.1, hm.2])).elim) (MatrixField.sized m n k)
      ⟨rfl, rfl, rfl, by simp [MatrixField.sized], fun i j hi hj => by
        have hb : j + i * k < n * k := by
          have : (i + 1) * k ≤ n * k := Nat.mul_le_mul_right k hi
          linarith only [this, hj, Nat.add_mul i 1 k]
        exact ⟨SF.empty m, by simp [MatrixField.sized, hb], rfl, rfl, fun hm => by simp at hm⟩⟩
    exact ⟨a, ha, h1⟩
  obtain ⟨a, ha, h1, h2, h3, -, h5⟩ := key ((List.range n).flatMap fun i => (List.range k).map fun j => (i, j)) (by
    rintro ⟨i, j⟩ hm
    simp only [List.mem_flatMap, List.mem_range, List.mem_map, Prod.mk.injEq] at hm
    obtain ⟨i', hi', j', hj', rfl, rfl⟩ := hm
    exact ⟨hi', hj'⟩)
  refine ⟨a, ha, h1, h2, h3, fun i j hi hj => ?_⟩
  obtain ⟨s, hs, ds, ss, cs⟩ := h5 i j hi hj
  have := cs (by simp [hi, hj])
  rw [hs]
  obtain ⟨a, b, c⟩ := s
  simp only at ds ss this
  subst ds ss this
  rfl

/-- A matrix field whose components have all been assigned evaluates entry by entry.  (Partial: no operation on matrix fields with
run-time sizes can be evaluated, see the bugs.) -/
theorem C119_matrix_partial (m n k : Nat) (f : Nat → Nat → List K → K) :
    ∃ a, matrixField m n k f = .ok a ∧ ∀ p : List K,
      a.expr.call p = .ok ((List.range n).map fun i => (List.range k).map fun j => f i j p) := by
  obtain ⟨a, ha, h1, h2, h3, h4⟩ := matrixField_eq m n k f
  refine ⟨a, ha, fun p => ?_⟩
  apply mf_call _ n k p (fun i j => f i j p) h2 h3
  intro i j hi hj
  refine ⟨.fld ⟨m, defaultStep, fun p => .ok (f i j p)⟩, ?_, rfl⟩
  show Cell.fld <$> Res.ofOptionUB a.comps[j + i * a.cols.toNat]? = _
  rw [h3, Int.toNat_natCast, h4 i j hi hj]
  rfl

theorem coeff_eq {m n k : Nat} {f : Nat → Nat → List K → K} {a : MatrixField K} (h3 : a.cols = k)
    (h4 : ∀ i j, i < n → j < k → a.comps[j + i * k]? = some ⟨m, defaultStep, fun p => .ok (f i j p)⟩) {i j : Nat} (hi : i < n) (hj : j < k) :
    a.expr.coeff i j = .ok (.fld ⟨m, defaultStep, fun p => .ok (f i j p)⟩) := by
  show Cell.fld <$> Res.ofOptionUB a.comps[j + i * a.cols.toNat]? = _
  rw [h3, Int.toNat_natCast, h4 i j hi hj]
  rfl

/-- The coefficients of sums and differences of matrix fields, of their negation and of their product by a number have the values they
should at every point of the right dimension.  (Partial: this is all that can be evaluated, see the bugs.) -/
theorem C119_coefficients_partial (m n k : Nat) (f g : Nat → Nat → List K → K) (op : Op) (c : K) :
    ∃ a b, matrixField m n k f = .ok a ∧ matrixField m n k g = .ok b ∧ ∀ i j, i < n → j < k → ∀ p : List K, p.length = m →
      (∃ e, (MF.bin op a.expr b.expr).coeff i j = .ok e ∧ e.call p = .ok (meaning op (f i j p) (g i j p))) ∧
      (∃ e, (MF.bin op (MF.scal c) b.expr).coeff i j = .ok e ∧ e.call p = .ok (meaning op c (g i j p))) ∧
      (∃ e, (MF.bin op a.expr (MF.scal c)).coeff i j = .ok e ∧ e.call p = .ok (meaning op (f i j p) c)) ∧
      (∃ e, a.expr.neg.coeff i j = .ok e ∧ e.call p = .ok (-f i j p)) := by
  obtain ⟨a, ha, -, -, a3, a4⟩ := matrixField_eq m n k f
  obtain ⟨b, hb, -, -, b3, b4⟩ := matrixField_eq m n k g
  refine ⟨a, b, ha, hb, fun i j hi hj p hp => ?_⟩
  have ea := coeff_eq a3 a4 hi hj
  have eb := coeff_eq b3 b4 hi hj
  have ga : Good m (f i j) (⟨m, defaultStep, fun p => .ok (f i j p)⟩ : SF K) := ⟨rfl, fun _ _ => rfl⟩
  have gb : Good m (g i j) (⟨m, defaultStep, fun p => .ok (g i j p)⟩ : SF K) := ⟨rfl, fun _ _ => rfl⟩
  refine ⟨?_, ?_, ?_, ?_⟩
  · obtain ⟨e, he, ge, -⟩ := good_bin op ga gb
    refine ⟨.fld e, ?_, ge.2 p hp⟩
    show (a.expr.coeff i j >>= fun x => b.expr.coeff i j >>= fun y => Cell.bin op x y) = _
    rw [ea, eb, Res.ok_bind, Res.ok_bind, Cell.bin, he]
    rfl
  · obtain ⟨e, he, ge, -⟩ := good_bin op (good_scalar c m) gb
    refine ⟨.fld e, ?_, ge.2 p hp⟩
    show (Res.ok (Cell.num c) >>= fun x => b.expr.coeff i j >>= fun y => Cell.bin op x y) = _
    rw [eb, Res.ok_bind, Res.ok_bind, Cell.bin, SF.binL, gb.1, he]
    rfl
  · obtain ⟨e, he, ge, -⟩ := good_bin op ga (good_scalar c m)
    refine ⟨.fld e, ?_, ge.2 p hp⟩
    show (a.expr.coeff i j >>= fun x => (Res.ok (Cell.num c)) >>= fun y => Cell.bin op x y) = _
    rw [ea, Res.ok_bind, Res.ok_bind, Cell.bin, SF.binR, ga.1, he]
    rfl
  · refine ⟨.fld (SF.neg ⟨m, defaultStep, fun p => .ok (f i j p)⟩), ?_, rfl⟩
    show Cell.neg <$> a.expr.coeff i j = _
    rw [ea]
    rfl

/-- Vectors of numbers: the entries of a sum or difference of two constant vectors, and of the negation of one, are numbers. -/
theorem C119_constants (m n : Nat) (op : Op) (u v : List K) (hu : u.length = n) (hv : v.length = n) :
    ∃ e, VF.bin op (VF.const u m n) (VF.const v m n) = .ok e ∧
      (∀ p : List K, p.length = m → e.call p = .ok ((List.range n).map fun i => meaning op (u.getD i 0) (v.getD i 0))) ∧
      ∀ i < n, (VF.const u m n).neg.sub i = .ok (.num (-u.getD i 0)) := by
  subst hu
  refine ⟨⟨m, u.length, VF.binSub op (VF.const u m u.length) (VF.const v m u.length)⟩, by rw [VF.bin, if_pos ⟨rfl, rfl⟩]; rfl, fun p hp => ?_, fun i hi => ?_⟩
  · rw [VF.call, if_pos (by show (m : Int) = _; omega), if_pos (by show (0 : Int) ≤ u.length; omega)]
    show VF.entries _ p (u.length : Int).toNat = _
    rw [Int.toNat_natCast, VF.entries]
    obtain ⟨s, hs, is⟩ := foldRes_inv (fun acc i => do
        let c ← VF.binSub op (VF.const u m u.length) (VF.const v m u.length) i
        let x ← c.call p
        return acc ++ [x]) (fun done (acc : List K) => acc = done.map fun i => meaning op (u.getD i 0) (v.getD i 0)) (List.range u.length)
      (by
        intro done i rest acc hl hacc
        have hi : i < u.length := by
          have : i ∈ List.range u.length := by rw [hl]; simp
          simpa using this
        refine ⟨acc ++ [meaning op (u.getD i 0) (v.getD i 0)], ?_, by rw [hacc]; simp⟩
        have e1 : (VF.const u m u.length).sub i = .ok (.num (u.getD i 0)) := (constV_const u m).2.2 i hi
        have e2 : (VF.const v m u.length).sub i = .ok (.num (v.getD i 0)) := by
          have := (constV_const v m).2.2 i (by omega)
          rwa [hv] at this
        rw [VF.binSub, e1, e2, Res.ok_bind, Res.ok_bind, Cell.bin, Res.ok_bind, Cell.call, app_eq]
        rfl) [] rfl
    rw [hs, is]
  · show Cell.neg <$> (VF.const u m u.length).sub i = _
    rw [(constV_const u m).2.2 i hi]
    rfl

/-- A component which does not exist can not be assigned: the access is out of the range of the storage, which is not checked. -/
theorem C119_assign_range (v : VectorField K) (a : MatrixField K) (i j : Nat) (f : List K → Res K) :
    (v.assign i f = .ub ↔ v.comps.length ≤ i) ∧ (∀ s, v.copyTo i s = .ub ↔ v.comps.length ≤ i) ∧
      (a.assign i j f = .ub ↔ a.comps.length ≤ j + i * a.cols.toNat) := by
  refine ⟨?_, fun s => ?_, ?_⟩
  · unfold VectorField.assign
    split_ifs with h <;> simp <;> omega
  · unfold VectorField.copyTo
    split_ifs with h <;> simp <;> omega
  · unfold MatrixField.assign
    split_ifs with h <;> simp <;> omega

/-! ### Where the sizes are lost -/

/-- Bug: storing an expression over fields of `n ≥ 1` variables in a `ScalarField` loses the number of variables: the stored field has
the right values, but adding it to any field of `n` variables throws and its gradient cannot be evaluated at any point with `n`
coordinates. -/
theorem C119_bug_store (n : Nat) (hn : 0 < n) (t u : Term K) (ht : ∀ d ∈ t.dims, d = n) (hu : ∀ d ∈ u.dims, d = n) (op : Op) :
    ∃ e g, t.build = .ok e ∧ u.build = .ok g ∧ (∀ p : List K, p.length = n → (SF.ofExpr e).call p = .ok (t.value p)) ∧
      SF.bin op (SF.ofExpr e) g = .throws ∧ ∀ p : List K, p.length = n → (SF.ofExpr e).derive.call p = .throws := by
  obtain ⟨e, he, ge, -, -⟩ := build_good n t ht
  obtain ⟨g, hg, gg, -, -⟩ := build_good n u hu
  refine ⟨e, g, he, hg, ge.2, ?_, fun p hp => ?_⟩
  · rw [SF.bin, if_neg]
    rw [gg.1]
    show ¬ (0 : Int) = n
    omega
  · rw [VF.call, if_neg]
    show ¬ (0 : Int) = p.length
    omega

/-- Bug: a field constructed from a callable has no variables either: any operation on it builds an expression which throws at every
point with at least one coordinate. -/
theorem C119_bug_callable (f g : List K → K) (op : Op) (p : List K) (hp : p ≠ []) :
    ∃ e, SF.bin op (SF.ofCallable fun x => .ok (f x)) (SF.ofCallable fun x => .ok (g x)) = .ok e ∧ e.call p = .throws := by
  refine ⟨⟨0, defaultStep, SF.binCall op (SF.ofCallable fun x => .ok (f x)) (SF.ofCallable fun x => .ok (g x))⟩, ?_, ?_⟩
  · rw [SF.bin, if_pos (show (SF.ofCallable fun x => Res.ok (f x)).dim = (SF.ofCallable fun x => Res.ok (g x)).dim from rfl)]
    rfl
  show SF.binCall _ _ _ p = _
  rw [SF.binCall, if_neg]
  show ¬ (p.length : Int) = 0
  have := List.length_pos_iff.mpr hp
  omega

/-- Bug: adding a `ConstantField` or the zero field to a field of `n ≥ 1` variables throws. -/
theorem C119_bug_constant (n : Nat) (hn : 0 < n) (t : Term K) (ht : ∀ d ∈ t.dims, d = n) (op : Op) (c : K) :
    ∃ e, t.build = .ok e ∧ SF.bin op e (SF.constant c) = .throws := by
  obtain ⟨e, he, ge, -, -⟩ := build_good n t ht
  refine ⟨e, he, ?_⟩
  rw [SF.bin, if_neg]
  rw [ge.1]
  show ¬ (n : Int) = 0
  omega

/-- Bug: a dot product is a scalar expression without variables: adding it to a field of `m ≥ 1` variables throws. -/
theorem C119_bug_dot_size (m n : Nat) (hm : 0 < m) (a b : VTerm K) (ha : a.Maps m n) (hb : b.Maps m n) (t : Term K)
    (ht : ∀ d ∈ t.dims, d = m) (op : Op) :
    ∃ x y e, a.build = .ok x ∧ b.build = .ok y ∧ t.build = .ok e ∧ SF.bin op (x.dot y) e = .throws := by
  obtain ⟨x, hx, -⟩ := buildV_good m n a ha
  obtain ⟨y, hy, -⟩ := buildV_good m n b hb
  obtain ⟨e, he, ge, -, -⟩ := build_good m t ht
  refine ⟨x, y, e, hx, hy, he, ?_⟩
  rw [SF.bin, if_neg]
  rw [ge.1]
  show ¬ (0 : Int) = m
  omega

/-- Bug: the negation of a vector expression throws at every point, and adding it to any expression from `m` variables throws. -/
theorem C119_bug_negation (v w : VF K) (op : Op) (hw : 0 ≤ w.inner) : (∀ p : List K, v.neg.call p = .throws) ∧ VF.bin op v.neg w = .throws := by
  constructor
  · intro p
    rw [VF.call, if_neg]
    show ¬ (-1 : Int) = p.length
    omega
  · rw [VF.bin, if_neg]
    rintro ⟨h, -⟩
    have : (-1 : Int) = w.inner := h
    omega

/-- Bug: a vector field with run-time sizes cannot be constructed from a vector of callables. -/
theorem C119_bug_from_list (fs : List (List K → Res K)) : VectorField.ofList fs = .throws := by
  rw [VectorField.ofList, if_neg]
  omega

/-- Bug: nor from an expression. -/
theorem C119_bug_from_expression (e : VF K) : VectorField.ofExpr e = .throws := by
  rw [VectorField.ofExpr]
  by_cases h : (-1 : Int) = e.outer
  · rw [if_pos h]; rfl
  · rw [if_neg h]

/-- Bug: copying into component `i` of a vector field a `ScalarField` constructed from a callable makes every sum or difference with
another field from `m ≥ 1` variables throw at the points of that dimension. -/
theorem C119_bug_component (m : Nat) (hm : 0 < m) (fs : List (List K → K)) (i : Nat) (hi : i < fs.length) (f : List K → K) (op : Op)
    (b : VTerm K) (hb : b.Maps m fs.length) (p : List K) (hp : p.length = m) :
    ∃ v v' y e, vectorField m fs = .ok v ∧ v.copyTo i (SF.ofCallable fun x => .ok (f x)) = .ok v' ∧ b.build = .ok y ∧
      VF.bin op v'.expr y = .ok e ∧ e.call p = .throws := by
  obtain ⟨y, hy, gy⟩ := buildV_good m fs.length b hb
  let v : VectorField K := ⟨m, fs.length, fs.map fun f => ⟨m, defaultStep, fun p => .ok (f p)⟩⟩
  let v' : VectorField K := { v with comps := v.comps.set i (SF.ofCallable fun x => .ok (f x)) }
  refine ⟨v, v', y, ⟨v'.expr.inner, v'.expr.outer, VF.binSub op v'.expr y⟩, vectorField_eq m fs, ?_, hy, ?_, ?_⟩
  · rw [VectorField.copyTo, if_pos (by simpa [v] using hi)]
  · rw [VF.bin, if_pos]
    exact ⟨by rw [gy.1]; rfl, by rw [gy.2.1]; rfl⟩
  · have hsub : ∀ j, j < fs.length → j ≠ i → ∃ x : K, (do
        let c ← VF.binSub op v'.expr y j
        c.call p) = .ok x := by
      intro j hj hji
      obtain ⟨c, hc, gc⟩ := gy.2.2 j hj
      obtain ⟨e, he, ge, -, -⟩ := good_bin op (a := (⟨m, defaultStep, fun p => .ok (fs[j] p)⟩ : SF K)) (f := fs[j]) (n := m)
        ⟨rfl, fun _ _ => rfl⟩ gc
      refine ⟨meaning op (fs[j] p) (b.value j p), ?_⟩
      have hx : v'.expr.sub j = .ok (.fld ⟨m, defaultStep, fun p => .ok (fs[j] p)⟩) := by
        show Cell.fld <$> Res.ofOptionUB (v.comps.set i _)[j]? = _
        rw [List.getElem?_set_ne (Ne.symm hji)]
        simp [v, hj]
      rw [VF.binSub, hx, hc, Res.ok_bind, Res.ok_bind, Cell.bin, he]
      show e.call p = _
      rw [ge.2 p hp]
    have hbad : VF.binSub op v'.expr y i = .throws := by
      obtain ⟨c, hc, gc⟩ := gy.2.2 i hi
      have hx : v'.expr.sub i = .ok (.fld (SF.ofCallable fun x => .ok (f x))) := by
        show Cell.fld <$> Res.ofOptionUB (v.comps.set i _)[i]? = _
        rw [List.getElem?_set_self (by simpa [v] using hi)]
        rfl
      rw [VF.binSub, hx, hc, Res.ok_bind, Res.ok_bind, Cell.bin, SF.bin, if_neg]
      · rfl
      · rw [gc.1]
        show ¬ (0 : Int) = m
        omega
    rw [VF.call, if_pos (by show (m : Int) = _; omega), if_pos (by show (0 : Int) ≤ fs.length; omega)]
    show VF.entries _ p (fs.length : Int).toNat = _
    rw [Int.toNat_natCast, VF.entries]
    have hr : List.range fs.length = List.range i ++ i :: List.range' (i + 1) (fs.length - i - 1) := by
      rw [List.range_eq_range', List.range_eq_range', ← List.range'_succ]
      have := List.range'_append_1 (s := 0) (m := i) (n := fs.length - i - 1 + 1)
      rw [Nat.zero_add] at this
      rw [this]
      congr 1; omega
    rw [hr, foldRes_append]
    have hpre : ∀ (l : List Nat) (acc : List K), (∀ j ∈ l, j < fs.length ∧ j ≠ i) → ∃ acc', foldRes (fun acc j => do
        let c ← VF.binSub op v'.expr y j
        let x ← c.call p
        return acc ++ [x]) acc l = .ok acc' := by
      intro l
      induction l with
      | nil => intro acc _; exact ⟨acc, rfl⟩
      | cons j l ih =>
        intro acc hl
        obtain ⟨x, hx⟩ := hsub j (hl j (by simp)).1 (hl j (by simp)).2
        obtain ⟨acc', ha⟩ := ih (acc ++ [x]) fun j hj => hl j (by simp [hj])
        refine ⟨acc', ?_⟩
        rw [Res.bind_eq_ok] at hx
        obtain ⟨c, hc, hx⟩ := hx
        rw [foldRes_cons, hc, Res.ok_bind, hx, Res.ok_bind]
        exact ha
    obtain ⟨acc', ha⟩ := hpre (List.range i) [] fun j hj => by
      have : j < i := by simpa using hj
      omega
    change (foldRes (fun acc j => do
        let c ← VF.binSub op v'.expr y j
        let x ← c.call p
        return acc ++ [x]) [] (List.range i) >>= fun s => foldRes (fun acc j => do
        let c ← VF.binSub op v'.expr y j
        let x ← c.call p
        return acc ++ [x]) s (i :: List.range' (i + 1) (fs.length - i - 1))) = _
    rw [ha, Res.ok_bind, foldRes_cons, hbad]
    rfl

/-- Bug: sums and differences of matrix fields, and their multiples and negations, ask for a result of negative size. -/
theorem C119_bug_matrix_sum (op : Op) (a b : MF K) (p : List K) : (MF.bin op a b).call p = .ub ∧ a.neg.call p = .ub := by
  constructor <;> (rw [MF.call, if_neg]; intro h; exact absurd (show (0 : Int) ≤ -1 from h.1) (by decide))

/-- Bug: the product of a matrix and a vector throws at every point, and so does every component of it; so do rows and columns. -/
theorem C119_bug_matrix_vector (a : MF K) (v : VF K) (i : Nat) (p : List K) :
    (a.mulVec v).call p = .throws ∧ (a.row i).call p = .throws ∧ (a.col i).call p = .throws ∧
      (do let c ← (a.mulVec v).sub i
          c.call p) = .throws := by
  refine ⟨?_, ?_, ?_, ?_⟩
  · rw [VF.call, if_neg]; show ¬ (-1 : Int) = p.length; omega
  · rw [VF.call, if_neg]; show ¬ (-1 : Int) = p.length; omega
  · rw [VF.call, if_neg]; show ¬ (-1 : Int) = p.length; omega
  · show VF.dotCall (a.row i) v p = _
    rw [VF.dotCall, if_neg]
    rintro ⟨h, -⟩
    have : (p.length : Int) = -1 := h
    omega

/-- The expressions of the theorems exist: `-(x₀ + 2 x₁) · (x₀ x₁)` over two fields of two variables, with a step of one half, and the sum
of a vector field and its gradient. -/
example : (∀ d ∈ (Term.stepped (1 / 2) (Term.bin .mul (.neg (.field 2 fun p => p.getD 0 0 + 2 * p.getD 1 0))
      (.field 2 fun p => p.getD 0 0 * p.getD 1 0)) : Term ℚ).dims, d = 2) ∧
    (VTerm.bin .add (.scaleL 3 (.field 2 [fun p => p.getD 0 0, fun p => p.getD 1 0])) (.grad (.stepped (1 / 2)
      (Term.field 2 fun p => p.getD 0 0 * p.getD 1 0))) : VTerm ℚ).Maps 2 2 ∧
    (do let e ← (VTerm.bin .add (.scaleL 3 (.field 2 [fun p => p.getD 0 0, fun p => p.getD 1 0])) (.grad (.stepped (1 / 2)
            (Term.field 2 fun p => p.getD 0 0 * p.getD 1 0))) : VTerm ℚ).build
        e.call [5, 7]) = .ok [22, 26] := by
  refine ⟨by simp [Term.dims], by simp [VTerm.Maps, Term.dims], ?_⟩
  decide +kernel

/-- Fields with different numbers of variables: the sum is refused. -/
example : (Term.bin .add (.field 2 fun _ => 1) (.field 3 fun _ => 1) : Term ℚ).build = .throws :=
  (C119_build _).2 (by simp [Term.dims])

end Fdapde.Fields.Dyn
