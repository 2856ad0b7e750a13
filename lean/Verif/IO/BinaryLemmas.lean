import Verif.IO.BinarySpec
import Mathlib.Data.List.Basic
import Mathlib.Tactic.Ring
import Mathlib.Tactic.Linarith
import Mathlib.Tactic.NormNum

/-! # Binary encodings: lemmas -/

namespace Fdapde.IO

theorem le_length (n v : Nat) : (le n v).length = n := by
  induction n generalizing v with
  | zero => rfl
  | succ n ih => simp [le, ih]

theorem be_length (n v : Nat) : (be n v).length = n := by simp [be, le_length]

theorem memValue_le (n v : Nat) : memValue (le n v) = v % 256 ^ n := by
  induction n generalizing v with
  | zero => simp [le, memValue, Nat.mod_one]
  | succ n ih =>
      rw [le, memValue, ih, Nat.pow_succ, Nat.mul_comm (256 ^ n) 256, Nat.mod_mul]
      congr 1

/-- Setting the cells of a vector from the last to the first. -/
theorem set_down {α : Type} (x : List α) (d : α) (f : Nat → Option α) (hf : ∀ j, j < x.length → f j = x[x.length - j - 1]?) :
    ∀ j, j ≤ x.length → foldRes (fun (r : List α) j =>
      (fun b => r.set (x.length - j - 1) b) <$> Res.ofOptionUB (f j)) (List.replicate x.length d) (List.range j) =
        .ok (List.replicate (x.length - j) d ++ x.drop (x.length - j)) := by
  intro j
  induction j with
  | zero => intro _; simp [foldRes_nil]
  | succ j ih =>
      intro hj
      rw [List.range_succ, foldRes_append, ih (by omega), Res.ok_bind, foldRes_cons]
      have h1 : f j = some (x[x.length - j - 1]'(by omega)) := by
        rw [hf j (by omega), List.getElem?_eq_getElem]
      simp only [h1, Res.ofOptionUB_some, Res.map_ok, Res.ok_bind, foldRes_nil]
      congr 1
      have e1 : List.replicate (x.length - j) d = List.replicate (x.length - (j + 1)) d ++ [d] := by
        rw [show x.length - j = (x.length - (j + 1)) + 1 by omega, List.replicate_succ']
      have e2 : x.drop (x.length - (j + 1)) = x[x.length - j - 1]'(by omega) :: x.drop (x.length - j) := by
        rw [List.drop_eq_getElem_cons (by omega)]
        congr 1
        congr 1
        omega
      rw [e1, e2, List.append_assoc, List.set_append_right _ _ (by simp; omega)]
      congr 1
      have e3 : x.length - j - 1 - (List.replicate (x.length - (j + 1)) d).length = 0 := by simp; omega
      rw [e3]
      rfl

theorem getElem?_mid {α : Type} (pre x post : List α) (j : Nat) (h : j < x.length) : (pre ++ x ++ post)[pre.length + j]? = x[j]? := by
  rw [List.append_assoc, List.getElem?_append_right (by omega), Nat.add_sub_cancel_left, List.getElem?_append_left h]

theorem bytesLittle_eq (x pre post : List Byte) : bytesLittle x.length (pre ++ x ++ post) pre.length = .ok x := by
  unfold bytesLittle
  have := set_down x (0 : Byte) (fun j => (pre ++ x ++ post)[pre.length + (x.length - j - 1)]?) (fun j hj => getElem?_mid pre x post _ (by omega))
    x.length (Nat.le_refl _)
  refine Eq.trans this ?_
  simp

theorem bytesBig_eq (x pre post : List Byte) : bytesBig x.length (pre ++ x ++ post) pre.length = .ok x.reverse := by
  unfold bytesBig
  have := set_down x.reverse (0 : Byte) (fun j => (pre ++ x ++ post)[pre.length + j]?) (fun j hj => by
    rw [List.length_reverse] at hj
    show (pre ++ x ++ post)[pre.length + j]? = _
    rw [getElem?_mid pre x post _ hj, List.length_reverse, List.getElem?_reverse (by omega)]
    congr 1
    omega) x.reverse.length (Nat.le_refl _)
  rw [List.length_reverse] at this
  refine Eq.trans this ?_
  simp

theorem Rd.pure_eq {α : Type} (a : α) : (pure a : Rd α) = fun _ head => .ok (a, head) := rfl

theorem decodes_pure {α : Type} (a : α) : Decodes (pure a : Rd α) [] a := by
  intro pre post
  rw [Rd.pure_eq]
  simp

theorem decodes_bind {α β : Type} {p : Rd α} {f : α → Rd β} {x y : List Byte} {a : α} {b : β} (hp : Decodes p x a) (hf : Decodes (f a) y b) :
    Decodes (p >>= f) (x ++ y) b := by
  intro pre post
  have h1 := hp pre (y ++ post)
  have h2 := hf (pre ++ x) post
  show (match p (pre ++ (x ++ y) ++ post) pre.length with
    | .ok (a, head) => f a (pre ++ (x ++ y) ++ post) head
    | .throws => .throws
    | .ub => .ub) = _
  have e1 : pre ++ (x ++ y) ++ post = pre ++ x ++ (y ++ post) := by simp
  have e2 : pre ++ x ++ (y ++ post) = pre ++ x ++ y ++ post := by simp
  rw [e1, h1]
  show f a (pre ++ x ++ (y ++ post)) (pre.length + x.length) = _
  rw [e2, ← List.length_append, h2]
  simp [Nat.add_assoc]

theorem decodes_map {α β : Type} {p : Rd α} {f : α → β} {x : List Byte} {a : α} (hp : Decodes p x a) :
    Decodes (p >>= fun a => pure (f a)) x (f a) := by
  have := decodes_bind (f := fun a => pure (f a)) hp (decodes_pure (f a))
  rwa [List.append_nil] at this

theorem decodes_skip (x : List Byte) : Decodes (skip x.length) x () := fun _ _ => rfl

theorem decodes_little (x : List Byte) : Decodes (readLittle x.length) x (memValue x) := by
  intro pre post
  unfold readLittle
  rw [bytesLittle_eq]
  rfl

theorem decodes_big (x : List Byte) : Decodes (readBig x.length) x (memValue x.reverse) := by
  intro pre post
  unfold readBig
  rw [bytesBig_eq]
  rfl

theorem signed_pattern (w : Nat) (hw : 0 < w) (v : Int) (h : Fits w v) : signed w (pattern w v) = v := by
  unfold signed pattern Fits at *
  obtain ⟨h1, h2⟩ := h
  have hp : (0 : Int) < 2 ^ w := by positivity
  have e : ((v % 2 ^ w).toNat : Int) = v % 2 ^ w := Int.toNat_of_nonneg (Int.emod_nonneg _ hp.ne')
  have hlt : (v % 2 ^ w).toNat < 2 ^ w := by
    zify
    rw [e]
    exact Int.emod_lt_of_pos _ hp
  rw [BitVec.toInt_eq_toNat_bmod, BitVec.toNat_ofNat, Nat.mod_eq_of_lt hlt, e]
  have e2 : ((2 ^ w : Nat) : Int) = 2 ^ w := by push_cast; rfl
  rw [← e2, Int.emod_bmod]
  have h3 : (2 : Int) ^ w = 2 * 2 ^ (w - 1) := by
    conv_lhs => rw [show w = (w - 1) + 1 by omega, pow_succ]
    ring
  apply Int.bmod_eq_of_le
  · rw [e2, h3]; omega
  · rw [e2, h3]; omega

theorem pattern_lt (w : Nat) (v : Int) : pattern w v < 2 ^ w := by
  unfold pattern
  have hp : (0 : Int) < 2 ^ w := by positivity
  zify
  rw [Int.toNat_of_nonneg (Int.emod_nonneg _ hp.ne')]
  exact Int.emod_lt_of_pos _ hp

theorem decodes_i32 (v : Int) (h : Fits 32 v) : Decodes readI32 (i32le v) v := by
  have := decodes_map (f := signed 32) (decodes_little (i32le v))
  unfold readI32
  rw [show (i32le v).length = 4 from le_length _ _] at this
  have e : signed 32 (memValue (i32le v)) = v := by
    unfold i32le
    rw [memValue_le, Nat.mod_eq_of_lt (by have := pattern_lt 32 v; norm_num at this ⊢; exact this), signed_pattern 32 (by norm_num) v h]
  rw [e] at this
  exact this

theorem decodes_i32big (v : Int) (h : Fits 32 v) : Decodes readI32Big (i32be v) v := by
  have := decodes_map (f := signed 32) (decodes_big (i32be v))
  unfold readI32Big
  rw [show (i32be v).length = 4 from be_length _ _] at this
  have e : signed 32 (memValue (i32be v).reverse) = v := by
    unfold i32be be
    rw [List.reverse_reverse, memValue_le, Nat.mod_eq_of_lt (by have := pattern_lt 32 v; norm_num at this ⊢; exact this),
      signed_pattern 32 (by norm_num) v h]
  rw [e] at this
  exact this

theorem decodes_i16 (v : Int) (h : Fits 16 v) : Decodes readI16 (i16le v) v := by
  have := decodes_map (f := signed 16) (decodes_little (i16le v))
  unfold readI16
  rw [show (i16le v).length = 2 from le_length _ _] at this
  have e : signed 16 (memValue (i16le v)) = v := by
    unfold i16le
    rw [memValue_le, Nat.mod_eq_of_lt (by have := pattern_lt 16 v; norm_num at this ⊢; exact this), signed_pattern 16 (by norm_num) v h]
  rw [e] at this
  exact this

theorem decodes_i8 (v : Int) (h : Fits 8 v) : Decodes readI8 (i8le v) v := by
  have := decodes_map (f := signed 8) (decodes_little (i8le v))
  unfold readI8
  rw [show (i8le v).length = 1 from le_length _ _] at this
  have e : signed 8 (memValue (i8le v)) = v := by
    unfold i8le
    rw [memValue_le, Nat.mod_eq_of_lt (by have := pattern_lt 8 v; norm_num at this ⊢; exact this), signed_pattern 8 (by norm_num) v h]
  rw [e] at this
  exact this

theorem decodes_f64 (d : BitVec 64) : Decodes readF64 (f64le d) d := by
  have := decodes_map (f := BitVec.ofNat 64) (decodes_little (f64le d))
  unfold readF64
  rw [show (f64le d).length = 8 from le_length _ _] at this
  have e : BitVec.ofNat 64 (memValue (f64le d)) = d := by
    unfold f64le
    rw [memValue_le, Nat.mod_eq_of_lt (by have := d.isLt; norm_num at this ⊢; exact this)]
    simp
  rw [e] at this
  exact this

theorem decodes_many {α : Type} {p : Rd α} {enc : α → List Byte} (l : List α) (h : ∀ a ∈ l, Decodes p (enc a) a) :
    Decodes (many p l.length) (l.flatMap enc) l := by
  induction l with
  | nil => exact decodes_pure []
  | cons a l ih =>
      have h2 := decodes_map (f := fun as => a :: as) (ih fun b hb => h b (by simp [hb]))
      exact decodes_bind (h a (by simp)) h2

end Fdapde.IO
