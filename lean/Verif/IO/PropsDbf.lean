import Verif.IO.DbfLemmas

/-! # Properties of the dBase reader (C77) -/

namespace Fdapde.IO

/-- **C77.** Reading a well-formed file with at least one record gives the descriptors of all the fields, and for every field the texts of
that field in all the records, in order (deleted records included); bytes behind the records are ignored.  Partial: fields of at most 127
bytes (see `C77_bug_long_field`), at least one record (see `C77_bug_no_record`). -/
theorem C77_columns_partial (version reserved : List Byte) (fields : List Field) (records : List Rec) (rest : List Byte)
    (h : WellFormed 127 version reserved fields records) (hne : records ≠ []) :
    ∃ f, dbfReader (encDbf version reserved fields records ++ rest) = .ok f ∧
      f.descriptors = fields.map (fun d => (d.name, d.type)) ∧
      (∀ j (hj : j < fields.length), f.column fields[j].name = .ok (columnOf records j)) ∧
      ∀ n, n ∉ fields.map Field.name → f.column n = .throws := by
  refine ⟨_, dbfReader_eq version reserved fields records rest h, ?_, ?_, ?_⟩
  · simp [Dbf.descriptors, descOf]
  · intro j hj
    unfold Dbf.column
    dsimp only
    rw [lookup_pushRows fields records [] h.unique h.cells j hj hne]
    rfl
  · intro n hn
    unfold Dbf.column
    dsimp only
    rw [lookup_pushRows_other fields records [] n hn]
    rfl

theorem convert_ok {T : Type} (num : List Byte → Option T) (val : T) (texts : List (List Byte)) (values : List T)
    (h : List.Forall₂ (fun t v => num t = some v) texts values) : convert num val texts = values := by
  induction h generalizing val with
  | nil => rfl
  | cons h _ ih => rw [convert, h]; exact congrArg _ (ih _)

/-- **C77.** Numeric columns are converted entry by entry when the conversion `std::from_chars` succeeds on every text. -/
theorem C77_numeric {T : Type} (num : List Byte → Option T) (zero : T) (f : Dbf) (name : List Byte) (texts : List (List Byte)) (values : List T)
    (hc : f.column name = .ok texts) (h : List.Forall₂ (fun t v => num t = some v) texts values) : f.getAs num zero name = .ok values := by
  unfold Dbf.getAs
  rw [hc, Res.map_ok, convert_ok num zero texts values h]

theorem toNat_digit {d : Nat} (h : d < 10) : (UInt8.ofNat (48 + d)).toNat = 48 + d := by
  rw [UInt8.toNat_ofNat']; omega

theorem digitsValue_map (ds : List Nat) (h : ∀ d ∈ ds, d < 10) (rest : List Byte) (hr : ∀ b ∈ rest.head?, b.toNat < 48 ∨ 57 < b.toNat) (acc : Nat) :
    digitsValue acc (ds.map (fun d => UInt8.ofNat (48 + d)) ++ rest) = (ds.foldl (fun a d => d + 10 * a) acc : Nat) := by
  induction ds generalizing acc with
  | nil =>
    cases rest with
    | nil => rfl
    | cons b r =>
      have := hr b (by simp)
      rw [List.map_nil, List.nil_append, digitsValue, if_neg (by omega)]
      rfl
  | cons d ds ih =>
    have hd := h d (by simp)
    have := ih (fun e he => h e (by simp [he])) (d + 10 * acc)
    rw [List.map_cons, List.cons_append, digitsValue, toNat_digit hd, if_pos (by omega), List.foldl_cons, ← this]
    congr 1
    push_cast
    omega

/-- The digits of a number, not followed by another digit, have its value. -/
theorem digitsValue_decimal (n : Nat) (rest : List Byte) (hr : ∀ b ∈ rest.head?, b.toNat < 48 ∨ 57 < b.toNat) :
    digitsValue 0 (decimal n ++ rest) = n ∧ ∃ b t, decimal n ++ rest = b :: t ∧ 48 ≤ b.toNat ∧ b.toNat ≤ 57 := by
  unfold decimal
  split
  · rename_i h0
    subst h0
    refine ⟨?_, 48, rest, rfl, by decide, by decide⟩
    exact digitsValue_map [0] (by simp) rest hr 0
  · rename_i h0
    have hd : ∀ d ∈ (Nat.digits 10 n).reverse, d < 10 := fun d hd => Nat.digits_lt_base (by decide) (List.mem_reverse.1 hd)
    constructor
    · have := digitsValue_map (Nat.digits 10 n).reverse hd rest hr 0
      have e := Nat.ofDigits_digits 10 n
      rw [Nat.ofDigits_eq_foldr] at e
      rw [List.foldl_reverse] at this
      refine this.trans (congrArg _ ?_)
      simpa using e
    · cases hl : (Nat.digits 10 n).reverse with
      | nil => exact absurd (List.reverse_eq_nil_iff.1 hl) (Nat.digits_ne_nil_iff_ne_zero.2 h0)
      | cons d ds =>
        have := hd d (by rw [hl]; simp)
        exact ⟨_, _, rfl, by rw [toNat_digit this]; omega, by rw [toNat_digit this]; omega⟩

/-- **C77.** `get_as<int>` reads the number written in the text, left-justified and not followed by another digit, if it fits an `int`; a number that does
not fit is not stored. -/
theorem C77_integers (z : Int) (rest : List Byte) (hr : ∀ b ∈ rest.head?, b.toNat < 48 ∨ 57 < b.toNat) :
    (Fits 32 z → fromCharsInt (integerText z ++ rest) = some z) ∧ (¬ Fits 32 z → fromCharsInt (integerText z ++ rest) = none) := by
  obtain ⟨h1, b, t, h2, h3, h4⟩ := digitsValue_decimal z.natAbs rest hr
  have hb : b ≠ 45 := by rintro rfl; revert h3; decide
  have hfit : Fits 32 z ↔ -2 ^ 31 ≤ z ∧ z < 2 ^ 31 := by unfold Fits; norm_num
  suffices h : fromCharsInt (integerText z ++ rest) = if -2 ^ 31 ≤ z ∧ z < 2 ^ 31 then some z else none by
    rw [h, hfit]
    exact ⟨fun h => if_pos h, fun h => if_neg h⟩
  unfold integerText
  by_cases hz : z < 0
  · rw [if_pos hz, List.cons_append]
    rw [h2] at h1 ⊢
    change (if 48 ≤ b.toNat ∧ b.toNat ≤ 57 then (if -2 ^ 31 ≤ (if true = true then -digitsValue 0 (b :: t) else digitsValue 0 (b :: t)) ∧
      (if true = true then -digitsValue 0 (b :: t) else digitsValue 0 (b :: t)) < 2 ^ 31 then
        some (if true = true then -digitsValue 0 (b :: t) else digitsValue 0 (b :: t)) else none) else none) = _
    rw [if_pos ⟨h3, h4⟩, h1, if_pos rfl, show -((z.natAbs : Nat) : Int) = z by omega]
  · rw [if_neg hz]
    unfold fromCharsInt
    rw [h2] at h1 ⊢
    split
    rename_i neg t' heq
    have : (neg, t') = (false, b :: t) := by
      rw [← heq]
      split
      · rename_i h; exact absurd (List.cons.inj h).1 hb
      · rfl
    obtain ⟨rfl, rfl⟩ := Prod.mk.inj this
    dsimp only
    rw [if_pos ⟨h3, h4⟩, h1, if_neg Bool.false_ne_true, show ((z.natAbs : Nat) : Int) = z by omega]

example : fromCharsInt (integerText (-1205) ++ [32]) = some (-1205) :=
  (C77_integers _ _ (by decide)).1 (by unfold Fits; norm_num)

/-- Converting a text which `std::from_chars` does not accept repeats the value of the record before (zero for the first record). -/
theorem C77_bug_stale {T : Type} (num : List Byte → Option T) (zero : T) (t u : List Byte) (v : T) (ht : num t = some v) (hu : num u = none) :
    convert num zero [u, t, u] = [zero, v, v] := by
  simp [convert, ht, hu]

/-- Numbers are stored right-justified and padded with blanks in the format; `std::from_chars` does not skip blanks, so that `get_as<int>` of a
column holding 10, 7, 12 in fields of two bytes gives 10, 10, 12. -/
theorem C77_bug_padded : convert fromCharsInt 0 [[49, 48], [32, 55], [49, 50]] = [10, 10, 12] := by decide +kernel

/-- Fields of 128 bytes and more (the format allows up to 254): the length is read as a signed byte, and reserving a negative length throws
as soon as there is a record. -/
theorem C77_bug_long_field (n : Nat) (h : 128 ≤ n) (h' : n ≤ 254) :
    ∃ l : Int, Decodes readI8 [UInt8.ofNat n] l ∧ l < 0 ∧
      ∀ name type buf head, readCell ⟨name, type, l⟩ buf head = .throws := by
  refine ⟨(n : Int) - 256, ?_, by omega, ?_⟩
  · have e : i8le ((n : Int) - 256) = [UInt8.ofNat n] := by
      unfold i8le pattern
      have : (((n : Int) - 256) % 2 ^ 8).toNat = n := by norm_num; omega
      rw [this]
      rfl
    rw [← e]
    exact decodes_i8 _ (by unfold Fits; norm_num; omega)
  · intro name type buf head
    unfold readCell
    rw [if_pos (by show ((n : Int) - 256) < 0; omega)]
    rfl

/-- In a file without records no column can be accessed, although its fields are described: `get_as` fails its assertion. -/
theorem C77_bug_no_record (version reserved : List Byte) (fields : List Field) (rest : List Byte)
    (h : WellFormed 127 version reserved fields []) :
    ∃ f, dbfReader (encDbf version reserved fields [] ++ rest) = .ok f ∧ f.descriptors = fields.map (fun d => (d.name, d.type)) ∧
      ∀ n, f.column n = .throws :=
  ⟨_, dbfReader_eq version reserved fields [] rest h, by simp [Dbf.descriptors, descOf], fun _ => rfl⟩

/-! ## A concrete file -/

/-- Fields `ID` (numeric, 2 bytes) and `NAME` (text, 3 bytes); the second record is marked as deleted. -/
def demoFields : List Field :=
  [⟨[73, 68], 78, 2, [0, 0, 0, 0], List.replicate 15 0⟩, ⟨[78, 65, 77, 69], 67, 3, [9, 9, 9, 9], List.replicate 15 1⟩]

def demoRecords : List Rec := [⟨32, [[49, 48], [97, 98, 99]]⟩, ⟨42, [[49, 55], [120, 121, 122]]⟩]

example : WellFormed 127 [3, 1, 2, 3] (List.replicate 20 0) demoFields demoRecords :=
  ⟨rfl, rfl, by decide, by decide, by decide, by decide, by decide, by decide, by decide, by decide⟩

example : dbfReader (encDbf [3, 1, 2, 3] (List.replicate 20 0) demoFields demoRecords ++ [0x1A]) =
    .ok ⟨[⟨[73, 68], 78, 2⟩, ⟨[78, 65, 77, 69], 67, 3⟩],
      [([73, 68], [[49, 48], [49, 55]]), ([78, 65, 77, 69], [[97, 98, 99], [120, 121, 122]])]⟩ := by decide +kernel

example : List.Forall₂ (fun t v => fromCharsInt t = some v) [[49, 48], [45, 55]] [10, -7] := by decide +kernel

end Fdapde.IO
