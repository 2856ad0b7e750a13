import Verif.IO.BinaryLemmas
import Verif.IO.DbfSpec

/-! # Lemmas about the dBase reader -/

namespace Fdapde.IO

theorem decodes_byte (b : Byte) : Decodes readByte [b] b := by
  have h := decodes_map (f := UInt8.ofNat) (decodes_little [b])
  have e : UInt8.ofNat (memValue [b]) = b := by simp [memValue]
  rw [e] at h
  exact h

theorem decodes_bytes (l : List Byte) (n : Nat) (hn : n = l.length) : Decodes (many readByte n) l l := by
  subst hn
  have h := decodes_many (enc := fun b => [b]) l fun a _ => decodes_byte a
  have e : l.flatMap (fun b => [b]) = l := by simp
  rwa [e] at h

theorem decodes_skip' (l : List Byte) (n : Nat) (hn : n = l.length) : Decodes (skip n) l () := by
  subst hn
  exact decodes_skip l

theorem decodes_len (n : Nat) (h : n ≤ 127) : Decodes readI8 [UInt8.ofNat n] (n : Int) := by
  have e : i8le (n : Int) = [UInt8.ofNat n] := by
    unfold i8le pattern
    have : (((n : Int)) % 2 ^ 8).toNat = n := by norm_num; omega
    rw [this]
    rfl
  rw [← e]
  exact decodes_i8 _ (by unfold Fits; norm_num; omega)

/-- The descriptor of a field. -/
def descOf (f : Field) : FieldDesc := ⟨f.name, f.type, f.length⟩

theorem takeWhile_padded (l : List Byte) (k : Nat) (h : 0 ∉ l) : (l ++ List.replicate k 0).takeWhile (· ≠ 0) = l := by
  induction l with
  | nil => cases k <;> simp [List.replicate_succ]
  | cons a l ih =>
      simp only [List.mem_cons, not_or] at h
      rw [List.cons_append, List.takeWhile_cons, if_pos (by simpa using fun e : a = 0 => h.1 e.symm), ih h.2]

theorem decodes_field (f : Field) (hn : f.name.length ≤ 11 ∧ 0 ∉ f.name) (hl : f.length ≤ 127)
    (hp : f.reserved.length = 4 ∧ f.reserved'.length = 15) : Decodes readField (encField f) (descOf f) := by
  unfold readField encField
  rw [List.append_assoc, List.append_assoc, List.append_assoc]
  refine decodes_bind (decodes_bytes _ 11 (by simp only [List.length_append, List.length_replicate]; omega)) (decodes_bind (decodes_byte f.type)
    (decodes_bind (decodes_skip' _ 4 hp.1.symm) (decodes_bind (decodes_len f.length hl) ?_)))
  have h := decodes_bind (f := fun _ => (pure ⟨(f.name ++ List.replicate (11 - f.name.length) 0).takeWhile (· ≠ 0), f.type, (f.length : Int)⟩ : Rd FieldDesc))
    (decodes_skip' f.reserved' 15 hp.2.symm) (decodes_pure _)
  rw [List.append_nil, takeWhile_padded _ _ hn.2] at h
  rw [takeWhile_padded _ _ hn.2]
  exact h

theorem encField_length (f : Field) (hn : f.name.length ≤ 11) (hp : f.reserved.length = 4 ∧ f.reserved'.length = 15) : (encField f).length = 32 := by
  simp only [encField, List.length_append, List.length_replicate, List.length_cons, List.length_nil, hp.1, hp.2]
  omega

theorem fields_length (fields : List Field) (h : ∀ f ∈ fields, (encField f).length = 32) : (fields.flatMap encField).length = 32 * fields.length := by
  induction fields with
  | nil => rfl
  | cons f fs ih =>
      rw [List.flatMap_cons, List.length_append, h f (by simp), ih fun g hg => h g (by simp [hg]), List.length_cons]
      omega

/-- The columns after one record. -/
def pushRow : Columns → List Field → List (List Byte) → Columns
  | d, f :: fs, c :: cs => pushRow (push d f.name c) fs cs
  | d, _, _ => d

theorem decodes_cells (fields : List Field) (cells : List (List Byte)) (d : Columns) (h : cells.map List.length = fields.map Field.length) :
    Decodes (readCells (fields.map descOf) d) cells.flatten (pushRow d fields cells) := by
  induction fields generalizing cells d with
  | nil =>
      have : cells = [] := by simpa using h
      subst this
      exact decodes_pure d
  | cons f fs ih =>
      cases cells with
      | nil => simp at h
      | cons c cs =>
          simp only [List.map_cons, List.cons.injEq] at h
          rw [List.flatten_cons]
          refine decodes_bind (p := readCell (descOf f)) (a := c) ?_ (ih cs _ h.2)
          unfold readCell descOf
          rw [if_neg (by simp)]
          exact decodes_bytes c _ (by simp [h.1])

/-- The columns after all the records. -/
def pushRows (fields : List Field) : Columns → List Rec → Columns
  | d, [] => d
  | d, r :: rs => pushRows fields (pushRow d fields r.cells) rs

theorem decodes_rows (fields : List Field) (records : List Rec) (d : Columns)
    (h : ∀ r ∈ records, r.cells.map List.length = fields.map Field.length) :
    Decodes (readRows (fields.map descOf) records.length d) (records.flatMap encRec) (pushRows fields d records) := by
  induction records generalizing d with
  | nil => exact decodes_pure d
  | cons r rs ih =>
      rw [List.flatMap_cons, encRec, List.length_cons]
      refine decodes_bind (x := [r.flag]) (y := r.cells.flatten ++ rs.flatMap encRec) (decodes_skip' [r.flag] 1 rfl) ?_
      exact decodes_bind (decodes_cells fields r.cells d (h r (by simp))) (ih _ fun r hr => h r (by simp [hr]))

theorem rows_length (fields : List Field) (records : List Rec) (h : ∀ r ∈ records, r.cells.map List.length = fields.map Field.length) :
    (records.flatMap encRec).length = recordLength fields * records.length := by
  induction records with
  | nil => rfl
  | cons r rs ih =>
      have h1 : r.cells.flatten.length = (fields.map Field.length).sum := by rw [List.length_flatten, h r (by simp)]
      rw [List.flatMap_cons, List.length_append, ih fun r hr => h r (by simp [hr]), encRec, List.length_cons, h1, List.length_cons, recordLength]
      ring

/-! ## Columns -/

theorem lookup_push (d : Columns) (name v n : List Byte) :
    (push d name v).lookup n = if n = name then some ((d.lookup name).getD [] ++ [v]) else d.lookup n := by
  induction d with
  | nil =>
      by_cases h : n = name
      · subst h; simp [push, List.lookup]
      · have h' : (n == name) = false := by simpa using h
        simp only [push, List.lookup, h', if_neg h]
  | cons x d ih =>
      obtain ⟨k, vs⟩ := x
      unfold push
      by_cases hk : k = name
      · subst hk
        rw [if_pos rfl]
        by_cases h : n = k
        · subst h; simp [List.lookup]
        · have h' : (n == k) = false := by simpa using h
          simp only [List.lookup, h', if_neg h]
      · rw [if_neg hk]
        have hk' : (name == k) = false := by simpa using fun e : name = k => hk e.symm
        by_cases h : n = k
        · subst h
          rw [if_neg hk]
          simp [List.lookup]
        · have h' : (n == k) = false := by simpa using h
          simp only [List.lookup, h', hk', ih]

theorem lookup_pushRow_other (fields : List Field) (cells : List (List Byte)) (d : Columns) (n : List Byte) (h : n ∉ fields.map Field.name) :
    (pushRow d fields cells).lookup n = d.lookup n := by
  induction fields generalizing cells d with
  | nil => simp [pushRow]
  | cons f fs ih =>
      simp only [List.map_cons, List.mem_cons, not_or] at h
      cases cells with
      | nil => simp [pushRow]
      | cons c cs => rw [pushRow, ih cs _ h.2, lookup_push, if_neg h.1]

theorem lookup_pushRow (fields : List Field) (cells : List (List Byte)) (d : Columns) (hu : (fields.map Field.name).Nodup)
    (hl : cells.length = fields.length) (j : Nat) (hj : j < fields.length) :
    (pushRow d fields cells).lookup fields[j].name = some ((d.lookup fields[j].name).getD [] ++ [cells.getD j []]) := by
  induction fields generalizing cells d j with
  | nil => simp at hj
  | cons f fs ih =>
      simp only [List.map_cons, List.nodup_cons] at hu
      cases cells with
      | nil => simp at hl
      | cons c cs =>
          rw [pushRow]
          cases j with
          | zero =>
              simp only [List.getElem_cons_zero]
              rw [lookup_pushRow_other fs cs _ _ hu.1, lookup_push, if_pos rfl]
              rfl
          | succ j =>
              have hj' : j < fs.length := by simpa using hj
              have := ih cs (push d f.name c) hu.2 (by simpa using hl) j hj'
              simp only [List.getElem_cons_succ]
              rw [this, lookup_push, if_neg]
              · rfl
              · intro e
                exact hu.1 (by rw [← e]; exact List.mem_map_of_mem (List.getElem_mem hj'))

theorem lookup_pushRows (fields : List Field) (records : List Rec) (d : Columns) (hu : (fields.map Field.name).Nodup)
    (hc : ∀ r ∈ records, r.cells.map List.length = fields.map Field.length) (j : Nat) (hj : j < fields.length) (hne : records ≠ []) :
    (pushRows fields d records).lookup fields[j].name = some ((d.lookup fields[j].name).getD [] ++ columnOf records j) := by
  induction records generalizing d with
  | nil => exact absurd rfl hne
  | cons r rs ih =>
      have hl : r.cells.length = fields.length := by
        have := congrArg List.length (hc r (by simp))
        simpa using this
      have h1 := lookup_pushRow fields r.cells d hu hl j hj
      rw [pushRows]
      by_cases hr : rs = []
      · subst hr
        rw [pushRows, h1]
        rfl
      · rw [ih _ (fun r hr => hc r (by simp [hr])) hr, h1]
        simp [columnOf]

theorem lookup_pushRows_other (fields : List Field) (records : List Rec) (d : Columns) (n : List Byte) (h : n ∉ fields.map Field.name) :
    (pushRows fields d records).lookup n = d.lookup n := by
  induction records generalizing d with
  | nil => rfl
  | cons r rs ih => rw [pushRows, ih, lookup_pushRow_other _ _ _ _ h]

/-! ## The file -/

theorem dbfReader_eq (version reserved : List Byte) (fields : List Field) (records : List Rec) (rest : List Byte)
    (h : WellFormed 127 version reserved fields records) :
    dbfReader (encDbf version reserved fields records ++ rest) = .ok ⟨fields.map descOf, pushRows fields [] records⟩ := by
  have hf16 : ∀ n : Nat, n < 2 ^ 15 → Fits 16 (n : Int) := by intro n hn; unfold Fits; norm_num at hn ⊢; omega
  have hsz := h.size
  have hrow := h.row
  have hhd := h.header
  have hrpos : 1 ≤ recordLength fields := by unfold recordLength; omega
  have hle : records.length ≤ recordLength fields * records.length := Nat.le_mul_of_pos_left _ hrpos
  have hn : Fits 32 (records.length : Int) := by unfold Fits; norm_num at hsz ⊢; omega
  -- the header
  have hd : Decodes readDbfHeader (version ++ (i32le records.length ++ (i16le (32 * fields.length + 33 : Nat) ++ i16le (recordLength fields))))
      ((records.length : Int), ((32 * fields.length + 33 : Nat) : Int), (recordLength fields : Int)) :=
    decodes_bind (decodes_skip' version 4 h.version.symm) (decodes_bind (decodes_i32 _ hn) (decodes_bind (decodes_i16 _ (hf16 _ hhd))
      (decodes_map (f := fun r => ((records.length : Int), ((32 * fields.length + 33 : Nat) : Int), r)) (decodes_i16 _ (hf16 _ hrow)))))
  -- the body
  have hb : Decodes (readDbfBody fields.length records.length) (fields.flatMap encField ++ ([0x0D] ++ records.flatMap encRec))
      ⟨fields.map descOf, pushRows fields [] records⟩ := by
    unfold readDbfBody
    have h1 : Decodes (many readField (fields.length : Int).toNat) (fields.flatMap encField) (fields.map descOf) := by
      rw [Int.toNat_natCast]
      have : ∀ l : List Field, (∀ f ∈ l, Decodes readField (encField f) (descOf f)) → Decodes (many readField l.length) (l.flatMap encField) (l.map descOf) := by
        intro l
        induction l with
        | nil => intro _; exact decodes_pure []
        | cons f fs ih =>
            intro hl
            exact decodes_bind (hl f (by simp)) (decodes_map (f := fun as => descOf f :: as) (ih fun g hg => hl g (by simp [hg])))
      exact this fields fun f hf => decodes_field f (h.name f hf) (h.length f hf).2 (h.pad f hf)
    refine decodes_bind h1 (decodes_bind (a := 13) ?_ ?_)
    · exact decodes_len 13 (by norm_num)
    · rw [if_neg (by norm_num), Int.toNat_natCast]
      exact decodes_map (f := fun d => (⟨fields.map descOf, d⟩ : Dbf)) (decodes_rows fields records [] h.cells)
  have hflen := fields_length fields fun f hf => encField_length f (h.name f hf).1 (h.pad f hf)
  have hrlen := rows_length fields records h.cells
  have hv := h.version
  have hr := h.reserved
  have l16 : ∀ v, (i16le v).length = 2 := fun v => le_length _ _
  have l32 : ∀ v, (i32le v).length = 4 := fun v => le_length _ _
  have e : encDbf version reserved fields records ++ rest =
      (version ++ (i32le records.length ++ (i16le (32 * fields.length + 33 : Nat) ++ i16le (recordLength fields))) ++ reserved) ++
        ((fields.flatMap encField ++ ([0x0D] ++ records.flatMap encRec)) ++ rest) := by
    simp [encDbf]
  have hhl : (version ++ (i32le records.length ++ (i16le (32 * fields.length + 33 : Nat) ++ i16le (recordLength fields))) ++ reserved).length = 32 := by
    simp only [List.length_append, hv, hr, l16, l32]
  have hd' := hd [] reserved
  have hb' := hb [] []
  simp only [List.nil_append, List.append_nil, List.length_nil, Nat.zero_add] at hd' hb'
  unfold dbfReader
  rw [e, List.take_append_of_le_length (by omega), List.take_of_length_le (by omega), hd']
  dsimp only
  have hnf : (((32 * fields.length + 33 : Nat) : Int) - 32 - 1).tdiv 32 = fields.length := by
    have : ((32 * fields.length + 33 : Nat) : Int) - 32 - 1 = 32 * fields.length := by push_cast; ring
    rw [this, Int.mul_tdiv_cancel_left _ (by norm_num)]
  have hsize : (fields.length : Int) * 32 + 1 + (recordLength fields : Int) * (records.length : Int) =
      ((32 * fields.length + 1 + recordLength fields * records.length : Nat) : Int) := by push_cast; ring
  have hprod : (recordLength fields : Int) * (records.length : Int) = ((recordLength fields * records.length : Nat) : Int) := by push_cast; ring
  rw [hnf, hsize, hprod, if_neg (by push Not; norm_num at hsz ⊢; omega), if_neg (by omega), List.drop_append_of_le_length (by omega),
    List.drop_of_length_le (by omega), List.nil_append, Int.toNat_natCast, List.take_append_of_le_length, List.take_of_length_le, hb']
  · rfl
  · simp only [List.length_append, hflen, hrlen, List.length_cons, List.length_nil]; omega
  · simp only [List.length_append, hflen, hrlen, List.length_cons, List.length_nil]; omega

end Fdapde.IO
