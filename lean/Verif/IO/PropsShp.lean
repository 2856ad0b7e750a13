import Verif.IO.ShpLemmas

/-! # Properties of the shapefile reader (C75, C76) -/

namespace Fdapde.IO

/-! ## Records -/

/-- **C75.** Reading a well-formed file of points, with or without `z` and `m`, gives the header, and all the records in order with their
numbers and coordinates; bytes behind the declared length are not looked at. -/
theorem C75_points (d : Dim) (box : List F64) (hbox : box.length = 8) (records : List (Int × Pt)) (rest : List Byte)
    (hn : ∀ r ∈ records, Fits 32 r.1) (hlen : 100 + (encBody (d.code 1) (encPoint d) records).length < 2 ^ 31) :
    shpReader (encFile (d.code 1) box (encBody (d.code 1) (encPoint d) records) ++ rest) =
      some (.ok ⟨fileHeader (d.code 1) box (encBody (d.code 1) (encPoint d) records), records.map (pointOf d), [], [], []⟩) := by
  have ht : Fits 32 (d.code 1) := by cases d <;> (unfold Fits Dim.code; norm_num)
  obtain ⟨e1, e2⟩ := shpReader_eq (d.code 1) ht box hbox (encBody (d.code 1) (encPoint d) records) rest
    (body_even _ _ _ (encPoint_even d)) hlen
  have h := readInto_body (readPoint (d.code 1)) (d.code 1) (encPoint d) (pointOf d) records
    (fun r hr => ⟨hn r hr, decodes_point d r.1 r.2⟩) box
  unfold shpReader
  rw [e1]
  dsimp only
  rw [e2, if_neg (by simp [fileHeader])]
  have hs : (fileHeader (d.code 1) box (encBody (d.code 1) (encPoint d) records)).shapeType = d.code 1 := rfl
  rw [hs, if_pos (by cases d <;> decide), h]
  rfl

/-- **C75.** Polygons: all the records in order with their numbers, boxes, ranges, parts and points (with `z` and `m`).  Partial: at least one
ring per record (see `C75_bug_no_ring`), the optional measures present (see `C75_bug_optional_measures`), and the ends of the rings are those
the code computes (see C76). -/
theorem C75_polygons_partial (d : Dim) (box : List F64) (hbox : box.length = 8) (records : List (Int × Poly)) (rest : List Byte)
    (hn : ∀ r ∈ records, Fits 32 r.1) (hr : ∀ r ∈ records, r.2.rings ≠ [])
    (hlen : 100 + (encBody (d.code 5) (encPoly d) records).length < 2 ^ 31) :
    shpReader (encFile (d.code 5) box (encBody (d.code 5) (encPoly d) records) ++ rest) =
      some (.ok ⟨fileHeader (d.code 5) box (encBody (d.code 5) (encPoly d) records), [], [], records.map (polyOf d), []⟩) := by
  have ht : Fits 32 (d.code 5) := by cases d <;> (unfold Fits Dim.code; norm_num)
  obtain ⟨e1, e2⟩ := shpReader_eq (d.code 5) ht box hbox (encBody (d.code 5) (encPoly d) records) rest
    (body_even _ _ _ fun s => by rw [encPoly_length]; have := encZM_even d s.ranges s.rings.flatten; omega) hlen
  have h := readInto_body (readPolygon (d.code 5)) (d.code 5) (encPoly d) (polyOf d) records
    (fun r hr' => ⟨hn r hr', by
      have := content_le_body (d.code 5) (encPoly d) records r hr'
      rw [encPoly_length] at this
      exact decodes_polygon d 5 (Or.inr rfl) r.1 r.2 (hr r hr') (by omega) (by omega)⟩) box
  unfold shpReader
  rw [e1]
  dsimp only
  rw [e2, if_neg (by simp [fileHeader])]
  have hs : (fileHeader (d.code 5) box (encBody (d.code 5) (encPoly d) records)).shapeType = d.code 5 := rfl
  rw [hs, if_neg (by cases d <;> decide), if_neg (by cases d <;> decide), if_pos (by cases d <;> decide), h]
  rfl

/-- **C75.** Polylines, likewise. -/
theorem C75_polylines_partial (d : Dim) (box : List F64) (hbox : box.length = 8) (records : List (Int × Poly)) (rest : List Byte)
    (hn : ∀ r ∈ records, Fits 32 r.1) (hr : ∀ r ∈ records, r.2.rings ≠ [])
    (hlen : 100 + (encBody (d.code 3) (encPoly d) records).length < 2 ^ 31) :
    shpReader (encFile (d.code 3) box (encBody (d.code 3) (encPoly d) records) ++ rest) =
      some (.ok ⟨fileHeader (d.code 3) box (encBody (d.code 3) (encPoly d) records), [], records.map (polyOf d), [], []⟩) := by
  have ht : Fits 32 (d.code 3) := by cases d <;> (unfold Fits Dim.code; norm_num)
  obtain ⟨e1, e2⟩ := shpReader_eq (d.code 3) ht box hbox (encBody (d.code 3) (encPoly d) records) rest
    (body_even _ _ _ fun s => by rw [encPoly_length]; have := encZM_even d s.ranges s.rings.flatten; omega) hlen
  have h := readInto_body (readPolygon (d.code 3)) (d.code 3) (encPoly d) (polyOf d) records
    (fun r hr' => ⟨hn r hr', by
      have := content_le_body (d.code 3) (encPoly d) records r hr'
      rw [encPoly_length] at this
      exact decodes_polygon d 3 (Or.inl rfl) r.1 r.2 (hr r hr') (by omega) (by omega)⟩) box
  unfold shpReader
  rw [e1]
  dsimp only
  rw [e2, if_neg (by simp [fileHeader])]
  have hs : (fileHeader (d.code 3) box (encBody (d.code 3) (encPoly d) records)).shapeType = d.code 3 := rfl
  rw [hs, if_neg (by cases d <;> decide), if_pos (by cases d <;> decide), h]
  rfl

/-- **C75.** Multipoints: all the records in order with their numbers, boxes, ranges and `x`, `y` coordinates.  Partial: the `z` and `m`
vectors are always empty (see `C75_bug_multipoint_zm`). -/
theorem C75_multipoints_partial (d : Dim) (box : List F64) (hbox : box.length = 8) (records : List (Int × MP)) (rest : List Byte)
    (hn : ∀ r ∈ records, Fits 32 r.1) (hlen : 100 + (encBody (d.code 8) (encMP d) records).length < 2 ^ 31) :
    shpReader (encFile (d.code 8) box (encBody (d.code 8) (encMP d) records) ++ rest) =
      some (.ok ⟨fileHeader (d.code 8) box (encBody (d.code 8) (encMP d) records), [], [], [], records.map (multiOf d)⟩) := by
  have ht : Fits 32 (d.code 8) := by cases d <;> (unfold Fits Dim.code; norm_num)
  obtain ⟨e1, e2⟩ := shpReader_eq (d.code 8) ht box hbox (encBody (d.code 8) (encMP d) records) rest
    (body_even _ _ _ fun s => by rw [encMP_length]; have := encZM_even d s.ranges s.points; omega) hlen
  have h := readInto_body (readMultiPoint (d.code 8)) (d.code 8) (encMP d) (multiOf d) records
    (fun r hr' => ⟨hn r hr', by
      have := content_le_body (d.code 8) (encMP d) records r hr'
      rw [encMP_length] at this
      exact decodes_multipoint d r.1 r.2 (by omega)⟩) box
  unfold shpReader
  rw [e1]
  dsimp only
  rw [e2, if_neg (by simp [fileHeader])]
  have hs : (fileHeader (d.code 8) box (encBody (d.code 8) (encMP d) records)).shapeType = d.code 8 := rfl
  rw [hs, if_neg (by cases d <;> decide), if_neg (by cases d <;> decide), if_neg (by cases d <;> decide), if_pos (by cases d <;> decide), h]
  rfl

/-- **C75.** `n_records()` is the number of records read, for files of each kind. -/
theorem C75_count (d : Dim) (box : List F64) (hbox : box.length = 8) (rest : List Byte) :
    (∀ records : List (Int × Pt), (∀ r ∈ records, Fits 32 r.1) → 100 + (encBody (d.code 1) (encPoint d) records).length < 2 ^ 31 →
      ∃ f, shpReader (encFile (d.code 1) box (encBody (d.code 1) (encPoint d) records) ++ rest) = some (.ok f) ∧ f.nRecords = records.length) ∧
    (∀ records : List (Int × Poly), (∀ r ∈ records, Fits 32 r.1) → (∀ r ∈ records, r.2.rings ≠ []) →
      (100 + (encBody (d.code 5) (encPoly d) records).length < 2 ^ 31 →
        ∃ f, shpReader (encFile (d.code 5) box (encBody (d.code 5) (encPoly d) records) ++ rest) = some (.ok f) ∧ f.nRecords = records.length) ∧
      (100 + (encBody (d.code 3) (encPoly d) records).length < 2 ^ 31 →
        ∃ f, shpReader (encFile (d.code 3) box (encBody (d.code 3) (encPoly d) records) ++ rest) = some (.ok f) ∧ f.nRecords = records.length)) ∧
    ∀ records : List (Int × MP), (∀ r ∈ records, Fits 32 r.1) → 100 + (encBody (d.code 8) (encMP d) records).length < 2 ^ 31 →
      ∃ f, shpReader (encFile (d.code 8) box (encBody (d.code 8) (encMP d) records) ++ rest) = some (.ok f) ∧ f.nRecords = records.length :=
  ⟨fun r hn hl => ⟨_, C75_points d box hbox r rest hn hl, by simp [ShpFile.nRecords]⟩,
    fun r hn hr => ⟨fun hl => ⟨_, C75_polygons_partial d box hbox r rest hn hr hl, by simp [ShpFile.nRecords]⟩,
      fun hl => ⟨_, C75_polylines_partial d box hbox r rest hn hr hl, by simp [ShpFile.nRecords]⟩⟩,
    fun r hn hl => ⟨_, C75_multipoints_partial d box hbox r rest hn hl, by simp [ShpFile.nRecords]⟩⟩

/-! ## The loop ends on every file -/

/-- Code which never moves the head backwards. -/
def Forward {α : Type} (p : Rd α) : Prop := ∀ buf head a head', p buf head = .ok (a, head') → head ≤ head'

theorem forward_pure {α : Type} (a : α) : Forward (pure a : Rd α) := by
  intro buf head b head' h
  rw [Rd.pure_eq] at h
  simp only [Res.ok.injEq, Prod.mk.injEq] at h
  omega

theorem Rd.bind_ok {α β : Type} {p : Rd α} {f : α → Rd β} {buf : List Byte} {head : Nat} {b : β} {head' : Nat}
    (h : (p >>= f) buf head = .ok (b, head')) : ∃ a h1, p buf head = .ok (a, h1) ∧ f a buf h1 = .ok (b, head') := by
  have h' : (match p buf head with
    | .ok (a, head) => f a buf head
    | .throws => .throws
    | .ub => .ub) = Res.ok (b, head') := h
  cases hp : p buf head with
  | ok x =>
      obtain ⟨a, h1⟩ := x
      rw [hp] at h'
      exact ⟨a, h1, rfl, h'⟩
  | throws => rw [hp] at h'; cases h'
  | ub => rw [hp] at h'; cases h'

theorem Rd.bind_step {α β : Type} {p : Rd α} {f : α → Rd β} {buf : List Byte} {head : Nat} {a : α} {h1 : Nat}
    (h : p buf head = .ok (a, h1)) : (p >>= f) buf head = f a buf h1 := by
  show (match p buf head with
    | .ok (a, head) => f a buf head
    | .throws => Res.throws
    | .ub => Res.ub) = _
  rw [h]

theorem forward_bind {α β : Type} {p : Rd α} {f : α → Rd β} (hp : Forward p) (hf : ∀ a, Forward (f a)) : Forward (p >>= f) := by
  intro buf head b head' h
  obtain ⟨a, h1, e1, e2⟩ := Rd.bind_ok h
  have := hp _ _ _ _ e1
  have := hf _ _ _ _ _ e2
  omega

theorem forward_little (n : Nat) : Forward (readLittle n) := by
  intro buf head a head' h
  unfold readLittle at h
  cases hb : bytesLittle n buf head with
  | ok r =>
      rw [hb, Res.map_ok] at h
      simp only [Res.ok.injEq, Prod.mk.injEq] at h
      omega
  | throws => rw [hb] at h; cases h
  | ub => rw [hb] at h; cases h

theorem big_head (n : Nat) (buf : List Byte) (head v head' : Nat) (h : readBig n buf head = .ok (v, head')) : head' = head + n := by
  unfold readBig at h
  cases hb : bytesBig n buf head with
  | ok r =>
      rw [hb, Res.map_ok] at h
      simp only [Res.ok.injEq, Prod.mk.injEq] at h
      omega
  | throws => rw [hb] at h; cases h
  | ub => rw [hb] at h; cases h

theorem forward_f64 : Forward readF64 := forward_bind (forward_little 8) fun _ => forward_pure _
theorem forward_i32 : Forward readI32 := forward_bind (forward_little 4) fun _ => forward_pure _
theorem forward_pair : Forward readPair := forward_bind forward_f64 fun _ => forward_bind forward_f64 fun _ => forward_pure _

theorem forward_many {α : Type} {p : Rd α} (hp : Forward p) (n : Nat) : Forward (many p n) := by
  induction n with
  | zero => exact forward_pure _
  | succ n ih => exact forward_bind hp fun _ => forward_bind ih fun _ => forward_pure _

theorem forward_manyInt {α : Type} {p : Rd α} (hp : Forward p) (n : Int) : Forward (manyInt p n) := by
  unfold manyInt
  split
  · intro buf head a head' h; cases h
  · exact forward_many hp _

theorem forward_lift {α : Type} (r : Res α) : Forward (Rd.lift r) := by
  intro buf head a head' h
  unfold Rd.lift at h
  cases r with
  | ok x => rw [Res.map_ok] at h; simp only [Res.ok.injEq, Prod.mk.injEq] at h; omega
  | throws => cases h
  | ub => cases h

theorem forward_point (st number : Int) : Forward (readPoint st number) := by
  unfold readPoint
  refine forward_bind forward_f64 fun _ => forward_bind forward_f64 fun _ => ?_
  split
  · exact forward_bind forward_f64 fun _ => forward_pure _
  · split
    · exact forward_bind forward_f64 fun _ => forward_bind forward_f64 fun _ => forward_pure _
    · exact forward_pure _

theorem forward_zm (n : Int) : Forward (readZmBlock n) :=
  forward_bind forward_pair fun _ => forward_bind (forward_manyInt forward_f64 _) fun _ => forward_pure _

theorem forward_multipoint (st number : Int) : Forward (readMultiPoint st number) := by
  unfold readMultiPoint
  refine forward_bind (forward_many forward_f64 _) fun _ => forward_bind forward_i32 fun _ => forward_bind (forward_manyInt forward_pair _) fun _ => ?_
  dsimp only
  split
  · exact forward_bind (forward_zm _) fun _ => forward_pure _
  · split
    · exact forward_bind (forward_zm _) fun _ => forward_bind (forward_zm _) fun _ => forward_pure _
    · exact forward_pure _

theorem forward_polygon (st number : Int) : Forward (readPolygon st number) := by
  unfold readPolygon
  refine forward_bind (forward_many forward_f64 _) fun _ => forward_bind forward_i32 fun _ => forward_bind forward_i32 fun _ =>
    forward_bind (forward_manyInt forward_i32 _) fun _ => forward_bind (forward_lift _) fun _ =>
    forward_bind (forward_manyInt forward_pair _) fun _ => ?_
  split
  · exact forward_bind forward_pair fun _ => forward_bind (forward_manyInt forward_f64 _) fun _ => forward_pure _
  · split
    · exact forward_bind forward_pair fun _ => forward_bind (forward_manyInt forward_f64 _) fun _ => forward_bind forward_pair fun _ =>
        forward_bind (forward_manyInt forward_f64 _) fun _ => forward_pure _
    · exact forward_pure _

theorem record_advances {α : Type} (rec : Int → Rd α) (hr : ∀ n, Forward (rec n)) (buf : List Byte) (head : Nat) (a : α) (head' : Nat)
    (h : readRecord rec buf head = .ok (a, head')) : head < head' := by
  unfold readRecord at h
  obtain ⟨n, h1, e1, e2⟩ := Rd.bind_ok h
  obtain ⟨_, h2, e3, e4⟩ := Rd.bind_ok e2
  unfold readI32Big at e1
  obtain ⟨v, h3, e5, e6⟩ := Rd.bind_ok e1
  have := big_head _ _ _ _ _ e5
  have := forward_pure _ _ _ _ _ e6
  have : h2 = h1 + 8 := by
    unfold skip at e3
    simp only [Res.ok.injEq, Prod.mk.injEq] at e3
    omega
  have := hr _ _ _ _ _ e4
  omega

theorem readInto_ends {α : Type} (rec : Int → Rd α) (hr : ∀ n, Forward (rec n)) (limit : Int) (buf : List Byte) (fuel head : Nat)
    (hf : limit.toNat < fuel + head) : (readInto rec limit buf fuel head).isSome ∨ fuel = 0 := by
  induction fuel generalizing head with
  | zero => right; rfl
  | succ fuel ih =>
      left
      unfold readInto
      split
      · rename_i hlt
        cases hrec : readRecord rec buf head with
        | ok x =>
            obtain ⟨a, head'⟩ := x
            have := record_advances rec hr _ _ _ _ hrec
            dsimp only
            rw [Option.isSome_map]
            rcases ih head' (by omega) with h | h
            · exact h
            · subst h
              omega
        | throws => rfl
        | ub => rfl
      · rfl

/-- **C75.** The reader ends on every file, well-formed or not: every turn of its loop moves forward. -/
theorem C75_terminates (file : List Byte) : (shpReader file).isSome := by
  have key : ∀ {α : Type} (rec : Int → Rd α) (_ : ∀ n, Forward (rec n)) (limit : Int) (buf : List Byte),
      (readInto rec limit buf (limit.toNat + 1) 0).isSome := by
    intro α rec hr limit buf
    rcases readInto_ends rec hr limit buf (limit.toNat + 1) 0 (by omega) with h | h
    · exact h
    · omega
  unfold shpReader
  split
  · rfl
  · rfl
  · dsimp only
    split
    · rfl
    split
    · rw [Option.isSome_map]; exact key _ (fun n => forward_point _ n) _ _
    split
    · rw [Option.isSome_map]; exact key _ (fun n => forward_polygon _ n) _ _
    split
    · rw [Option.isSome_map]; exact key _ (fun n => forward_polygon _ n) _ _
    split
    · rw [Option.isSome_map]; exact key _ (fun n => forward_multipoint _ n) _ _
    · rfl

/-! ## Defects -/

/-- The `z` and `m` values of multipoints are lost: `read_zm_block` takes the vector by value, so that `z` and `m` are empty for every file
of MultiPointZ or MultiPointM records, whatever they hold. -/
theorem C75_bug_multipoint_zm (d : Dim) (number : Int) (s : MP) (h : s.points.length < 2 ^ 31) :
    ∃ r, Decodes (readMultiPoint (d.code 8) number) (encMP d s) r ∧ r.z = [] ∧ r.m = [] :=
  ⟨_, decodes_multipoint d number s h, rfl, rfl⟩

/-- The format gives the length of the file in words of two bytes, in 32 bits: files of up to 4 GiB.  For a file of 2 GiB and more the
length in bytes, computed in `int`, overflows: undefined behaviour. -/
theorem C75_bug_long_file (w : Int) (h : 2 ^ 30 ≤ w) (h' : w < 2 ^ 31) (rest : List Byte) (hr : 72 ≤ rest.length) :
    shpReader (i32be 9994 ++ List.replicate 20 0 ++ i32be w ++ rest) = some .ub := by
  have hlen : (i32be 9994 ++ List.replicate 20 (0 : Byte) ++ i32be w).length = 28 := by
    simp only [List.length_append, i32be_length, List.length_replicate]
  unfold shpReader
  have e : readHeader ((i32be 9994 ++ List.replicate 20 0 ++ i32be w ++ rest).take 100) 0 = .ub := by
    rw [List.take_append, List.take_of_length_le (by omega), hlen]
    have h1 := decodes_i32big 9994 (by unfold Fits; norm_num) [] (List.replicate 20 0 ++ i32be w ++ rest.take (100 - 28))
    have h2 := decodes_skip (List.replicate 20 (0 : Byte)) (i32be 9994) (i32be w ++ rest.take (100 - 28))
    have h3 := decodes_i32big w (by unfold Fits; norm_num at h h' ⊢; omega) (i32be 9994 ++ List.replicate 20 0) (rest.take (100 - 28))
    simp only [List.nil_append, List.append_assoc, List.length_nil, Nat.zero_add, List.length_append] at h1 h2 h3
    rw [List.length_replicate] at h2 h3
    unfold readHeader
    simp only [List.append_assoc]
    rw [Rd.bind_step h1, Rd.bind_step h2, Rd.bind_step h3, if_neg (by norm_num at h ⊢; omega)]
    rfl
  rw [e]

/-- A polygon record without rings (allowed for an empty shape) makes the reader write `ring_end[-1]`: undefined behaviour. -/
theorem C75_bug_no_ring (number : Int) (b : F64 × F64 × F64 × F64) :
    readPolygon 5 number (encBox b ++ i32le 0 ++ i32le 0) 0 = .ub := by
  have h1 := decodes_box b [] (i32le 0 ++ i32le 0)
  have h2 := decodes_i32 0 (by unfold Fits; norm_num) (encBox b) (i32le 0)
  have h3 := decodes_i32 0 (by unfold Fits; norm_num) (encBox b ++ i32le 0) []
  simp only [List.nil_append, List.append_assoc, List.append_nil, List.length_nil, Nat.zero_add, List.length_append] at h1 h2 h3
  unfold readPolygon
  rw [List.append_assoc]
  rw [Rd.bind_step h1, Rd.bind_step h2, Rd.bind_step h3]
  rfl

/-- A file with a Null shape (type 0, allowed among the records of any file) is not read correctly: the type of the record is skipped, and
the bytes of the next record are taken for coordinates, so that the single point behind the null shape is lost. -/
theorem C75_bug_null_shape : ∃ (x y : F64),
    shpReader (encFile 1 (List.replicate 8 0) (encRecord 0 1 [] ++ encRecord 1 2 (f64le x ++ f64le y))) ≠
      some (.ok ⟨fileHeader 1 (List.replicate 8 0) (encRecord 0 1 [] ++ encRecord 1 2 (f64le x ++ f64le y)), [⟨2, x, y, none, none⟩], [], [], []⟩) := by
  refine ⟨0, 0, ?_⟩
  decide +kernel

/-- The measures of PolygonZ records are optional in the format; a record without them is not read correctly: the reader takes them from the
bytes behind the record (here the end of the buffer). -/
theorem C75_bug_optional_measures :
    shpReader (encFile 15 (List.replicate 8 0) (encRecord 15 1 (encBox (0, 0, 0, 0) ++ i32le 1 ++ i32le 1 ++ i32le 0 ++ encPair (0, 0) ++
      encPair (0, 0) ++ f64le 0))) = some .ub := by decide +kernel

/-! ## Rings -/

/-- The points of the rings as the reader should give them. -/
def ringsOf (d : Dim) (s : Poly) : List (List Vertex) := s.rings.map fun r => r.map (vertexOf d)

theorem starts_eq (n : Nat) (rs : List (List Pt)) (i : Nat) (h : i < rs.length) :
    (starts n rs)[i]? = some (n + ((rs.take i).flatten.length : Int)) := by
  induction rs generalizing n i with
  | nil => simp at h
  | cons r rs ih =>
      cases i with
      | zero => simp [starts]
      | succ i =>
          simp only [starts, List.getElem?_cons_succ, List.take_succ_cons, List.flatten_cons, List.length_append]
          rw [ih (n + r.length) i (by simpa using h)]
          push_cast
          congr 1
          ring

theorem flatten_split (rs : List (List Pt)) (i : Nat) (h : i < rs.length) :
    rs.flatten = (rs.take i).flatten ++ rs[i] ++ (rs.drop (i + 1)).flatten := by
  conv_lhs => rw [← List.take_append_drop i rs, List.drop_eq_getElem_cons h]
  rw [List.flatten_append, List.flatten_cons, List.append_assoc]

/-- The i-th ring visited. -/
theorem ring_eq (d : Dim) (number : Int) (s : Poly) (hne : ∀ r ∈ s.rings, r ≠ []) (i : Nat) (h : i < s.rings.length) :
    (polyOf d (number, s)).ring i =
      .ok (if i + 1 = s.rings.length then s.rings[i].map (vertexOf d) else (s.rings[i].map (vertexOf d)).dropLast) := by
  have hb := starts_eq 0 s.rings i h
  have hsp := flatten_split s.rings i h
  have hlen : s.rings.flatten.length = (s.rings.take i).flatten.length + s.rings[i].length + (s.rings.drop (i + 1)).flatten.length := by
    conv_lhs => rw [hsp]
    simp only [List.length_append]
  have hpos : 0 < s.rings[i].length := List.length_pos_iff.mpr (hne _ (List.getElem_mem h))
  have hdrop : (s.rings.flatten.map (vertexOf d)).drop (s.rings.take i).flatten.length =
      s.rings[i].map (vertexOf d) ++ (s.rings.drop (i + 1)).flatten.map (vertexOf d) := by
    conv_lhs => rw [hsp]
    rw [List.append_assoc, List.map_append, List.drop_left' (by simp only [List.length_map]), List.map_append]
  by_cases hl : i + 1 = s.rings.length
  · have he : ((starts 0 s.rings).tail.map (· - 1) ++ [(s.rings.flatten.length : Int)])[i]? = some (s.rings.flatten.length : Int) := by
      rw [List.getElem?_append_right (by simp [starts_length]; omega)]
      have : i - ((starts 0 s.rings).tail.map (· - 1)).length = 0 := by simp [starts_length]; omega
      rw [this]
      rfl
    have hlast : (s.rings.drop (i + 1)).flatten = [] := by rw [hl]; simp
    unfold Polygon.ring
    simp only [polyOf, hb, he]
    rw [if_pos (by simp only [List.length_map]; omega), if_pos hl]
    have e1 : ((↑(0 : Nat) : Int) + ((s.rings.take i).flatten.length : Int)).toNat = (s.rings.take i).flatten.length := by omega
    rw [e1, hdrop, hlast, List.map_nil, List.append_nil, List.take_of_length_le (by rw [List.length_map]; rw [hlast] at hlen; simp only [List.length_nil] at hlen; omega)]
  · have hn := starts_eq 0 s.rings (i + 1) (by omega)
    have he : ((starts 0 s.rings).tail.map (· - 1) ++ [(s.rings.flatten.length : Int)])[i]? =
        some (↑(0 : Nat) + ((s.rings.take (i + 1)).flatten.length : Int) - 1) := by
      rw [List.getElem?_append_left (by simp [starts_length]; omega), List.getElem?_map, List.getElem?_tail, hn]
      rfl
    have htk : (s.rings.take (i + 1)).flatten.length = (s.rings.take i).flatten.length + s.rings[i].length := by
      rw [List.take_add_one, List.getElem?_eq_getElem h]
      simp only [Option.toList_some, List.flatten_append, List.flatten_cons, List.flatten_nil, List.append_nil, List.length_append]
    unfold Polygon.ring
    simp only [polyOf, hb, he]
    rw [if_pos (by simp only [List.length_map]; omega), if_neg hl]
    have e1 : ((↑(0 : Nat) : Int) + ((s.rings.take i).flatten.length : Int)).toNat = (s.rings.take i).flatten.length := by omega
    have e2 : (((↑(0 : Nat) : Int) + ((s.rings.take (i + 1)).flatten.length : Int) - 1) - (↑(0 : Nat) + ((s.rings.take i).flatten.length : Int))).toNat =
      (s.rings[i].map (vertexOf d)).length - 1 := by rw [List.length_map]; omega
    rw [e1, e2, hdrop, List.take_append_of_le_length (by omega), List.dropLast_eq_take]

/-- **C76.** Iterating over the rings of a decoded polygon visits the rings in order.  Partial: of every ring but the last one only the
points before its last point are visited (see `C76_bug_last_point`); a single ring is visited in full (`C76_single_ring`). -/
theorem C76_rings_partial (d : Dim) (number : Int) (s : Poly) (hne : ∀ r ∈ s.rings, r ≠ []) :
    (polyOf d (number, s)).rings = .ok ((ringsOf d s).mapIdx fun i r => if i + 1 = s.rings.length then r else r.dropLast) := by
  have key : ∀ k, k ≤ s.rings.length → foldRes (fun (l : List (List Vertex)) i => (fun r => l ++ [r]) <$> (polyOf d (number, s)).ring i) []
      (List.range k) = .ok (((ringsOf d s).mapIdx fun i r => if i + 1 = s.rings.length then r else r.dropLast).take k) := by
    intro k
    induction k with
    | zero => intro _; rfl
    | succ k ih =>
        intro hk
        rw [List.range_succ, foldRes_append, ih (by omega), Res.ok_bind, foldRes_cons, ring_eq d number s hne k (by omega), Res.map_ok,
          Res.ok_bind, foldRes_nil, List.take_add_one]
        congr 2
        have hk' : k < s.rings.length := by omega
        rw [List.getElem?_mapIdx]
        unfold ringsOf
        rw [List.getElem?_map, List.getElem?_eq_getElem hk']
        rfl
  have := key s.rings.length (Nat.le_refl _)
  unfold Polygon.rings
  have hn : (polyOf d (number, s)).nRings.toNat = s.rings.length := by simp [polyOf]
  rw [hn, this, List.take_of_length_le (by simp [ringsOf])]

/-- **C76.** A polygon with one ring: iterating visits every point. -/
theorem C76_single_ring (d : Dim) (number : Int) (s : Poly) (r : List Pt) (hr : s.rings = [r]) (hne : r ≠ []) :
    (polyOf d (number, s)).rings = .ok [r.map (vertexOf d)] := by
  have := C76_rings_partial d number s (by rw [hr]; simpa using hne)
  rw [this, ringsOf, hr]
  rfl

/-- The rings of a polygon with two or more rings do not cover its points: `ring_end[i] = ring_begin[i + 1] - 1` is used as the end of a
half-open range, and the last point of every ring but the last one is never visited. -/
theorem C76_bug_last_point (d : Dim) (number : Int) (s : Poly) (hne : ∀ r ∈ s.rings, r ≠ []) (h2 : 2 ≤ s.rings.length) :
    ∃ l, (polyOf d (number, s)).rings = .ok l ∧ l.flatten.length < (polyOf d (number, s)).points.length := by
  refine ⟨_, C76_rings_partial d number s hne, ?_⟩
  have hp : (polyOf d (number, s)).points = (ringsOf d s).flatten := by
    simp [polyOf, ringsOf, List.map_flatten]
  rw [hp]
  obtain ⟨r, rs, hrs⟩ : ∃ r rs, s.rings = r :: rs := by
    cases hx : s.rings with
    | nil => rw [hx] at h2; simp at h2
    | cons r rs => exact ⟨r, rs, rfl⟩
  have gen : ∀ (l : List (List Vertex)) (f : Nat → List Vertex → List Vertex), (∀ i r, (f i r).length ≤ r.length) →
      (l.mapIdx f).flatten.length ≤ l.flatten.length := by
    intro l
    induction l with
    | nil => intro f _; simp
    | cons a l ih =>
        intro f hf
        rw [List.mapIdx_cons, List.flatten_cons, List.flatten_cons, List.length_append, List.length_append]
        have := ih (fun i => f (i + 1)) (fun i r => hf (i + 1) r)
        have := hf 0 a
        omega
  have hr : r ≠ [] := hne r (by rw [hrs]; simp)
  have hlen : s.rings.length = rs.length + 1 := by rw [hrs]; rfl
  have h1 : ringsOf d s = r.map (vertexOf d) :: rs.map fun r => r.map (vertexOf d) := by unfold ringsOf; rw [hrs]; rfl
  rw [h1, List.mapIdx_cons, List.flatten_cons, List.flatten_cons, List.length_append, List.length_append, if_neg (by omega)]
  have := gen (rs.map fun r => r.map (vertexOf d)) (fun i r => if i + 1 + 1 = s.rings.length then r else r.dropLast) (fun i r => by
    split
    · exact Nat.le_refl _
    · rw [List.length_dropLast]; omega)
  have hpos : 0 < r.length := List.length_pos_iff.mpr hr
  rw [List.length_dropLast, List.length_map]
  omega

/-! ## Concrete cases -/

/-- Two rings of three and two points. -/
def demoPoly : Poly :=
  ⟨(0, 0, 1, 1), ⟨(0, 1), (2, 3)⟩, [[⟨1, 2, 3, 4⟩, ⟨5, 6, 7, 8⟩, ⟨1, 2, 3, 4⟩], [⟨9, 10, 11, 12⟩, ⟨13, 14, 15, 16⟩]]⟩

example : (∀ r ∈ demoPoly.rings, r ≠ []) ∧ 2 ≤ demoPoly.rings.length := by decide
example : 100 + (encBody (Dim.xyz.code 5) (encPoly .xyz) [(1, demoPoly), (2, demoPoly)]).length < 2 ^ 31 := by decide +kernel
example : (shpReader (encFile 25 (List.replicate 8 0) (encBody 25 (encPoly .xym) [(7, demoPoly)]) ++ [1, 2, 3])) =
    some (.ok ⟨⟨9994, 296, 1000, 25, List.replicate 8 0⟩, [], [], [⟨7, [0, 0, 1, 1], some (2, 3), none, 2, 5, [0, 3], [2, 5],
      [⟨1, 2, none, some 4⟩, ⟨5, 6, none, some 8⟩, ⟨1, 2, none, some 4⟩, ⟨9, 10, none, some 12⟩, ⟨13, 14, none, some 16⟩]⟩], []⟩) := by
  decide +kernel
example : shpReader (encFile 11 (List.replicate 8 5) (encBody 11 (encPoint .xyz) [(1, ⟨1, 2, 3, 4⟩), (2, ⟨5, 6, 7, 8⟩)])) =
    some (.ok ⟨⟨9994, 188, 1000, 11, List.replicate 8 5⟩, [⟨1, 1, 2, some 3, some 4⟩, ⟨2, 5, 6, some 7, some 8⟩], [], [], []⟩) := by
  decide +kernel
example : (polyOf .xy (1, demoPoly)).rings = .ok [[⟨1, 2, none, none⟩, ⟨5, 6, none, none⟩], [⟨9, 10, none, none⟩, ⟨13, 14, none, none⟩]] := by
  decide +kernel

end Fdapde.IO
