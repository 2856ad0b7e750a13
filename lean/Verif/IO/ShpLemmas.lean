import Verif.IO.BinaryLemmas
import Verif.IO.ShpSpec

/-! # Lemmas about the shapefile reader -/

namespace Fdapde.IO

theorem Decodes.cast {α : Type} {p : Rd α} {x y : List Byte} {a b : α} (h : Decodes p x a) (hx : x = y) (ha : a = b) : Decodes p y b := by
  subst hx; subst ha; exact h

theorem decodes_pair (r : F64 × F64) : Decodes readPair (encPair r) r :=
  decodes_bind (decodes_f64 r.1) (decodes_map (f := fun b => (r.1, b)) (decodes_f64 r.2))

theorem decodes_manyInt {α : Type} {p : Rd α} {enc : α → List Byte} (l : List α) (n : Int) (hn : n = l.length)
    (h : ∀ a ∈ l, Decodes p (enc a) a) : Decodes (manyInt p n) (l.flatMap enc) l := by
  unfold manyInt
  subst hn
  rw [if_neg (by omega), Int.toNat_natCast]
  exact decodes_many l h

theorem decodes_manyF64 (l : List F64) (n : Int) (hn : n = l.length) : Decodes (manyInt readF64 n) (l.flatMap f64le) l :=
  decodes_manyInt l n hn fun a _ => decodes_f64 a

theorem decodes_point (d : Dim) (number : Int) (p : Pt) :
    Decodes (readPoint (d.code 1) number) (encPoint d p) (pointOf d (number, p)) := by
  unfold readPoint encPoint
  rw [List.append_assoc]
  refine decodes_bind (decodes_f64 p.x) (decodes_bind (decodes_f64 p.y) ?_)
  cases d
  · exact decodes_pure _
  · exact decodes_map (f := fun m => (⟨number, p.x, p.y, none, some m⟩ : Point)) (decodes_f64 p.m)
  · exact decodes_bind (decodes_f64 p.z) (decodes_map (f := fun m => (⟨number, p.x, p.y, some p.z, some m⟩ : Point)) (decodes_f64 p.m))

theorem f64le_length (v : F64) : (f64le v).length = 8 := le_length _ _
theorem i32le_length (v : Int) : (i32le v).length = 4 := le_length _ _
theorem i32be_length (v : Int) : (i32be v).length = 4 := be_length _ _
theorem encPair_length (v : F64 × F64) : (encPair v).length = 16 := by simp [encPair, f64le_length]

theorem flatMap_length {α : Type} (f : α → List Byte) (k : Nat) (l : List α) (h : ∀ a, (f a).length = k) : (l.flatMap f).length = k * l.length := by
  induction l with
  | nil => rfl
  | cons a l ih => rw [List.flatMap_cons, List.length_append, ih, h a, List.length_cons, Nat.mul_succ, Nat.add_comm]

theorem decodes_box (b : F64 × F64 × F64 × F64) : Decodes (many readF64 4) (encBox b) [b.1, b.2.1, b.2.2.1, b.2.2.2] :=
  decodes_many [b.1, b.2.1, b.2.2.1, b.2.2.2] fun a _ => decodes_f64 a

theorem encBox_length (b : F64 × F64 × F64 × F64) : (encBox b).length = 32 := by
  unfold encBox
  rw [flatMap_length f64le 8 _ f64le_length]
  rfl

theorem decodes_zmBlock (r : F64 × F64) (l : List F64) (n : Int) (hn : n = l.length) :
    Decodes (readZmBlock n) (encPair r ++ l.flatMap f64le) r :=
  decodes_bind (decodes_pair r) (decodes_map (f := fun _ => r) (decodes_manyF64 l n hn))

theorem decodes_xy (ps : List Pt) (n : Int) (hn : n = ps.length) :
    Decodes (manyInt readPair n) (ps.flatMap fun p => encPair (p.x, p.y)) (ps.map fun p => (p.x, p.y)) := by
  have := decodes_manyInt (ps.map fun p => (p.x, p.y)) n (by simpa using hn) (fun a _ => decodes_pair a)
  rwa [List.flatMap_map] at this

theorem fits_nat (n : Nat) (h : n < 2 ^ 31) : Fits 32 (n : Int) := by
  unfold Fits
  norm_num at h ⊢
  omega

theorem decodes_multipoint (d : Dim) (number : Int) (s : MP) (h : s.points.length < 2 ^ 31) :
    Decodes (readMultiPoint (d.code 8) number) (encMP d s) (multiOf d (number, s)) := by
  have e : List.map Prod.fst (s.points.map fun p => (p.x, p.y)) = s.points.map Pt.x ∧
      List.map Prod.snd (s.points.map fun p => (p.x, p.y)) = s.points.map Pt.y := by
    simp [List.map_map, Function.comp_def]
  unfold readMultiPoint encMP
  rw [List.append_assoc, List.append_assoc]
  refine decodes_bind (decodes_box s.box) (decodes_bind (decodes_i32 _ (fits_nat _ h)) (decodes_bind (decodes_xy _ _ rfl) ?_))
  dsimp only
  rw [e.1, e.2]
  cases d
  · exact decodes_pure _
  · have h1 := decodes_zmBlock s.ranges.m (s.points.map Pt.m) s.points.length (by simp)
    rw [List.flatMap_map] at h1
    exact decodes_map (f := fun mr => (⟨number, [s.box.1, s.box.2.1, s.box.2.2.1, s.box.2.2.2], some mr, none, s.points.length,
      s.points.map Pt.x, s.points.map Pt.y, [], []⟩ : MultiPoint)) h1
  · have h1 := decodes_zmBlock s.ranges.m (s.points.map Pt.m) s.points.length (by simp)
    have h2 := decodes_zmBlock s.ranges.z (s.points.map Pt.z) s.points.length (by simp)
    rw [List.flatMap_map] at h1 h2
    exact decodes_bind h2 (decodes_map (f := fun mr => (⟨number, [s.box.1, s.box.2.1, s.box.2.2.1, s.box.2.2.2], some mr, some s.ranges.z,
      s.points.length, s.points.map Pt.x, s.points.map Pt.y, [], []⟩ : MultiPoint)) h1)

theorem starts_length (n : Nat) (rs : List (List Pt)) : (starts n rs).length = rs.length := by
  induction rs generalizing n with
  | nil => rfl
  | cons r rs ih => simp [starts, ih]

theorem starts_bounds (n : Nat) (rs : List (List Pt)) : ∀ b ∈ starts n rs, (n : Int) ≤ b ∧ b ≤ n + rs.flatten.length := by
  induction rs generalizing n with
  | nil => intro b hb; simp [starts] at hb
  | cons r rs ih =>
      intro b hb
      simp only [starts, List.mem_cons] at hb
      simp only [List.flatten_cons, List.length_append]
      push_cast
      rcases hb with rfl | hb
      · omega
      · have := ih _ b hb
        push_cast at this
        omega

theorem ringEnds_loop (b : List Int) (hb : ∀ x ∈ b, x ≠ -2 ^ 31) (k : Nat) (hk : k + 1 ≤ b.length) :
    foldRes (fun (e : List Int) i => do
      let b ← Res.ofOptionUB b[i + 1]?
      if b = -2 ^ 31 then .ub else .ok (e.set i (b - 1))) (List.replicate b.length 0) (List.range k) =
      .ok ((b.tail.map (· - 1)).take k ++ List.replicate (b.length - k) 0) := by
  induction k with
  | zero => simp [foldRes_nil]
  | succ k ih =>
      rw [List.range_succ, foldRes_append, ih (by omega), Res.ok_bind, foldRes_cons]
      have hl : k + 1 < b.length := by omega
      rw [List.getElem?_eq_getElem hl, Res.ofOptionUB_some, Res.ok_bind, if_neg (hb _ (List.getElem_mem hl)), Res.ok_bind, foldRes_nil]
      congr 1
      have h1 : ((b.tail.map (· - 1)).take k).length = k := by simp; omega
      rw [List.set_append_right _ _ (by omega), h1, Nat.sub_self, show b.length - k = (b.length - (k + 1)) + 1 by omega,
        List.replicate_succ, List.set_cons_zero, List.take_add_one, List.append_assoc]
      congr 1
      rw [List.getElem?_map, List.getElem?_tail, List.getElem?_eq_getElem hl]
      rfl

theorem ringEnds_eq (b : List Int) (n : Int) (hne : b ≠ []) (hb : ∀ x ∈ b, x ≠ -2 ^ 31) :
    ringEnds b n = .ok (b.tail.map (· - 1) ++ [n]) := by
  have hl : 0 < b.length := List.length_pos_iff.mpr hne
  unfold ringEnds
  dsimp only
  by_cases h1 : b.length = 1
  · rw [if_pos h1]
    obtain ⟨x, rfl⟩ := List.length_eq_one_iff.mp h1
    rfl
  · rw [if_neg h1, if_neg (by omega), ringEnds_loop b hb (b.length - 1) (by omega), Res.ok_bind]
    congr 1
    have h2 : (b.tail.map (· - 1)).take (b.length - 1) = b.tail.map (· - 1) := by
      apply List.take_of_length_le
      simp
    rw [h2, List.set_append_right _ _ (by simp)]
    have h3 : b.length - 1 - (b.tail.map (· - 1)).length = 0 := by simp
    rw [h3, show b.length - (b.length - 1) = 1 by omega]
    rfl

theorem decodes_lift {α : Type} (r : Res α) (a : α) (h : r = .ok a) : Decodes (Rd.lift r) [] a := by
  subst h
  intro pre post
  simp [Rd.lift]

theorem zipWith_map_same {α β γ δ : Type} (f : β → γ → δ) (g : α → β) (h : α → γ) (l : List α) :
    List.zipWith f (l.map g) (l.map h) = l.map fun a => f (g a) (h a) := by
  induction l with
  | nil => rfl
  | cons a l ih => simp [ih]

theorem zip_map_same {α β γ : Type} (g : α → β) (h : α → γ) (l : List α) : List.zip (l.map g) (l.map h) = l.map fun a => (g a, h a) := by
  induction l with
  | nil => rfl
  | cons a l ih => simp [ih]

theorem decodes_polygon (d : Dim) (base : Int) (hbase : base = 3 ∨ base = 5) (number : Int) (s : Poly) (hr : s.rings ≠ [])
    (h1 : s.rings.length < 2 ^ 31) (h2 : s.rings.flatten.length < 2 ^ 31) :
    Decodes (readPolygon (d.code base) number) (encPoly d s) (polyOf d (number, s)) := by
  have hst : ∀ b ∈ starts 0 s.rings, Fits 32 b := by
    intro b hb
    have := starts_bounds 0 s.rings b hb
    unfold Fits
    norm_num at h2 this ⊢
    omega
  have hne : starts 0 s.rings ≠ [] := by
    intro h
    have := starts_length 0 s.rings
    rw [h] at this
    exact hr (List.length_eq_zero_iff.mp this.symm)
  have hend := ringEnds_eq (starts 0 s.rings) s.rings.flatten.length hne (fun b hb => by
    have := starts_bounds 0 s.rings b hb
    norm_num at this ⊢
    omega)
  unfold readPolygon encPoly
  rw [List.append_assoc, List.append_assoc, List.append_assoc, List.append_assoc]
  refine decodes_bind (decodes_box s.box) (decodes_bind (decodes_i32 _ (fits_nat _ h1)) (decodes_bind (decodes_i32 _ (fits_nat _ h2))
    (decodes_bind (decodes_manyInt (starts 0 s.rings) _ (by rw [starts_length]) (fun b hb => decodes_i32 b (hst b hb))) ?_)))
  refine (decodes_bind (decodes_lift _ _ hend) ((decodes_bind (decodes_xy s.rings.flatten _ rfl) ?_))).cast (List.nil_append _) rfl
  have hm := decodes_manyF64 (s.rings.flatten.map Pt.m) s.rings.flatten.length (by rw [List.length_map])
  have hz := decodes_manyF64 (s.rings.flatten.map Pt.z) s.rings.flatten.length (by rw [List.length_map])
  rw [List.flatMap_map] at hm hz
  cases d
  · rw [if_neg (by rcases hbase with rfl | rfl <;> decide), if_neg (by rcases hbase with rfl | rfl <;> decide)]
    refine (decodes_pure _).cast rfl ?_
    rw [List.map_map]
    rfl
  · rw [if_pos (by rcases hbase with rfl | rfl <;> decide)]
    refine decodes_bind (decodes_pair s.ranges.m) ((decodes_map (f := fun ms => (⟨number, _, some s.ranges.m, none, _, _, _, _,
      List.zipWith (fun (p : F64 × F64) m => ⟨p.1, p.2, none, some m⟩) _ ms⟩ : Polygon)) hm).cast rfl ?_)
    rw [zipWith_map_same]
    rfl
  · rw [if_neg (by rcases hbase with rfl | rfl <;> decide), if_pos (by rcases hbase with rfl | rfl <;> decide)]
    unfold encZM
    dsimp only
    rw [List.append_assoc]
    refine decodes_bind (decodes_pair s.ranges.z) (decodes_bind hz (decodes_bind (decodes_pair s.ranges.m)
      ((decodes_map (f := fun ms => (⟨number, _, some s.ranges.m, some s.ranges.z, _, _, _, _,
      List.zipWith (fun (p : F64 × F64) (q : F64 × F64) => ⟨p.1, p.2, some q.1, some q.2⟩) _ (List.zip _ ms)⟩ : Polygon)) hm).cast rfl ?_)))
    rw [zip_map_same, zipWith_map_same]
    rfl

/-! ## Files -/

theorem decodes_record {α : Type} {rec : Int → Rd α} (type number : Int) (hn : Fits 32 number) (content : List Byte) (a : α)
    (h : Decodes (rec number) content a) : Decodes (readRecord rec) (encRecord type number content) a := by
  unfold readRecord encRecord
  rw [List.append_assoc, List.append_assoc]
  refine decodes_bind (decodes_i32big number hn) ?_
  rw [← List.append_assoc]
  have := decodes_skip (i32be ((4 + content.length) / 2) ++ i32le type)
  rw [List.length_append, i32be_length, i32le_length] at this
  exact decodes_bind this h

theorem encRecord_length (type number : Int) (content : List Byte) : (encRecord type number content).length = 12 + content.length := by
  simp only [encRecord, List.length_append, i32be_length, i32le_length]

theorem readInto_ok {α β : Type} (rec : Int → Rd β) (type : Int) (enc : α → List Byte) (out : Int × α → β) (records : List (Int × α))
    (h : ∀ r ∈ records, Fits 32 r.1 ∧ Decodes (rec r.1) (enc r.2) (out r)) (pre : List Byte) (fuel : Nat) (hf : records.length < fuel) :
    readInto rec ((pre ++ encBody type enc records).length : Nat) (pre ++ encBody type enc records) fuel pre.length =
      some (.ok (records.map out)) := by
  induction records generalizing pre fuel with
  | nil =>
      obtain ⟨fuel, rfl⟩ := Nat.exists_eq_succ_of_ne_zero (by omega : fuel ≠ 0)
      unfold readInto
      rw [if_neg (by simp [encBody])]
      rfl
  | cons r rs ih =>
      obtain ⟨fuel, rfl⟩ := Nat.exists_eq_succ_of_ne_zero (by omega : fuel ≠ 0)
      unfold readInto
      have e : encBody type enc (r :: rs) = encRecord type r.1 (enc r.2) ++ encBody type enc rs := by simp [encBody]
      have hr := h r (by simp)
      have hd := decodes_record type r.1 hr.1 _ _ hr.2 pre (encBody type enc rs)
      rw [if_pos (by rw [e]; simp only [List.length_append, encRecord_length]; push_cast; omega)]
      have e2 : pre ++ encBody type enc (r :: rs) = pre ++ encRecord type r.1 (enc r.2) ++ encBody type enc rs := by rw [e, List.append_assoc]
      rw [e2, hd]
      have := ih (fun r hr => h r (by simp [hr])) (pre ++ encRecord type r.1 (enc r.2)) fuel (by simpa using hf)
      dsimp only
      rw [← List.length_append, this]
      rfl

theorem decodes_header (type : Int) (ht : Fits 32 type) (box : List F64) (hb : box.length = 8) (body : List Byte)
    (heven : body.length % 2 = 0) (hl : 100 + body.length < 2 ^ 31) :
    Decodes readHeader (i32be 9994 ++ List.replicate 20 0 ++ i32be ((100 + body.length) / 2) ++ i32le 1000 ++ i32le type ++ box.flatMap f64le)
      (fileHeader type box body) := by
  have hw : 2 * ((100 + (body.length : Int)) / 2) = 100 + body.length := by omega
  unfold readHeader
  simp only [List.append_assoc]
  refine decodes_bind (decodes_i32big 9994 (by unfold Fits; norm_num)) ?_
  have h20 : Decodes (skip 20) (List.replicate 20 (0 : Byte)) () := by
    have := decodes_skip (List.replicate 20 (0 : Byte))
    rwa [List.length_replicate] at this
  refine decodes_bind h20 (decodes_bind (decodes_i32big _ (by unfold Fits; norm_num at hl ⊢; omega)) ?_)
  rw [hw, if_pos (by norm_num at hl ⊢; omega)]
  refine (decodes_bind (decodes_pure _) (decodes_bind (decodes_i32 1000 (by unfold Fits; norm_num)) (decodes_bind (decodes_i32 type ht)
    ((decodes_map (f := fun bbox => (⟨9994, _, 1000, type, bbox⟩ : Header)) ?_).cast rfl rfl)))).cast (List.nil_append _) rfl
  have := decodes_many box (fun a _ => decodes_f64 a)
  rwa [hb] at this

theorem header_length (type : Int) (box : List F64) (hb : box.length = 8) (w : Int) :
    (i32be 9994 ++ List.replicate 20 0 ++ i32be w ++ i32le 1000 ++ i32le type ++ box.flatMap f64le).length = 100 := by
  simp only [List.length_append, i32be_length, i32le_length, List.length_replicate, flatMap_length f64le 8 _ f64le_length, hb]

theorem shpReader_eq (type : Int) (ht : Fits 32 type) (box : List F64) (hb : box.length = 8) (body rest : List Byte)
    (heven : body.length % 2 = 0) (hl : 100 + body.length < 2 ^ 31) :
    readHeader ((encFile type box body ++ rest).take 100) 0 = .ok (fileHeader type box body, 100) ∧
      ((encFile type box body ++ rest).drop 100).take ((fileHeader type box body).fileLength - 100).toNat = body := by
  have hlen := header_length type box hb ((100 + body.length) / 2)
  have hd := decodes_header type ht box hb body heven hl [] []
  unfold encFile
  generalize i32be 9994 ++ List.replicate 20 0 ++ i32be ((100 + body.length) / 2) ++ i32le 1000 ++ i32le type ++ box.flatMap f64le = hdr at *
  rw [List.append_assoc, List.take_append_of_le_length (by omega), List.take_of_length_le (by omega), List.drop_append_of_le_length (by omega),
    List.drop_of_length_le (by omega)]
  constructor
  · simpa [hlen] using hd
  · have e : ((fileHeader type box body).fileLength - 100).toNat = body.length := by
      simp [fileHeader]
    rw [e]
    simp

theorem even_flatMap {α : Type} (f : α → List Byte) (l : List α) (h : ∀ a ∈ l, (f a).length % 2 = 0) : (l.flatMap f).length % 2 = 0 := by
  induction l with
  | nil => rfl
  | cons a l ih =>
      have h1 := h a (by simp)
      have h2 := ih fun b hb => h b (by simp [hb])
      rw [List.flatMap_cons, List.length_append]
      omega

theorem length_le_flatMap {α : Type} (f : α → List Byte) (l : List α) (a : α) (h : a ∈ l) : (f a).length ≤ (l.flatMap f).length := by
  induction l with
  | nil => cases h
  | cons b l ih =>
      rw [List.flatMap_cons, List.length_append]
      rcases List.mem_cons.mp h with rfl | h
      · omega
      · have := ih h
        omega

theorem count_le_body {α : Type} (type : Int) (enc : α → List Byte) (records : List (Int × α)) : records.length ≤ (encBody type enc records).length := by
  unfold encBody
  induction records with
  | nil => simp
  | cons r rs ih =>
      rw [List.flatMap_cons, List.length_append, encRecord_length, List.length_cons]
      omega

theorem encPoint_even (d : Dim) (p : Pt) : (encPoint d p).length % 2 = 0 := by
  cases d <;> simp [encPoint, f64le_length]

theorem encZM_even (d : Dim) (r : Ranges) (ps : List Pt) : (encZM d r ps).length % 2 = 0 := by
  have h : ∀ g : Pt → F64, (ps.flatMap fun p => f64le (g p)).length = 8 * ps.length := fun g => flatMap_length _ 8 _ fun a => f64le_length _
  cases d
  · rfl
  · simp only [encZM, List.length_append, encPair_length, h]; omega
  · simp only [encZM, List.length_append, encPair_length, h]; omega

theorem encMP_length (d : Dim) (s : MP) : (encMP d s).length = 36 + 16 * s.points.length + (encZM d s.ranges s.points).length := by
  simp only [encMP, List.length_append, encBox_length, i32le_length, flatMap_length (fun p : Pt => encPair (p.x, p.y)) 16 _ fun a => encPair_length _]

theorem encPoly_length (d : Dim) (s : Poly) : (encPoly d s).length =
    40 + 4 * s.rings.length + 16 * s.rings.flatten.length + (encZM d s.ranges s.rings.flatten).length := by
  simp only [encPoly, List.length_append, encBox_length, i32le_length, flatMap_length (fun p : Pt => encPair (p.x, p.y)) 16 _ fun a => encPair_length _,
    flatMap_length i32le 4 _ i32le_length, starts_length]

theorem body_even {α : Type} (type : Int) (enc : α → List Byte) (records : List (Int × α)) (h : ∀ a, (enc a).length % 2 = 0) :
    (encBody type enc records).length % 2 = 0 := by
  apply even_flatMap
  intro r _
  rw [encRecord_length]
  have := h r.2
  omega

theorem content_le_body {α : Type} (type : Int) (enc : α → List Byte) (records : List (Int × α)) (r : Int × α) (h : r ∈ records) :
    (enc r.2).length ≤ (encBody type enc records).length := by
  have := length_le_flatMap (fun r : Int × α => encRecord type r.1 (enc r.2)) records r h
  rw [encRecord_length] at this
  unfold encBody
  omega

/-- Files of records of one kind. -/
theorem readInto_body {α β : Type} (rec : Int → Rd β) (type : Int) (enc : α → List Byte) (out : Int × α → β) (records : List (Int × α))
    (h : ∀ r ∈ records, Fits 32 r.1 ∧ Decodes (rec r.1) (enc r.2) (out r)) (box : List F64) :
    readInto rec ((fileHeader type box (encBody type enc records)).fileLength - 100) (encBody type enc records)
      (((fileHeader type box (encBody type enc records)).fileLength - 100).toNat + 1) 0 = some (.ok (records.map out)) := by
  have e : (fileHeader type box (encBody type enc records)).fileLength - 100 = ((encBody type enc records).length : Nat) := by
    simp [fileHeader]
  rw [e, Int.toNat_natCast]
  have := readInto_ok rec type enc out records h [] ((encBody type enc records).length + 1) (by have := count_le_body type enc records; omega)
  simpa using this

end Fdapde.IO
