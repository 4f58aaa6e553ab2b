import Verif.Tile.Props
import Mathlib.Tactic.IntervalCases
/-!
# C102, C103: opening files whose writing was interrupted (src/storage/tile.cpp:77-161)

In `Tile.Model` a field cut off by the end of the file has no meaning. Here it has the one of the C library: `fread` stores the bytes that
are there over the first bytes of the variable, leaves the others as they were, and reports success only for complete items. The results of
all but the first `fread` of a record are ignored by the code.
-/
namespace TDP.Tile
open TDP.Boxes TDP.Bytes

section
variable {α : Type} [LinearOrder α] [BoundedOrder α]

/-! ## Model -/

/-- `fread(p, old.length, 1, fs)` into a variable with the bytes `old`, `s` being the file from the current position: the bytes of the
variable afterwards, the rest of the file, and whether the item was read completely. -/
def fread (old s : List Nat) : List Nat × List Nat × Bool :=
  (s.take old.length ++ old.drop s.length, s.drop old.length, decide (old.length ≤ s.length))

/-- `fread(p, sizeof(float), 3, fs)` into a `float[3]` with the bytes `old`. -/
def readPt (fc : FloatCode α) (old s : List Nat) : Pt α × List Nat :=
  let r := fread old s
  (pt3 (fc.ofBits (val (r.1.take 4))) (fc.ofBits (val ((r.1.drop 4).take 4))) (fc.ofBits (val ((r.1.drop 8).take 4))), r.2.1)

/-- One turn of the voxel loops (tile.cpp:116-119, 148-151). A new voxel has an empty box (aab.h:56-61) and a core that is not initialised
(`junk`). -/
def readVoxel (fc : FloatCode α) (junk s : List Nat) : Voxel α × List Nat :=
  let a := readPt fc (putPt fc (emptyBox : Box α).min) s
  let b := readPt fc (putPt fc (emptyBox : Box α).max) a.2
  let c := readPt fc junk b.2
  (⟨⟨a.1, b.1⟩, c.1⟩, c.2)

/-- The voxel loops (tile.cpp:116-122, 148-154) from turn `i`. -/
def readVoxels (fc : FloatCode α) (junk : Nat → List Nat) : Nat → Nat → List Nat → List (Voxel α) × List Nat
  | 0, _, s => ([], s)
  | n + 1, i, s =>
    let v := readVoxel fc (junk i) s
    let vs := readVoxels fc junk n (i + 1) v.2
    (v.1 :: vs.1, vs.2)

/-- The record loop of `Tile::parse_raw` (tile.cpp:138-159); `dsize` are the bytes of the variable of that name. The voxel loop counts with
an `int` up to `dsize`: from 2^31 on it overflows, `none`. -/
def parseCut (fc : FloatCode α) (junk : Nat → Nat → List Nat) : Nat → Nat → Nat → List Nat → List Nat → Option (List (Wrapper α))
  | 0, _, _, _, _ => none
  | fuel + 1, index, offset, dsize, s =>
    let r := fread dsize s
    if r.2.2 then
      let dsz := val r.1
      let q := fread r.1 (r.2.1.drop dsz)
      if val q.1 < 2 ^ 31 then
        let v := readVoxels fc (junk index) (val q.1) 0 q.2.1
        (parseCut fc junk fuel (index + 1) (offset + 8 + (dsz + 8 + 9 * 4 * val q.1)) q.1 v.2).map
          (⟨offset + 8, dsz, index, voxelsBox v.1, v.1⟩ :: ·)
      else none
    else some []

/-- `Tile::parse_raw` (tile.cpp:131-161). -/
def parseRawCut (fc : FloatCode α) (junk : Nat → Nat → List Nat) (file : List Nat) : Option (Tile α) :=
  (parseCut fc junk (file.length + 2) 0 0 (put 8 0) file).map (fun ws => ⟨tileBox ws, ws⟩)

/-- The record loop of `Tile::load` (tile.cpp:105-125). `data_size` of a new wrapper is 0 (himesh.h:151). -/
def loadCut (fc : FloatCode α) (junk : Nat → Nat → List Nat) (capacity : Nat) : Nat → Nat → List Nat → List Nat → Option (List (Wrapper α))
  | 0, _, _, _ => none
  | fuel + 1, index, dsize, s =>
    if index < capacity then
      let r := fread dsize s
      if r.2.2 then
        let d := fread (put 8 0) r.2.1
        let q := fread r.1 d.2.1
        if val q.1 < 2 ^ 31 then
          let v := readVoxels fc (junk index) (val q.1) 0 q.2.1
          (loadCut fc junk capacity fuel (index + 1) q.1 v.2).map (⟨val r.1, val d.1, index, voxelsBox v.1, v.1⟩ :: ·)
        else none
      else some []
    else some []

/-- `Tile::load` (tile.cpp:96-128). -/
def loadFileCut (fc : FloatCode α) (junk : Nat → Nat → List Nat) (capacity : Nat) (file : List Nat) : Option (Tile α) :=
  (loadCut fc junk (effCapacity capacity) (file.length + 2) 0 (put 8 0) file).map (fun ws => ⟨tileBox ws, ws⟩)

/-! ## Reading what was written -/

theorem fread_full (old b s : List Nat) (h : b.length = old.length) : fread old (b ++ s) = (b, s, true) := by
  unfold fread
  rw [← h, List.take_left' rfl, List.drop_left' rfl, List.drop_eq_nil_of_le (by rw [List.length_append]; omega), List.append_nil]
  simp

theorem fread_rest (old s : List Nat) : (fread old s).2.1 = s.drop old.length := rfl

theorem fread_length (old s : List Nat) : (fread old s).1.length = old.length := by
  unfold fread
  simp only [List.length_append, List.length_take, List.length_drop]
  omega

theorem putPt_length (fc : FloatCode α) (p : Pt α) : (putPt fc p).length = 12 := by simp [putPt, put_length]

theorem readPt_put (fc : FloatCode α) (old s : List Nat) (p : Pt α) (h : old.length = 12) : readPt fc old (putPt fc p ++ s) = (p, s) := by
  unfold readPt
  rw [fread_full _ _ _ (by rw [putPt_length, h])]
  have e0 : (putPt fc p).take 4 = put 4 (fc.toBits (p 0)) := by
    unfold putPt
    rw [List.append_assoc, List.take_left' (put_length _ _)]
  have e1 : ((putPt fc p).drop 4).take 4 = put 4 (fc.toBits (p 1)) := by
    unfold putPt
    rw [List.append_assoc, List.drop_left' (put_length _ _), List.take_left' (put_length _ _)]
  have e2 : ((putPt fc p).drop 8).take 4 = put 4 (fc.toBits (p 2)) := by
    unfold putPt
    rw [List.drop_left' (by simp [put_length]), List.take_of_length_le (by rw [put_length])]
  simp only [e0, e1, e2, val_put _ _ (fc.lt _), fc.inv, pt3_self]

theorem readPt_rest (fc : FloatCode α) (old s : List Nat) : (readPt fc old s).2 = s.drop old.length := rfl

theorem readVoxel_put (fc : FloatCode α) (junk s : List Nat) (v : Voxel α) (h : junk.length = 12) :
    readVoxel fc junk (putVoxel fc v ++ s) = (v, s) := by
  unfold readVoxel putVoxel
  simp only [List.append_assoc]
  rw [readPt_put _ _ _ _ (putPt_length _ _)]
  simp only
  rw [readPt_put _ _ _ _ (putPt_length _ _)]
  simp only
  rw [readPt_put _ _ _ _ h]

theorem readVoxel_rest (fc : FloatCode α) (junk s : List Nat) (h : junk.length = 12) : (readVoxel fc junk s).2 = s.drop 36 := by
  unfold readVoxel
  simp only [readPt_rest, putPt_length, h, List.drop_drop]

theorem readVoxels_put (fc : FloatCode α) (junk : Nat → List Nat) (h : ∀ i, (junk i).length = 12) (s : List Nat) :
    ∀ (vs : List (Voxel α)) (i : Nat), readVoxels fc junk vs.length i (vs.flatMap (putVoxel fc) ++ s) = (vs, s)
  | [], _ => rfl
  | v :: vs, i => by
    simp only [List.length_cons, readVoxels, List.flatMap_cons, List.append_assoc]
    rw [readVoxel_put _ _ _ _ (h i)]
    simp only
    rw [readVoxels_put fc junk h s vs (i + 1)]

theorem readVoxels_rest (fc : FloatCode α) (junk : Nat → List Nat) (h : ∀ i, (junk i).length = 12) :
    ∀ (n i : Nat) (s : List Nat), (readVoxels fc junk n i s).2 = s.drop (36 * n)
  | 0, _, s => by simp [readVoxels]
  | n + 1, i, s => by
    simp only [readVoxels]
    rw [readVoxels_rest fc junk h n, readVoxel_rest _ _ _ (h i), List.drop_drop]
    congr 1
    omega

/-- Fields that the `int` of the voxel loop can count to. -/
def Record.Small (r : Record α) : Prop := r.data.length < 2 ^ 31 ∧ r.voxels.length < 2 ^ 31

theorem parseCut_record (fc : FloatCode α) (junk : Nat → Nat → List Nat) (hj : ∀ i j, (junk i j).length = 12) (r : Record α) (hr : r.Small)
    (fuel index offset : Nat) (dsize s : List Nat) (hd : dsize.length = 8) :
    ∃ d', d'.length = 8 ∧ parseCut fc junk (fuel + 1) index offset dsize (putRecord fc r ++ s) =
      (parseCut fc junk fuel (index + 1) (offset + (putRecord fc r).length) d' s).map (wrapperOf r index offset :: ·) := by
  refine ⟨put 8 r.voxels.length, put_length _ _, ?_⟩
  have h1 : fread dsize (putRecord fc r ++ s) = (put 8 r.data.length, r.data ++ (put 8 r.voxels.length ++ (r.voxels.flatMap (putVoxel fc) ++ s)), true) := by
    unfold putRecord
    simp only [List.append_assoc]
    exact fread_full _ _ _ (by rw [put_length, hd])
  have v1 : val (put 8 r.data.length) = r.data.length := val_put _ _ (lt_of_lt_of_le hr.1 (by norm_num))
  have v2 : val (put 8 r.voxels.length) = r.voxels.length := val_put _ _ (lt_of_lt_of_le hr.2 (by norm_num))
  have h2 : fread (put 8 r.data.length) ((r.data ++ (put 8 r.voxels.length ++ (r.voxels.flatMap (putVoxel fc) ++ s))).drop r.data.length) =
      (put 8 r.voxels.length, r.voxels.flatMap (putVoxel fc) ++ s, true) := by
    rw [List.drop_left' rfl]
    exact fread_full _ _ _ (by rw [put_length, put_length])
  rw [parseCut]
  simp only [h1, v1, h2, v2, readVoxels_put fc _ (hj index), if_true]
  rw [if_pos hr.2, putRecord_length]
  simp only [wrapperOf]
  congr 2
  omega

theorem parseCut_records (fc : FloatCode α) (junk : Nat → Nat → List Nat) (hj : ∀ i j, (junk i j).length = 12) (fuel : Nat) (s : List Nat) :
    ∀ (rs : List (Record α)) (_ : ∀ r ∈ rs, r.Small) (index offset : Nat) (dsize : List Nat), dsize.length = 8 →
    ∃ d', d'.length = 8 ∧ parseCut fc junk (fuel + rs.length) index offset dsize (dataFile fc rs ++ s) =
      (parseCut fc junk fuel (index + rs.length) (offset + (dataFile fc rs).length) d' s).map (wrappersOf fc rs index offset ++ ·)
  | [], _, index, offset, dsize, hd => ⟨dsize, hd, by simp [dataFile, wrappersOf]⟩
  | r :: rs, hr, index, offset, dsize, hd => by
    obtain ⟨d1, l1, e1⟩ := parseCut_record fc junk hj r (hr r List.mem_cons_self) (fuel + rs.length) index offset dsize (dataFile fc rs ++ s) hd
    obtain ⟨d2, l2, e2⟩ := parseCut_records fc junk hj fuel s rs (fun x hx => hr x (List.mem_cons_of_mem _ hx)) (index + 1)
      (offset + (putRecord fc r).length) d1 l1
    refine ⟨d2, l2, ?_⟩
    have ef : dataFile fc (r :: rs) ++ s = putRecord fc r ++ (dataFile fc rs ++ s) := by simp [dataFile]
    have el : (dataFile fc (r :: rs)).length = (putRecord fc r).length + (dataFile fc rs).length := by simp [dataFile]
    rw [ef, List.length_cons, ← Nat.add_assoc, e1, e2, el, Option.map_map, show index + 1 + rs.length = index + (rs.length + 1) by omega,
      Nat.add_assoc offset]
    rfl

/-! ## The record that was cut -/

theorem val_append (l r : List Nat) : val (l ++ r) = val l + 256 ^ l.length * val r := by
  induction l with
  | nil => simp [val]
  | cons b l ih => rw [List.cons_append, val, ih, val, List.length_cons, pow_succ]; ring

theorem take_put : ∀ (j m a : Nat), j ≤ m → (put m a).take j = put j a
  | 0, _, _, _ => rfl
  | j + 1, 0, _, h => absurd h (by omega)
  | j + 1, m + 1, a, h => by rw [put, put, List.take_succ_cons, take_put j m _ (by omega)]

theorem drop_put : ∀ (j m a : Nat), j ≤ m → (put m a).drop j = put (m - j) (a / 256 ^ j)
  | 0, m, a, _ => by simp
  | j + 1, 0, _, h => absurd h (by omega)
  | j + 1, m + 1, a, h => by
    rw [put, List.drop_succ_cons, drop_put j m _ (by omega), Nat.div_div_eq_div_mul, pow_succ, Nat.mul_comm 256, Nat.add_sub_add_right]

theorem val_put_mod : ∀ (j a : Nat), val (put j a) = a % 256 ^ j
  | 0, a => by simp [put, val, Nat.mod_one]
  | j + 1, a => by
    rw [put, val, val_put_mod j, pow_succ, Nat.mul_comm (256 ^ j), Nat.mod_mul]

/-- A count whose first bytes only were read, the others being those of another small number, is small. -/
theorem mixed_small (a b j : Nat) (hj : j < 8) (ha : a < 2 ^ 31) (hb : b < 2 ^ 31) :
    val ((put 8 a).take j ++ (put 8 b).drop j) < 2 ^ 31 := by
  rw [val_append, take_put j 8 a (by omega), drop_put j 8 b (by omega), put_length, val_put_mod, val_put_mod]
  have e : b / 256 ^ j % 256 ^ (8 - j) ≤ b / 256 ^ j := Nat.mod_le _ _
  interval_cases j <;> simp only [Nat.reducePow, Nat.reduceSub] at e ⊢ <;> omega

/-- The object found for a record that was cut after its first field: everything but its voxels. -/
def CutObject (r : Record α) (index pos : Nat) (w : Wrapper α) : Prop := w.offset = pos + 8 ∧ w.dataSize = r.data.length ∧ w.id = index

theorem parseCut_tail (fc : FloatCode α) (junk : Nat → Nat → List Nat) (hj : ∀ i j, (junk i j).length = 12) (r : Record α) (hr : r.Small)
    (fuel index offset : Nat) (dsize : List Nat) (hd : dsize.length = 8) (m : Nat) (hm : m < (putRecord fc r).length) :
    (m < 8 → parseCut fc junk (fuel + 2) index offset dsize ((putRecord fc r).take m) = some []) ∧
    (8 ≤ m → ∃ w, CutObject r index offset w ∧
      parseCut fc junk (fuel + 2) index offset dsize ((putRecord fc r).take m) = some [w]) := by
  rw [putRecord_length] at hm
  constructor
  · intro h8
    rw [parseCut]
    simp only [fread, hd, List.length_take, putRecord_length]
    rw [if_neg]
    simp only [decide_eq_true_eq]
    omega
  · intro h8
    -- the first field is complete
    have e0 : (putRecord fc r).take m = put 8 r.data.length ++
        (r.data ++ (put 8 r.voxels.length ++ r.voxels.flatMap (putVoxel fc))).take (m - 8) := by
      unfold putRecord
      simp only [List.append_assoc]
      rw [List.take_append, put_length, List.take_of_length_le (by rw [put_length]; exact h8)]
    have h1 : fread dsize ((putRecord fc r).take m) = (put 8 r.data.length,
        (r.data ++ (put 8 r.voxels.length ++ r.voxels.flatMap (putVoxel fc))).take (m - 8), true) := by
      rw [e0]
      exact fread_full _ _ _ (by rw [put_length, hd])
    have v1 : val (put 8 r.data.length) = r.data.length := val_put _ _ (lt_of_lt_of_le hr.1 (by norm_num))
    -- what is left after the data
    have e1 : ((r.data ++ (put 8 r.voxels.length ++ r.voxels.flatMap (putVoxel fc))).take (m - 8)).drop r.data.length =
        (put 8 r.voxels.length ++ r.voxels.flatMap (putVoxel fc)).take (m - 8 - r.data.length) := by
      rw [List.drop_take, List.drop_left' rfl]
    obtain ⟨q, hq⟩ : ∃ q, fread (put 8 r.data.length)
        ((put 8 r.voxels.length ++ r.voxels.flatMap (putVoxel fc)).take (m - 8 - r.data.length)) = q := ⟨_, rfl⟩
    -- the count is small and the voxel loop reaches the end of the file
    have key : val q.1 < 2 ^ 31 ∧ (q.2.1).drop (36 * val q.1) = [] := by
      by_cases hc : m - 8 - r.data.length < 8
      · have et : (put 8 r.voxels.length ++ r.voxels.flatMap (putVoxel fc)).take (m - 8 - r.data.length) =
            (put 8 r.voxels.length).take (m - 8 - r.data.length) := List.take_append_of_le_length (by rw [put_length]; omega)
        rw [et] at hq
        subst hq
        refine ⟨?_, ?_⟩
        · unfold fread
          simp only [put_length, List.length_take]
          rw [List.take_take, show min 8 (m - 8 - r.data.length) = m - 8 - r.data.length by omega,
            show min (m - 8 - r.data.length) 8 = m - 8 - r.data.length by omega]
          exact mixed_small _ _ _ hc hr.2 hr.1
        · rw [fread_rest, put_length]
          rw [List.drop_drop]
          exact List.drop_eq_nil_of_le (by rw [List.length_take, put_length]; omega)
      · have et : (put 8 r.voxels.length ++ r.voxels.flatMap (putVoxel fc)).take (m - 8 - r.data.length) =
            put 8 r.voxels.length ++ (r.voxels.flatMap (putVoxel fc)).take (m - 8 - r.data.length - 8) := by
          rw [List.take_append, put_length, List.take_of_length_le (by rw [put_length]; omega)]
        rw [et, fread_full _ _ _ (by rw [put_length, put_length])] at hq
        subst hq
        have v2 : val (put 8 r.voxels.length) = r.voxels.length := val_put _ _ (lt_of_lt_of_le hr.2 (by norm_num))
        simp only [v2]
        refine ⟨hr.2, List.drop_eq_nil_of_le ?_⟩
        rw [List.length_take, putVoxels_length]
        omega
    refine ⟨⟨offset + 8, r.data.length, index, voxelsBox (readVoxels fc (junk index) (val q.1) 0 q.2.1).1,
      (readVoxels fc (junk index) (val q.1) 0 q.2.1).1⟩, ⟨rfl, rfl, rfl⟩, ?_⟩
    · rw [show fuel + 2 = (fuel + 1) + 1 from rfl, parseCut]
      simp only [h1, v1, e1, hq, if_true]
      rw [if_pos key.1, readVoxels_rest fc _ (hj index), key.2]
      rw [parseCut]
      have hq1 : q.1.length = 8 := by rw [← hq, fread_length, put_length]
      simp only [fread, hq1]
      rfl

/-! ## C102 -/

/-- The bytes of the first `k` records. -/
abbrev written (fc : FloatCode α) (rs : List (Record α)) (k : Nat) : Nat := (dataFile fc (rs.take k)).length

/-- `k` records are completely among the first `m` bytes. -/
def Complete (fc : FloatCode α) (rs : List (Record α)) (m k : Nat) : Prop :=
  k ≤ rs.length ∧ written fc rs k ≤ m ∧ (k < rs.length → m < written fc rs (k + 1))

theorem written_succ (fc : FloatCode α) (rs : List (Record α)) (k : Nat) (h : k < rs.length) :
    written fc rs (k + 1) = written fc rs k + (putRecord fc rs[k]).length := by
  unfold written
  rw [List.take_succ_eq_append_getElem h]
  unfold dataFile
  rw [List.flatMap_append, List.length_append, List.flatMap_singleton]

theorem exists_complete (fc : FloatCode α) (rs : List (Record α)) (m : Nat) : ∃ k, Complete fc rs m k := by
  have : ∀ n, n ≤ rs.length → (∃ k, k < n ∧ Complete fc rs m k) ∨ written fc rs n ≤ m := by
    intro n
    induction n with
    | zero => intro _; right; simp [written, dataFile]
    | succ n ih =>
      intro hn
      rcases ih (by omega) with ⟨k, hk, h⟩ | h
      · exact .inl ⟨k, by omega, h⟩
      · by_cases hm : m < written fc rs (n + 1)
        · exact .inl ⟨n, by omega, by omega, h, fun _ => hm⟩
        · exact .inr (by omega)
  rcases this rs.length le_rfl with ⟨k, -, h⟩ | h
  · exact ⟨k, h⟩
  · exact ⟨rs.length, le_rfl, h, fun h => absurd h (by omega)⟩

theorem split_cut (fc : FloatCode α) (rs : List (Record α)) (m k : Nat) (hk : Complete fc rs m k) :
    (dataFile fc rs).take m = dataFile fc (rs.take k) ++ (if h : k < rs.length then (putRecord fc rs[k]).take (m - written fc rs k) else []) := by
  by_cases h : k < rs.length
  · rw [dif_pos h, dataFile_split fc rs k h, List.take_append, List.take_of_length_le hk.2.1]
    congr 1
    have := hk.2.2 h
    rw [written_succ fc rs k h] at this
    exact List.take_append_of_le_length (by show m - written fc rs k ≤ _; omega)
  · rw [dif_neg h, List.append_nil]
    have e : k = rs.length := by have := hk.1; omega
    have h2 := hk.2.1
    subst e
    rw [List.take_length]
    rw [written, List.take_length] at h2
    exact List.take_of_length_le h2

theorem retrieve_append (A B : List Nat) (w : Wrapper α) (h : w.offset + w.dataSize ≤ A.length) : retrieve (A ++ B) w = retrieve A w := by
  unfold retrieve
  rw [List.drop_append_of_le_length (by omega), List.take_append_of_le_length (by rw [List.length_drop]; omega)]

theorem box_in_voxels (vs : List (Voxel α)) (v : Voxel α) (h : v ∈ vs) : v.box.Le (voxelsBox vs) := by
  have hb : voxelsBox vs = (vs.map (fun v => Upd.box v.box)).foldl Box.upd emptyBox := by
    unfold voxelsBox
    rw [List.foldl_map]
    rfl
  rw [hb]
  exact foldl_in emptyBox _ (Upd.box v.box) (List.mem_map.mpr ⟨v, h, rfl⟩)

theorem box_in_tile (ws : List (Wrapper α)) (w : Wrapper α) (h : w ∈ ws) : w.box.Le (tileBox ws) := by
  have hb : tileBox ws = (ws.map (fun w => Upd.box w.box)).foldl Box.upd emptyBox := by
    unfold tileBox
    rw [List.foldl_map]
    rfl
  rw [hb]
  exact foldl_in emptyBox _ (Upd.box w.box) (List.mem_map.mpr ⟨w, h, rfl⟩)

/-- **C102.** A data file cut at any byte is opened, whatever uninitialised memory holds. The tile begins with the objects whose records
were written completely (`k` of them), each with its identifier, voxels and data, inside its box and the box of the tile. If at least eight bytes of the next record were written
there is exactly one object more, with the identifier and the announced size of that record, and reading its data gives what was written of
it; otherwise there is none. -/
theorem C102_interrupted_partial (fc : FloatCode α) (junk : Nat → Nat → List Nat) (hj : ∀ i j, (junk i j).length = 12) (rs : List (Record α))
    (hr : ∀ r ∈ rs, r.Small) (m : Nat) (hm : m ≤ (dataFile fc rs).length) :
    ∃ (k : Nat) (t : Tile α), Complete fc rs m k ∧ parseRawCut fc junk ((dataFile fc rs).take m) = some t ∧
      (t.objects.length = k ∨ t.objects.length = k + 1) ∧ (t.objects.length = k + 1 ↔ written fc rs k + 8 ≤ m) ∧
      (∀ i (h : i < rs.length) (h' : i < t.objects.length), i < k →
        t.objects[i].id = i ∧ t.objects[i].voxels = rs[i].voxels ∧ retrieve ((dataFile fc rs).take m) t.objects[i] = rs[i].data ∧
        ∀ v ∈ rs[i].voxels, v.box.Le t.objects[i].box ∧ v.box.Le t.box) ∧
      (∀ (h : k < rs.length) (h' : k < t.objects.length),
        t.objects[k].id = k ∧ t.objects[k].dataSize = rs[k].data.length ∧
        retrieve ((dataFile fc rs).take m) t.objects[k] = rs[k].data.take (m - (written fc rs k + 8))) := by
  obtain ⟨k, hk⟩ := exists_complete fc rs m
  have hk1 := hk.1
  have hkl : (rs.take k).length = k := by rw [List.length_take]; omega
  have hsmall : ∀ r ∈ rs.take k, r.Small := fun r h => hr r (List.mem_of_mem_take h)
  -- the list of objects
  have hparse : ∃ ext : List (Wrapper α),
      (ext = [] ∧ ¬ written fc rs k + 8 ≤ m ∨ ∃ (h : k < rs.length) (w : Wrapper α), ext = [w] ∧ written fc rs k + 8 ≤ m ∧ CutObject rs[k] k (written fc rs k) w) ∧
      parseCut fc junk (((dataFile fc rs).take m).length + 2) 0 0 (put 8 0) ((dataFile fc rs).take m) =
        some (wrappersOf fc (rs.take k) 0 0 ++ ext) := by
    have hlen : k ≤ ((dataFile fc rs).take m).length := by
      have h1 := hk.2.1
      have : k ≤ written fc rs k := by
        have hlb : ∀ l : List (Record α), l.length ≤ (dataFile fc l).length := by
          intro l
          induction l with
          | nil => simp
          | cons r l ih =>
            rw [dataFile, List.flatMap_cons, List.length_append, putRecord_length]
            rw [dataFile] at ih
            simp only [List.length_cons]; omega
        have := hlb (rs.take k)
        rw [hkl] at this
        exact this
      rw [List.length_take]; omega
    obtain ⟨f, hf⟩ : ∃ f, ((dataFile fc rs).take m).length + 2 = (f + 2) + (rs.take k).length :=
      ⟨((dataFile fc rs).take m).length - k, by rw [hkl]; omega⟩
    rw [hf, split_cut fc rs m k hk]
    by_cases h : k < rs.length
    · rw [dif_pos h]
      obtain ⟨d', l', e'⟩ := parseCut_records fc junk hj (f + 2) ((putRecord fc rs[k]).take (m - written fc rs k)) (rs.take k) hsmall 0 0
        (put 8 0) (put_length _ _)
      have hlt := hk.2.2 h
      rw [written_succ fc rs k h] at hlt
      obtain ⟨t1, t2⟩ := parseCut_tail fc junk hj rs[k] (hr _ (List.getElem_mem h)) f (0 + (rs.take k).length)
        (0 + (dataFile fc (rs.take k)).length) d' l' (m - written fc rs k) (by have := hk.2.1; omega)
      by_cases h8 : m - written fc rs k < 8
      · refine ⟨[], .inl ⟨rfl, by have := hk.2.1; omega⟩, ?_⟩
        rw [e', t1 h8]; simp
      · obtain ⟨w, hw, ew⟩ := t2 (by omega)
        rw [hkl, Nat.zero_add, Nat.zero_add] at hw
        refine ⟨[w], .inr ⟨h, w, rfl, by omega, hw⟩, ?_⟩
        rw [e', ew]; simp
    · rw [dif_neg h]
      obtain ⟨d', l', e'⟩ := parseCut_records fc junk hj (f + 2) [] (rs.take k) hsmall 0 0 (put 8 0) (put_length _ _)
      refine ⟨[], .inl ⟨rfl, ?_⟩, ?_⟩
      · have e : k = rs.length := by omega
        subst e
        unfold written
        rw [List.take_length]; omega
      · rw [e', parseCut]
        simp [fread, l']
  obtain ⟨ext, hext, hp⟩ := hparse
  have hwl : (wrappersOf fc (rs.take k) 0 0).length = k := by rw [wrappersOf_length, hkl]
  refine ⟨k, ⟨tileBox (wrappersOf fc (rs.take k) 0 0 ++ ext), wrappersOf fc (rs.take k) 0 0 ++ ext⟩, hk, ?_, ?_, ?_, ?_, ?_⟩
  · unfold parseRawCut
    rw [hp]; rfl
  · rcases hext with ⟨rfl, -⟩ | ⟨-, w, rfl, -⟩ <;> simp [hwl]
  · rcases hext with ⟨rfl, h⟩ | ⟨-, w, rfl, h, -⟩
    · simp only [List.append_nil, hwl]; omega
    · simp only [List.length_append, hwl, List.length_singleton, true_iff]; omega
  · intro i h h' hik
    simp only
    rw [List.getElem_append_left (by rw [hwl]; exact hik), wrappersOf_get fc (rs.take k) 0 0 i (by rw [hkl]; exact hik)]
    have hi : (rs.take k)[i]'(by rw [hkl]; exact hik) = rs[i] := List.getElem_take
    have htt : (rs.take k).take i = rs.take i := by rw [List.take_take, Nat.min_eq_left (by omega)]
    refine ⟨by simp [wrapperOf], by simp only [wrapperOf, hi], ?_, fun v hv => ?_⟩
    rw [split_cut fc rs m k hk, retrieve_append]
    rotate_left 2
    · have h1 : v.box.Le (voxelsBox rs[i].voxels) := box_in_voxels _ v hv
      refine ⟨by simp only [wrapperOf, hi]; exact h1, h1.trans ?_⟩
      have hm' : (wrappersOf fc (rs.take k) 0 0)[i]'(by rw [hwl]; exact hik) ∈ wrappersOf fc (rs.take k) 0 0 ++ ext :=
        List.mem_append_left _ (List.getElem_mem _)
      rw [wrappersOf_get fc (rs.take k) 0 0 i (by rw [hkl]; exact hik)] at hm'
      have := box_in_tile _ _ hm'
      simp only [wrapperOf, hi] at this
      exact this
    · rw [Nat.zero_add, Nat.zero_add]
      exact (retrieve_spec fc (rs.take k) i (by rw [hkl]; exact hik) i).trans (by rw [hi])
    · simp only [wrapperOf, hi, htt]
      have e1 := dataFile_split fc (rs.take k) i (by rw [hkl]; exact hik)
      have e2 := congrArg List.length e1
      rw [htt, hi] at e2
      simp only [List.length_append, putRecord_length] at e2
      omega
  · intro h h'
    rcases hext with ⟨rfl, -⟩ | ⟨_, w, rfl, h8, hw⟩
    · simp only [List.append_nil, hwl] at h'; omega
    · have e : (wrappersOf fc (rs.take k) 0 0 ++ [w])[k]'h' = w := by
        rw [List.getElem_append_right (by omega)]
        simp [hwl]
      simp only
      rw [e]
      refine ⟨hw.2.2, hw.2.1, ?_⟩
      unfold retrieve
      rw [hw.1, hw.2.1, split_cut fc rs m k hk, dif_pos h, ← List.drop_drop, List.drop_left' rfl, List.drop_take]
      unfold putRecord
      simp only [List.append_assoc]
      rw [List.drop_left' (put_length _ _), List.take_take]
      have hle : ∀ (a b : List Nat) (n x : Nat), n = a.length → (a ++ b).take (min n x) = a.take x := by
        intro a b n x hn
        subst hn
        rw [List.take_append_of_le_length (by omega), List.take_eq_take_iff]
        omega
      rw [hle _ _ _ _ rfl]
      congr 1

/-! ## C103: the metadata -/

/-- Fields of an object that the reader can handle when the file is cut. -/
def Wrapper.Small (w : Wrapper α) : Prop := w.offset < 2 ^ 31 ∧ w.dataSize < 256 ^ 8 ∧ w.voxels.length < 2 ^ 31

theorem putMeta_length (fc : FloatCode α) (w : Wrapper α) : (putMeta fc w).length = 24 + 36 * w.voxels.length := by
  simp only [putMeta, List.length_append, put_length, putVoxels_length]

theorem loadCut_record (fc : FloatCode α) (junk : Nat → Nat → List Nat) (hj : ∀ i j, (junk i j).length = 12) (cap : Nat) (w : Wrapper α)
    (hw : w.Small) (hb : w.box = voxelsBox w.voxels) (fuel : Nat) (hc : w.id < cap) (dsize s : List Nat) (hd : dsize.length = 8) :
    ∃ d', d'.length = 8 ∧ loadCut fc junk cap (fuel + 1) w.id dsize (putMeta fc w ++ s) =
      (loadCut fc junk cap fuel (w.id + 1) d' s).map (w :: ·) := by
  refine ⟨put 8 w.voxels.length, put_length _ _, ?_⟩
  have e : putMeta fc w ++ s = put 8 w.offset ++ (put 8 w.dataSize ++ (put 8 w.voxels.length ++ (w.voxels.flatMap (putVoxel fc) ++ s))) := by
    simp [putMeta]
  have v1 : val (put 8 w.offset) = w.offset := val_put _ _ (lt_of_lt_of_le hw.1 (by norm_num))
  have v2 : val (put 8 w.dataSize) = w.dataSize := val_put _ _ hw.2.1
  have v3 : val (put 8 w.voxels.length) = w.voxels.length := val_put _ _ (lt_of_lt_of_le hw.2.2 (by norm_num))
  rw [loadCut, if_pos hc, e]
  simp only [fread_full dsize (put 8 w.offset) _ (by rw [put_length, hd]), fread_full (put 8 0) (put 8 w.dataSize) _ (by rw [put_length, put_length]),
    fread_full (put 8 w.offset) (put 8 w.voxels.length) _ (by rw [put_length, put_length]), v1, v2, v3, readVoxels_put fc _ (hj w.id), if_true]
  rw [if_pos hw.2.2, ← hb]

theorem loadCut_records (fc : FloatCode α) (junk : Nat → Nat → List Nat) (hj : ∀ i j, (junk i j).length = 12) (cap fuel : Nat) (s : List Nat) :
    ∀ (ws : List (Wrapper α)) (_ : ∀ w ∈ ws, w.Small ∧ w.box = voxelsBox w.voxels) (index : Nat)
      (_ : ∀ i (h : i < ws.length), ws[i].id = index + i) (_ : index + ws.length ≤ cap) (dsize : List Nat), dsize.length = 8 →
    ∃ d', d'.length = 8 ∧ loadCut fc junk cap (fuel + ws.length) index dsize (ws.flatMap (putMeta fc) ++ s) =
      (loadCut fc junk cap fuel (index + ws.length) d' s).map (ws ++ ·)
  | [], _, index, _, _, dsize, hd => ⟨dsize, hd, by simp⟩
  | w :: ws, hw, index, hid, hcap, dsize, hd => by
    rw [List.length_cons] at hcap
    have h0 : w.id = index := hid 0 (by simp)
    obtain ⟨d1, l1, e1⟩ := loadCut_record fc junk hj cap w (hw w List.mem_cons_self).1 (hw w List.mem_cons_self).2 (fuel + ws.length)
      (by omega) dsize (ws.flatMap (putMeta fc) ++ s) hd
    obtain ⟨d2, l2, e2⟩ := loadCut_records fc junk hj cap fuel s ws (fun x hx => hw x (List.mem_cons_of_mem _ hx)) (index + 1)
      (fun i h => by
        have := hid (i + 1) (by rw [List.length_cons]; omega)
        rw [List.getElem_cons_succ] at this
        omega) (by omega) d1 l1
    refine ⟨d2, l2, ?_⟩
    rw [h0] at e1
    rw [List.flatMap_cons, List.append_assoc, List.length_cons, ← Nat.add_assoc, e1, e2, Option.map_map,
      show index + 1 + ws.length = index + (ws.length + 1) by omega]
    rfl

/-- The object found for a metadata record that was cut after its first field. -/
theorem loadCut_tail (fc : FloatCode α) (junk : Nat → Nat → List Nat) (hj : ∀ i j, (junk i j).length = 12) (cap : Nat) (w : Wrapper α)
    (hw : w.Small) (fuel : Nat) (hc : w.id < cap) (dsize : List Nat) (hd : dsize.length = 8) (m : Nat) (hm : m < (putMeta fc w).length) :
    (m < 8 → loadCut fc junk cap (fuel + 2) w.id dsize ((putMeta fc w).take m) = some []) ∧
    (8 ≤ m → ∃ x : Wrapper α, x.offset = w.offset ∧ x.id = w.id ∧
      loadCut fc junk cap (fuel + 2) w.id dsize ((putMeta fc w).take m) = some [x]) := by
  rw [putMeta_length] at hm
  constructor
  · intro h8
    rw [loadCut, if_pos hc]
    simp only [fread, hd, List.length_take, putMeta_length]
    rw [if_neg]
    simp only [decide_eq_true_eq]
    omega
  · intro h8
    have v1 : val (put 8 w.offset) = w.offset := val_put _ _ (lt_of_lt_of_le hw.1 (by norm_num))
    have v3 : val (put 8 w.voxels.length) = w.voxels.length := val_put _ _ (lt_of_lt_of_le hw.2.2 (by norm_num))
    have e0 : (putMeta fc w).take m = put 8 w.offset ++
        (put 8 w.dataSize ++ (put 8 w.voxels.length ++ w.voxels.flatMap (putVoxel fc))).take (m - 8) := by
      unfold putMeta
      simp only [List.append_assoc]
      rw [List.take_append, put_length, List.take_of_length_le (by rw [put_length]; exact h8)]
    have h1 : fread dsize ((putMeta fc w).take m) = (put 8 w.offset,
        (put 8 w.dataSize ++ (put 8 w.voxels.length ++ w.voxels.flatMap (putVoxel fc))).take (m - 8), true) := by
      rw [e0]
      exact fread_full _ _ _ (by rw [put_length, hd])
    have e1 : ((put 8 w.dataSize ++ (put 8 w.voxels.length ++ w.voxels.flatMap (putVoxel fc))).take (m - 8)).drop 8 =
        (put 8 w.voxels.length ++ w.voxels.flatMap (putVoxel fc)).take (m - 16) := by
      rw [List.drop_take, List.drop_left' (put_length _ _)]
      congr 1
    obtain ⟨q, hq⟩ : ∃ q, fread (put 8 w.offset)
        ((put 8 w.voxels.length ++ w.voxels.flatMap (putVoxel fc)).take (m - 16)) = q := ⟨_, rfl⟩
    have key : val q.1 < 2 ^ 31 ∧ (q.2.1).drop (36 * val q.1) = [] := by
      by_cases h : m - 16 < 8
      · have et : (put 8 w.voxels.length ++ w.voxels.flatMap (putVoxel fc)).take (m - 16) = (put 8 w.voxels.length).take (m - 16) :=
          List.take_append_of_le_length (by rw [put_length]; omega)
        rw [et] at hq
        subst hq
        refine ⟨?_, ?_⟩
        · unfold fread
          simp only [put_length, List.length_take]
          rw [List.take_take, show min 8 (m - 16) = m - 16 by omega, show min (m - 16) 8 = m - 16 by omega]
          exact mixed_small _ _ _ h hw.2.2 hw.1
        · rw [fread_rest, put_length]
          rw [List.drop_drop]
          exact List.drop_eq_nil_of_le (by rw [List.length_take, put_length]; omega)
      · have et : (put 8 w.voxels.length ++ w.voxels.flatMap (putVoxel fc)).take (m - 16) =
            put 8 w.voxels.length ++ (w.voxels.flatMap (putVoxel fc)).take (m - 16 - 8) := by
          rw [List.take_append, put_length, List.take_of_length_le (by rw [put_length]; omega)]
        rw [et, fread_full _ _ _ (by rw [put_length, put_length])] at hq
        subst hq
        simp only [v3]
        refine ⟨hw.2.2, List.drop_eq_nil_of_le ?_⟩
        rw [List.length_take, putVoxels_length]
        omega
    refine ⟨⟨w.offset, val (fread (put 8 0) ((put 8 w.dataSize ++ (put 8 w.voxels.length ++ w.voxels.flatMap (putVoxel fc))).take (m - 8))).1,
      w.id, voxelsBox (readVoxels fc (junk w.id) (val q.1) 0 q.2.1).1, (readVoxels fc (junk w.id) (val q.1) 0 q.2.1).1⟩, rfl, rfl, ?_⟩
    rw [show fuel + 2 = (fuel + 1) + 1 from rfl, loadCut, if_pos hc]
    simp only [h1, fread_rest, put_length, e1, hq, v1, if_true]
    rw [if_pos key.1, readVoxels_rest fc _ (hj w.id), key.2, loadCut]
    have hq1 : q.1.length = 8 := by rw [← hq, fread_length, put_length]
    by_cases h : w.id + 1 < cap
    · rw [if_pos h]
      simp only [fread, hq1]
      rfl
    · rw [if_neg h]
      rfl

/-- The bytes of the metadata of the first `k` objects. -/
abbrev cached (fc : FloatCode α) (t : Tile α) (k : Nat) : Nat := ((t.objects.take k).flatMap (putMeta fc)).length

/-- The metadata of `k` objects is completely among the first `m` bytes. -/
def CompleteMeta (fc : FloatCode α) (t : Tile α) (m k : Nat) : Prop :=
  k ≤ t.objects.length ∧ cached fc t k ≤ m ∧ (k < t.objects.length → m < cached fc t (k + 1))

theorem cached_succ (fc : FloatCode α) (t : Tile α) (k : Nat) (h : k < t.objects.length) :
    cached fc t (k + 1) = cached fc t k + (putMeta fc t.objects[k]).length := by
  unfold cached
  rw [List.take_succ_eq_append_getElem h, List.flatMap_append, List.length_append, List.flatMap_singleton]

theorem exists_completeMeta (fc : FloatCode α) (t : Tile α) (m : Nat) : ∃ k, CompleteMeta fc t m k := by
  have : ∀ n, n ≤ t.objects.length → (∃ k, k < n ∧ CompleteMeta fc t m k) ∨ cached fc t n ≤ m := by
    intro n
    induction n with
    | zero => intro _; right; simp [cached]
    | succ n ih =>
      intro hn
      rcases ih (by omega) with ⟨k, hk, h⟩ | h
      · exact .inl ⟨k, by omega, h⟩
      · by_cases hm : m < cached fc t (n + 1)
        · exact .inl ⟨n, by omega, by omega, h, fun _ => hm⟩
        · exact .inr (by omega)
  rcases this t.objects.length le_rfl with ⟨k, -, h⟩ | h
  · exact ⟨k, h⟩
  · exact ⟨t.objects.length, le_rfl, h, fun h => absurd h (by omega)⟩

theorem split_meta (fc : FloatCode α) (t : Tile α) (m k : Nat) (hk : CompleteMeta fc t m k) :
    (persist fc t).take m = (t.objects.take k).flatMap (putMeta fc) ++
      (if h : k < t.objects.length then (putMeta fc t.objects[k]).take (m - cached fc t k) else []) := by
  by_cases h : k < t.objects.length
  · rw [dif_pos h]
    have e : persist fc t = (t.objects.take k).flatMap (putMeta fc) ++ (putMeta fc t.objects[k] ++ (t.objects.drop (k + 1)).flatMap (putMeta fc)) := by
      unfold persist
      conv_lhs => rw [← List.take_append_drop k t.objects, List.drop_eq_getElem_cons h]
      rw [List.flatMap_append, List.flatMap_cons]
    rw [e, List.take_append, List.take_of_length_le hk.2.1]
    congr 1
    have := hk.2.2 h
    rw [cached_succ fc t k h] at this
    exact List.take_append_of_le_length (by show m - cached fc t k ≤ _; omega)
  · rw [dif_neg h, List.append_nil]
    have e : k = t.objects.length := by have := hk.1; omega
    have h2 := hk.2.1
    subst e
    rw [List.take_length]
    rw [cached, List.take_length] at h2
    exact List.take_of_length_le h2

/-- **C103.** If writing the metadata of a tile is interrupted at any byte, the next opening reads the file without an error. It finds the
objects whose metadata was complete (`k` of them) and, if at least eight bytes more were written, one object with a wrong size or wrong voxels;
all further objects are missing. -/
theorem C103_metadata_interrupted_partial (fc : FloatCode α) (junk : Nat → Nat → List Nat) (hj : ∀ i j, (junk i j).length = 12) (t : Tile α)
    (ht : Made t) (hw : ∀ w ∈ t.objects, w.Small) (cap : Nat) (hcap : t.objects.length ≤ effCapacity cap) (m : Nat)
    (hm : m ≤ (persist fc t).length) :
    ∃ (k : Nat) (t' : Tile α), CompleteMeta fc t m k ∧ loadFileCut fc junk cap ((persist fc t).take m) = some t' ∧
      t'.objects.take k = t.objects.take k ∧ (t'.objects.length = k ∨ t'.objects.length = k + 1) ∧
      (t'.objects.length = k + 1 ↔ cached fc t k + 8 ≤ m) := by
  obtain ⟨k, hk⟩ := exists_completeMeta fc t m
  have hk1 := hk.1
  have hkl : (t.objects.take k).length = k := by rw [List.length_take]; omega
  have hsub : ∀ w ∈ t.objects.take k, w.Small ∧ w.box = voxelsBox w.voxels := fun w h =>
    ⟨hw w (List.mem_of_mem_take h), ht.boxes w (List.mem_of_mem_take h)⟩
  have hids : ∀ i (h : i < (t.objects.take k).length), (t.objects.take k)[i].id = 0 + i := by
    intro i h
    rw [List.getElem_take, ht.ids i (by rw [hkl] at h; omega), Nat.zero_add]
  have hload : ∃ ext : List (Wrapper α), (ext = [] ∧ ¬ cached fc t k + 8 ≤ m ∨ ∃ x, ext = [x] ∧ cached fc t k + 8 ≤ m) ∧
      loadCut fc junk (effCapacity cap) (((persist fc t).take m).length + 2) 0 (put 8 0) ((persist fc t).take m) =
        some (t.objects.take k ++ ext) := by
    have hlen : k ≤ ((persist fc t).take m).length := by
      have hlb : ∀ l : List (Wrapper α), l.length ≤ (l.flatMap (putMeta fc)).length := by
        intro l
        induction l with
        | nil => simp
        | cons r l ih =>
          rw [List.flatMap_cons, List.length_append, putMeta_length]
          simp only [List.length_cons]; omega
      have h2 := hlb (t.objects.take k)
      rw [hkl] at h2
      have h1 := hk.2.1
      rw [List.length_take]
      unfold cached at h1
      omega
    obtain ⟨f, hf⟩ : ∃ f, ((persist fc t).take m).length + 2 = (f + 2) + (t.objects.take k).length :=
      ⟨((persist fc t).take m).length - k, by rw [hkl]; omega⟩
    rw [hf, split_meta fc t m k hk]
    by_cases h : k < t.objects.length
    · rw [dif_pos h]
      obtain ⟨d', l', e'⟩ := loadCut_records fc junk hj (effCapacity cap) (f + 2) ((putMeta fc t.objects[k]).take (m - cached fc t k))
        (t.objects.take k) hsub 0 hids (by rw [hkl]; omega) (put 8 0) (put_length _ _)
      have hlt := hk.2.2 h
      rw [cached_succ fc t k h] at hlt
      have hid : t.objects[k].id = 0 + (t.objects.take k).length := by rw [hkl, ht.ids k h, Nat.zero_add]
      obtain ⟨t1, t2⟩ := loadCut_tail fc junk hj (effCapacity cap) t.objects[k] (hw _ (List.getElem_mem h)) f
        (by rw [ht.ids k h]; omega) d' l' (m - cached fc t k) (by have := hk.2.1; omega)
      rw [hid] at t1 t2
      by_cases h8 : m - cached fc t k < 8
      · refine ⟨[], .inl ⟨rfl, by have := hk.2.1; omega⟩, ?_⟩
        rw [e', t1 h8]; simp
      · obtain ⟨x, -, -, ex⟩ := t2 (by omega)
        refine ⟨[x], .inr ⟨x, rfl, by omega⟩, ?_⟩
        rw [e', ex]; simp
    · rw [dif_neg h]
      obtain ⟨d', l', e'⟩ := loadCut_records fc junk hj (effCapacity cap) (f + 2) [] (t.objects.take k) hsub 0 hids
        (by rw [hkl]; omega) (put 8 0) (put_length _ _)
      refine ⟨[], .inl ⟨rfl, ?_⟩, ?_⟩
      · have e : k = t.objects.length := by omega
        subst e
        unfold cached
        rw [List.take_length]
        unfold persist at hm
        omega
      · rw [e', loadCut]
        by_cases hc : 0 + (t.objects.take k).length < effCapacity cap
        · rw [if_pos hc]; simp [fread, l']
        · rw [if_neg hc]; simp
  obtain ⟨ext, hext, hp⟩ := hload
  refine ⟨k, ⟨tileBox (t.objects.take k ++ ext), t.objects.take k ++ ext⟩, hk, ?_, ?_, ?_, ?_⟩
  · unfold loadFileCut
    rw [hp]; rfl
  · simp only
    exact List.take_left' hkl
  · rcases hext with ⟨rfl, -⟩ | ⟨x, rfl, -⟩ <;> simp only [List.length_append, hkl] <;> simp
  · rcases hext with ⟨rfl, h⟩ | ⟨x, rfl, h⟩
    · simp only [List.append_nil, hkl]; omega
    · simp only [List.length_append, hkl, List.length_singleton, true_iff]; omega

/-- So an interrupted caching of a tile loses objects: whenever a tile has two more objects than were cached completely, the tile opened
next has fewer objects, although its data file is complete. -/
theorem C103_objects_lost (fc : FloatCode α) (junk : Nat → Nat → List Nat) (hj : ∀ i j, (junk i j).length = 12) (t : Tile α)
    (ht : Made t) (hw : ∀ w ∈ t.objects, w.Small) (cap : Nat) (hcap : t.objects.length ≤ effCapacity cap) (m : Nat)
    (k : Nat) (hk : k + 1 < t.objects.length) (hm : m < cached fc t (k + 1)) :
    ∃ t' : Tile α, loadFileCut fc junk cap ((persist fc t).take m) = some t' ∧ t'.objects.length < t.objects.length := by
  have mono : ∀ a b, a ≤ b → b ≤ t.objects.length → cached fc t a ≤ cached fc t b := by
    intro a b hab
    induction b with
    | zero => intro _; obtain rfl : a = 0 := by omega
              exact le_rfl
    | succ b ih =>
      intro hb
      rcases Nat.lt_or_ge a (b + 1) with h | h
      · have := ih (by omega) (by omega)
        rw [cached_succ fc t b (by omega)]; omega
      · obtain rfl : a = b + 1 := by omega
        exact le_rfl
  have hfull : (persist fc t).length = cached fc t t.objects.length := by unfold cached persist; rw [List.take_length]
  have hml : m ≤ (persist fc t).length := by
    rw [hfull]
    have := mono (k + 1) _ (by omega) le_rfl
    omega
  obtain ⟨k', t', h1, h2, -, h4, -⟩ := C103_metadata_interrupted_partial fc junk hj t ht hw cap hcap m hml
  refine ⟨t', h2, ?_⟩
  have : k' ≤ k := by
    by_contra hlt
    have := mono (k + 1) k' (by omega) h1.1
    have := h1.2.1
    omega
  omega

end

/-! ## Examples -/

/-- Bytes of uninitialised memory. -/
def exJunk : Nat → Nat → List Nat := fun _ _ => List.replicate 12 170

/-- The hypotheses of C102 hold for the two records of `Tile.Props`, cut anywhere. -/
example (m : Nat) (hm : m ≤ (dataFile FloatCode.fin [recA, recB]).length) :
    ∃ k t, Complete FloatCode.fin [recA, recB] m k ∧ parseRawCut FloatCode.fin exJunk ((dataFile FloatCode.fin [recA, recB]).take m) = some t ∧
      (t.objects.length = k ∨ t.objects.length = k + 1) := by
  obtain ⟨k, t, h1, h2, h3, -⟩ := C102_interrupted_partial FloatCode.fin exJunk (fun _ _ => rfl) [recA, recB] (by
    intro r hr
    simp only [List.mem_cons, List.not_mem_nil, or_false] at hr
    rcases hr with rfl | rfl <;> exact ⟨by decide, by decide⟩) m hm
  exact ⟨k, t, h1, h2, h3⟩

/-- **C102 (what is wrong).** The first record is complete; of the second one (three bytes of data, two voxels) only the first field and the data
were written: the tile has a second object with as many voxels as the record has bytes of data (three instead of two), and their boxes are
empty. -/
theorem C102_counterexample :
    (parseRawCut FloatCode.fin exJunk ((dataFile FloatCode.fin [recB, recA]).take ((putRecord FloatCode.fin recB).length + 11))).map
      (fun t => t.objects.map (fun w => (w.id, w.voxels.length, w.voxels.map (fun v => (v.box.min 0, v.box.max 0))))) =
    some [(0, 1, [(6, 7)]), (1, 3, [(⊤, ⊥), (⊤, ⊥), (⊤, ⊥)])] := by decide +kernel

/-- A tile of two objects. -/
def exTile : Tile (Fin (256 ^ 4)) :=
  ⟨tileBox (wrappersOf FloatCode.fin [recA, recB] 0 0), wrappersOf FloatCode.fin [recA, recB] 0 0⟩

/-- **C103 (what is wrong).** Interrupted before the second object's metadata: one object is left, and no error. Interrupted inside it: the
second object announces no data and its number of voxels is its place in the data file (99). -/
theorem C103_counterexample :
    exTile.objects.length = 2 ∧
    (loadFileCut FloatCode.fin exJunk (2 ^ 63 - 1) ((persist FloatCode.fin exTile).take 96)).map (fun t => t.objects.length) = some 1 ∧
    (loadFileCut FloatCode.fin exJunk (2 ^ 63 - 1) ((persist FloatCode.fin exTile).take 104)).map
      (fun t => t.objects.map (fun w => (w.dataSize, w.voxels.length))) = some [(3, 2), (0, 99)] := by
  refine ⟨rfl, by decide +kernel, by decide +kernel⟩

end TDP.Tile
