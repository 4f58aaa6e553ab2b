import Verif.Tile.Model
import Verif.Boxes.Lemmas
/-! Reading back what was written. -/
namespace TDP.Tile
open TDP.Boxes TDP.Bytes

variable {α : Type} [LinearOrder α] [BoundedOrder α]

theorem pt3_self (p : Pt α) : pt3 (p 0) (p 1) (p 2) = p := by
  funext i
  match i with
  | 0 => rfl
  | 1 => rfl
  | 2 => rfl

theorem getPt_put (fc : FloatCode α) (p : Pt α) (s : List Nat) : getPt fc (putPt fc p ++ s) = some (p, s) := by
  unfold getPt putPt
  simp only [List.append_assoc]
  rw [get_put _ _ _ (fc.lt _)]; simp only [bind, Option.bind]
  rw [get_put _ _ _ (fc.lt _)]; simp only
  rw [get_put _ _ _ (fc.lt _)]
  simp only [fc.inv, pure, pt3_self]

theorem getVoxel_put (fc : FloatCode α) (v : Voxel α) (s : List Nat) :
    getVoxel fc (putVoxel fc v ++ s) = some (v, s) := by
  unfold getVoxel putVoxel
  simp only [List.append_assoc]
  rw [getPt_put]; simp only [bind, Option.bind]
  rw [getPt_put]; simp only
  rw [getPt_put]; rfl

theorem getVoxels_put (fc : FloatCode α) (vs : List (Voxel α)) (s : List Nat) :
    getVoxels fc vs.length (vs.flatMap (putVoxel fc) ++ s) = some (vs, s) := by
  induction vs generalizing s with
  | nil => rfl
  | cons v vs ih =>
    rw [List.length_cons, getVoxels, List.flatMap_cons, List.append_assoc, getVoxel_put]
    simp only [bind, Option.bind, ih]
    rfl

theorem get_nil (n : Nat) (hn : 0 < n) : Bytes.get n [] = none := by
  unfold Bytes.get; rw [if_pos]; exact hn

theorem putVoxel_length (fc : FloatCode α) (v : Voxel α) : (putVoxel fc v).length = 36 := by
  simp [putVoxel, putPt, put_length]

theorem putVoxels_length (fc : FloatCode α) (vs : List (Voxel α)) : (vs.flatMap (putVoxel fc)).length = 36 * vs.length := by
  induction vs with
  | nil => rfl
  | cons v vs ih => rw [List.flatMap_cons, List.length_append, ih, putVoxel_length, List.length_cons]; omega

/-- Field widths suffice for a wrapper. -/
def Wrapper.Fits (w : Wrapper α) : Prop := w.offset < 256 ^ 8 ∧ w.dataSize < 256 ^ 8 ∧ w.voxels.length < 256 ^ 8

theorem loadLoop_spec (fc : FloatCode α) (cap : Nat) (ws : List (Wrapper α)) (fuel index : Nat)
    (hf : (ws.flatMap (putMeta fc)).length < fuel) (hfit : ∀ w ∈ ws, w.Fits)
    (hid : ∀ i (h : i < ws.length), ws[i].id = index + i) (hbox : ∀ w ∈ ws, w.box = voxelsBox w.voxels) :
    loadLoop fc cap fuel index (ws.flatMap (putMeta fc)) = some (ws.take (cap - index)) := by
  induction ws generalizing fuel index with
  | nil =>
    cases fuel with
    | zero => simp at hf
    | succ fuel =>
      rw [loadLoop, List.flatMap_nil]
      split
      · rw [get_nil 8 (by omega)]; simp
      · simp
  | cons w ws ih =>
    cases fuel with
    | zero => simp at hf
    | succ fuel =>
      rw [loadLoop]
      split
      · rename_i hc
        have he : cap - index = (cap - (index + 1)) + 1 := by omega
        obtain ⟨f1, f2, f3⟩ := hfit w List.mem_cons_self
        rw [List.flatMap_cons] at hf ⊢
        rw [List.length_append] at hf
        have hl : 24 ≤ (putMeta fc w).length := by simp [putMeta, put_length]; omega
        simp only [putMeta, List.append_assoc]
        rw [get_put _ _ _ f1]; simp only [bind, Option.bind]
        rw [get_put _ _ _ f2]; simp only
        rw [get_put _ _ _ f3]; simp only
        rw [getVoxels_put]; simp only
        rw [ih fuel (index + 1) (by omega) (fun x hx => hfit x (List.mem_cons_of_mem _ hx))
          (fun i h => by
            have := hid (i + 1) (by rw [List.length_cons]; omega)
            rw [List.getElem_cons_succ] at this
            omega)
          (fun x hx => hbox x (List.mem_cons_of_mem _ hx))]
        simp only [pure, he, List.take_succ_cons]
        have h0 := hid 0 (by rw [List.length_cons]; omega)
        rw [List.getElem_cons_zero, Nat.add_zero] at h0
        rw [← h0, ← hbox w List.mem_cons_self]
      · rename_i hc
        rw [show cap - index = 0 by omega]; rfl

/-- The wrapper found for a record at a file position. -/
def wrapperOf (r : Record α) (index pos : Nat) : Wrapper α :=
  ⟨pos + 8, r.data.length, index, voxelsBox r.voxels, r.voxels⟩

/-- The wrappers of successive records. -/
def wrappersOf (fc : FloatCode α) : List (Record α) → Nat → Nat → List (Wrapper α)
  | [], _, _ => []
  | r :: rs, index, pos => wrapperOf r index pos :: wrappersOf fc rs (index + 1) (pos + (putRecord fc r).length)

theorem putRecord_length (fc : FloatCode α) (r : Record α) :
    (putRecord fc r).length = 8 + r.data.length + 8 + 36 * r.voxels.length := by
  simp only [putRecord, List.length_append, put_length, putVoxels_length]

/-- Field widths suffice for a record. -/
def Record.Fits (r : Record α) : Prop := r.data.length < 256 ^ 8 ∧ r.voxels.length < 256 ^ 8

theorem parseLoop_spec (fc : FloatCode α) (rs : List (Record α)) (fuel index pos : Nat)
    (hf : (dataFile fc rs).length < fuel) (hfit : ∀ r ∈ rs, r.Fits) :
    parseLoop fc fuel index pos (dataFile fc rs) = some (wrappersOf fc rs index pos) := by
  induction rs generalizing fuel index pos with
  | nil =>
    cases fuel with
    | zero => simp at hf
    | succ fuel => rw [parseLoop, dataFile, List.flatMap_nil, get_nil 8 (by omega)]; rfl
  | cons r rs ih =>
    cases fuel with
    | zero => simp at hf
    | succ fuel =>
      obtain ⟨f1, f2⟩ := hfit r List.mem_cons_self
      rw [dataFile, List.flatMap_cons, List.length_append, putRecord_length] at hf
      rw [parseLoop, dataFile, List.flatMap_cons]
      simp only [putRecord, List.append_assoc]
      rw [get_put _ _ _ f1]; simp only [bind, Option.bind]
      rw [List.drop_append_of_le_length (by omega), List.drop_eq_nil_of_le (by omega), List.nil_append]
      rw [get_put _ _ _ f2]; simp only
      rw [getVoxels_put]; simp only
      have h1 := ih fuel (index + 1) (pos + 8 + (r.data.length + 8 + 9 * 4 * r.voxels.length))
        (by rw [dataFile]; omega) (fun x hx => hfit x (List.mem_cons_of_mem _ hx))
      rw [dataFile] at h1
      rw [h1]
      simp only [wrappersOf, pure, wrapperOf, putRecord_length]
      rw [show pos + 8 + (r.data.length + 8 + 9 * 4 * r.voxels.length) =
        pos + (8 + r.data.length + 8 + 36 * r.voxels.length) by omega]

theorem wrappersOf_length (fc : FloatCode α) (rs : List (Record α)) (index pos : Nat) :
    (wrappersOf fc rs index pos).length = rs.length := by
  induction rs generalizing index pos with
  | nil => rfl
  | cons r rs ih => rw [wrappersOf, List.length_cons, ih, List.length_cons]

theorem wrappersOf_get (fc : FloatCode α) (rs : List (Record α)) (index pos i : Nat) (h : i < rs.length)
    (h' : i < (wrappersOf fc rs index pos).length) :
    (wrappersOf fc rs index pos)[i] =
      wrapperOf rs[i] (index + i) (pos + (dataFile fc (rs.take i)).length) := by
  induction rs generalizing index pos i with
  | nil => simp at h
  | cons r rs ih =>
    cases i with
    | zero => simp [wrappersOf, dataFile]
    | succ i =>
      simp only [wrappersOf, List.getElem_cons_succ]
      rw [ih _ _ i (by rw [List.length_cons] at h; omega)]
      rw [List.take_succ_cons, dataFile, dataFile, List.flatMap_cons, List.length_append]
      congr 1 <;> omega

theorem mem_wrappersOf (fc : FloatCode α) (rs : List (Record α)) (index pos : Nat) (w : Wrapper α)
    (hw : w ∈ wrappersOf fc rs index pos) : ∃ r ∈ rs, w.voxels = r.voxels ∧ w.dataSize = r.data.length ∧
      w.box = voxelsBox w.voxels ∧ w.offset ≤ pos + (dataFile fc rs).length := by
  induction rs generalizing index pos with
  | nil => cases hw
  | cons r rs ih =>
    rw [wrappersOf] at hw
    rcases List.mem_cons.mp hw with rfl | hw
    · refine ⟨r, List.mem_cons_self, rfl, rfl, rfl, ?_⟩
      rw [dataFile, List.flatMap_cons, List.length_append, putRecord_length]
      simp only [wrapperOf]; omega
    · obtain ⟨r', h1, h2, h3, h4, h5⟩ := ih _ _ hw
      refine ⟨r', List.mem_cons_of_mem _ h1, h2, h3, h4, ?_⟩
      rw [dataFile] at h5 ⊢
      rw [List.flatMap_cons, List.length_append]; omega

theorem dataFile_split (fc : FloatCode α) (rs : List (Record α)) (i : Nat) (h : i < rs.length) :
    dataFile fc rs = dataFile fc (rs.take i) ++ (putRecord fc rs[i] ++ dataFile fc (rs.drop (i + 1))) := by
  conv_lhs => rw [← List.take_append_drop i rs, List.drop_eq_getElem_cons h]
  simp only [dataFile, List.flatMap_append, List.flatMap_cons]

theorem retrieve_spec (fc : FloatCode α) (rs : List (Record α)) (i : Nat) (h : i < rs.length) (index : Nat) :
    retrieve (dataFile fc rs) (wrapperOf rs[i] index (dataFile fc (rs.take i)).length) = rs[i].data := by
  unfold retrieve wrapperOf
  rw [dataFile_split fc rs i h]
  simp only [putRecord, List.append_assoc]
  rw [← List.drop_drop, List.drop_left' rfl, List.drop_left' (by rw [put_length]), List.take_left' rfl]

end TDP.Tile
