import Verif.Tile.Lemmas
import Mathlib.Order.Fin.Basic
/-! # C28, C29, C30, C50: tiles on disk -/
namespace TDP.Tile
open TDP.Boxes TDP.Bytes

section
variable {α : Type} [LinearOrder α] [BoundedOrder α]

/-- A tile as the program makes them: objects numbered from 0, boxes computed from the voxels, fields within
64 bits. `C29_parse` shows that parsing a data file gives such a tile. -/
structure Made (t : Tile α) : Prop where
  ids : ∀ i (h : i < t.objects.length), t.objects[i].id = i
  boxes : ∀ w ∈ t.objects, w.box = voxelsBox w.voxels
  box : t.box = tileBox t.objects
  fits : ∀ w ∈ t.objects, w.Fits

theorem load_persist (fc : FloatCode α) (t : Tile α) (ht : Made t) (c : Nat) :
    load fc c (persist fc t) = some ⟨tileBox (t.objects.take (effCapacity c)), t.objects.take (effCapacity c)⟩ := by
  unfold load persist
  rw [loadLoop_spec fc (effCapacity c) t.objects _ 0 (by omega) ht.fits (fun i h => by rw [ht.ids i h]; omega) ht.boxes]
  rfl

/-- **C28.** Loading the metadata written by a tile gives, for a capacity `c` below 2^31, the first `c`
objects with identifiers, offsets, sizes, boxes and voxels; and the whole tile with the default capacity
`LONG_MAX` (for fewer than 2^32 objects) or any capacity that is at least the number of objects. -/
theorem C28_metadata_roundtrip (fc : FloatCode α) (t : Tile α) (ht : Made t) :
    (∀ c, c < 2 ^ 31 → (load fc c (persist fc t)).map (·.objects) = some (t.objects.take c)) ∧
    (∀ c, c < 2 ^ 31 → t.objects.length ≤ c → load fc c (persist fc t) = some t) ∧
    (t.objects.length < 2 ^ 32 → load fc (2 ^ 63 - 1) (persist fc t) = some t) := by
  have hs : ∀ c, c < 2 ^ 31 → effCapacity c = c := by
    intro c hc
    unfold effCapacity
    rw [Nat.mod_eq_of_lt (by omega), if_pos hc]
  have hall : ∀ c, t.objects.length ≤ effCapacity c → load fc c (persist fc t) = some t := by
    intro c hc
    rw [load_persist fc t ht, List.take_of_length_le hc, ← ht.box]
  refine ⟨?_, ?_, ?_⟩
  · intro c hc
    rw [load_persist fc t ht, hs c hc]; rfl
  · intro c hc hl
    exact hall c (by rw [hs c hc]; exact hl)
  · intro hl
    apply hall
    have : effCapacity (2 ^ 63 - 1) = 2 ^ 64 - 1 := by decide
    rw [this]; omega

/-- **C29.** Parsing a data file made of records written by the compressor finds exactly one object per
record, in order: numbered consecutively, with the record's voxels, a box that contains every voxel box and
is the least such; and reading the object's data from the file gives exactly the record's compressed bytes. -/
theorem C29_parse (fc : FloatCode α) (rs : List (Record α)) (hfit : ∀ r ∈ rs, r.Fits)
    (hsz : (dataFile fc rs).length < 256 ^ 8) :
    ∃ t : Tile α, parseRaw fc (dataFile fc rs) = some t ∧ Made t ∧ t.objects.length = rs.length ∧
      ∀ i (h : i < rs.length) (h' : i < t.objects.length),
        t.objects[i].id = i ∧ t.objects[i].voxels = rs[i].voxels ∧
        retrieve (dataFile fc rs) t.objects[i] = rs[i].data ∧
        (∀ v ∈ rs[i].voxels, v.box.Le t.objects[i].box) ∧
        ∀ c : Box α, (∀ v ∈ rs[i].voxels, v.box.Le c) → t.objects[i].box.Le c := by
  refine ⟨⟨tileBox (wrappersOf fc rs 0 0), wrappersOf fc rs 0 0⟩, ?_, ⟨?_, ?_, rfl, ?_⟩, wrappersOf_length fc rs 0 0, ?_⟩
  · unfold parseRaw
    rw [parseLoop_spec fc rs _ 0 0 (by omega) hfit]; rfl
  · intro i h
    have h2 := h
    rw [wrappersOf_length] at h2
    simp only
    rw [wrappersOf_get fc rs 0 0 i h2]
    simp [wrapperOf]
  · intro w hw
    obtain ⟨r, _, _, _, h4, _⟩ := mem_wrappersOf fc rs 0 0 w hw
    exact h4
  · intro w hw
    obtain ⟨r, hr, h2, h3, _, h5⟩ := mem_wrappersOf fc rs 0 0 w hw
    obtain ⟨f1, f2⟩ := hfit r hr
    refine ⟨by omega, by rw [h3]; exact f1, by rw [h2]; exact f2⟩
  · intro i h h'
    simp only
    rw [wrappersOf_get fc rs 0 0 i h]
    have hb : voxelsBox rs[i].voxels = (rs[i].voxels.map (fun v => Upd.box v.box)).foldl Box.upd emptyBox := by
      unfold voxelsBox
      rw [List.foldl_map]
      rfl
    refine ⟨by simp [wrapperOf], rfl, ?_, ?_, ?_⟩
    · rw [Nat.zero_add, Nat.zero_add]; exact retrieve_spec fc rs i h i
    · intro v hv
      simp only [wrapperOf]
      rw [hb]
      exact foldl_in emptyBox _ (Upd.box v.box) (List.mem_map.mpr ⟨v, hv, rfl⟩)
    · intro c hc
      simp only [wrapperOf]
      rw [hb]
      apply foldl_least
      · intro j; exact ⟨le_top, bot_le⟩
      · intro u hu
        obtain ⟨v, hv, rfl⟩ := List.mem_map.mp hu
        exact hc v hv

theorem metaPath_ne (a b : List Char) : metaPath (a ++ '.' :: 'd' :: 't' :: b) ≠ a ++ '.' :: 'd' :: 't' :: b := by
  induction a with
  | nil => simp [metaPath]
  | cons c a ih =>
    intro h
    rw [List.cons_append] at h
    rw [metaPath.eq_def] at h
    split at h
    · rename_i h2; cases h2
    · rename_i s h2
      injection h2 with h3 h4
      injection h with h5 h6
      rw [h4] at h6
      simp at h6
    · rename_i c' s _ h2
      injection h2 with h3 h4
      injection h with h5 h6
      rw [← h4] at h6
      exact ih h6

theorem metaPath_same (p : List Char) (h : ¬ ['.', 'd', 't'] <:+: p) : metaPath p = p := by
  fun_induction metaPath p with
  | case1 => rfl
  | case2 s ih => exact absurd (List.IsPrefix.isInfix ⟨s, rfl⟩) h
  | case3 c s h2 ih => rw [ih (fun hi => h (hi.trans (List.suffix_cons c s).isInfix))]

/-- **C30** for capacities at least the number of objects (in particular the default), and every path
containing ".dt": a data file opened for the first time, then opened again any number of times, gives the
same tile, and the data file is not touched. In general the second opening gives the first
`effCapacity c` objects. Missing for the full property: capacities smaller than the number of objects
(`C30_capacity_ignored_first_time`) and other paths (`C30_data_file_taken_for_metadata`), where it is
false. -/
theorem C30_reopen_partial (fc : FloatCode α) (disk : Disk) (a b : List Char) (rs : List (Record α))
    (hfit : ∀ r ∈ rs, r.Fits) (hsz : (dataFile fc rs).length < 256 ^ 8)
    (hdt : disk (a ++ '.' :: 'd' :: 't' :: b) = some (dataFile fc rs))
    (hmt : disk (metaPath (a ++ '.' :: 'd' :: 't' :: b)) = none) (c : Nat) :
    ∃ t disk', openTile fc disk (a ++ '.' :: 'd' :: 't' :: b) c = some (t, disk') ∧
      parseRaw fc (dataFile fc rs) = some t ∧
      disk' (a ++ '.' :: 'd' :: 't' :: b) = some (dataFile fc rs) ∧
      ∀ c', ∃ t', openTile fc disk' (a ++ '.' :: 'd' :: 't' :: b) c' = some (t', disk') ∧
        t'.objects = t.objects.take (effCapacity c') ∧ (rs.length ≤ effCapacity c' → t' = t) := by
  obtain ⟨t, h1, h2, h3, _⟩ := C29_parse fc rs hfit hsz
  have hne := metaPath_ne a b
  generalize a ++ '.' :: 'd' :: 't' :: b = p at *
  refine ⟨t, fun q => if q = metaPath p then some (persist fc t) else disk q,
    by simp only [openTile, hdt, hmt, h1, Option.map_some], h1, ?_, ?_⟩
  · simp only [if_neg (Ne.symm hne), hdt]
  · intro c'
    refine ⟨⟨tileBox (t.objects.take (effCapacity c')), t.objects.take (effCapacity c')⟩, ?_, rfl, ?_⟩
    · unfold openTile
      simp only [if_neg (Ne.symm hne), hdt, if_true, load_persist fc t h2, Option.map_some]
    · intro hle
      rw [List.take_of_length_le (by omega), ← h2.box]

/-- **C30, defect.** For a path that does not contain ".dt" the metadata path is the data path itself: the
data file is read as if it were metadata. -/
theorem C30_data_file_taken_for_metadata (fc : FloatCode α) (disk : Disk) (p : List Char)
    (hp : ¬ ['.', 'd', 't'] <:+: p) (dt : List Nat) (hdt : disk p = some dt) (c : Nat) :
    openTile fc disk p c = (load fc c dt).map (fun t => (t, disk)) := by
  unfold openTile
  rw [metaPath_same p hp, hdt]

/-- **C50.** Merging the inner voxels keeps the objects (number, identifiers, offsets, sizes, boxes) and the
tile's box; an object with at most one voxel keeps its voxels; any other gets one voxel whose box is the
object's box and contains the boxes of all its former voxels. -/
theorem C50_disable_innerpart (centre : α → α → α) (t : Tile α) (ht : Made t) :
    (disableInner centre t).box = t.box ∧ (disableInner centre t).objects.length = t.objects.length ∧
    ∀ i (h : i < t.objects.length) (h' : i < (disableInner centre t).objects.length),
      (disableInner centre t).objects[i].id = t.objects[i].id ∧
      (disableInner centre t).objects[i].offset = t.objects[i].offset ∧
      (disableInner centre t).objects[i].dataSize = t.objects[i].dataSize ∧
      (disableInner centre t).objects[i].box = t.objects[i].box ∧
      (t.objects[i].voxels.length ≤ 1 → (disableInner centre t).objects[i].voxels = t.objects[i].voxels) ∧
      (1 < t.objects[i].voxels.length → ∃ v, (disableInner centre t).objects[i].voxels = [v] ∧
        v.box = t.objects[i].box ∧ ∀ u ∈ t.objects[i].voxels, u.box.Le v.box) := by
  refine ⟨rfl, by simp [disableInner], ?_⟩
  intro i h h'
  simp only [disableInner, List.getElem_map]
  have hb := ht.boxes t.objects[i] (List.getElem_mem h)
  generalize t.objects[i] = w at hb ⊢
  by_cases hw : w.voxels.length > 1
  · rw [if_pos hw]
    refine ⟨rfl, rfl, rfl, rfl, fun h => absurd hw (by omega), fun _ => ⟨_, rfl, rfl, ?_⟩⟩
    intro u hu
    simp only
    rw [hb, voxelsBox]
    have h2 : w.voxels.foldl (fun b v => b.addBox v.box) emptyBox =
        (w.voxels.map (fun v => Upd.box v.box)).foldl Box.upd emptyBox := by
      rw [List.foldl_map]; rfl
    rw [h2]
    exact foldl_in emptyBox _ (Upd.box u.box) (List.mem_map.mpr ⟨u, hu, rfl⟩)
  · rw [if_neg hw]
    exact ⟨rfl, rfl, rfl, rfl, fun _ => rfl, fun h => absurd h hw⟩

end

/-! ### Concrete files over 32-bit patterns -/

instance : BoundedOrder (Fin (256 ^ 4)) := Fin.instBoundedOrder

/-- Two records: one with two voxels, one with one. -/
def recA : Record (Fin (256 ^ 4)) := ⟨[7, 8, 9], [⟨⟨fun _ => 1, fun _ => 2⟩, fun _ => 1⟩, ⟨⟨fun _ => 3, fun _ => 5⟩, fun _ => 4⟩]⟩
def recB : Record (Fin (256 ^ 4)) := ⟨[1], [⟨⟨fun _ => 6, fun _ => 7⟩, fun _ => 6⟩]⟩

example : (∀ r ∈ [recA, recB], r.Fits) ∧ (dataFile FloatCode.fin [recA, recB]).length = 8 + 3 + 8 + 72 + (8 + 1 + 8 + 36) := by
  constructor
  · intro r hr
    simp only [List.mem_cons, List.not_mem_nil, or_false] at hr
    rcases hr with rfl | rfl <;> exact ⟨by decide, by decide⟩
  · decide +kernel
example : (parseRaw FloatCode.fin (dataFile FloatCode.fin [recA, recB])).map
    (fun t => t.objects.map (fun w => (w.id, w.offset, w.dataSize, w.voxels.length, w.box.max 0))) =
    some [(0, 8, 3, 2, 5), (1, 99, 1, 1, 7)] := by decide +kernel

/-- **C30, counterexample.** With capacity 1 the first opening of a file of two objects gives two, the second
gives one. -/
theorem C30_capacity_ignored_first_time :
    ((openTile FloatCode.fin (fun p => if p = "x.dt".toList then some (dataFile FloatCode.fin [recA, recB]) else none)
      "x.dt".toList 1).map (fun r => (r.1.objects.length,
        (openTile FloatCode.fin r.2 "x.dt".toList 1).map (fun r => r.1.objects.length)))) = some (2, some 1) := by
  decide +kernel

/-- **C30, counterexample** for a path without ".dt": the file of one empty record cannot be opened. -/
example : (openTile FloatCode.fin (fun _ => some (dataFile FloatCode.fin [recB])) "x.bin".toList 1).isNone = true := by
  decide +kernel

end TDP.Tile
