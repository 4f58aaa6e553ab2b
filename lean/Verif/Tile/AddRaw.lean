import Verif.Tile.Props
/-! # C115: building a tile in memory (`Tile()` and `Tile::add_raw`) -/
namespace TDP.Tile
open TDP.Boxes TDP.Bytes

section
variable {α : Type} [LinearOrder α] [BoundedOrder α]

/-- `Tile()` (tile.h:33): no objects and the default box. -/
def newTile : Tile α := ⟨emptyBox, []⟩

/-- `Tile::add_raw(data)` (tile.cpp:209-230); `s` is the memory from `data` on, `none` is reading behind its end. The length and the
compressed mesh are read (212-215; the new `HiMesh` is not kept), then the number of voxels (216-217) and the voxels, whose boxes go into
the box of a new wrapper (218-229), and this box into the box of the tile (230). The wrapper is not kept either. -/
def addRaw (fc : FloatCode α) (t : Tile α) (s : List Nat) : Option (Tile α) := do
  let (n, s) ← get 8 s
  let s := s.drop n
  let (m, s) ← get 8 s
  let (vs, _) ← getVoxels fc m s
  pure { t with box := t.box.addBox (voxelsBox vs) }

/-- Records added one after the other, each followed in memory by whatever `rest` says. -/
def addAll (fc : FloatCode α) (rest : List Nat) (t : Tile α) : List (Record α) → Option (Tile α)
  | [] => some t
  | r :: rs => (addRaw fc t (putRecord fc r ++ rest)).bind (fun t => addAll fc rest t rs)

theorem addRaw_record (fc : FloatCode α) (t : Tile α) (r : Record α) (hr : r.Fits) (rest : List Nat) :
    addRaw fc t (putRecord fc r ++ rest) = some { t with box := t.box.addBox (voxelsBox r.voxels) } := by
  obtain ⟨f1, f2⟩ := hr
  unfold addRaw
  simp only [putRecord, List.append_assoc]
  rw [get_put _ _ _ f1]; simp only [bind, Option.bind]
  rw [List.drop_append_of_le_length (by omega), List.drop_eq_nil_of_le (by omega), List.nil_append]
  rw [get_put _ _ _ f2]; simp only
  rw [getVoxels_put]
  rfl

theorem addAll_eq (fc : FloatCode α) (rest : List Nat) (rs : List (Record α)) (hr : ∀ r ∈ rs, r.Fits) (t : Tile α) :
    addAll fc rest t rs = some { t with box := rs.foldl (fun b r => b.addBox (voxelsBox r.voxels)) t.box } := by
  induction rs generalizing t with
  | nil => rfl
  | cons r rs ih =>
    rw [addAll, addRaw_record fc t r (hr r List.mem_cons_self)]
    exact ih (fun x hx => hr x (List.mem_cons_of_mem _ hx)) _

/-- **C115 (partial): the box.** A tile built in memory from records as the compressor writes them has the box of the tile that is
read from a file of these records: it contains the boxes of all voxels and is the least such box. Nothing behind a record is read
(any memory may follow).
Missing: the objects (`C115_no_objects`). -/
theorem C115_box_partial (fc : FloatCode α) (rest : List Nat) (rs : List (Record α)) (hr : ∀ r ∈ rs, r.Fits)
    (hsz : (dataFile fc rs).length < 256 ^ 8) :
    ∃ t t' : Tile α, addAll fc rest newTile rs = some t ∧ parseRaw fc (dataFile fc rs) = some t' ∧ t.box = t'.box ∧
      (∀ r ∈ rs, ∀ v ∈ r.voxels, v.box.Le t.box) ∧ ∀ c : Box α, (∀ r ∈ rs, ∀ v ∈ r.voxels, v.box.Le c) → t.box.Le c := by
  obtain ⟨t', h1, hm, hl, hall⟩ := C29_parse fc rs hr hsz
  have hp : parseRaw fc (dataFile fc rs) = some ⟨tileBox (wrappersOf fc rs 0 0), wrappersOf fc rs 0 0⟩ := by
    unfold parseRaw
    rw [parseLoop_spec fc rs _ 0 0 (by omega) hr]; rfl
  have hbox : ∀ (rs : List (Record α)) (i p : Nat) (b : Box α),
      rs.foldl (fun b r => b.addBox (voxelsBox r.voxels)) b = (wrappersOf fc rs i p).foldl (fun b w => b.addBox w.box) b := by
    intro rs
    induction rs with
    | nil => intro i p b; rfl
    | cons r rs ih => intro i p b; exact ih _ _ _
  have hw : ∀ (l : List (Record α)), l.foldl (fun b r => b.addBox (voxelsBox r.voxels)) emptyBox =
      (l.map (fun r => Upd.box (voxelsBox r.voxels))).foldl Box.upd emptyBox := by
    intro l; rw [List.foldl_map]; rfl
  have hv : ∀ vs : List (Voxel α), voxelsBox vs = (vs.map (fun v => Upd.box v.box)).foldl Box.upd emptyBox := by
    intro vs; unfold voxelsBox; rw [List.foldl_map]; rfl
  refine ⟨_, _, addAll_eq fc rest rs hr newTile, hp, hbox rs 0 0 _, ?_, ?_⟩
  · intro r hr' v hv'
    have a : v.box.Le (voxelsBox r.voxels) := by
      rw [hv]; exact foldl_in emptyBox _ (Upd.box v.box) (List.mem_map.mpr ⟨v, hv', rfl⟩)
    have b : (voxelsBox r.voxels).Le (rs.foldl (fun b r => b.addBox (voxelsBox r.voxels)) emptyBox) := by
      rw [hw]; exact foldl_in emptyBox _ (Upd.box (voxelsBox r.voxels)) (List.mem_map.mpr ⟨r, hr', rfl⟩)
    exact fun j => ⟨(b j).1.trans (a j).1, (a j).2.trans (b j).2⟩
  · intro c hc
    show Box.Le (rs.foldl (fun b r => b.addBox (voxelsBox r.voxels)) emptyBox) c
    rw [hw]
    apply foldl_least
    · intro j; exact ⟨le_top, bot_le⟩
    · intro u hu
      obtain ⟨r, hr', rfl⟩ := List.mem_map.mp hu
      show (voxelsBox r.voxels).Le c
      rw [hv]
      apply foldl_least
      · intro j; exact ⟨le_top, bot_le⟩
      · intro u hu
        obtain ⟨v, hv', rfl⟩ := List.mem_map.mp hu
        exact hc r hr' v hv'

/-- **C115, counterexample for every input.** A tile built in memory has no objects, whatever records are added: a join finds nothing in it, while the tile
read from a file of the same records has one object for each. -/
theorem C115_no_objects (fc : FloatCode α) (rest : List Nat) (rs : List (Record α)) (hr : ∀ r ∈ rs, r.Fits)
    (hsz : (dataFile fc rs).length < 256 ^ 8) :
    ∃ t t' : Tile α, addAll fc rest newTile rs = some t ∧ parseRaw fc (dataFile fc rs) = some t' ∧
      t.objects = [] ∧ t'.objects.length = rs.length := by
  obtain ⟨t', h1, hm, hl, -⟩ := C29_parse fc rs hr hsz
  exact ⟨_, t', addAll_eq fc rest rs hr newTile, h1, rfl, hl⟩

/-- One more: any memory that `add_raw` can read leaves the objects as they were. -/
theorem C115_objects_unchanged (fc : FloatCode α) (t t' : Tile α) (s : List Nat) (h : addRaw fc t s = some t') :
    t'.objects = t.objects := by
  unfold addRaw at h
  simp only [Option.bind_eq_bind, Option.bind_eq_some_iff, Option.pure_def, Option.some.injEq] at h
  obtain ⟨_, _, _, _, _, _, rfl⟩ := h
  rfl

end

/-- Two records, one with a voxel, meet the hypotheses. -/
example : ∃ (fc : FloatCode (Fin (2 ^ 32))) (rs : List (Record (Fin (2 ^ 32)))), rs.length = 2 ∧ (∀ r ∈ rs, r.Fits) ∧
    (dataFile fc rs).length < 256 ^ 8 := by
  refine ⟨FloatCode.fin, [⟨[1, 2, 3], [⟨⟨fun _ => 5, fun _ => 7⟩, fun _ => 6⟩]⟩, ⟨[4], []⟩], rfl, ?_, ?_⟩
  · intro r hr
    rcases List.mem_pair.1 hr with rfl | rfl <;> exact ⟨by decide, by decide⟩
  · simp only [dataFile, List.flatMap_cons, List.flatMap_nil, List.length_append, putRecord_length]
    decide

end TDP.Tile
