import Verif.Tools.Cube
import Verif.SortPart.Props
import Verif.Conc.Voxels
/-!
# The partitioning tool (src/test/partitioner.cpp:15-63, src/util/util.h:110-137, src/partition/partition.cpp:77-152)
-/
namespace TDP.Partitioner
open TDP.Boxes TDP.SortPart TDP.Bytes TDP.Codec TDP.Cube TDP.Conc
open TDP.Octree (Obj)

/-! ### The files of a folder -/

/-- A file system tree: a regular file with its lines, a folder with named entries (without `.` and `..`), or anything else (a
device, a broken link). Folders are finite: no cycles of symbolic links. -/
inductive Fs (L : Type)
  | file (lines : List L)
  | dir (entries : List (List Char × Fs L))
  | other

mutual
/-- `list_files(path, f_list)` (util.h:115-137): what is appended to `f_list`, with the contents read later. The entries come in the order of
`readdir`. -/
def listFiles {L : Type} (path : List Char) : Fs L → List (List Char × List L)
  | .file ls => [(path, ls)]
  | .dir es => listEntries path es
  | .other => []
/-- The loop over `readdir` (util.h:124-133). -/
def listEntries {L : Type} (path : List Char) : List (List Char × Fs L) → List (List Char × List L)
  | [] => []
  | (n, t) :: es => listFiles (path ++ '/' :: n) t ++ listEntries path es
end

/-- Specification: the regular file with these lines is reached from the tree by the names `ns`. -/
inductive At {L : Type} : Fs L → List (List Char) → List L → Prop
  | file (ls : List L) : At (.file ls) [] ls
  | dir (es : List (List Char × Fs L)) (n : List Char) (t : Fs L) (ns : List (List Char)) (ls : List L) (hm : (n, t) ∈ es) (h : At t ns ls) :
      At (.dir es) (n :: ns) ls

/-- The path written for names under a folder. -/
def pathOf (path : List Char) (ns : List (List Char)) : List Char := ns.foldl (fun p n => p ++ '/' :: n) path

mutual
theorem listFiles_mem {L : Type} (path : List Char) : ∀ (t : Fs L) (p : List Char) (ls : List L),
    (p, ls) ∈ listFiles path t ↔ ∃ ns, At t ns ls ∧ p = pathOf path ns
  | .file l, p, ls => by
    simp only [listFiles, List.mem_singleton, Prod.mk.injEq]
    constructor
    · rintro ⟨rfl, rfl⟩; exact ⟨[], .file _, rfl⟩
    · rintro ⟨ns, h, rfl⟩; cases h; exact ⟨rfl, rfl⟩
  | .dir es, p, ls => by
    rw [listFiles, listEntries_mem path es]
    constructor
    · rintro ⟨n, t, ns, hm, h, rfl⟩; exact ⟨n :: ns, .dir es n t ns ls hm h, rfl⟩
    · rintro ⟨ns, h, rfl⟩
      cases h with
      | dir es n t ns ls hm h => exact ⟨n, t, ns, hm, h, rfl⟩
  | .other, p, ls => by
    simp only [listFiles, List.not_mem_nil, false_iff]
    rintro ⟨ns, h, -⟩; cases h
theorem listEntries_mem {L : Type} (path : List Char) : ∀ (es : List (List Char × Fs L)) (p : List Char) (ls : List L),
    (p, ls) ∈ listEntries path es ↔ ∃ n t ns, (n, t) ∈ es ∧ At t ns ls ∧ p = pathOf path (n :: ns)
  | [], p, ls => by simp [listEntries]
  | (n, t) :: es, p, ls => by
    rw [listEntries, List.mem_append, listFiles_mem (path ++ '/' :: n) t, listEntries_mem path es]
    constructor
    · rintro (⟨ns, h, rfl⟩ | ⟨n', t', ns, hm, h, rfl⟩)
      · exact ⟨n, t, ns, List.mem_cons_self, h, rfl⟩
      · exact ⟨n', t', ns, List.mem_cons_of_mem _ hm, h, rfl⟩
    · rintro ⟨n', t', ns, hm, h, rfl⟩
      rcases List.mem_cons.mp hm with e | hm
      · cases e; exact .inl ⟨ns, h, rfl⟩
      · exact .inr ⟨n', t', ns, hm, h, rfl⟩
end

/-- The number of regular files of a tree. -/
def Fs.count {L : Type} : Fs L → Nat
  | .file _ => 1
  | .dir es => (es.attach.map fun e => e.1.2.count).sum
  | .other => 0
decreasing_by
  have := List.sizeOf_lt_of_mem e.2
  have h2 : sizeOf e.1 = 1 + sizeOf e.1.1 + sizeOf e.1.2 := by cases e.1; rfl
  simp only [Fs.dir.sizeOf_spec]
  omega

mutual
theorem listFiles_length {L : Type} (path : List Char) : ∀ t : Fs L, (listFiles path t).length = t.count
  | .file l => by simp [listFiles, Fs.count]
  | .dir es => by
    rw [listFiles, listEntries_length path es, Fs.count]
    congr 1
    rw [List.attach_map_val (f := fun e : List Char × Fs L => e.2.count)]
  | .other => by simp [listFiles, Fs.count]
theorem listEntries_length {L : Type} (path : List Char) : ∀ es : List (List Char × Fs L), (listEntries path es).length = (es.map fun e => e.2.count).sum
  | [] => rfl
  | (n, t) :: es => by
    rw [listEntries, List.length_append, listFiles_length _ t, listEntries_length path es]
    simp
end

/-- C91, the input: the files read are exactly the regular files under the folder, as many entries as there are files, each with the
path that leads to it. -/
theorem C91_files {L : Type} (path : List Char) (t : Fs L) :
    (∀ p ls, (p, ls) ∈ listFiles path t ↔ ∃ ns, At t ns ls ∧ p = pathOf path ns) ∧ (listFiles path t).length = t.count :=
  ⟨listFiles_mem path t, listFiles_length path t⟩

/-! ### The tile files -/

/-- `ss<<prefix<<i<<".off"` (partition.cpp:150-151). -/
def tileName (i : Nat) : List Char := "tiles_".toList ++ Nat.toDigits 10 i ++ ".off".toList

/-- The files in the working directory the tool deals with: `tmp.part` and the polyhedra written. -/
structure Disk (α : Type) where
  part : Option (List Nat)
  off : List Char → Option (Mesh (Pt α))

/-- `write_polyhedron(poly, path)` (spatial_common.cpp:44-49): the text is represented by the polyhedron. -/
def Disk.write {α : Type} (d : Disk α) (n : List Char) (m : Mesh (Pt α)) : Disk α := { d with off := fun k => if k = n then some m else d.off k }

/-- The loop of `persist_tile` (partition.cpp:147-153). -/
def persistFrom {α : Type} (d : Disk α) : Nat → List (Box α) → Disk α
  | _, [] => d
  | i, b :: bs => persistFrom (d.write (tileName i) (makeCube b)) (i + 1) bs

variable {α : Type} [LinearOrder α] [BoundedOrder α]

/-- `main` (partitioner.cpp:36-62), after `get_voxels` (if it is called) has produced `voxels`; `r` is the integer cube root of the number
of tiles. `none`: undefined behaviour in `persist` or a `tmp.part` that cannot be read. -/
def tool (fc : FloatCode α) (sort : Fin 3 → List (Obj α) → List (Obj α)) (numTiles r : Nat) (voxels : List (Obj α)) (d : Disk α) :
    Option (Disk α) :=
  match d.part with
  | none => do
    let sp := build sort numTiles r voxels
    let bytes ← persist fc sp
    -- `persist` returns before it creates the file when a level has no children
    let d := { d with part := if bytes = [] then none else some bytes }
    some (persistFrom d 0 (genTiles sp))
  | some bytes => do
    let sp ← load fc bytes
    some (persistFrom d 0 (genTiles sp))

theorem tileName_inj {i j : Nat} (h : tileName i = tileName j) : i = j := by
  unfold tileName at h
  have h1 := List.append_cancel_right h
  have h2 := List.append_cancel_left h1
  have := congrArg (fun l => Nat.ofDigitChars 10 l 0) h2
  simpa using this

theorem persistFrom_spec {α : Type} (bs : List (Box α)) : ∀ (d : Disk α) (i : Nat),
    (persistFrom d i bs).part = d.part ∧
    (∀ k, (h : k < bs.length) → (persistFrom d i bs).off (tileName (i + k)) = some (makeCube bs[k])) ∧
    (∀ n, (∀ k, k < bs.length → n ≠ tileName (i + k)) → (persistFrom d i bs).off n = d.off n) := by
  induction bs with
  | nil => intro d i; exact ⟨rfl, by simp, fun _ _ => rfl⟩
  | cons b bs ih =>
    intro d i
    obtain ⟨h1, h2, h3⟩ := ih (d.write (tileName i) (makeCube b)) (i + 1)
    refine ⟨h1, ?_, ?_⟩
    · intro k hk
      cases k with
      | zero =>
        show (persistFrom _ (i + 1) bs).off (tileName (i + 0)) = _
        rw [h3]
        · simp [Disk.write]
        · intro k _ e
          have := tileName_inj e
          omega
      | succ k =>
        have := h2 k (by simpa using hk)
        show (persistFrom _ (i + 1) bs).off (tileName (i + (k + 1))) = _
        rw [show i + (k + 1) = i + 1 + k by omega, this]
        rfl
    · intro n hn
      show (persistFrom _ (i + 1) bs).off n = _
      rw [h3]
      · have := hn 0 (by simp)
        rw [Nat.add_zero] at this
        simp [Disk.write, this]
      · intro k hk
        have := hn (k + 1) (by simpa using hk)
        rwa [show i + (k + 1) = i + 1 + k by omega] at this

/-- C91 (partial: the box of a line in the last incomplete batch of ten is not used, C46; the run must not hit the undefined
behaviour of C27; there is at least one box). Without a `tmp.part`, under every schedule of the reading threads: the tool writes at most as many tile
files as requested, numbered from 0; file `i` is the box polyhedron of tile `i`; and the box of every line of the full batches lies in the
box of a tile. -/
theorem C91_first_run_partial {L : Type} {n : Nat} (hn : 0 < n) (fc : FloatCode α) (sort : Fin 3 → List (Obj α) → List (Obj α))
    (hs : ∀ i l, (sort i l).Perm l) (numTiles r : Nat) (ht : 0 < numTiles) (hr : r * r * r ≤ numTiles)
    (parse : L → Option (Obj α)) (lines : List L) (s : GetVoxels.St L (Obj α) n) (h : Reach (GetVoxels.Step parse) (GetVoxels.start n lines) s)
    (hd : ∀ t, s.pc t = .done) (d d' : Disk α) (hp : d.part = none) (hrun : tool fc sort numTiles r s.voxels d = some d')
    (hne : s.voxels ≠ []) :
    ∃ tiles : List (Box α), tiles.length ≤ numTiles ∧ (∀ i, (hi : i < tiles.length) → d'.off (tileName i) = some (makeCube tiles[i])) ∧
      ∀ l ∈ lines.take (10 * (lines.length / 10)), ∀ o, parse l = some o → ∃ b ∈ tiles, o.box.Le b := by
  unfold tool at hrun
  rw [hp] at hrun
  simp only [Option.bind_eq_bind, Option.bind_eq_some_iff, Option.some.injEq] at hrun
  obtain ⟨bytes, _, rfl⟩ := hrun
  obtain ⟨c1, c2, c3⟩ := C26_partition sort hs numTiles r ht hr s.voxels
  have hg := C26_tiles sort hs numTiles r s.voxels hne
  refine ⟨genTiles (build sort numTiles r s.voxels), by rw [hg, List.length_map]; exact c3, ?_, ?_⟩
  · intro i hi
    have := (persistFrom_spec (genTiles (build sort numTiles r s.voxels)) { d with part := if bytes = [] then none else some bytes } 0).2.1 i hi
    rwa [Nat.zero_add] at this
  · intro l hl o ho
    have hv := GetVoxels.C46_full_batches_partial hn parse lines s h hd
    have hm : o ∈ s.voxels := hv.mem_iff.mpr (List.mem_filterMap.mpr ⟨l, hl, ho⟩)
    obtain ⟨lf, hlf, ho2⟩ := List.mem_flatMap.mp (c1.mem_iff.mpr hm)
    refine ⟨lf.box, ?_, (c2 lf hlf).2.1 o ho2⟩
    rw [hg]
    exact List.mem_map.mpr ⟨lf, hlf, rfl⟩

theorem genTiles_bare (t : Root α) : genTiles (bare t) = genTiles t := by
  unfold genTiles bare
  simp only [List.length_map, List.flatMap_map]
  by_cases h : t.kids.length = 0
  · simp only [h, if_true]
  · simp only [h, if_false]
    congr 1
    funext x
    simp only [bareX, List.length_map, List.flatMap_map]
    by_cases hx : x.kids.length = 0
    · simp only [hx, if_true]
    · simp only [hx, if_false]
      congr 1
      funext y
      simp only [bareY, List.length_map, List.map_map]
      by_cases hy : y.kids.length = 0
      · simp only [hy, if_true]
      · simp only [hy, if_false]
        rfl

/-- C91 (partial: the number of boxes must be a positive multiple of the number of cuts, as in C27): a second run, whatever is in the
folder then, leaves the files as they are. -/
theorem C91_second_run_partial (fc : FloatCode α) (sort : Fin 3 → List (Obj α) → List (Obj α)) (hs : ∀ i l, (sort i l).Perm l)
    (numTiles r m : Nat) (hm : 0 < m) (voxels voxels' : List (Obj α)) (numTiles' r' : Nat)
    (hlen : voxels.length = (parts numTiles r).1 * ((parts numTiles r).2.1 * ((parts numTiles r).2.2 * m)))
    (hpx : (parts numTiles r).1 < 256 ^ 8) (hpz : (parts numTiles r).2.2 < 256 ^ 8)
    (hsz : ∀ l ∈ leaves (build sort numTiles r voxels), l.size < 256 ^ 4) (d : Disk α) (hp : d.part = none) :
    ∃ d', tool fc sort numTiles r voxels d = some d' ∧ ∃ d'', tool fc sort numTiles' r' voxels' d' = some d'' ∧ d''.part = d'.part ∧ ∀ n, d''.off n = d'.off n := by
  obtain ⟨bytes, hb, hl⟩ := C27_roundtrip_partial fc sort hs numTiles r m hm voxels hlen hpx hpz hsz
  have hbne : bytes ≠ [] := by
    rintro rfl
    simp [load, Bytes.get] at hl
  obtain ⟨d', hd'⟩ : ∃ d', d' = persistFrom { d with part := some bytes } 0 (genTiles (build sort numTiles r voxels)) := ⟨_, rfl⟩
  have h1 : tool fc sort numTiles r voxels d = some d' := by
    unfold tool
    rw [hp]
    simp only [hb, Option.bind_eq_bind, Option.bind_some, if_neg hbne]
    rw [hd']
  have hpart : d'.part = some bytes := by rw [hd', (persistFrom_spec _ _ 0).1]
  obtain ⟨d'', hd''⟩ : ∃ d'', d'' = persistFrom d' 0 (genTiles (build sort numTiles r voxels)) := ⟨_, rfl⟩
  have h2 : tool fc sort numTiles' r' voxels' d' = some d'' := by
    unfold tool
    rw [hpart]
    simp only [hl, Option.bind_eq_bind, Option.bind_some, genTiles_bare]
    rw [hd'']
  refine ⟨d', h1, d'', h2, ?_, ?_⟩
  · rw [hd'', (persistFrom_spec _ _ 0).1]
  · intro k
    obtain ⟨s1, s2, s3⟩ := persistFrom_spec (genTiles (build sort numTiles r voxels)) { d with part := some bytes } 0
    obtain ⟨t1, t2, t3⟩ := persistFrom_spec (genTiles (build sort numTiles r voxels)) d' 0
    by_cases hk : ∃ i, i < (genTiles (build sort numTiles r voxels)).length ∧ k = tileName (0 + i)
    · obtain ⟨i, hi, rfl⟩ := hk
      rw [hd'', t2 i hi, hd', s2 i hi]
    · rw [hd'']
      exact t3 k fun i hi he => hk ⟨i, hi, he⟩

/-- C91 is false of the code: with a `tmp.part` in the working directory the input folder and the number of tiles have no influence on
the tiles. -/
theorem C91_stale_partition (fc : FloatCode α) (sort : Fin 3 → List (Obj α) → List (Obj α)) (numTiles numTiles' r r' : Nat)
    (voxels voxels' : List (Obj α)) (d : Disk α) (hp : d.part ≠ none) : tool fc sort numTiles r voxels d = tool fc sort numTiles' r' voxels' d := by
  unfold tool
  cases hx : d.part with
  | none => exact absurd hx hp
  | some b => rfl

/-- C91 is false of the code: with fewer than ten (sampled) lines in the folder, the tool writes one tile, the empty box
with its minimum at infinity, and no `tmp.part`, under every schedule. -/
theorem C91_small_input {L : Type} {n : Nat} (hn : 0 < n) (fc : FloatCode α) (sort : Fin 3 → List (Obj α) → List (Obj α)) (hs : ∀ i l, (sort i l).Perm l)
    (numTiles r : Nat) (parse : L → Option (Obj α)) (lines : List L) (s : GetVoxels.St L (Obj α) n)
    (h : Reach (GetVoxels.Step parse) (GetVoxels.start n lines) s) (hd : ∀ t, s.pc t = .done) (h10 : lines.length < 10) (d : Disk α)
    (hp : d.part = none) :
    ∃ d', tool fc sort numTiles r s.voxels d = some d' ∧ d'.part = none ∧ d'.off (tileName 0) = some (makeCube ⟨fun _ => ⊤, fun _ => ⊥⟩) ∧
      ∀ k, k ≠ tileName 0 → d'.off k = d.off k := by
  have hv := GetVoxels.C46_small_input_lost hn parse lines s h hd h10
  have hb : build sort numTiles r ([] : List (Obj α)) = newNd := by
    unfold build
    have : sort 0 ([] : List (Obj α)) = [] := (hs 0 []).eq_nil
    simp only [this]
    rfl
  have ht : tool fc sort numTiles r s.voxels d = some (persistFrom { d with part := none } 0 [emptyBox]) := by
    unfold tool
    rw [hp, hv, hb]
    rfl
  obtain ⟨s1, s2, s3⟩ := persistFrom_spec [(emptyBox : Box α)] { d with part := none } 0
  refine ⟨_, ht, s1, s2 0 (by simp), ?_⟩
  intro k hk
  refine s3 k ?_
  intro i hi
  simp only [List.length_singleton] at hi
  obtain rfl : i = 0 := by omega
  exact hk

/-! ### Non-vacuity -/

/-- Ten lines, one object each; two requested tiles; a run exists, and the tool writes two tile files. -/
example : ∃ (s : GetVoxels.St Nat (Obj (Fin (256 ^ 4))) 2) (d' : Disk (Fin (256 ^ 4))),
    Reach (GetVoxels.Step (fun k => some (dot k))) (GetVoxels.start 2 (List.range 10)) s ∧ (∀ t, s.pc t = .done) ∧
      tool FloatCode.fin isort 2 1 s.voxels ⟨none, fun _ => none⟩ = some d' ∧ s.voxels ≠ [] := by
  obtain ⟨s, hr, hd⟩ := GetVoxels.C46_can_finish (n := 2) (by omega) (fun k => some (dot k)) (List.range 10) _ Reach.init
  have hp := GetVoxels.C46_full_batches_partial (by omega) (fun k => some (dot k)) (List.range 10) s hr hd
  have hl : s.voxels.length = 10 := by rw [hp.length_eq]; rfl
  obtain ⟨d', h1, _⟩ := C91_second_run_partial FloatCode.fin isort (fun _ _ => List.mergeSort_perm _ _) 2 1 5 (by omega) s.voxels [] 0 0
    (by rw [hl]; decide) (by decide) (by decide) (by
      intro l hl'
      have hpm := (C26_partition isort (fun _ _ => List.mergeSort_perm _ _) 2 1 (by omega) (by omega) s.voxels).1
      have hle : ∀ (ls : List (Leaf (Fin (256 ^ 4)))), l ∈ ls → l.objs.length ≤ (ls.flatMap (·.objs)).length := by
        intro ls
        induction ls with
        | nil => simp
        | cons x ls ih =>
          intro h
          rw [List.flatMap_cons, List.length_append]
          rcases List.mem_cons.mp h with rfl | h
          · omega
          · have := ih h; omega
      have h10 := hle _ hl'
      rw [hpm.length_eq, hl] at h10
      have hone : ∀ o ∈ l.objs, o.size = 1 := by
        intro o ho
        have := hp.mem_iff.mp (hpm.mem_iff.mp (List.mem_flatMap.mpr ⟨l, hl', ho⟩))
        obtain ⟨k, _, hk⟩ := List.mem_filterMap.mp this
        rw [← Option.some.inj hk]; rfl
      obtain ⟨g, hg, rfl⟩ := mem_leaves isort 2 1 s.voxels l hl'
      obtain ⟨e1, e2, -⟩ := mkLeaf_spec g
      rw [e1] at hone h10
      rw [e2]
      have : (g.map (·.size)).sum ≤ g.length := by
        clear e1 e2 h10 hle hl' hg
        induction g with
        | nil => simp
        | cons o g ih =>
          have := ih fun x hx => hone x (List.mem_cons_of_mem _ hx)
          have h1 := hone o List.mem_cons_self
          simp only [List.map_cons, List.sum_cons, List.length_cons]
          omega
      omega) ⟨none, fun _ => none⟩ rfl
  exact ⟨s, d', hr, hd, h1, by intro e; rw [e] at hl; simp at hl⟩

end TDP.Partitioner
