import Verif.Pipeline.Examples
import Verif.Codec.OneShot
/-!
# C112: the skeleton of an object and the voxels made from it (src/spatial/himesh.cpp:28-90, 163-178)

`extract_skeleton` triangulates the mesh inside `assert(...)` (himesh.cpp:42); the program is compiled with `NDEBUG` (src/Makefile:11-15), so
the triangulation is not compiled. A mesh with a facet that is not a triangle then ends the process (himesh.cpp:48-51).
-/
namespace TDP.Pipeline
open TDP.Codec TDP.Quant TDP.Tile

variable {P S : Type}

/-- `CGAL::is_triangle_mesh` (himesh.cpp:48) on the mesh read back from the text of the object (37-40): every facet has three halfedges. -/
def triangular (m : Mesh P) : Bool := decide (∀ d ∈ m.darts, m.next (m.next (m.next d)) = d)

/-- `size_of_vertices`. -/
def vertexCount (m : Mesh P) : Nat := (m.darts.image m.vert).card

/-- A `HiMesh`: the object and its map `skeletons` from percentages to skeletons (himesh.h:95). -/
structure Skel (P S : Type) where
  obj : Obj P
  kept : List (Nat × S)

/-- `extract_skeleton` (himesh.cpp:28-90). `skel` stands for the library; it may fail with an exception (83-86). `none`: `exit(-1)`. The
percentage is the key (32, 87). -/
def extract (skel : Mesh P → Option S) (o : Skel P S) : Option (S × Skel P S) :=
  match o.kept.lookup o.obj.lod.pct with
  | some s => some (s, o)
  | none =>
    if triangular o.obj.m then
      match skel o.obj.m with
      | some s => some (s, ⟨o.obj, (o.obj.lod.pct, s) :: o.kept⟩)
      | none => none
    else none

/-- The beginning of `generate_voxels` (himesh.cpp:163-178): objects with few vertices get one voxel, without a skeleton. -/
def prepare (skel : Mesh P → Option S) (voxelSize : Nat) (o : Skel P S) : Option (Option S × Skel P S) :=
  if vertexCount o.obj.m < voxelSize then some (none, o)
  else match extract skel o with
    | some (s, o) => some (some s, o)
    | none => none

/-- Requests to an object. -/
inductive Op
  | advance (lod : Int)
  | skeleton

/-- A history of requests (`n` bounds loops); the skeletons returned. -/
def history (F : Fp) (grid : Header → Grid P) (env : Env P) (n : Nat) (skel : Mesh P → Option S) : List Op → Skel P S → Option (List S × Skel P S)
  | [], o => some ([], o)
  | .advance lod :: ops, o =>
    match advanceObj F grid env n lod o.obj with
    | some obj => history F grid env n skel ops ⟨obj, o.kept⟩
    | none => none
  | .skeleton :: ops, o =>
    match extract skel o with
    | some (s, o) => (history F grid env n skel ops o).map (fun r => (s :: r.1, r.2))
    | none => none

/-! ### What is remembered -/

theorem completeObj_pct {F : Fp} {grid : Header → Grid P} {env : Env P} {n : Nat} (o : Obj P) {r : Obj P}
    (h : completeObj F grid env n o = some r) : r.lod.pct = o.lod.pct := by
  rw [completeObj.eq_1] at h
  by_cases h1 : Lod.reached F o.nbDec o.lod.curOp o.lod.pct = true
  · rw [if_pos h1] at h
    injection h with h
    rw [h]
  · rw [if_neg h1] at h
    by_cases h2 : o.lod.curOp < o.nbDec
    · rw [if_pos h2] at h
      split at h
      · cases h
      · rename_i m rest _
        exact completeObj_pct ⟨m, o.hd, o.nbDec, rest, ⟨o.lod.curOp + 1, o.lod.pct⟩⟩ h
    · rw [if_neg h2] at h
      cases h
termination_by o.nbDec - o.lod.curOp

theorem advanceObj_pct {F : Fp} {grid : Header → Grid P} {env : Env P} {n : Nat} {lod : Int} {o r : Obj P}
    (h : advanceObj F grid env n lod o = some r) : r = o ∨ o.lod.pct < r.lod.pct := by
  unfold advanceObj at h
  split at h
  · injection h with h
    exact .inl h.symm
  · rename_i hlt
    right
    rw [completeObj_pct _ h]
    exact not_le.mp hlt

/-- What is kept belongs to percentages seen, and for the present one to the present mesh. -/
def Good (skel : Mesh P → Option S) (o : Skel P S) : Prop :=
  ∀ e ∈ o.kept, e.1 ≤ o.obj.lod.pct ∧ (e.1 = o.obj.lod.pct → skel o.obj.m = some e.2)

theorem lookup_mem {l : List (Nat × S)} {k : Nat} {s : S} (h : l.lookup k = some s) : (k, s) ∈ l := by
  induction l with
  | nil => cases h
  | cons e l ih =>
    rw [List.lookup_cons] at h
    by_cases he : (k == e.1) = true
    · rw [he] at h
      injection h with h
      have : k = e.1 := by simpa using he
      subst this; subst h
      exact List.mem_cons_self ..
    · have he' : (k == e.1) = false := by simpa using he
      rw [he'] at h
      exact List.mem_cons_of_mem _ (ih h)

theorem extract_good {skel : Mesh P → Option S} {o o' : Skel P S} {s : S} (hg : Good skel o) (h : extract skel o = some (s, o')) :
    skel o'.obj.m = some s ∧ o'.obj = o.obj ∧ Good skel o' := by
  unfold extract at h
  split at h
  · rename_i s' hl
    injection h with h
    injection h with h1 h2
    subst h1; subst h2
    exact ⟨(hg _ (lookup_mem hl)).2 rfl, rfl, hg⟩
  · split at h
    · split at h
      · rename_i s' hs
        injection h with h
        injection h with h1 h2
        subst h1; subst h2
        refine ⟨hs, rfl, fun e he => ?_⟩
        rcases List.mem_cons.1 he with rfl | he
        · exact ⟨le_refl _, fun _ => hs⟩
        · exact hg e he
      · cases h
    · cases h

theorem advance_good {F : Fp} {grid : Header → Grid P} {env : Env P} {n : Nat} {lod : Int} {skel : Mesh P → Option S} {o : Skel P S} {r : Obj P}
    (hg : Good skel o) (h : advanceObj F grid env n lod o.obj = some r) : Good skel ⟨r, o.kept⟩ := by
  intro e he
  rcases advanceObj_pct h with rfl | hlt
  · exact hg e he
  · have := (hg e he).1
    refine ⟨by simp only; omega, fun heq => ?_⟩
    simp only at heq
    omega

/-! ### The properties -/

/-- **C112.** After any history of requests to a new object, whatever the numbers requested and in whatever order, a skeleton that is returned is
the one of the mesh the object shows at that moment, not of an earlier one. -/
theorem C112_current {F : Fp} {grid : Header → Grid P} {env : Env P} {n : Nat} {skel : Mesh P → Option S} (ops : List Op) (o : Obj P)
    {ss : List S} {o1 o2 : Skel P S} {s : S} (h : history F grid env n skel ops ⟨o, []⟩ = some (ss, o1)) (he : extract skel o1 = some (s, o2)) :
    skel o1.obj.m = some s ∧ o2.obj = o1.obj := by
  have key : ∀ (ops : List Op) (o : Skel P S) (ss : List S), Good skel o → history F grid env n skel ops o = some (ss, o1) → Good skel o1 := by
    intro ops
    induction ops with
    | nil =>
      intro o ss hg h
      injection h with h
      injection h with _ h
      exact h ▸ hg
    | cons op ops ih =>
      intro o ss hg h
      cases op with
      | advance lod =>
        unfold history at h
        split at h
        · rename_i obj ha
          exact ih _ _ (advance_good hg ha) h
        · cases h
      | skeleton =>
        unfold history at h
        split at h
        · rename_i s o' hx
          obtain ⟨r, hr, e⟩ := Option.map_eq_some_iff.1 h
          injection e with _ e
          exact ih o' r.1 (extract_good hg hx).2.2 (by rw [hr, ← e])
        · cases h
  have hg := key ops ⟨o, []⟩ ss (fun e he => by cases he) h
  obtain ⟨a, b, _⟩ := extract_good hg he
  exact ⟨b ▸ a, b⟩

/-- **C112.** Asking again gives the same skeleton without calling the library: even one that would now fail. -/
theorem C112_once {skel skel' : Mesh P → Option S} {o o' : Skel P S} {s : S} (h : extract skel o = some (s, o')) :
    extract skel' o' = some (s, o') := by
  unfold extract at h
  split at h
  · rename_i s' hl
    injection h with h
    injection h with h1 h2
    subst h1; subst h2
    unfold extract
    rw [hl]
  · split at h
    · split at h
      · injection h with h
        injection h with h1 h2
        subst h1; subst h2
        unfold extract
        simp only [List.lookup_cons, beq_self_eq_true]
      · cases h
    · cases h

/-- On a new object the process survives exactly if all facets are triangles and the library does not fail. -/
theorem extract_new {skel : Mesh P → Option S} (o : Obj P) :
    (extract skel ⟨o, []⟩).isSome ↔ triangular o.m = true ∧ (skel o.m).isSome := by
  unfold extract
  simp only [List.lookup_nil]
  split
  · rename_i ht
    split
    · rename_i s hs
      simp [ht, hs]
    · rename_i hs
      simp [hs]
  · rename_i ht
    simp [ht]

theorem triangular_iso {φ : Nat → Nat} {M N : Mesh P} (i : Iso φ M N) (hM : ∀ d ∈ M.darts, M.next d ∈ M.darts) :
    triangular N = triangular M := by
  unfold triangular
  rw [decide_eq_decide]
  constructor
  · intro h d hd
    have h1 := i.next d hd
    have h2 := i.next _ (hM d hd)
    have h3 := i.next _ (hM _ (hM d hd))
    refine i.inj _ (hM _ (hM _ (hM d hd))) d hd ?_
    rw [h3, h2, h1]
    exact h _ (i.mem d hd)
  · intro h x hx
    obtain ⟨d, hd, rfl⟩ := i.surj x hx
    rw [← i.next d hd, ← i.next _ (hM d hd), ← i.next _ (hM _ (hM d hd)), h d hd]

theorem vertexCount_iso {φ : Nat → Nat} {M N : Mesh P} (i : Iso φ M N) : vertexCount N = vertexCount M := by
  unfold vertexCount
  classical
  symm
  refine Finset.card_bij (fun v hv => N.vert (φ (Finset.mem_image.1 hv).choose)) ?_ ?_ ?_
  · intro v hv
    obtain ⟨h1, _⟩ := (Finset.mem_image.1 hv).choose_spec
    exact Finset.mem_image_of_mem _ (i.mem _ h1)
  · intro v hv w hw e
    obtain ⟨h1, h2⟩ := (Finset.mem_image.1 hv).choose_spec
    obtain ⟨h3, h4⟩ := (Finset.mem_image.1 hw).choose_spec
    rw [← h2, ← h4]
    exact (i.vert _ h1 _ h3).2 e
  · intro y hy
    obtain ⟨x, hx, rfl⟩ := Finset.mem_image.1 hy
    obtain ⟨d, hd, rfl⟩ := i.surj x hx
    refine ⟨M.vert d, Finset.mem_image_of_mem _ hd, ?_⟩
    have hm : M.vert d ∈ M.darts.image M.vert := Finset.mem_image_of_mem _ hd
    obtain ⟨h1, h2⟩ := (Finset.mem_image.1 hm).choose_spec
    exact (i.vert _ h1 _ hd).1 h2

/-- **C112, partial.** What the tools do with an acceptable polyhedron: compress it, decode it completely, make voxels. If all its facets are
triangles and the library succeeds on the decoded mesh, this works; and if it has fewer vertices than `voxelSize`, in any case. -/
theorem C112_voxels_partial (S : Setting) (hS : S.Ok) (i : Input) (hi : i.Ok S) {T : Type} (skel : Mesh P3 → Option T) (voxelSize : Nat) :
    ∃ data o o', Ends (fun n => compress S.lg S.size (headerGrid S.value) S.convex S.enc n i.hd i.quantised i.first) data ∧
      openObj S.lg (headerGrid S.value) data = some o ∧ Ends (fun n => runObj S.F (headerGrid S.value) S.dec n [100] o) o' ∧
      ((∀ d ∈ i.mesh.darts, i.mesh.next (i.mesh.next (i.mesh.next d)) = d) → (skel o'.m).isSome → (prepare skel voxelSize ⟨o', []⟩).isSome) ∧
      ((i.mesh.darts.image i.mesh.vert).card < voxelSize → (prepare skel voxelSize ⟨o', []⟩).isSome) ∧
      ((∃ d ∈ i.mesh.darts, i.mesh.next (i.mesh.next (i.mesh.next d)) ≠ d) → voxelSize ≤ (i.mesh.darts.image i.mesh.vert).card →
        prepare skel voxelSize ⟨o', []⟩ = none) := by
  obtain ⟨L, B, data, o, e1, e2, e3, e4, e5⟩ := object S hS S.dec hS.dec i hi
  obtain ⟨k, o', ψ, hE, _, _, _, _, _, _, h100⟩ := e5 [100] (by simp)
  obtain ⟨_, hiso, _⟩ := h100 (by simp)
  have ht : triangular o'.m = triangular i.mesh :=
    (triangular_iso hiso hi.wf.h.next_mem : triangular o'.m = triangular i.quantised)
  have hv : vertexCount o'.m = (i.mesh.darts.image i.mesh.vert).card :=
    (vertexCount_iso hiso : vertexCount o'.m = vertexCount i.quantised)
  refine ⟨data, o, o', e3, e4, hE, ?_, ?_, ?_⟩
  · intro h hs
    unfold prepare
    split
    · rfl
    · have : (extract skel ⟨o', []⟩).isSome := (extract_new o').2 ⟨by rw [ht]; exact decide_eq_true h, hs⟩
      obtain ⟨r, hr⟩ := Option.isSome_iff_exists.1 this
      rw [hr]; rfl
  · intro h
    unfold prepare
    rw [if_pos (by simp only [hv]; exact h)]
    rfl
  · rintro ⟨d, hd, hne⟩ hle
    unfold prepare
    rw [if_neg (by simp only [hv]; omega)]
    have : extract skel ⟨o', []⟩ = none := by
      rw [← Option.not_isSome_iff_eq_none, extract_new, ht]
      rintro ⟨h, _⟩
      exact hne (of_decide_eq_true h d hd)
    rw [this]

/-- **C112 is false below the last level.** Whatever the library does, an object that shows a level of detail with a facet that is not a triangle
ends the process when its skeleton is asked for, as `getoff` does (src/test/getoff.cpp:30-34). -/
theorem C112_level (S : Setting) (hS : S.Ok) (i : Input) (hi : i.Ok S) {T : Type} (skel : Mesh P3 → Option T) (p : Nat) (hp : p ≤ 100) :
    ∃ L B data o, Levels S i L B ∧ Ends (fun n => compress S.lg S.size (headerGrid S.value) S.convex S.enc n i.hd i.quantised i.first) data ∧
      openObj S.lg (headerGrid S.value) data = some o ∧
      ∃ k o', Ends (fun n => runObj S.F (headerGrid S.value) S.dec n [(p : Int)] o) o' ∧ k ≤ L.length ∧ Lod.IsLevel S.F L.length p k ∧
        ((∃ d ∈ (lodMesh L B (L.length - k)).darts, (lodMesh L B (L.length - k)).next ((lodMesh L B (L.length - k)).next
            ((lodMesh L B (L.length - k)).next d)) ≠ d) → extract skel ⟨o', []⟩ = none) := by
  obtain ⟨L, B, data, o, e1, e2, e3, e4, e5⟩ := object S hS S.dec hS.dec i hi
  obtain ⟨k, o', ψ, hE, hk, hl, hw, hiso, _, _, _⟩ := e5 [p] (by simpa using hp)
  refine ⟨L, B, data, o, e1, e3, e4, k, o', by simpa using hE, hk, by simpa using hl, ?_⟩
  rintro ⟨d, hd, hne⟩
  rw [← Option.not_isSome_iff_eq_none, extract_new, triangular_iso hiso hw.h.next_mem]
  rintro ⟨h, _⟩
  exact hne (of_decide_eq_true h d hd)

/-! ### Examples -/

/-- The cube of `make_cube`: six square facets. -/
def boxCorner (v : Nat) : Bool × Bool × Bool :=
  ([(true, false, false), (false, false, true), (false, false, false), (false, true, false), (true, false, true),
    (false, true, true), (true, true, false), (true, true, true)] : List (Bool × Bool × Bool)).getD v (false, false, false)
def boxPos (v : Nat) : P3 := fun i => if (if i.val = 0 then (boxCorner v).1 else if i.val = 1 then (boxCorner v).2.1 else (boxCorner v).2.2) then 1 else -1
def boxNext : List Nat := [12, 2, 0, 10, 19, 8, 14, 4, 15, 5, 11, 17, 1, 16, 20, 9, 23, 3, 13, 21, 22, 7, 6, 18]
def boxFace : List Nat := [0, 0, 0, 3, 4, 2, 1, 4, 2, 2, 3, 3, 0, 5, 1, 2, 5, 3, 5, 4, 1, 4, 1, 5]
def boxVert : List Nat := [0, 1, 2, 2, 4, 1, 3, 1, 5, 2, 3, 6, 4, 0, 5, 3, 6, 0, 4, 7, 7, 5, 6, 7]
def boxOpp : List Nat := [3, 4, 5, 0, 1, 2, 11, 8, 7, 10, 9, 6, 13, 12, 15, 14, 17, 16, 19, 18, 21, 20, 23, 22]
def box (p : Nat → P) : Mesh P :=
  { darts := Finset.range 24, next := fun d => boxNext.getD d 0, opp := fun d => boxOpp.getD d 0,
    face := fun d => boxFace.getD d 0, vert := fun d => boxVert.getD d 0, pos := p, nd := 24, nf := 6, nv := 8 }

def boxInput : Input :=
  { mesh := box boxPos, first := 0, v := boxPos 0, vs := [boxPos 1, boxPos 2, boxPos 3, boxPos 4, boxPos 5, boxPos 6, boxPos 7],
    hd := ⟨1, 1, 1, 0, 12⟩ }

theorem box_ok (p : Nat → P) : (box p).WF ∧ (box p).Sep ∧ (box p).Conn 0 := by
  have h : (box p).check 8 0 (List.range 24) = true := by
    have : (box (fun _ => ())).check 8 0 (List.range 24) = true := by decide +kernel
    exact this
  obtain ⟨h1, h2, _⟩ := Mesh.check_wf h
  refine ⟨h1, h2, Mesh.conn_of (n := 8) (ds := List.range 24) ?_ (by decide) ?_⟩
  · change Finset.range 24 = _
    decide
  · have : (List.range 24).all (fun d => ((box (fun _ => ())).reachList 8 [0]).contains d) = true := by decide +kernel
    exact this

theorem boxBox : bbMin (boxPos 0) [boxPos 1, boxPos 2, boxPos 3, boxPos 4, boxPos 5, boxPos 6, boxPos 7] = (fun _ => -1) ∧
    bbMax (boxPos 0) [boxPos 1, boxPos 2, boxPos 3, boxPos 4, boxPos 5, boxPos 6, boxPos 7] = fun _ => 1 := by
  constructor <;> funext i <;> rcases (by omega : i = 0 ∨ i = 1 ∨ i = 2) with rfl | rfl | rfl <;> decide +kernel

theorem boxLevels : ((compressLevels (headerGrid exSetting.value boxInput.hd).geo exSetting.convex exSetting.enc.init exSetting.enc.hit
      (boxInput.quantised.src boxInput.first) (boxInput.quantised.vert boxInput.first) 100 100 boxInput.quantised).map
      (fun r => decide (0 < r.1.length ∧ r.1.length < 64 ∧ (exSetting.enc.vorder r.2).length < 20 ∧ (exSetting.enc.gates r.2).length < 20))) = some true := by
  decide +kernel

theorem boxInput_ok : boxInput.Ok exSetting where
  wf := (box_ok boxPos).1
  sep := (box_ok boxPos).2.1
  conn := (box_ok boxPos).2.2
  deg := by
    have : ∀ d ∈ (box (fun _ => ())).darts, (box (fun _ => ())).deg d ≤ 10 := by decide +kernel
    exact this
  pos := by
    have : ∀ d ∈ Finset.range 24, boxVert.getD d 0 < 8 := by decide
    intro d hd
    have h := this d hd
    change boxPos (boxVert.getD d 0) ∈ _
    rcases (by omega : boxVert.getD d 0 = 0 ∨ boxVert.getD d 0 = 1 ∨ boxVert.getD d 0 = 2 ∨ boxVert.getD d 0 = 3 ∨ boxVert.getD d 0 = 4 ∨
      boxVert.getD d 0 = 5 ∨ boxVert.getD d 0 = 6 ∨ boxVert.getD d 0 = 7) with e | e | e | e | e | e | e | e <;> rw [e] <;> simp [boxInput]
  range := by change 0 < maxRange (bbMin _ _) (bbMax _ _); rw [boxInput, boxBox.1, boxBox.2]; norm_num [maxRange]
  bb := by simp only [boxInput]; rw [boxBox.1]; exact ⟨rfl, rfl, rfl⟩
  step := by simp only [boxInput]; rw [boxBox.1, boxBox.2]; norm_num [quantStep, maxRange, exSetting, exValue]
  floats := by decide
  bits := by decide
  fits := by
    rintro L B ⟨N, hN⟩
    obtain ⟨x, hx, e⟩ := Option.map_eq_some_iff.1 boxLevels
    have h2 := compressLevels_mono (le_max_right N 100) 100 (le_max_right N 100) hx
    have h3 := hN (max N 100) (le_max_left _ _)
    obtain rfl := Option.some.inj (h3.symm.trans h2)
    obtain ⟨h1, h4, h5, h6⟩ := of_decide_eq_true e
    simp only at h1 h4 h5 h6
    exact ⟨h1, h4, by omega, by omega, by change _ ≤ 1000; omega⟩

/-- **C112 is false of the code.** The cube with six square facets is accepted and compressed; when its voxels are made with a voxel size of at
most 8, the process ends, whatever the skeleton library does. -/
theorem C112_counterexample {T : Type} (skel : Mesh P3 → Option T) (voxelSize : Nat) (hv : voxelSize ≤ 8) : exSetting.Ok ∧ boxInput.Ok exSetting ∧
    ∃ data o o', Ends (fun n => compress exSetting.lg exSetting.size (headerGrid exSetting.value) exSetting.convex exSetting.enc n boxInput.hd
        boxInput.quantised boxInput.first) data ∧
      openObj exSetting.lg (headerGrid exSetting.value) data = some o ∧
      Ends (fun n => runObj exSetting.F (headerGrid exSetting.value) exSetting.dec n [100] o) o' ∧ prepare skel voxelSize ⟨o', []⟩ = none := by
  refine ⟨exSetting_ok, boxInput_ok, ?_⟩
  obtain ⟨data, o, o', h1, h2, h3, _, _, h4⟩ := C112_voxels_partial exSetting exSetting_ok boxInput boxInput_ok skel voxelSize
  refine ⟨data, o, o', h1, h2, h3, h4 ?_ ?_⟩
  · exact ⟨0, by decide, by decide⟩
  · have : (boxInput.mesh.darts.image boxInput.mesh.vert).card = 8 := by decide +kernel
    omega

/-- The octahedron has triangles only: its voxels can be made if the library succeeds. -/
example : ∃ o' : Obj P3, (prepare (fun _ => some ()) 5 ⟨o', []⟩).isSome := by
  obtain ⟨_, _, o', _, _, _, h, _, _⟩ := C112_voxels_partial exSetting exSetting_ok exInput exInput_ok (fun _ => some ()) 5
  refine ⟨o', h ?_ rfl⟩
  have : ∀ d ∈ (octahedron (fun _ => ())).darts, (octahedron (fun _ => ())).next ((octahedron (fun _ => ())).next ((octahedron (fun _ => ())).next d)) = d := by
    decide +kernel
  exact this

/-- After one of its three decimations the octahedron has a facet that is not a triangle. -/
theorem exLevelOne : ((compressLevels (headerGrid exSetting.value exInput.hd).geo exSetting.convex exSetting.enc.init exSetting.enc.hit
      (exInput.quantised.src exInput.first) (exInput.quantised.vert exInput.first) 100 100 exInput.quantised).map
      (fun r => (r.1.length, triangular (lodMesh r.1 r.2 1), triangular (lodMesh r.1 r.2 3)))) = some (3, false, true) := by
  decide +kernel

/-- **C112 fails below the last level.** The octahedron, all of whose facets are triangles, decoded at 50 per cent: asking for the skeleton ends the
process. -/
theorem C112_counterexample_level {T : Type} (skel : Mesh P3 → Option T) : exSetting.Ok ∧ exInput.Ok exSetting ∧
    ∃ data o o', Ends (fun n => compress exSetting.lg exSetting.size (headerGrid exSetting.value) exSetting.convex exSetting.enc n exInput.hd
        exInput.quantised exInput.first) data ∧
      openObj exSetting.lg (headerGrid exSetting.value) data = some o ∧
      Ends (fun n => runObj exSetting.F (headerGrid exSetting.value) exSetting.dec n [50] o) o' ∧ extract skel ⟨o', []⟩ = none := by
  refine ⟨exSetting_ok, exInput_ok, ?_⟩
  obtain ⟨L, B, data, o, hL, h1, h2, k, o', h3, _, hk, h4⟩ := C112_level exSetting exSetting_ok exInput exInput_ok skel 50 (by omega)
  refine ⟨data, o, o', h1, h2, h3, h4 ?_⟩
  obtain ⟨x, hx, e⟩ := Option.map_eq_some_iff.1 exLevelOne
  have hx' : Levels exSetting exInput x.1 x.2 := ⟨100, fun n hn => compressLevels_mono hn 100 hn hx⟩
  have := Ends.unique hL hx'
  obtain ⟨rfl, rfl⟩ := Prod.mk.inj this
  injection e with e1 e2
  have hk2 : k = 2 := by
    refine Lod.level_unique exSetting.F x.1.length 50 k 2 hk ⟨?_, ?_⟩
    · rw [e1]
      show (50 : ℚ) ≤ ((2 : ℕ) : ℚ) / ((3 : ℕ) : ℚ) * 100
      norm_num
    · intro j hj
      rw [e1]
      show ((j : ℕ) : ℚ) / ((3 : ℕ) : ℚ) * 100 < 50
      rcases (by omega : j = 0 ∨ j = 1) with rfl | rfl <;> norm_num
  have h3 : x.1.length - k = 1 := by omega
  rw [h3]
  injection e2 with e2 e3
  have := of_decide_eq_false e2
  push_neg at this
  exact this

/-- A history as in `C112_current`: the skeleton of the base mesh, then all levels, then the skeleton of the whole, then a request for less. -/
example {T : Type} (t : Mesh P3 → T) : ∃ (o : Obj P3) (n : Nat) (ss : List T) (o1 : Skel P3 T), ss = [t o.m, t o1.obj.m] ∧
    history exSetting.F (headerGrid exSetting.value) exSetting.dec n (fun m => some (t m)) [.skeleton, .advance 100, .skeleton, .advance 40] ⟨o, []⟩ =
      some (ss, o1) ∧ (extract (fun m => some (t m)) o1).isSome := by
  obtain ⟨L, B, data, o, e1, _, _, e4, e5⟩ := object exSetting exSetting_ok exSetting.dec exSetting_ok.dec exInput exInput_ok
  obtain ⟨x, hx, e⟩ := Option.map_eq_some_iff.1 exLevelOne
  have hx' : Levels exSetting exInput x.1 x.2 := ⟨100, fun n hn => compressLevels_mono hn 100 hn hx⟩
  obtain ⟨rfl, rfl⟩ := Prod.mk.inj (Ends.unique e1 hx')
  injection e with ea eb
  injection eb with _ eb
  obtain ⟨k, ob, ψ, ⟨N0, hN0⟩, _, hl, hw, hiso, _⟩ := e5 [] (by simp)
  have hk : k = 0 := Lod.level_unique exSetting.F x.1.length 0 k 0 hl (Lod.fresh_level exSetting.F x.1.length)
  subst hk
  have hob : o = ob := Option.some.inj (hN0 N0 le_rfl)
  subst hob
  have t0 : triangular o.m = true := by
    rw [triangular_iso hiso hw.h.next_mem, show x.1.length - 0 = 3 by omega]; exact eb
  obtain ⟨k, o', ψ', ⟨N, hN⟩, _, _, _, _, _, _, h100⟩ := e5 [100] (by simp)
  have hadv : advanceObj exSetting.F (headerGrid exSetting.value) exSetting.dec N 100 o = some o' := by
    have := hN N le_rfl
    change (advanceObj exSetting.F (headerGrid exSetting.value) exSetting.dec N 100 o).bind (fun y => some y) = some o' at this
    rwa [Option.bind_fun_some] at this
  have t1 : triangular o'.m = true := by
    have h := (h100 (by simp)).2.1
    have : triangular o'.m = triangular exInput.quantised := triangular_iso h exInput_ok.wf.h.next_mem
    rw [this]
    have : triangular (octahedron (fun _ => ())) = true := by decide +kernel
    exact this
  have f0 : o.lod = Lod.fresh := openObj_fresh e4
  have p1 : o'.lod.pct = 100 := by
    unfold advanceObj at hadv
    rw [if_neg (by rw [f0]; decide)] at hadv
    exact completeObj_pct _ hadv
  have hx0 : extract (fun m => some (t m)) (⟨o, []⟩ : Skel P3 T) = some (t o.m, ⟨o, [(0, t o.m)]⟩) := by
    unfold extract
    simp only [List.lookup_nil, t0, if_true, f0]
    rfl
  have hx1 : extract (fun m => some (t m)) (⟨o', [(0, t o.m)]⟩ : Skel P3 T) = some (t o'.m, ⟨o', [(100, t o'.m), (0, t o.m)]⟩) := by
    unfold extract
    simp only [List.lookup_cons, List.lookup_nil, t1, if_true, p1]
    rfl
  have hadv2 : advanceObj exSetting.F (headerGrid exSetting.value) exSetting.dec N 40 o' = some o' := by
    unfold advanceObj
    rw [if_pos (by rw [p1]; decide)]
  refine ⟨o, N, [t o.m, t o'.m], ⟨o', [(100, t o'.m), (0, t o.m)]⟩, rfl, ?_, ?_⟩
  · simp only [history, hx0, hadv, hx1, hadv2, Option.map_some]
  · unfold extract
    simp only [List.lookup_cons, p1, beq_self_eq_true]
    rfl

end TDP.Pipeline
