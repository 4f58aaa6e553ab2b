import Verif.EndToEnd.FromFiles
import Verif.EndToEnd.IntersectEx
import Verif.EndToEnd.WithinEx
import Verif.Pipeline.Examples
import Verif.Pipeline.Capacity
/-! Two files that meet the hypotheses of C96: an octahedron in each, the second one shifted; the join finds the object. -/
namespace TDP.FromFiles.Ex
open TDP.Codec TDP.Quant TDP.Tile TDP.Bytes TDP.Conc TDP.Conc.Compress TDP.Pipeline TDP.EndToEnd TDP.Kernels TDP.Fill TDP.Boxes TDP.Join

theorem facetEnum_exists (N : Mesh P3) : ∃ facets, FacetEnum N facets := by
  classical
  have hc : ∀ x ∈ (N.darts.image N.face).toList, ∃ d ∈ N.darts, N.face d = x := by
    intro x hx
    obtain ⟨d, hd, e⟩ := Finset.mem_image.1 (Finset.mem_toList.1 hx)
    exact ⟨d, hd, e⟩
  have : ∀ l : List Nat, (∀ x ∈ l, ∃ d ∈ N.darts, N.face d = x) → ∃ fs : List Nat, fs.map N.face = l ∧ ∀ d ∈ fs, d ∈ N.darts := by
    intro l
    induction l with
    | nil => intro _; exact ⟨[], rfl, by simp⟩
    | cons x l ih =>
      intro h
      obtain ⟨fs, h1, h2⟩ := ih (fun y hy => h y (List.mem_cons_of_mem _ hy))
      obtain ⟨d, hd, e⟩ := h x List.mem_cons_self
      exact ⟨d :: fs, by rw [List.map_cons, h1, e], by
        intro y hy
        rcases List.mem_cons.1 hy with rfl | hy
        · exact hd
        · exact h2 y hy⟩
  obtain ⟨fs, h1, h2⟩ := this _ hc
  refine ⟨fs, by rw [h1]; exact Finset.nodup_toList _, h2, ?_⟩
  intro d hd
  rw [h1, Finset.mem_toList]
  exact Finset.mem_image_of_mem _ hd

theorem edgeEnum_exists (N : Mesh P3) (h : N.h.WF) : ∃ edges, EdgeEnum N edges := by
  refine ⟨(N.darts.filter (fun d => d < N.opp d)).toList, Finset.nodup_toList _, ?_, ?_⟩
  · intro d hd
    exact (Finset.mem_filter.1 (Finset.mem_toList.1 hd)).1
  · intro d hd
    have ho : N.opp d ∈ N.darts := h.opp_mem d hd
    have hoo : N.opp (N.opp d) = d := h.opp_opp d hd
    have hne : N.opp d ≠ d := h.opp_ne d hd
    simp only [Finset.mem_toList, Finset.mem_filter, hd, ho, hoo, true_and, not_lt]
    rcases lt_or_gt_of_ne hne with hl | hl
    · exact Or.inr ⟨le_of_lt hl, hl⟩
    · exact Or.inl ⟨hl, le_of_lt hl⟩

/-! The second file. -/
def sh : P3 := fun i => if i = 0 then 1 / 2 else if i = 1 then 3 / 8 else 1 / 4
def pos2 (n : Nat) : P3 := fun i => octPos n i + sh i
def value2 (n : Nat) : ℚ := if n = 0 then 1 / 2048 else if n = 1 then -1 / 2 else if n = 2 then -5 / 8 else -3 / 4

def in2 : Input :=
  { mesh := octahedron pos2, first := 0, v := pos2 0, vs := [pos2 1, pos2 2, pos2 3, pos2 4, pos2 5], hd := ⟨1, 2, 3, 0, 12⟩ }
def set2 : Pipeline.Setting := { exSetting with value := value2 }
theorem set2_ok : set2.Ok := ⟨exSetting_ok.lg, sampleEnv_ok, sampleEnv_ok⟩

theorem box2 : bbMin (pos2 0) [pos2 1, pos2 2, pos2 3, pos2 4, pos2 5] = (fun i => sh i - 1) ∧
    bbMax (pos2 0) [pos2 1, pos2 2, pos2 3, pos2 4, pos2 5] = fun i => sh i + 1 := by
  constructor <;> funext i <;> rcases (by omega : i = 0 ∨ i = 1 ∨ i = 2) with rfl | rfl | rfl <;> decide +kernel

theorem levels2 : (compressLevels (headerGrid set2.value in2.hd).geo set2.convex set2.enc.init set2.enc.hit
      (in2.quantised.src in2.first) (in2.quantised.vert in2.first) 100 100 in2.quantised).map
      (fun r => (r.1.length, (set2.enc.vorder r.2).length, (set2.enc.gates r.2).length)) = some (3, 3, 2) := by decide +kernel

theorem in2_ok : in2.Ok set2 where
  wf := (octahedron_ok pos2).1
  sep := (octahedron_ok pos2).2.1
  conn := (octahedron_ok pos2).2.2
  deg := by
    have : ∀ d ∈ (octahedron (fun _ => ())).darts, (octahedron (fun _ => ())).deg d ≤ 10 := by decide +kernel
    exact this
  pos := by
    have : ∀ d ∈ Finset.range 24, octVert.getD d 0 < 6 := by decide
    intro d hd
    have h := this d hd
    change pos2 (octVert.getD d 0) ∈ _
    rcases (by omega : octVert.getD d 0 = 0 ∨ octVert.getD d 0 = 1 ∨ octVert.getD d 0 = 2 ∨ octVert.getD d 0 = 3 ∨
      octVert.getD d 0 = 4 ∨ octVert.getD d 0 = 5) with e | e | e | e | e | e <;> rw [e] <;> simp [in2]
  range := by change 0 < maxRange (bbMin _ _) (bbMax _ _); rw [in2, box2.1, box2.2]; decide +kernel
  bb := by simp only [in2]; rw [box2.1]; decide +kernel
  step := by simp only [in2]; rw [box2.1, box2.2]; decide +kernel
  floats := by decide
  bits := by decide
  fits := by
    rintro L B ⟨N, hN⟩
    have h := levels2
    obtain ⟨x, hx⟩ : ∃ x, compressLevels (headerGrid set2.value in2.hd).geo set2.convex set2.enc.init set2.enc.hit
      (in2.quantised.src in2.first) (in2.quantised.vert in2.first) 100 100 in2.quantised = some x := by
      cases hc : compressLevels (headerGrid set2.value in2.hd).geo set2.convex set2.enc.init set2.enc.hit
        (in2.quantised.src in2.first) (in2.quantised.vert in2.first) 100 100 in2.quantised with
      | none => rw [hc] at h; simp at h
      | some x => exact ⟨x, rfl⟩
    rw [hx] at h
    have h2 := compressLevels_mono (le_max_right N 100) 100 (le_max_right N 100) hx
    have h3 := hN (max N 100) (le_max_left _ _)
    obtain rfl := Option.some.inj (h3.symm.trans h2)
    simp only [Option.map_some, Option.some.injEq, Prod.mk.injEq] at h
    obtain ⟨h1, h2, h3⟩ := h
    rw [h1, h2, h3]
    exact ⟨by omega, by omega, by omega, by omega, by change _ ≤ 1000; omega⟩

/-! A file for one line. -/

/-- Whatever the tool leaves for one line can be opened, if the compressed object is short. -/
theorem opened_exists (S : Pipeline.Setting) (hS : S.Ok) {α : Type} [LinearOrder α] [BoundedOrder α] (fc : FloatCode α) (i : Input) (hi : i.Ok S)
    (data : List Nat) (hdata : Ends (fun n => compress S.lg S.size (headerGrid S.value) S.convex S.enc n i.hd i.quantised i.first) data)
    (hlen : data.length ≤ 1000) : ∃ file, ∃ t : Tile α, Opened S fc [i] file t := by
  let vox : Mesh P3 → List (Tile.Voxel α) → Prop := fun _ l => l.length = 1
  have hvox : ∀ m, ∃ l, vox m l := fun _ => ⟨[⟨⟨fun _ => ⊥, fun _ => ⊤⟩, fun _ => ⊥⟩], rfl⟩
  have hok : ∀ j ∈ wanted 0 [i], j.Ok S := by
    intro j hj
    have : j = i := by simpa [wanted] using hj
    rw [this]; exact hi
  obtain ⟨s, hr, hd⟩ := C73_can_finish S hS fc vox hvox 2 (by decide) 0 [i] hok _ .init
  have hlen : s.file.length < 256 ^ 8 := by
    obtain ⟨recs, r1, r2, r3⟩ := C47_every_line_once (by decide) _ 0 [i] s hr hd
    have h1 : recs.map Prod.fst = [i] := by
      have := r2
      simp only [wanted, le_refl, if_true] at this
      exact List.perm_singleton.1 this
    have h2 : recs.length = 1 := by have := congrArg List.length h1; simpa using this
    obtain ⟨x, rfl⟩ := List.length_eq_one_iff.1 h2
    have hx : x.1 = i := by simpa using h1
    obtain ⟨r, ⟨data', o, o', a1, a2, a3, a4, a5⟩, hb⟩ := r3 x (by simp)
    rw [hx] at a1
    obtain rfl := Ends.unique a1 hdata
    have hl : r.data.length ≤ 1000 := by rw [a4, List.length_take]; omega
    have hv : r.voxels.length = 1 := a5
    rw [r1]
    simp only [List.map_cons, List.map_nil, List.flatten_cons, List.flatten_nil, List.append_nil, hb]
    have : (putRecord fc r).length = 8 + r.data.length + (8 + 36 * r.voxels.length) := by
      simp only [putRecord, List.length_append, Bytes.put_length, putVoxels_length]; omega
    rw [this, hv]
    omega
  let disk : Disk := fun p => if p = ['a', '.', 'd', 't'] then some s.file else none
  have hdt : disk (['a'] ++ '.' :: 'd' :: 't' :: []) = some s.file := if_pos rfl
  have hmt : disk (metaPath (['a'] ++ '.' :: 'd' :: 't' :: [])) = none := if_neg (by decide)
  obtain ⟨t, disk', _, g, _⟩ := C73_compress_open_decode S hS fc vox hvox 2 (by decide) 0 [i] hok s hr hd hlen disk ['a'] [] hdt hmt 100
  refine ⟨s.file, t, hS, ?_, hlen, ⟨vox, 2, s, hvox, by decide, hr, hd, rfl⟩, ⟨disk, disk', ['a'], [], 100, hdt, hmt, g⟩⟩
  intro j hj
  have : j = i := by simpa using hj
  rw [this]; exact hi

theorem data_exists (S : Pipeline.Setting) (hS : S.Ok) (i : Input) (hi : i.Ok S)
    (hl : (compressLevels (headerGrid S.value i.hd).geo S.convex S.enc.init S.enc.hit
      (i.quantised.src i.first) (i.quantised.vert i.first) 100 100 i.quantised).any (fun x => decide (room S x.1 x.2 ≤ 1000)) = true) :
    ∃ data, Ends (fun n => compress S.lg S.size (headerGrid S.value) S.convex S.enc n i.hd i.quantised i.first) data ∧ data.length ≤ 1000 := by
  obtain ⟨L, B, data, ⟨N, hN⟩, h2, h3, _⟩ := object_size S hS i hi
  refine ⟨data, h2, h3.trans ?_⟩
  cases hx : compressLevels (headerGrid S.value i.hd).geo S.convex S.enc.init S.enc.hit
      (i.quantised.src i.first) (i.quantised.vert i.first) 100 100 i.quantised with
  | none => rw [hx] at hl; simp at hl
  | some x =>
    rw [hx] at hl
    have h2 := compressLevels_mono (le_max_right N 100) 100 (le_max_right N 100) hx
    have h3 := hN (max N 100) (le_max_left _ _)
    obtain rfl := Option.some.inj (h3.symm.trans h2)
    simpa using hl

theorem data1 : ∃ data, Ends (fun n => compress exSetting.lg exSetting.size (headerGrid exSetting.value) exSetting.convex exSetting.enc n
    exInput.hd exInput.quantised exInput.first) data ∧ data.length ≤ 1000 :=
  data_exists _ exSetting_ok _ exInput_ok (by decide +kernel)
theorem data2 : ∃ data, Ends (fun n => compress set2.lg set2.size (headerGrid set2.value) set2.convex set2.enc n
    in2.hd in2.quantised in2.first) data ∧ data.length ≤ 1000 :=
  data_exists _ set2_ok _ in2_ok (by decide +kernel)

/-! The objects. -/

/-- An object of a tile with one object: its triangles at 100 percent, with any box and voxel. -/
theorem held_exists {S : Pipeline.Setting} {α : Type} [LinearOrder α] [BoundedOrder α] {fc : FloatCode α} {i : Input} {file : List Nat}
    {t : Tile α} (h : Opened S fc [i] file t) : ∃ ts : List Tri, ts.length ≤ i.mesh.darts.card ∧
      ∀ a : Object Tri, a.w.id = 0 → a.elems 100 = ts → HeldTri S sampleEnv file t [100] [a] := by
  obtain ⟨order, h1, h2, h3⟩ := opened_spec h
  obtain rfl := List.perm_singleton.1 h1
  obtain ⟨w, hw⟩ := List.length_eq_one_iff.1 h2
  obtain ⟨e1, e2⟩ := h3 0 (by simp) (by rw [hw]; simp)
  have hw0 : t.objects[0]'(by rw [hw]; simp) = w := by simp [hw]
  rw [hw0] at e1 e2
  have hd := e2 sampleEnv sampleEnv_ok
  have hd' := hd
  obtain ⟨L, B, hL, h0, o, ho, hall⟩ := hd'
  obtain ⟨k, o', ψ, f1, _⟩ := hall [100] (by simp)
  have hs : Shows S sampleEnv (retrieve file w) 100 o'.m := ⟨o, [100], o', ho, by simp, rfl, f1, rfl⟩
  obtain ⟨facets, hf⟩ := facetEnum_exists o'.m
  obtain ⟨K, k1, k2, _⟩ := shows_given hd hs
  refine ⟨triangles Fp.exact o'.m facets, ?_, ?_⟩
  · rw [← (k2.tris facets hf).1, k1.2 rfl]
    exact Finset.card_image_le
  · intro a ha he
    unfold HeldTri
    rw [hw, List.forall₂_cons]
    refine ⟨⟨by rw [ha, e1]; rfl, ?_⟩, .nil⟩
    intro lod hl
    obtain rfl : lod = 100 := by simpa using hl
    exact ⟨o'.m, facets, hs, hf, he⟩

def bx : Box ℚ := ⟨fun _ => -2, fun _ => 2⟩
def va : Join.Voxel := ⟨100, bx⟩
def vb : Join.Voxel := ⟨200, bx⟩
def oa (ts : List Tri) : Object Tri := ⟨1, ⟨0, bx, [va]⟩, [fun _ => 1], fun _ => ts⟩
def ob (ts : List Tri) : Object Tri := ⟨2, ⟨0, bx, [vb]⟩, [fun _ => 1], fun _ => ts⟩
def tile2 (i : Int) : Wrapper := ⟨i, bx, [vb]⟩
def heap (ts ts' : List Tri) (_ : Nat) (v : Join.Voxel) : List Tri := if v.addr = 100 then ts else ts'

theorem setting {ts ts' : List Tri} (h : ts.length ≤ 24) (h' : ts'.length ≤ 24) :
    EndToEnd.Setting 9 (fun _ _ => 0) Tri.C (heap ts ts') [oa ts] (ob ts') [] tile2 [100] [va, vb] where
  ids := fun _ => rfl
  tile := by intro b hb; simp at hb; subst hb; exact ⟨rfl, le_refl (0 : Int)⟩
  solid := by
    intro b hb
    have : b = oa ts ∨ b = ob ts' := by simpa using hb
    rcases this with rfl | rfl <;> intro i <;> simp [oa, ob, bx]
  voxels := by
    intro b hb
    have : b = oa ts ∨ b = ob ts' := by simpa using hb
    rcases this with rfl | rfl <;> simp [oa, ob]
  filled := by
    intro lod _ b hb
    have : b = oa ts ∨ b = ob ts' := by simpa using hb
    have hone : ∃ ws, Voxels.fillVoxel (fun _ _ => (0 : WithTop ℚ)) Tri.C lod (b.elems lod) [⟨fun _ => 1, bx, fun _ => none, fun _ => none⟩] = some ws ∧
        ws.map (fun v => v.data lod) = [some (b.elems lod)] := ⟨_, rfl, by simp [Voxels.Voxel.set]⟩
    obtain ⟨ws, w1, w2⟩ := hone
    refine ⟨⟨[⟨fun _ => 1, bx, fun _ => none, fun _ => none⟩], ws, ?_, ?_, ?_, w1, ?_⟩, ?_⟩
    · rcases this with rfl | rfl <;> rfl
    · rcases this with rfl | rfl <;> rfl
    · simp
    · rw [w2]
      rcases this with rfl | rfl <;> simp [oa, ob, heap, va, vb]
    · intro c _ e _; exact WithTop.coe_lt_top _
  fits := by
    intro lod _
    refine ⟨?_, ?_⟩
    · intro v hv v' hv' h
      simp at hv hv'
      rcases hv with rfl | rfl <;> rcases hv' with rfl | rfl <;> simp [va, vb] at h ⊢
    · simp [heap, va, vb]; omega

/-- The facets of darts 3 and 6 cross. -/
theorem crossing : Cross (exInput.quantised.pos 2) (exInput.quantised.pos 1) (exInput.quantised.pos 4)
    (in2.quantised.pos 1) (in2.quantised.pos 3) (in2.quantised.pos 4) where
  meet := ⟨fun j => if j = 0 then -814649 / 1863680 else if j = 1 then 582599 / 1863680 else 1025 / 4096,
    ⟨291072 / 931385, 199 / 455, 512 / 2047, by norm_num, by norm_num, by norm_num, by norm_num, by decide +kernel⟩,
    ⟨853 / 910, 57 / 910, 0, by norm_num, by norm_num, by norm_num, by norm_num, by decide +kernel⟩⟩
  other := by decide +kernel
  one := by decide +kernel
  slope := by decide +kernel

/-- There are two files, opened as tiles, and a run of the join on them that starts with one undecided object; every such run decides it, and by C96
its mesh comes near that of the other file. -/
theorem found : ∃ file1 file2 : List Nat, ∃ t1 t2 : Tile (Fin (2 ^ 32)), Opened exSetting FloatCode.fin [exInput] file1 t1 ∧
    Opened set2 FloatCode.fin [in2] file2 t2 ∧ ∃ ts ts', HeldTri exSetting sampleEnv file1 t1 [100] [oa ts] ∧
      HeldTri set2 sampleEnv file2 t2 [100] [ob ts'] ∧
      EndToEnd.Setting 9 (fun _ _ => 0) Tri.C (heap ts ts') [oa ts] (ob ts') [] tile2 [100] [va, vb] ∧
      (∃ start final, IntersectJoin .gpu (fun a b => (a + b) / 2) (heap ts ts') [oa ts] (ob ts') [] tile2 [100] start final) ∧
      ∀ start final, IntersectJoin .gpu (fun a b => (a + b) / 2) (heap ts ts') [oa ts] (ob ts') [] tile2 [100] start final →
        start.map Entry.mesh = [(oa ts).w] ∧ final = [] := by
  obtain ⟨d1, e1, l1⟩ := data1
  obtain ⟨d2, e2, l2⟩ := data2
  obtain ⟨file1, t1, h1⟩ := opened_exists exSetting exSetting_ok FloatCode.fin exInput exInput_ok d1 e1 l1
  obtain ⟨file2, t2, h2⟩ := opened_exists set2 set2_ok FloatCode.fin in2 in2_ok d2 e2 l2
  obtain ⟨ts, c1, g1⟩ := held_exists h1
  obtain ⟨ts', c2, g2⟩ := held_exists h2
  have c1' : ts.length ≤ 24 := c1
  have c2' : ts'.length ≤ 24 := c2
  have S := setting c1' c2'
  refine ⟨file1, file2, t1, t2, h1, h2, ts, ts', g1 _ rfl rfl, g2 _ rfl rfl, S, ?_, ?_⟩
  · have hb : (Octree.build (fun a b => (a + b) / 2) 400 10 ⟨2, 0, bx, 1⟩ []).isSome = true := by decide +kernel
    exact intersectJoin_exists _ _ _ _ _ _ _ _ 10 hb
  · intro start final h
    have hst : start.map Entry.mesh = [(oa ts).w] := by
      rw [C61_start S h]
      have : (∃ b ∈ [ob ts'], b.ptr ≠ (oa ts).ptr ∧ b.w.box.intersect (oa ts).w.box = true) := ⟨ob ts', by simp, by simp [oa, ob], by
        show bx.intersect bx = true
        decide +kernel⟩
      rw [List.filter_cons, if_pos (by simpa using this)]
      rfl
    refine ⟨hst, ?_⟩
    obtain ⟨hsub, ⟨order1, order2, p1, p2, n1, n2⟩, hall⟩ := C96_files_to_intersections h1 h2 sampleEnv_ok (g1 _ rfl rfl) (g2 _ rfl rfl) S h
    have hc := (hall order1 order2 n1 n2).2
    obtain rfl := List.perm_singleton.1 p1
    obtain rfl := List.perm_singleton.1 p2
    have hlev : ∀ {S : Pipeline.Setting} {i : Input} {file : List Nat} {t : Tile (Fin (2 ^ 32))}, Opened S FloatCode.fin [i] file t →
        LevelOf S i 100 i.quantised := by
      intro S i file t h
      obtain ⟨order, q1, q2, q3⟩ := opened_spec h
      obtain rfl := List.perm_singleton.1 q1
      obtain ⟨L, B, hL, h0, o, ho, hall⟩ := (q3 0 (by simp) (by rw [q2]; simp)).2 sampleEnv sampleEnv_ok
      obtain ⟨k, o', ψ, f1, _⟩ := hall [100] (by simp)
      obtain ⟨K, k1, _⟩ := shows_given ⟨L, B, hL, h0, o, ho, hall⟩ ⟨o, [100], o', ho, by simp, rfl, f1, rfl⟩
      rw [k1.2 rfl] at k1
      exact k1
    have key := hc (Or.inl rfl) (oa ts) (by simp) (ob ts') (by simp) (by simp [oa, ob]) (by
        show bx.intersect bx = true
        decide +kernel) 100 (by simp) (by
        intro v1 m1 v2 m2 _ _ _ _ _
        have : v1 = va := by simpa [oa] using m1
        have : v2 = vb := by simpa [ob] using m2
        subst v1 v2
        decide +kernel) 0 0 exInput in2 rfl rfl rfl rfl _ _ (hlev h1) (hlev h2) 3 (show (3 : Nat) ∈ Finset.range 24 by decide)
        6 (show (6 : Nat) ∈ Finset.range 24 by decide) rfl rfl crossing
    cases final with
    | nil => rfl
    | cons e l =>
      have he : e ∈ start := hsub.subset List.mem_cons_self
      have : e.mesh ∈ start.map Entry.mesh := List.mem_map.2 ⟨e, he, rfl⟩
      rw [hst] at this
      have : e.mesh = (oa ts).w := by simpa using this
      exact absurd (by rw [this]; rfl) (key e List.mem_cons_self)

/-! The hypotheses of C97, for the same files. -/

theorem heldSeg_exists {S : Pipeline.Setting} {α : Type} [LinearOrder α] [BoundedOrder α] {fc : FloatCode α} {i : Input} {file : List Nat}
    {t : Tile α} (h : Opened S fc [i] file t) : ∃ ts : List Seg, 2 * ts.length = i.mesh.darts.card ∧
      ∀ a : Object Seg, a.w.id = 0 → a.elems 100 = ts → HeldSeg S sampleEnv file t [100] [a] := by
  obtain ⟨order, h1, h2, h3⟩ := opened_spec h
  obtain rfl := List.perm_singleton.1 h1
  obtain ⟨w, hw⟩ := List.length_eq_one_iff.1 h2
  obtain ⟨e1, e2⟩ := h3 0 (by simp) (by rw [hw]; simp)
  have hw0 : t.objects[0]'(by rw [hw]; simp) = w := by simp [hw]
  rw [hw0] at e1 e2
  have hd := e2 sampleEnv sampleEnv_ok
  have hd' := hd
  obtain ⟨L, B, hL, h0, o, ho, hall⟩ := hd'
  obtain ⟨k, o', ψ, f1, _, _, _, _, fw, _⟩ := hall [100] (by simp)
  have hs : Shows S sampleEnv (retrieve file w) 100 o'.m := ⟨o, [100], o', ho, by simp, rfl, f1, rfl⟩
  obtain ⟨edges, hf⟩ := edgeEnum_exists o'.m fw
  obtain ⟨K, k1, k2, _⟩ := shows_given hd hs
  refine ⟨segments Fp.exact o'.m edges, ?_, ?_⟩
  · rw [← (k2.segs edges hf).1, k1.2 rfl]
    rfl
  · intro a ha he
    unfold HeldSeg
    rw [hw, List.forall₂_cons]
    refine ⟨⟨by rw [ha, e1]; rfl, ?_⟩, .nil⟩
    intro lod hl
    obtain rfl : lod = 100 := by simpa using hl
    exact ⟨o'.m, edges, hs, hf, he⟩

def sa (ts : List Seg) : Object Seg := ⟨1, ⟨0, bx, [va]⟩, [fun _ => 1], fun _ => ts⟩
def bb : Box ℚ := ⟨fun _ => -1, fun _ => 3⟩
def wb : Join.Voxel := ⟨200, bb⟩
def tileB (i : Int) : Wrapper := ⟨i, bb, [wb]⟩
def sb (ts : List Seg) : Object Seg := ⟨2, ⟨0, bb, [wb]⟩, [fun _ => 1], fun _ => ts⟩
def heapS (ts ts' : List Seg) (_ : Nat) (v : Join.Voxel) : List Seg := if v.addr = 100 then ts else ts'

theorem settingS {ts ts' : List Seg} (h : ts.length ≤ 24) (h' : ts'.length ≤ 24) :
    EndToEnd.Setting 6 (fun _ _ => 0) Seg.p (heapS ts ts') [sa ts] (sb ts') [] tileB [100] [va, wb] where
  ids := fun _ => rfl
  tile := by intro b hb; simp at hb; subst hb; exact ⟨rfl, le_refl (0 : Int)⟩
  solid := by
    intro b hb
    have : b = sa ts ∨ b = sb ts' := by simpa using hb
    rcases this with rfl | rfl <;> intro i <;> simp [sa, sb, bx, bb] <;> norm_num
  voxels := by
    intro b hb
    have : b = sa ts ∨ b = sb ts' := by simpa using hb
    rcases this with rfl | rfl <;> simp [sa, sb]
  filled := by
    intro lod _ b hb
    have : b = sa ts ∨ b = sb ts' := by simpa using hb
    have hone : ∃ ws, Voxels.fillVoxel (fun _ _ => (0 : WithTop ℚ)) Seg.p lod (b.elems lod) [⟨fun _ => 1, bx, fun _ => none, fun _ => none⟩] = some ws ∧
        ws.map (fun v => v.data lod) = [some (b.elems lod)] := ⟨_, rfl, by simp [Voxels.Voxel.set]⟩
    obtain ⟨ws, w1, w2⟩ := hone
    refine ⟨⟨[⟨fun _ => 1, bx, fun _ => none, fun _ => none⟩], ws, ?_, ?_, ?_, w1, ?_⟩, ?_⟩
    · rcases this with rfl | rfl <;> rfl
    · rcases this with rfl | rfl <;> rfl
    · simp
    · rw [w2]
      rcases this with rfl | rfl <;> simp [sa, sb, heapS, va, wb]
    · intro c _ e _; exact WithTop.coe_lt_top _
  fits := by
    intro lod _
    refine ⟨?_, ?_⟩
    · intro v hv v' hv' h
      simp at hv hv'
      rcases hv with rfl | rfl <;> rcases hv' with rfl | rfl <;> simp [va, wb] at h ⊢
    · simp [heapS, va, wb]; omega

/-- All hypotheses of C97 together, with one object on the list and squared limit 1. -/
example (threads : Nat) : ∃ file1 file2 : List Nat, ∃ t1 t2 : Tile (Fin (2 ^ 32)), Opened exSetting FloatCode.fin [exInput] file1 t1 ∧
    Opened set2 FloatCode.fin [in2] file2 t2 ∧ ∃ ts ts', HeldSeg exSetting sampleEnv file1 t1 [100] [sa ts] ∧
      HeldSeg set2 sampleEnv file2 t2 [100] [sb ts'] ∧
      EndToEnd.Setting 6 (fun _ _ => 0) Seg.p (heapS ts ts') [sa ts] (sb ts') [] tileB [100] [va, wb] ∧
      (∀ lod ∈ [100], ∀ v ∈ [va, wb], (heapS ts ts' lod v).length ≤ 10000) ∧
      ∃ start final, WithinJoin (.cpu threads) ExWithin.mid (heapS ts ts') 1 [sa ts] (sb ts') [] tileB [100] start final ∧
        start.length = 1 ∧ ∀ e ∈ start, e.cands.dropLast = [] := by
  obtain ⟨d1, e1, l1⟩ := data1
  obtain ⟨d2, e2, l2⟩ := data2
  obtain ⟨file1, t1, h1⟩ := opened_exists exSetting exSetting_ok FloatCode.fin exInput exInput_ok d1 e1 l1
  obtain ⟨file2, t2, h2⟩ := opened_exists set2 set2_ok FloatCode.fin in2 in2_ok d2 e2 l2
  obtain ⟨ts, c1, g1⟩ := heldSeg_exists h1
  obtain ⟨ts', c2, g2⟩ := heldSeg_exists h2
  have c1' : 2 * ts.length = 24 := c1
  have c2' : 2 * ts'.length = 24 := c2
  have S := settingS (ts := ts) (ts' := ts') (by omega) (by omega)
  refine ⟨file1, file2, t1, t2, h1, h2, ts, ts', g1 _ rfl rfl, g2 _ rfl rfl, S, ?_, ?_⟩
  · intro lod _ v hv
    simp only [heapS]
    split <;> omega
  · let tr : Octree.Node ℚ := (Octree.build ExWithin.mid 400 10 ⟨2, 0, bb, 1⟩ []).get (by decide +kernel)
    let q : List (Int × Range) := Octree.queryWithin Fp.exact ⟨1, 0, bx, 1⟩ 1 tr
    have hq : q.length = 1 := by decide +kernel
    let e : Entry := mbbWithin Fp.exact 1 tileB ⟨0, bx, [va]⟩ q
    have he : e.cands.length = 1 := by decide +kernel
    obtain ⟨final, hr⟩ := withinRounds_exist threads (heapS ts ts') 1 100 [100] [e]
    refine ⟨[e], final, ⟨10, tr, (Option.some_get _).symm, ?_, hr⟩, rfl, ?_⟩
    · exact .keep (ExWithin.sorted_one hq) (by intro h; have := congrArg List.length h; exact absurd (he.symm.trans this) (by decide)) .nil
    · intro x hx
      obtain rfl : x = e := by simpa using hx
      obtain ⟨y, hy⟩ := List.length_eq_one_iff.1 he
      rw [hy]; rfl

end TDP.FromFiles.Ex
