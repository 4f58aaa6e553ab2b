import Verif.Pipeline.Props
import Verif.Fill.Compose
import Verif.EndToEnd.Intersect
import Verif.Kernels.TriExact
import Verif.EndToEnd.Within
/-!
# C96, C97: from the two input files of meshes to the answers of the joins

Composition of C73 (compression tool, tile file, decoding), C67 (what is filled in for the kernels) and C61 / C68 (the joins).
-/
namespace TDP.FromFiles
open TDP.Codec TDP.Quant TDP.Tile TDP.Bytes TDP.Conc TDP.Conc.Compress TDP.Pipeline TDP.EndToEnd TDP.Kernels TDP.Fill TDP.Boxes TDP.Join

variable {α : Type} [LinearOrder α] [BoundedOrder α]

/-! ### How files, tiles and objects belong together -/

/-- A file left by a finished run of the compression tool on `lines` (compress.cpp:43-99), opened as tile `t` (tile.cpp:24-45). -/
structure Opened (S : Pipeline.Setting) (fc : FloatCode α) (lines : List Input) (file : List Nat) (t : Tile α) : Prop where
  setting : S.Ok
  lines_ok : ∀ i ∈ lines, i.Ok S
  size : file.length < 256 ^ 8
  run : ∃ (vox : Mesh P3 → List (Tile.Voxel α) → Prop) (workers : Nat) (s : St Input Nat workers), (∀ m, ∃ l, vox m l) ∧ 0 < workers ∧
    Reach (Step (toolBytes S fc vox) 0) (start workers lines) s ∧ (∀ t, (s.w t).pc = .done) ∧ s.file = file
  opened : ∃ (disk disk' : Disk) (a b : List Char) (c : Nat), disk (a ++ '.' :: 'd' :: 't' :: b) = some file ∧
    disk (metaPath (a ++ '.' :: 'd' :: 't' :: b)) = none ∧ openTile fc disk (a ++ '.' :: 'd' :: 't' :: b) c = some (t, disk')

/-- Mesh `N` is what the bytes `data` of an object show after requests of which the largest is `lod` (`decode_to`,
SpatialJoin.cpp:450-459, 566-575, 702-709; himesh.cpp:600-640). -/
def Shows (S : Pipeline.Setting) (env : Env P3) (data : List Nat) (lod : Nat) (N : Mesh P3) : Prop :=
  ∃ (o : Codec.Obj P3) (ps : List Nat) (o' : Codec.Obj P3), openObj S.lg (headerGrid S.value) data = some o ∧ (∀ p ∈ ps, p ≤ 100) ∧ ps.foldl max 0 = lod ∧
    Ends (fun n => runObj S.F (headerGrid S.value) env n (ps.map (↑)) o) o' ∧ N = o'.m

/-- The objects a join with triangles works on are those of a tile: same number, and at every level the triangles of the decoded mesh
(`fill_triangles`, himesh.cpp:258-283) in some order of the facets. Boxes and voxels are free. -/
def HeldTri (S : Pipeline.Setting) (env : Env P3) (file : List Nat) (t : Tile α) (lods : List Nat) (objs : List (Object Tri)) : Prop :=
  List.Forall₂ (fun w (a : Object Tri) => a.w.id = w.id ∧ ∀ lod ∈ lods, ∃ N facets, Shows S env (retrieve file w) lod N ∧
    FacetEnum N facets ∧ a.elems lod = triangles Fp.exact N facets) t.objects objs

/-- The same with the segments of `fill_segments` (himesh.cpp:231-255). -/
def HeldSeg (S : Pipeline.Setting) (env : Env P3) (file : List Nat) (t : Tile α) (lods : List Nat) (objs : List (Object Seg)) : Prop :=
  List.Forall₂ (fun w (a : Object Seg) => a.w.id = w.id ∧ ∀ lod ∈ lods, ∃ N edges, Shows S env (retrieve file w) lod N ∧
    EdgeEnum N edges ∧ a.elems lod = segments Fp.exact N edges) t.objects objs

/-! ### What the user sees -/

/-- Half a quantisation step of a mesh: the largest extent of its box over 2^bits, halved. -/
def halfStep (i : Input) : ℚ := maxRange (bbMin i.v i.vs) (bbMax i.v i.vs) / 2 ^ i.hd.quantBits / 2

/-- `K` is the connectivity of the level of detail `lod` (percent) of the mesh on a line. Vertex numbers are those of the
line. At 100 percent it is the connectivity on the line. -/
def LevelOf (S : Pipeline.Setting) (i : Input) (lod : Nat) (K : Mesh P3) : Prop :=
  (∃ L B k, Levels S i L B ∧ k ≤ L.length ∧ Lod.IsLevel S.F L.length lod k ∧ K = lodMesh L B (L.length - k)) ∧
  (lod = 100 → K = i.quantised)

/-- `p` is a point of the triangle of three successive corners of a facet of a level of detail, at the positions the user gave. -/
def OnTriangle (S : Pipeline.Setting) (i : Input) (lod : Nat) (p : P3) : Prop :=
  ∃ K, LevelOf S i lod K ∧ ∃ d ∈ K.darts, ∃ x y z : ℚ, 0 ≤ x ∧ 0 ≤ y ∧ 0 ≤ z ∧ x + y + z = 1 ∧ ∀ j,
    p j = x * i.mesh.pos (K.vert d) j + y * i.mesh.pos (K.vert (K.next d)) j + z * i.mesh.pos (K.vert (K.next (K.next d))) j

/-- `p` is a point of an edge of a level of detail, at the positions the user gave; `collapsed` says that quantisation puts both
ends into one point. -/
def OnEdge (S : Pipeline.Setting) (i : Input) (lod : Nat) (collapsed : Prop) (p : P3) : Prop :=
  ∃ K, LevelOf S i lod K ∧ ∃ d ∈ K.darts, (collapsed ↔ K.pos (K.vert d) = K.pos (K.src d)) ∧
    ∃ x y : ℚ, 0 ≤ x ∧ 0 ≤ y ∧ x + y = 1 ∧ ∀ j, p j = x * i.mesh.pos (K.vert d) j + y * i.mesh.pos (K.src d) j

/-- Which side of the plane through `A`, `B`, `C` (in this order) the point `X` is on: the determinant of `B - A`, `C - A`, `X - A`. -/
def side (A B C X : P3) : ℚ :=
  ((B 1 - A 1) * (C 2 - A 2) - (B 2 - A 2) * (C 1 - A 1)) * (X 0 - A 0) +
  ((B 2 - A 2) * (C 0 - A 0) - (B 0 - A 0) * (C 2 - A 2)) * (X 1 - A 1) +
  ((B 0 - A 0) * (C 1 - A 1) - (B 1 - A 1) * (C 0 - A 0)) * (X 2 - A 2)

/-- `x` is a point of the triangle `A`, `B`, `C`. -/
def Among (A B C x : P3) : Prop := ∃ a b c : ℚ, 0 ≤ a ∧ 0 ≤ b ∧ 0 ≤ c ∧ a + b + c = 1 ∧ ∀ j, x j = a * A j + b * B j + c * C j

/-- Two triangles cross in general position: they have a common point, no corner of the one is in the plane of the other, and the plane of
the first is not vertical (the projection of the triangle to x and y has an area). -/
structure Cross (A B C A' B' C' : P3) : Prop where
  meet : ∃ x, Among A B C x ∧ Among A' B' C' x
  other : side A B C A' ≠ 0 ∧ side A B C B' ≠ 0 ∧ side A B C C' ≠ 0
  one : side A' B' C' A ≠ 0 ∧ side A' B' C' B ≠ 0 ∧ side A' B' C' C ≠ 0
  slope : (B 0 - A 0) * (C 1 - A 1) - (B 1 - A 1) * (C 0 - A 0) ≠ 0

/-! ### Pieces -/

theorem Cross.rot {A B C A' B' C' : P3} (h : Cross A B C A' B' C') : Cross B C A A' B' C' := by
  have e : ∀ X, side B C A X = side A B C X := by intro X; unfold side; ring
  refine ⟨?_, ?_, ⟨h.one.2.1, h.one.2.2, h.one.1⟩, ?_⟩
  · obtain ⟨x, ⟨a, b, c, h1, h2, h3, h4, h5⟩, h6⟩ := h.meet
    exact ⟨x, ⟨b, c, a, h2, h3, h1, by linarith, fun j => by rw [h5 j]; ring⟩, h6⟩
  · rw [e, e, e]; exact h.other
  · intro hz
    apply h.slope
    rw [← hz]; ring

theorem Cross.rot' {A B C A' B' C' : P3} (h : Cross A B C A' B' C') : Cross A B C B' C' A' := by
  have e : ∀ X, side B' C' A' X = side A' B' C' X := by intro X; unfold side; ring
  refine ⟨?_, ⟨h.other.2.1, h.other.2.2, h.other.1⟩, ?_, h.slope⟩
  · obtain ⟨x, h6, ⟨a, b, c, h1, h2, h3, h4, h5⟩⟩ := h.meet
    exact ⟨x, h6, ⟨b, c, a, h2, h3, h1, by linarith, fun j => by rw [h5 j]; ring⟩⟩
  · rw [e, e, e]; exact h.one

theorem side_eq (t : Tri) (X : P3) : offPlane t.C t.P1 t.P2 X = side t.C (vadd t.C t.P1) (vadd t.C t.P2) X := by
  unfold offPlane side vdot vcross vsub vadd; simp only [pt3_0, pt3_1, pt3_2]; ring

theorem vadd_pt (a b : P3) (j : Fin 3) : vadd a b j = a j + b j := by
  unfold vadd
  fin_cases j <;> rfl

theorem inTri_iff (t : Tri) (x : P3) : InTri t.C t.P1 t.P2 x ↔ Among t.C (vadd t.C t.P1) (vadd t.C t.P2) x := by
  constructor
  · rintro ⟨a, b, h1, h2, h3, h4⟩
    exact ⟨1 - a - b, a, b, by linarith, h1, h2, by ring, fun j => by rw [h4 j, vadd_pt, vadd_pt]; ring⟩
  · rintro ⟨a, b, c, h1, h2, h3, h4, h5⟩
    exact ⟨b, c, h2, h3, by linarith, fun j => by
      rw [h5 j, vadd_pt, vadd_pt, show a = 1 - b - c by linarith]; ring⟩

/-- The test finds triangles that cross in general position. -/
theorem hit_of_cross (t t' : Tri) (h : Cross t.C (vadd t.C t.P1) (vadd t.C t.P2) t'.C (vadd t'.C t'.P1) (vadd t'.C t'.P2)) :
    triInt t.C t.P1 t.P2 t'.C t'.P1 t'.P2 = true ∧ TriMeet t.C t.P1 t.P2 t'.C t'.P1 t'.P2 := by
  have hz : vcross t.P1 t.P2 2 ≠ 0 := by
    intro hz
    apply h.slope
    rw [← hz]
    unfold vcross vadd; simp only [pt3_0, pt3_1, pt3_2]; ring
  have h1 : vcross t.P1 t.P2 ≠ 0 := fun e => hz (congrFun e 2)
  have h2 : vcross t'.P1 t'.P2 ≠ 0 := by
    intro e
    apply h.one.1
    rw [← side_eq]
    unfold offPlane
    rw [e]
    unfold vdot
    simp
  have hm : TriMeet t.C t.P1 t.P2 t'.C t'.P1 t'.P2 := by
    obtain ⟨x, a, b⟩ := h.meet
    exact ⟨x, (inTri_iff t x).2 a, (inTri_iff t' x).2 b⟩
  refine ⟨(C38_characterisation h1 h2).2 ⟨hm, ?_⟩, hm⟩
  have o := h.other
  have n := h.one
  rw [← side_eq, ← side_eq, ← side_eq] at o n
  rintro ⟨_, hc | hc | hc | hc⟩
  · exact hz hc
  · exact o.1 hc.1
  · rcases hc with hc | hc
    · exact o.2.1 hc.1
    · exact o.2.2 hc.1
  · exact n.1 hc.1

/-- Corners of a triangle that a mesh has exactly. -/
theorem corners_of_near {Q : Nat → P3} {K : Mesh P3} {d : Nat} {t : Tri} (h : NearTri 0 Q K d t) :
    t.C = Q (K.vert d) ∧ vadd t.C t.P1 = Q (K.vert (K.next d)) ∧ vadd t.C t.P2 = Q (K.vert (K.next (K.next d))) := by
  have key : ∀ x y : ℚ, |x - y| ≤ 0 → x = y := fun x y h => by
    have := abs_nonpos_iff.1 h; linarith
  exact ⟨funext fun j => key _ _ (h j).1, funext fun j => by rw [vadd_pt]; exact key _ _ (h j).2.1,
    funext fun j => by rw [vadd_pt]; exact key _ _ (h j).2.2⟩

theorem level_det {S : Pipeline.Setting} {i : Input} {lod : Nat} {K K' : Mesh P3} (h : LevelOf S i lod K) (h' : LevelOf S i lod K') :
    K = K' := by
  obtain ⟨⟨L, B, k, h1, _, h2, rfl⟩, _⟩ := h
  obtain ⟨⟨L', B', k', h1', _, h2', rfl⟩, _⟩ := h'
  obtain ⟨rfl, rfl⟩ := Prod.mk.inj (Ends.unique h1 h1')
  rw [Lod.level_unique _ _ _ _ _ h2 h2']

theorem opened_spec {S : Pipeline.Setting} {fc : FloatCode α} {lines : List Input} {file : List Nat} {t : Tile α}
    (h : Opened S fc lines file t) : ∃ order : List Input, order.Perm lines ∧ t.objects.length = order.length ∧
      ∀ j (h : j < order.length) (h' : j < t.objects.length), t.objects[j].id = j ∧
        ∀ env', env'.Ok → Decodes S env' order[j] (retrieve file t.objects[j]) := by
  obtain ⟨vox, workers, s, hvox, hw, hr, hd, rfl⟩ := h.run
  obtain ⟨disk, disk', a, b, c, h1, h2, h3⟩ := h.opened
  have hw0 : wanted 0 lines = lines := rfl
  obtain ⟨t', d', order, g1, g2, g3, g4, _⟩ := C73_compress_open_decode S h.setting fc vox hvox workers hw 0 lines
    (by rw [hw0]; exact h.lines_ok) s hr hd h.size disk a b h1 h2 c
  obtain ⟨rfl, rfl⟩ := Prod.mk.inj (Option.some.inj (h3.symm.trans g1))
  exact ⟨order, by rw [hw0] at g2; exact g2, g3, fun j hj hj' => ⟨(g4 j hj hj').1, (g4 j hj hj').2.1⟩⟩

theorem foldl_max_mem : ∀ (ps : List Nat) (a : Nat), ps.foldl max a = a ∨ ps.foldl max a ∈ ps
  | [], _ => Or.inl rfl
  | p :: ps, a => by
      rw [List.foldl_cons]
      rcases foldl_max_mem ps (max a p) with h | h
      · rw [h]
        rcases max_choice a p with h | h <;> rw [h]
        · exact Or.inl rfl
        · exact Or.inr List.mem_cons_self
      · exact Or.inr (List.mem_cons_of_mem _ h)

theorem shows_given {S : Pipeline.Setting} {env : Env P3} {i : Input} {data : List Nat} {lod : Nat} {N : Mesh P3}
    (hd : Decodes S env i data) (h : Shows S env data lod N) :
    ∃ K, LevelOf S i lod K ∧ Given (halfStep i) i.mesh.pos K N ∧ Given 0 K.pos K N := by
  obtain ⟨L, B, hL, h0, o, ho, hall⟩ := hd
  obtain ⟨o2, ps, o', ho2, hps, rfl, hrun, rfl⟩ := h
  obtain rfl := Option.some.inj (ho2.symm.trans ho)
  obtain ⟨k, o3, ψ, e1, e2, e3, e4, e5, e6, e7, e8⟩ := hall ps hps
  obtain rfl := Ends.unique hrun e1
  refine ⟨lodMesh L B (L.length - k), ⟨⟨L, B, k, hL, e2, e3, rfl⟩, ?_⟩, given_of_iso e4.h e6 e5 e7,
    given_of_iso e4.h e6 e5 (fun d hd j => by rw [e5.pos d hd, sub_self, abs_zero])⟩
  intro h100
  rcases foldl_max_mem ps 0 with h | h
  · omega
  · rw [h100] at h
    rw [(e8 h).1, Nat.sub_self, h0]

theorem tri_point {h : ℚ} {Q : Nat → P3} {K : Mesh P3} {d : Nat} {t : Tri} (hn : NearTri h Q K d t) {x : P3}
    (hx : InTri t.C t.P1 t.P2 x) : ∃ a b c : ℚ, 0 ≤ a ∧ 0 ≤ b ∧ 0 ≤ c ∧ a + b + c = 1 ∧ ∀ j,
      |x j - (a * Q (K.vert d) j + b * Q (K.vert (K.next d)) j + c * Q (K.vert (K.next (K.next d))) j)| ≤ h := by
  obtain ⟨a, b, ha, hb, hab, hx⟩ := hx
  refine ⟨1 - a - b, a, b, by linarith, ha, hb, by ring, ?_⟩
  intro j
  obtain ⟨h1, h2, h3⟩ := hn j
  rw [abs_le] at h1 h2 h3 ⊢
  rw [hx j]
  have hc : 0 ≤ 1 - a - b := by linarith
  constructor
  · nlinarith [mul_le_mul_of_nonneg_left h1.1 hc, mul_le_mul_of_nonneg_left h2.1 ha, mul_le_mul_of_nonneg_left h3.1 hb]
  · nlinarith [mul_le_mul_of_nonneg_left h1.2 hc, mul_le_mul_of_nonneg_left h2.2 ha, mul_le_mul_of_nonneg_left h3.2 hb]

theorem seg_point {h : ℚ} {Q : Nat → P3} {K : Mesh P3} {d : Nat} {s : Seg} (hn : NearSeg h Q K d s) {x : ℚ} (h0 : 0 ≤ x) (h1 : x ≤ 1) :
    ∀ j, |s.pt x j - ((1 - x) * Q (K.vert d) j + x * Q (K.src d) j)| ≤
      h + (if K.pos (K.vert d) = K.pos (K.src d) then 1 / 10 else 0) := by
  intro j
  obtain ⟨a1, a2⟩ := hn j
  have he : (0 : ℚ) ≤ (if K.pos (K.vert d) = K.pos (K.src d) then 1 / 10 else 0) := by split <;> norm_num
  generalize (if K.pos (K.vert d) = K.pos (K.src d) then (1 / 10 : ℚ) else 0) = e at *
  rw [abs_le] at a1 a2 ⊢
  have hc : 0 ≤ 1 - x := by linarith
  show -(h + e) ≤ s.p j + x * (s.q j - s.p j) - _ ∧ s.p j + x * (s.q j - s.p j) - _ ≤ h + e
  constructor
  · nlinarith [mul_le_mul_of_nonneg_left a1.1 hc, mul_le_mul_of_nonneg_left a2.1 h0, mul_nonneg hc he]
  · nlinarith [mul_le_mul_of_nonneg_left a1.2 hc, mul_le_mul_of_nonneg_left a2.2 h0, mul_nonneg hc he]

theorem forall₂_index {A B : Type} {R : A → B → Prop} {l : List A} {l' : List B} (h : List.Forall₂ R l l') {b : B} (hb : b ∈ l') :
    ∃ (j : Nat) (hj : j < l.length), l'[j]? = some b ∧ R l[j] b := by
  obtain ⟨j, hj, rfl⟩ := List.getElem_of_mem hb
  have hl := h.length_eq
  exact ⟨j, by omega, List.getElem?_eq_getElem hj, h.get (by omega) hj⟩

omit [LinearOrder α] [BoundedOrder α] in
theorem heldTri_spec {S : Pipeline.Setting} {file : List Nat} {t : Tile α} {env : Env P3}
    (he : env.Ok) {lods : List Nat} {objs : List (Object Tri)} {order : List Input} (hlen : t.objects.length = order.length)
    (hord : ∀ j (h : j < order.length) (h' : j < t.objects.length), t.objects[j].id = j ∧
        ∀ env', env'.Ok → Decodes S env' order[j] (retrieve file t.objects[j]))
    (hh : HeldTri S env file t lods objs) {a : Object Tri} (ha : a ∈ objs) :
    ∃ (j : Nat) (i : Input), a.w.id = j ∧ objs[j]? = some a ∧ order[j]? = some i ∧ ∀ lod ∈ lods,
      (∀ u ∈ a.elems lod, ∀ x, InTri u.C u.P1 u.P2 x → ∃ p, OnTriangle S i lod p ∧ ∀ y, |x y - p y| ≤ halfStep i) ∧
      ∀ K, LevelOf S i lod K → ∀ d ∈ K.darts, K.next (K.next (K.next d)) = d → ∃ u ∈ a.elems lod,
        NearTri 0 K.pos K d u ∨ NearTri 0 K.pos K (K.next d) u ∨ NearTri 0 K.pos K (K.next (K.next d)) u := by
  obtain ⟨j, hj, hja, hid, hl⟩ := forall₂_index hh ha
  have hj' : j < order.length := by omega
  obtain ⟨e1, e2⟩ := hord j hj' hj
  refine ⟨j, order[j], by rw [hid, e1], hja, List.getElem?_eq_getElem hj', ?_⟩
  intro lod hlod
  obtain ⟨N, facets, s1, s2, s3⟩ := hl lod hlod
  obtain ⟨K, k1, k2, k2'⟩ := shows_given (e2 env he) s1
  constructor
  · intro u hu x hx
    rw [s3] at hu
    obtain ⟨d, hd, hn⟩ := (k2.tris facets s2).2.2 u hu
    obtain ⟨a, b, c, q1, q2, q3, q4, q5⟩ := tri_point hn hx
    exact ⟨_, ⟨K, k1, d, hd, a, b, c, q1, q2, q3, q4, fun _ => rfl⟩, q5⟩
  · intro K' k1' d hd h3
    obtain rfl := level_det k1 k1'
    rw [s3]
    exact (k2'.tris facets s2).2.1 d hd h3

omit [LinearOrder α] [BoundedOrder α] in
theorem heldSeg_spec {S : Pipeline.Setting} {file : List Nat} {t : Tile α} {env : Env P3}
    (he : env.Ok) {lods : List Nat} {objs : List (Object Seg)} {order : List Input} (hlen : t.objects.length = order.length)
    (hord : ∀ j (h : j < order.length) (h' : j < t.objects.length), t.objects[j].id = j ∧
        ∀ env', env'.Ok → Decodes S env' order[j] (retrieve file t.objects[j]))
    (hh : HeldSeg S env file t lods objs) {a : Object Seg} (ha : a ∈ objs) :
    ∃ (j : Nat) (i : Input), a.w.id = j ∧ order[j]? = some i ∧ ∀ lod ∈ lods, ∀ u ∈ a.elems lod, u.p ≠ u.q ∧ ∀ x, 0 ≤ x → x ≤ 1 →
      ∃ p c, OnEdge S i lod c p ∧ ∀ y, |u.pt x y - p y| ≤ halfStep i + (open Classical in if c then 1 / 10 else 0) := by
  obtain ⟨j, hj, _, hid, hl⟩ := forall₂_index hh ha
  have hj' : j < order.length := by omega
  obtain ⟨e1, e2⟩ := hord j hj' hj
  refine ⟨j, order[j], by rw [hid, e1], List.getElem?_eq_getElem hj', ?_⟩
  intro lod hlod u hu
  obtain ⟨N, edges, s1, s2, s3⟩ := hl lod hlod
  obtain ⟨K, k1, k2, _⟩ := shows_given (e2 env he) s1
  rw [s3] at hu
  obtain ⟨hne, d, hd, hn⟩ := (k2.segs edges s2).2.2 u hu
  refine ⟨hne, ?_⟩
  intro x h0 h1
  have hs := seg_point hn h0 h1
  refine ⟨_, K.pos (K.vert d) = K.pos (K.src d), ⟨K, k1, d, hd, Iff.rfl, 1 - x, x, by linarith, h0, by ring, fun _ => rfl⟩, ?_⟩
  intro y
  refine (hs y).trans (le_of_eq ?_)
  congr 1
  by_cases hc : K.pos (K.vert d) = K.pos (K.src d)
  · rw [if_pos hc, if_pos hc]
  · rw [if_neg hc, if_neg hc]

/-- The numbers of the objects of a tile and the lines: object `j` is compressed from line number `j` of `order` and shows it at every level. -/
def Numbered (S : Pipeline.Setting) (file : List Nat) (t : Tile α) (order : List Input) : Prop :=
  t.objects.length = order.length ∧ ∀ j (h : j < order.length) (h' : j < t.objects.length), t.objects[j].id = j ∧
    ∀ env, env.Ok → Decodes S env order[j] (retrieve file t.objects[j])

/-! ### The intersection join -/

/-- **C96.** Compress two files of meshes (each with any number of workers, any schedule), open what the tool leaves as two tiles, and run
the intersection join on them at any levels of detail, on a GPU or with any number of threads, under any schedule. The objects of each
tile are the lines of its file in some order (which gives their numbers), and for every such order:
- If the join takes object number `j` off its list of undecided objects, there are an object number `j'` of the second tile, not the same
  object in memory, and a requested level at which a triangle of mesh `j` comes within the sum of the two half quantisation steps (per
  axis) of a triangle of mesh `j'`, at the positions the user gave, provided that the decoded triangles of mesh `j` are not degenerate.
- On a GPU or with one thread: if at a requested level a triangular facet of mesh `j` and one of mesh `j'` cross in general position (at
  the quantised positions), their objects are not the same in memory and their boxes meet, and the boxes of voxels meet where
  triangles held in them meet, then the join does not leave object `j` undecided. -/
theorem C96_files_to_intersections {S1 S2 : Pipeline.Setting} {fc1 fc2 : FloatCode α} {lines1 lines2 : List Input}
    {file1 file2 : List Nat} {t1 t2 : Tile α} (h1 : Opened S1 fc1 lines1 file1 t1) (h2 : Opened S2 fc2 lines2 file2 t2)
    {env : Env P3} (he : env.Ok) {lods : List Nat} {tile1 : List (Object Tri)} {o : Object Tri} {os : List (Object Tri)}
    (ho1 : HeldTri S1 env file1 t1 lods tile1) (ho2 : HeldTri S2 env file2 t2 lods (o :: os))
    {dist : Pt ℚ → Pt ℚ → WithTop ℚ} {heap : Nat → Join.Voxel → List Tri} {tile2 : Int → Join.Wrapper} {vs : List Join.Voxel}
    (hs : EndToEnd.Setting 9 dist Tri.C heap tile1 o os tile2 lods vs) {cfg : EndToEnd.Cfg} {mid : ℚ → ℚ → ℚ} {start final : List Entry}
    (h : IntersectJoin cfg mid heap tile1 o os tile2 lods start final) :
    final.Sublist start ∧
    (∃ order1 order2 : List Input, order1.Perm lines1 ∧ order2.Perm lines2 ∧ Numbered S1 file1 t1 order1 ∧ Numbered S2 file2 t2 order2) ∧
    ∀ order1 order2 : List Input, Numbered S1 file1 t1 order1 → Numbered S2 file2 t2 order2 →
      (∀ e ∈ start, e ∉ final → ∃ (j : Nat) (i : Input), e.mesh.id = j ∧ order1[j]? = some i ∧
        ∃ a ∈ tile1, e.mesh = a.w ∧ ∃ lod ∈ lods, ∃ b ∈ o :: os, b.ptr ≠ a.ptr ∧ ∃ (j' : Nat) (i' : Input), b.w.id = j' ∧
          order2[j']? = some i' ∧ ((∀ u ∈ a.elems lod, vcross u.P1 u.P2 ≠ 0) →
            ∃ p p', OnTriangle S1 i lod p ∧ OnTriangle S2 i' lod p' ∧ ∀ x, |p x - p' x| ≤ halfStep i + halfStep i')) ∧
      (cfg = .gpu ∨ cfg = .cpu 1 → ∀ a ∈ tile1, ∀ b ∈ o :: os, b.ptr ≠ a.ptr → b.w.box.intersect a.w.box = true → ∀ lod ∈ lods,
        (∀ v1 ∈ a.w.voxels, ∀ v2 ∈ b.w.voxels, ∀ u ∈ heap lod v1, ∀ u' ∈ heap lod v2,
          TriMeet u.C u.P1 u.P2 u'.C u'.P1 u'.P2 → v1.box.intersect v2.box = true) →
        ∀ (j j' : Nat) (i i' : Input), a.w.id = j → b.w.id = j' → order1[j]? = some i → order2[j']? = some i' →
        ∀ K K', LevelOf S1 i lod K → LevelOf S2 i' lod K' → ∀ d ∈ K.darts, ∀ d' ∈ K'.darts,
          K.next (K.next (K.next d)) = d → K'.next (K'.next (K'.next d')) = d' →
          Cross (K.pos (K.vert d)) (K.pos (K.vert (K.next d))) (K.pos (K.vert (K.next (K.next d))))
            (K'.pos (K'.vert d')) (K'.pos (K'.vert (K'.next d'))) (K'.pos (K'.vert (K'.next (K'.next d')))) →
          ∀ e ∈ final, e.mesh.id ≠ j) := by
  obtain ⟨c1, c2⟩ := C61_decided_means_hit hs h
  obtain ⟨order1, p1, l1, d1⟩ := opened_spec h1
  obtain ⟨order2, p2, l2, d2⟩ := opened_spec h2
  refine ⟨c1, ⟨order1, order2, p1, p2, ⟨l1, d1⟩, l2, d2⟩, ?_⟩
  clear p1 l1 d1 p2 l2 d2 order1 order2
  rintro order1 order2 ⟨l1, d1⟩ ⟨l2, d2⟩
  refine ⟨?_, ?_⟩
  · intro e hes hef
    obtain ⟨a, ha, hea, hx⟩ := c2 e hes
    obtain ⟨lod, hl, b, hb, hp, _, u1, hu1, u2, hu2, _, hm⟩ := hx hef
    obtain ⟨j, i, j1, _, j2, j3⟩ := heldTri_spec he l1 d1 ho1 ha
    obtain ⟨j', i', k1, _, k2, k3⟩ := heldTri_spec he l2 d2 ho2 hb
    refine ⟨j, i, by rw [hea, j1], j2, a, ha, hea, lod, hl, b, hb, hp, j', i', k1, k2, ?_⟩
    intro hnd
    obtain ⟨x, x1, x2⟩ := hm (hnd u1 hu1)
    obtain ⟨p, q1, q2⟩ := (j3 lod hl).1 u1 hu1 x x1
    obtain ⟨p', r1, r2⟩ := (k3 lod hl).1 u2 hu2 x x2
    refine ⟨p, p', q1, r1, ?_⟩
    intro y
    have h1 := q2 y
    have h2 := r2 y
    rw [abs_le] at h1 h2 ⊢
    constructor <;> linarith [h1.1, h1.2, h2.1, h2.2]
  · intro hcfg a ha b hb hp hbox lod hl hvox j j' i i' hj hj' hi hi' K K' hK hK' d hd d' hd' hd3 hd3' hc
    have hinj : ∀ a ∈ tile1, ∀ a' ∈ tile1, a.w.id = a'.w.id → a = a' := by
      intro a ha a' ha' hw
      obtain ⟨n, _, n1, n2, _⟩ := heldTri_spec he l1 d1 ho1 ha
      obtain ⟨n', _, m1, m2, _⟩ := heldTri_spec he l1 d1 ho1 ha'
      have : n = n' := by rw [n1, m1] at hw; exact_mod_cast hw
      subst this
      exact Option.some.inj (n2.symm.trans m2)
    obtain ⟨n, i0, j1, _, j2, j3⟩ := heldTri_spec he l1 d1 ho1 ha
    obtain ⟨n', i0', k1, _, k2, k3⟩ := heldTri_spec he l2 d2 ho2 hb
    obtain rfl : n = j := by rw [j1] at hj; exact_mod_cast hj
    obtain rfl : n' = j' := by rw [k1] at hj'; exact_mod_cast hj'
    obtain rfl := Option.some.inj (j2.symm.trans hi)
    obtain rfl := Option.some.inj (k2.symm.trans hi')
    obtain ⟨u, hu, hcu⟩ := (j3 lod hl).2 K hK d hd hd3
    obtain ⟨u', hu', hcu'⟩ := (k3 lod hl).2 K' hK' d' hd' hd3'
    have hx : Cross u.C (vadd u.C u.P1) (vadd u.C u.P2) u'.C (vadd u'.C u'.P1) (vadd u'.C u'.P2) := by
      have g : Cross u.C (vadd u.C u.P1) (vadd u.C u.P2) (K'.pos (K'.vert d')) (K'.pos (K'.vert (K'.next d')))
          (K'.pos (K'.vert (K'.next (K'.next d')))) := by
        rcases hcu with g | g | g
        · obtain ⟨g1, g2, g3⟩ := corners_of_near g
          rw [g2, g3, g1] ; exact hc
        · obtain ⟨g1, g2, g3⟩ := corners_of_near g
          rw [hd3] at g3
          rw [g2, g3, g1] ; exact hc.rot
        · obtain ⟨g1, g2, g3⟩ := corners_of_near g
          rw [hd3] at g2 g3
          rw [g2, g3, g1] ; exact hc.rot.rot
      rcases hcu' with f | f | f
      · obtain ⟨g1, g2, g3⟩ := corners_of_near f
        rw [g2, g3, g1] ; exact g
      · obtain ⟨g1, g2, g3⟩ := corners_of_near f
        rw [hd3'] at g3
        rw [g2, g3, g1] ; exact g.rot'
      · obtain ⟨g1, g2, g3⟩ := corners_of_near f
        rw [hd3'] at g2 g3
        rw [g2, g3, g1] ; exact g.rot'.rot'
    obtain ⟨hhit, hmeet⟩ := hit_of_cross u u' hx
    have := C62_hit_is_decided_partial hcfg hs h (fun a ha a' ha' hw => hinj a ha a' ha' (by rw [hw])) a ha b hb hp hbox lod hl u hu u' hu'
      (fun v1 m1 v2 m2 n1 n2 => hvox v1 m1 v2 m2 u n1 u' n2 hmeet) hhit
    intro e hef hid
    obtain ⟨a', ha', hea, _⟩ := c2 e (c1.subset hef)
    have : a' = a := hinj a' ha' a ha (by rw [← hea, hid, j1])
    exact ‹∀ e ∈ final, e.mesh ≠ a.w› e hef (by rw [hea, this])

/-- **C97 (partial).** The same for the within join without a GPU: if object number `j` is taken off the list (and no candidate but the last of
an entry is within the limit, see C40), there are an object number `j'` of the second tile, not the same object in memory, and two points whose squared distance
is below the limit, each at most half a quantisation step per axis (and 0.1 more, if quantisation made a point of the edge) from a point
of an edge of the mesh on the line of `j` and `j'`, at a requested level and at the positions the user gave.
Missing: as for C68. -/
theorem C97_files_to_within_partial {S1 S2 : Pipeline.Setting} {fc1 fc2 : FloatCode α} {lines1 lines2 : List Input}
    {file1 file2 : List Nat} {t1 t2 : Tile α} (h1 : Opened S1 fc1 lines1 file1 t1) (h2 : Opened S2 fc2 lines2 file2 t2)
    {env : Env P3} (he : env.Ok) {lods : List Nat} {tile1 : List (Object Seg)} {o : Object Seg} {os : List (Object Seg)}
    (ho1 : HeldSeg S1 env file1 t1 lods tile1) (ho2 : HeldSeg S2 env file2 t2 lods (o :: os))
    {dist : Pt ℚ → Pt ℚ → WithTop ℚ} {heap : Nat → Join.Voxel → List Seg} {tile2 : Int → Join.Wrapper} {vs : List Join.Voxel}
    (hs : EndToEnd.Setting 6 dist Seg.p heap tile1 o os tile2 lods vs)
    (hlen : ∀ lod ∈ lods, ∀ v ∈ vs, (heap lod v).length ≤ 10000)
    {threads : Nat} (ht : 1 ≤ threads) {D : ℚ} {mid : ℚ → ℚ → ℚ} {start final : List Entry}
    (h : WithinJoin (.cpu threads) mid heap D tile1 o os tile2 lods start final)
    (hlast : ∀ e ∈ start, ∀ c ∈ e.cands.dropLast, ∀ x ∈ c.pairs, ∀ lod ∈ lods, ¬ Closer D (heap lod x.v1) (heap lod x.v2)) :
    (∃ order1 order2 : List Input, order1.Perm lines1 ∧ order2.Perm lines2 ∧ Numbered S1 file1 t1 order1 ∧ Numbered S2 file2 t2 order2) ∧
    ∀ order1 order2 : List Input, Numbered S1 file1 t1 order1 → Numbered S2 file2 t2 order2 →
      ∀ e ∈ start, (∀ e' ∈ final, e'.mesh ≠ e.mesh) → ∃ (j : Nat) (i : Input), e.mesh.id = j ∧ order1[j]? = some i ∧
        ∃ a ∈ tile1, e.mesh = a.w ∧ ∃ b ∈ o :: os, b.ptr ≠ a.ptr ∧ ∃ (j' : Nat) (i' : Input), b.w.id = j' ∧ order2[j']? = some i' ∧
          ∃ lod ∈ lods, ∃ x x' p p' c c', dist2 x x' < D ∧ OnEdge S1 i lod c p ∧ OnEdge S2 i' lod c' p' ∧
            (∀ y, |x y - p y| ≤ halfStep i + (open Classical in if c then 1 / 10 else 0)) ∧
            (∀ y, |x' y - p' y| ≤ halfStep i' + (open Classical in if c' then 1 / 10 else 0)) := by
  obtain ⟨order1, p1, l1, d1⟩ := opened_spec h1
  obtain ⟨order2, p2, l2, d2⟩ := opened_spec h2
  have hnd : ∀ lod ∈ lods, ∀ x ∈ tile1 ++ (o :: os), ∀ s ∈ x.elems lod, s.p ≠ s.q := by
    intro lod hl x hx s hs
    rcases List.mem_append.1 hx with hx | hx
    · obtain ⟨j, i, j1, j2, j3⟩ := heldSeg_spec he l1 d1 ho1 hx
      exact (j3 lod hl s hs).1
    · obtain ⟨j, i, j1, j2, j3⟩ := heldSeg_spec he l2 d2 ho2 hx
      exact (j3 lod hl s hs).1
  obtain ⟨_, c2, _⟩ := C68_within_partial ht hs hnd hlen h hlast
  refine ⟨⟨order1, order2, p1, p2, ⟨l1, d1⟩, l2, d2⟩, ?_⟩
  clear p1 l1 d1 p2 l2 d2 order1 order2
  rintro order1 order2 ⟨l1, d1⟩ ⟨l2, d2⟩
  intro e hes hef
  obtain ⟨a, ha, hea, b, hb, hp, lod, hl, s, hs1, t, ht1, v, hv, _, x, y, x0, x1, y0, y1, hat⟩ := c2 e hes hef
  obtain ⟨j, i, j1, j2, j3⟩ := heldSeg_spec he l1 d1 ho1 ha
  obtain ⟨j', i', k1, k2, k3⟩ := heldSeg_spec he l2 d2 ho2 hb
  obtain ⟨p, c, q1, q2⟩ := (j3 lod hl s hs1).2 x x0 x1
  obtain ⟨p', c', r1, r2⟩ := (k3 lod hl t ht1).2 y y0 y1
  exact ⟨j, i, by rw [hea, j1], j2, a, ha, hea, b, hb, hp, j', i', k1, k2, lod, hl, s.pt x, t.pt y, p, p', c, c',
    by rw [← hat]; exact hv, q1, r1, q2, r2⟩

end TDP.FromFiles
