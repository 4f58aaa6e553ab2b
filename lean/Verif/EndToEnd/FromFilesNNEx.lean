import Verif.EndToEnd.FromFilesNN
/-! Files that meet the hypotheses of C109: an octahedron in the first; in the second one near it and one far away. -/
namespace TDP.FromFiles.ExN
open TDP.Codec TDP.Quant TDP.Tile TDP.Bytes TDP.Conc TDP.Conc.Compress TDP.Pipeline TDP.EndToEnd TDP.Kernels TDP.Fill TDP.Boxes TDP.Join
open TDP.FromFiles.Ex

/-! The second file. -/
def pos3 (n : Nat) : P3 := fun i => octPos n i + 100
def value3 (n : Nat) : ℚ := if n = 4 then 99 else value2 n
def in3 : Input :=
  { mesh := octahedron pos3, first := 0, v := pos3 0, vs := [pos3 1, pos3 2, pos3 3, pos3 4, pos3 5], hd := ⟨4, 4, 4, 0, 12⟩ }
def set3 : Pipeline.Setting := { exSetting with value := value3 }
theorem set3_ok : set3.Ok := ⟨exSetting_ok.lg, sampleEnv_ok, sampleEnv_ok⟩

theorem box3 : bbMin (pos3 0) [pos3 1, pos3 2, pos3 3, pos3 4, pos3 5] = (fun _ => 99) ∧
    bbMax (pos3 0) [pos3 1, pos3 2, pos3 3, pos3 4, pos3 5] = fun _ => 101 := by
  constructor <;> funext i <;> rcases (by omega : i = 0 ∨ i = 1 ∨ i = 2) with rfl | rfl | rfl <;> decide +kernel

theorem levels23 : (compressLevels (headerGrid set3.value in2.hd).geo set3.convex set3.enc.init set3.enc.hit
      (in2.quantised.src in2.first) (in2.quantised.vert in2.first) 100 100 in2.quantised).map
      (fun r => (r.1.length, (set3.enc.vorder r.2).length, (set3.enc.gates r.2).length)) = some (3, 3, 2) := by decide +kernel
theorem levels3 : (compressLevels (headerGrid set3.value in3.hd).geo set3.convex set3.enc.init set3.enc.hit
      (in3.quantised.src in3.first) (in3.quantised.vert in3.first) 100 100 in3.quantised).map
      (fun r => (r.1.length, (set3.enc.vorder r.2).length, (set3.enc.gates r.2).length)) = some (3, 3, 2) := by decide +kernel

theorem fits_of {S : Pipeline.Setting} {i : Input} (h : (compressLevels (headerGrid S.value i.hd).geo S.convex S.enc.init S.enc.hit
      (i.quantised.src i.first) (i.quantised.vert i.first) 100 100 i.quantised).map
      (fun r => (r.1.length, (S.enc.vorder r.2).length, (S.enc.gates r.2).length)) = some (3, 3, 2))
    {L : List (Mesh P3 × LevelSyms Blocks.Vec)} {B : Mesh P3} (hN : Levels S i L B) :
    L.length = 3 ∧ (S.enc.vorder B).length = 3 ∧ (S.enc.gates B).length = 2 := by
  obtain ⟨N, hN⟩ := hN
  obtain ⟨x, hx⟩ : ∃ x, compressLevels (headerGrid S.value i.hd).geo S.convex S.enc.init S.enc.hit
      (i.quantised.src i.first) (i.quantised.vert i.first) 100 100 i.quantised = some x := by
    cases hc : compressLevels (headerGrid S.value i.hd).geo S.convex S.enc.init S.enc.hit
      (i.quantised.src i.first) (i.quantised.vert i.first) 100 100 i.quantised with
    | none => rw [hc] at h; simp at h
    | some x => exact ⟨x, rfl⟩
  rw [hx] at h
  have h2 := compressLevels_mono (le_max_right N 100) 100 (le_max_right N 100) hx
  have h3 := hN (max N 100) (le_max_left _ _)
  obtain rfl := Option.some.inj (h3.symm.trans h2)
  simpa only [Option.map_some, Option.some.injEq, Prod.mk.injEq] using h

theorem in2_ok3 : in2.Ok set3 where
  wf := in2_ok.wf
  sep := in2_ok.sep
  conn := in2_ok.conn
  deg := in2_ok.deg
  pos := in2_ok.pos
  range := in2_ok.range
  bb := by simp only [in2]; rw [box2.1]; decide +kernel
  step := by simp only [in2]; rw [box2.1, box2.2]; decide +kernel
  floats := by decide
  bits := by decide
  fits := by
    intro L B hN
    obtain ⟨h1, h2, h3⟩ := fits_of levels23 hN
    rw [h1, h2, h3]
    exact ⟨by omega, by omega, by omega, by omega, by change _ ≤ 1000; omega⟩

theorem in3_ok : in3.Ok set3 where
  wf := (octahedron_ok pos3).1
  sep := (octahedron_ok pos3).2.1
  conn := (octahedron_ok pos3).2.2
  deg := by
    have : ∀ d ∈ (octahedron (fun _ => ())).darts, (octahedron (fun _ => ())).deg d ≤ 10 := by decide +kernel
    exact this
  pos := by
    have : ∀ d ∈ Finset.range 24, octVert.getD d 0 < 6 := by decide
    intro d hd
    have h := this d hd
    change pos3 (octVert.getD d 0) ∈ _
    rcases (by omega : octVert.getD d 0 = 0 ∨ octVert.getD d 0 = 1 ∨ octVert.getD d 0 = 2 ∨ octVert.getD d 0 = 3 ∨
      octVert.getD d 0 = 4 ∨ octVert.getD d 0 = 5) with e | e | e | e | e | e <;> rw [e] <;> simp [in3]
  range := by change 0 < maxRange (bbMin _ _) (bbMax _ _); rw [in3, box3.1, box3.2]; decide +kernel
  bb := by simp only [in3]; rw [box3.1]; decide +kernel
  step := by simp only [in3]; rw [box3.1, box3.2]; decide +kernel
  floats := by decide
  bits := by decide
  fits := by
    intro L B hN
    obtain ⟨h1, h2, h3⟩ := fits_of levels3 hN
    rw [h1, h2, h3]
    exact ⟨by omega, by omega, by omega, by omega, by change _ ≤ 1000; omega⟩

theorem data23 : ∃ data, Ends (fun n => compress set3.lg set3.size (headerGrid set3.value) set3.convex set3.enc n
    in2.hd in2.quantised in2.first) data ∧ data.length ≤ 1000 :=
  data_exists _ set3_ok _ in2_ok3 (by decide +kernel)
theorem data3 : ∃ data, Ends (fun n => compress set3.lg set3.size (headerGrid set3.value) set3.convex set3.enc n
    in3.hd in3.quantised in3.first) data ∧ data.length ≤ 1000 :=
  data_exists _ set3_ok _ in3_ok (by decide +kernel)

/-- Whatever the tool leaves for some lines can be opened, if the compressed objects are short and few. -/
theorem opened_exists_lines (S : Pipeline.Setting) (hS : S.Ok) {α : Type} [LinearOrder α] [BoundedOrder α] (fc : FloatCode α) (lines : List Input)
    (hi : ∀ i ∈ lines, i.Ok S) (hdata : ∀ i ∈ lines, ∃ data,
      Ends (fun n => compress S.lg S.size (headerGrid S.value) S.convex S.enc n i.hd i.quantised i.first) data ∧ data.length ≤ 1000)
    (hn : lines.length ≤ 1000) : ∃ file, ∃ t : Tile α, Opened S fc lines file t := by
  let vox : Mesh P3 → List (Tile.Voxel α) → Prop := fun _ l => l.length = 1
  have hvox : ∀ m, ∃ l, vox m l := fun _ => ⟨[⟨⟨fun _ => ⊥, fun _ => ⊤⟩, fun _ => ⊥⟩], rfl⟩
  have hw : wanted 0 lines = lines := rfl
  have hok : ∀ j ∈ wanted 0 lines, j.Ok S := by rw [hw]; exact hi
  obtain ⟨s, hr, hd⟩ := C73_can_finish S hS fc vox hvox 2 (by decide) 0 lines hok _ .init
  have hlen : s.file.length < 256 ^ 8 := by
    obtain ⟨recs, r1, r2, r3⟩ := C47_every_line_once (by decide) _ 0 lines s hr hd
    rw [hw] at r2
    have hx : ∀ x ∈ recs, x.2.length ≤ 1052 := by
      intro x hxm
      obtain ⟨r, ⟨data', o, o', a1, a2, a3, a4, a5⟩, hb⟩ := r3 x hxm
      obtain ⟨data, e1, e2⟩ := hdata x.1 (r2.mem_iff.1 (List.mem_map_of_mem hxm))
      obtain rfl := Ends.unique a1 e1
      have hl : r.data.length ≤ 1000 := by rw [a4, List.length_take]; omega
      have hv : r.voxels.length = 1 := a5
      rw [hb]
      have : (putRecord fc r).length = 8 + r.data.length + (8 + 36 * r.voxels.length) := by
        simp only [putRecord, List.length_append, Bytes.put_length, putVoxels_length]; omega
      rw [this, hv]; omega
    have hsum : ∀ l : List (Input × List Nat), (∀ x ∈ l, x.2.length ≤ 1052) → (l.map Prod.snd).flatten.length ≤ 1052 * l.length := by
      intro l
      induction l with
      | nil => intro _; simp
      | cons x l ih =>
        intro h
        have h1 := ih (fun y hy => h y (List.mem_cons_of_mem _ hy))
        have h2 := h x List.mem_cons_self
        simp only [List.map_cons, List.flatten_cons, List.length_append, List.length_cons]
        omega
    have hl : recs.length = lines.length := by have := r2.length_eq; simpa using this
    rw [r1]
    have := hsum recs hx
    refine lt_of_le_of_lt this ?_
    rw [hl]
    omega
  let disk : Disk := fun p => if p = ['a', '.', 'd', 't'] then some s.file else none
  have hdt : disk (['a'] ++ '.' :: 'd' :: 't' :: []) = some s.file := if_pos rfl
  have hmt : disk (metaPath (['a'] ++ '.' :: 'd' :: 't' :: [])) = none := if_neg (by decide)
  obtain ⟨t, disk', _, g, _⟩ := C73_compress_open_decode S hS fc vox hvox 2 (by decide) 0 lines hok s hr hd hlen disk ['a'] [] hdt hmt 100
  exact ⟨s.file, t, hS, hi, hlen, ⟨vox, 2, s, hvox, by decide, hr, hd, rfl⟩, ⟨disk, disk', ['a'], [], 100, hdt, hmt, g⟩⟩

/-- What the object at place `j` of a tile shows at 100 percent: half as many segments as the mesh on its line has halfedges, and for each halfedge
one with its ends (or the ends of its opposite). -/
theorem segs_exist {S : Pipeline.Setting} {α : Type} {file : List Nat} {w : Tile.Wrapper α} {i : Input}
    (hd : Decodes S sampleEnv i (retrieve file w)) : ∃ ts : List Seg, 2 * ts.length = i.mesh.darts.card ∧
      (∃ N edges, Shows S sampleEnv (retrieve file w) 100 N ∧ EdgeEnum N edges ∧ ts = segments Fp.exact N edges) ∧
      LevelOf S i 100 i.quantised ∧
      ∀ d ∈ i.quantised.darts, ∃ s ∈ ts, NearSeg 0 i.quantised.pos i.quantised d s ∨ NearSeg 0 i.quantised.pos i.quantised (i.quantised.opp d) s := by
  have hd' := hd
  obtain ⟨L, B, hL, h0, o, ho, hall⟩ := hd'
  obtain ⟨k, o', ψ, f1, _, _, _, _, fw, _⟩ := hall [100] (by simp)
  have hs : Shows S sampleEnv (retrieve file w) 100 o'.m := ⟨o, [100], o', ho, by simp, rfl, f1, rfl⟩
  obtain ⟨edges, hf⟩ := edgeEnum_exists o'.m fw
  obtain ⟨K, k1, k2, k3⟩ := shows_given hd hs
  have hK := k1.2 rfl
  subst hK
  refine ⟨segments Fp.exact o'.m edges, ?_, ⟨o'.m, edges, hs, hf, rfl⟩, k1, (k3.segs edges hf).2.1⟩
  rw [← (k2.segs edges hf).1]
  rfl

/-! The objects. -/
def bc : Box ℚ := ⟨fun _ => 98, fun _ => 102⟩
def wc : Join.Voxel := ⟨300, bc⟩
def nb (id : Int) (ts : List Seg) : Object Seg := ⟨2, ⟨id, bb, [wb]⟩, [fun _ => 1], fun _ => ts⟩
def nc (id : Int) (ts : List Seg) : Object Seg := ⟨3, ⟨id, bc, [wc]⟩, [fun _ => 1], fun _ => ts⟩
def tileN (k : Int) (i : Int) : Wrapper := if i = k then ⟨i, bb, [wb]⟩ else ⟨i, bc, [wc]⟩
def heapN (ts tb tc : List Seg) (_ : Nat) (v : Join.Voxel) : List Seg := if v.addr = 100 then ts else if v.addr = 200 then tb else tc

/-- The two orders of the objects of the second tile: `k` is the number of the near one, `l` that of the far one. -/
def Two (o : Object Seg) (os : List (Object Seg)) (tb tc : List Seg) (k l : Nat) : Prop :=
  (k = 0 ∧ l = 1 ∧ o = nb 0 tb ∧ os = [nc 1 tc]) ∨ (k = 1 ∧ l = 0 ∧ o = nc 0 tc ∧ os = [nb 1 tb])

theorem Two.mem {o : Object Seg} {os : List (Object Seg)} {tb tc : List Seg} {k l : Nat} (h : Two o os tb tc k l) {x : Object Seg}
    (hx : x ∈ o :: os) : x = nb k tb ∨ x = nc l tc := by
  rcases h with ⟨rfl, rfl, rfl, rfl⟩ | ⟨rfl, rfl, rfl, rfl⟩
  · simpa using hx
  · have : x = nc 0 tc ∨ x = nb 1 tb := by simpa using hx
    exact this.symm

theorem Two.mem' {o : Object Seg} {os : List (Object Seg)} {tb tc : List Seg} {k l : Nat} (h : Two o os tb tc k l) {ts : List Seg} {x : Object Seg}
    (hx : x ∈ [sa ts] ++ (o :: os)) : x = sa ts ∨ x = nb k tb ∨ x = nc l tc := by
  rcases List.mem_append.1 hx with hx | hx
  · exact Or.inl (by simpa using hx)
  · exact Or.inr (h.mem hx)

theorem settingN {o : Object Seg} {os : List (Object Seg)} {ts tb tc : List Seg} {k l : Nat} (h : Two o os tb tc k l)
    (h1 : ts.length ≤ 24) (h2 : tb.length ≤ 24) (h3 : tc.length ≤ 24) :
    EndToEnd.Setting 6 (fun _ _ => 0) Seg.p (heapN ts tb tc) [sa ts] o os (tileN k) [100] [va, wb, wc] where
  ids := by intro i; unfold tileN; split <;> rfl
  tile := by
    intro b hb
    have hkl : k ≠ l := by rcases h with ⟨rfl, rfl, _⟩ | ⟨rfl, rfl, _⟩ <;> decide
    rcases h.mem hb with rfl | rfl
    · exact ⟨if_pos rfl, Int.natCast_nonneg _⟩
    · exact ⟨if_neg (fun e => hkl (by have e' : (l : Int) = k := e; exact_mod_cast e'.symm)), Int.natCast_nonneg _⟩
  solid := by
    intro b hb
    rcases h.mem' hb with rfl | rfl | rfl <;> intro i <;> simp [sa, nb, nc, bx, bb, bc] <;> norm_num
  voxels := by
    intro b hb
    rcases h.mem' hb with rfl | rfl | rfl <;> simp [sa, nb, nc]
  filled := by
    intro lod _ b hb
    have := h.mem' hb
    have hone : ∃ ws, Voxels.fillVoxel (fun _ _ => (0 : WithTop ℚ)) Seg.p lod (b.elems lod) [⟨fun _ => 1, bx, fun _ => none, fun _ => none⟩] = some ws ∧
        ws.map (fun v => v.data lod) = [some (b.elems lod)] := ⟨_, rfl, by simp [Voxels.Voxel.set]⟩
    obtain ⟨ws, w1, w2⟩ := hone
    refine ⟨⟨[⟨fun _ => 1, bx, fun _ => none, fun _ => none⟩], ws, ?_, ?_, ?_, w1, ?_⟩, ?_⟩
    · rcases this with rfl | rfl | rfl <;> rfl
    · rcases this with rfl | rfl | rfl <;> rfl
    · simp
    · rw [w2]
      rcases this with rfl | rfl | rfl <;> simp [sa, nb, nc, heapN, va, wb, wc]
    · intro c _ e _; exact WithTop.coe_lt_top _
  fits := by
    intro lod _
    refine ⟨?_, ?_⟩
    · intro v hv v' hv' h
      simp at hv hv'
      rcases hv with rfl | rfl | rfl <;> rcases hv' with rfl | rfl | rfl <;> simp [va, wb, wc] at h ⊢
    · simp [heapN, va, wb, wc]; omega

/-! Where things are. -/
theorem on_range {S : Pipeline.Setting} {i : Input} {lod : Nat} {c : Prop} {p : P3} {lo hi : ℚ} (h : ∀ v j, lo ≤ i.mesh.pos v j ∧ i.mesh.pos v j ≤ hi)
    (hp : OnEdge S i lod c p) (j : Fin 3) : lo ≤ p j ∧ p j ≤ hi := by
  obtain ⟨K, _, d, _, _, x, y, hx, hy, hxy, e⟩ := hp
  rw [e j]
  obtain ⟨a1, a2⟩ := h (K.vert d) j
  obtain ⟨b1, b2⟩ := h (K.src d) j
  have hx' : x = 1 - y := by linarith
  subst hx'
  constructor <;> nlinarith

theorem oct_range (v : Nat) (j : Fin 3) : -1 ≤ octPos v j ∧ octPos v j ≤ 1 := by
  rcases v with _ | _ | _ | _ | _ | v
  all_goals (revert j; first | decide +kernel | (intro j; show -1 ≤ (if j.val = 2 then (-1 : ℚ) else 0) ∧ (if j.val = 2 then (-1 : ℚ) else 0) ≤ 1; split <;> norm_num))

theorem sh_range (j : Fin 3) : 1 / 4 ≤ sh j ∧ sh j ≤ 1 / 2 := by revert j; decide +kernel

theorem slack_le {i : Input} (h : halfStep i = 1 / 4096) (c : Prop) : slack i c ≤ 11 / 100 := by
  unfold slack
  rw [h]
  split <;> norm_num

theorem half1 : halfStep exInput = 1 / 4096 := by
  show maxRange (bbMin (octPos 0) [octPos 1, octPos 2, octPos 3, octPos 4, octPos 5]) (bbMax (octPos 0) [octPos 1, octPos 2, octPos 3, octPos 4, octPos 5]) / 2 ^ 12 / 2 = _
  rw [octBox.1, octBox.2]; decide +kernel
theorem half2 : halfStep in2 = 1 / 4096 := by
  show maxRange (bbMin (pos2 0) [pos2 1, pos2 2, pos2 3, pos2 4, pos2 5]) (bbMax (pos2 0) [pos2 1, pos2 2, pos2 3, pos2 4, pos2 5]) / 2 ^ 12 / 2 = _
  rw [box2.1, box2.2]; decide +kernel
theorem half3 : halfStep in3 = 1 / 4096 := by
  show maxRange (bbMin (pos3 0) [pos3 1, pos3 2, pos3 3, pos3 4, pos3 5]) (bbMax (pos3 0) [pos3 1, pos3 2, pos3 3, pos3 4, pos3 5]) / 2 ^ 12 / 2 = _
  rw [box3.1, box3.2]; decide +kernel

/-- Segments near edges in a range are in a slightly larger range. -/
theorem in_box {S : Pipeline.Setting} {i : Input} {lod : Nat} {lo hi : ℚ} (hh : halfStep i = 1 / 4096)
    (h : ∀ v j, lo ≤ i.mesh.pos v j ∧ i.mesh.pos v j ≤ hi) {u : Seg}
    (hu : ∀ x, 0 ≤ x → x ≤ 1 → ∃ p c, OnEdge S i lod c p ∧ ∀ y, |u.pt x y - p y| ≤ halfStep i + (open Classical in if c then 1 / 10 else 0))
    (j : Fin 3) : (lo - 11 / 100 ≤ u.p j ∧ u.p j ≤ hi + 11 / 100) ∧ lo - 11 / 100 ≤ u.q j ∧ u.q j ≤ hi + 11 / 100 := by
  have key : ∀ x : ℚ, 0 ≤ x → x ≤ 1 → lo - 11 / 100 ≤ u.pt x j ∧ u.pt x j ≤ hi + 11 / 100 := by
    intro x h0 h1
    obtain ⟨p, c, e1, e2⟩ := hu x h0 h1
    have a := on_range h e1 j
    have b := abs_le.1 ((e2 j).trans (slack_le hh c))
    constructor <;> linarith
  have k0 := key 0 (le_refl _) (by norm_num)
  have k1 := key 1 (by norm_num) (le_refl _)
  have e0 : u.pt 0 j = u.p j := by unfold Seg.pt; ring
  have e1 : u.pt 1 j = u.q j := by unfold Seg.pt; ring
  rw [e0] at k0
  rw [e1] at k1
  exact ⟨k0, k1⟩

/-- The ends of a segment for a halfedge that quantisation did not collapse. -/
theorem ends_of_near {K : Mesh P3} {d : Nat} {s : Seg} (h : NearSeg 0 K.pos K d s) (hne : K.pos (K.vert d) ≠ K.pos (K.src d)) :
    s = ⟨K.pos (K.vert d), K.pos (K.src d)⟩ := by
  have key : ∀ x y : ℚ, |x - y| ≤ 0 → x = y := fun x y h => by
    have := abs_nonpos_iff.1 h; linarith
  obtain ⟨p, q⟩ := s
  have e1 : p = K.pos (K.vert d) := funext fun j => key _ _ (h j).1
  have e2 : q = K.pos (K.src d) := funext fun j => by
    have := (h j).2
    rw [if_neg hne, add_zero] at this
    exact key _ _ this
  rw [e1, e2]

/-- The pair of edges that bounds the distance: any of the four ways to direct them. -/
theorem close_pair : ∀ d ∈ [3, exInput.quantised.opp 3], ∀ d' ∈ [6, in2.quantised.opp 6],
    exInput.quantised.pos (exInput.quantised.vert d) ≠ exInput.quantised.pos (exInput.quantised.src d) ∧
    in2.quantised.pos (in2.quantised.vert d') ≠ in2.quantised.pos (in2.quantised.src d') ∧
    segD ⟨exInput.quantised.pos (exInput.quantised.vert d), exInput.quantised.pos (exInput.quantised.src d)⟩
      ⟨in2.quantised.pos (in2.quantised.vert d'), in2.quantised.pos (in2.quantised.src d')⟩ ≤ ((3 : ℚ) : WithTop ℚ) := by
  decide +kernel

/-- A least distance among finitely many. -/
theorem least {ts tb : List Seg} (h : ∀ s ∈ ts, ∀ t ∈ tb, ∃ v : ℚ, segD s t = v) (h1 : ts ≠ []) (h2 : tb ≠ []) :
    ∃ m : ℚ, (∃ s ∈ ts, ∃ t ∈ tb, segD s t = m) ∧ ∀ s ∈ ts, ∀ t ∈ tb, (m : WithTop ℚ) ≤ segD s t := by
  have hne : ((ts ×ˢ tb).map (fun x => segD x.1 x.2)).toFinset.Nonempty := by
    obtain ⟨s, hs⟩ := List.exists_mem_of_ne_nil _ h1
    obtain ⟨t, ht⟩ := List.exists_mem_of_ne_nil _ h2
    exact ⟨_, List.mem_toFinset.2 (List.mem_map.2 ⟨(s, t), List.mem_product.2 ⟨hs, ht⟩, rfl⟩)⟩
  obtain ⟨⟨s, t⟩, hst, e⟩ := List.mem_map.1 (List.mem_toFinset.1 (Finset.min'_mem _ hne))
  obtain ⟨hs, ht⟩ := List.mem_product.1 hst
  obtain ⟨m, hm⟩ := h s hs t ht
  refine ⟨m, ⟨s, hs, t, ht, hm⟩, fun s' hs' t' ht' => ?_⟩
  rw [← hm]
  change segD s t = _ at e
  rw [e]
  exact Finset.min'_le _ _ (List.mem_toFinset.2 (List.mem_map.2 ⟨(s', t'), List.mem_product.2 ⟨hs', ht'⟩, rfl⟩))

/-- All hypotheses of C109 together: there are two files, opened as tiles, and a run of the join on them; in every run the near octahedron stays
(or is the answer). -/
theorem found (threads : Nat) (ht : 1 ≤ threads) : ∃ file1 file2 : List Nat, ∃ t1 t2 : Tile (Fin (2 ^ 32)),
    Opened exSetting FloatCode.fin [exInput] file1 t1 ∧ Opened set3 FloatCode.fin [in2, in3] file2 t2 ∧ ∃ ts tb tc o os k l,
      Two o os tb tc k l ∧ HeldSeg exSetting sampleEnv file1 t1 [100] [sa ts] ∧ HeldSeg set3 sampleEnv file2 t2 [100] (o :: os) ∧
      EndToEnd.Setting 6 (fun _ _ => 0) Seg.p (heapN ts tb tc) [sa ts] o os (tileN k) [100] [va, wb, wc] ∧
      (∃ final, NNJoin (.cpu threads) ExWithin.mid (heapN ts tb tc) [sa ts] o os (tileN k) [100] final) ∧
      ∀ final, NNJoin (.cpu threads) ExWithin.mid (heapN ts tb tc) [sa ts] o os (tileN k) [100] final →
        (∃ e ∈ final.opened, e.mesh.id = 0 ∧ ∃ c ∈ e.cands, c.mesh.id = k) ∨
        (∃ e ∈ final.decided, e.mesh.id = 0 ∧ ∃ c, e.cands = [c] ∧ c.mesh.id = k) := by
  obtain ⟨d1, e1, l1⟩ := data1
  obtain ⟨file1, t1, h1⟩ := opened_exists exSetting exSetting_ok FloatCode.fin exInput exInput_ok d1 e1 l1
  obtain ⟨file2, t2, h2⟩ := opened_exists_lines set3 set3_ok FloatCode.fin [in2, in3]
    (by intro i hi; have : i = in2 ∨ i = in3 := by simpa using hi
        rcases this with rfl | rfl
        · exact in2_ok3
        · exact in3_ok)
    (by intro i hi; have : i = in2 ∨ i = in3 := by simpa using hi
        rcases this with rfl | rfl
        · exact data23
        · exact data3) (by simp)
  obtain ⟨order1, p1, n1, m1⟩ := opened_spec h1
  obtain ⟨order2, p2, n2, m2⟩ := opened_spec h2
  obtain rfl := List.perm_singleton.1 p1
  obtain ⟨k, l, hkl⟩ : ∃ k l : Nat, (k = 0 ∧ l = 1 ∧ order2 = [in2, in3]) ∨ (k = 1 ∧ l = 0 ∧ order2 = [in3, in2]) := by
    have hp := p2
    match order2, hp with
    | [], hp => have := hp.length_eq; simp at this
    | [_], hp => have := hp.length_eq; simp at this
    | _ :: _ :: _ :: _, hp => have := hp.length_eq; simp at this
    | [a, b], hp =>
      have ha : a = in2 ∨ a = in3 := by simpa using hp.mem_iff.1 (List.mem_cons_self (a := a))
      rcases ha with rfl | rfl
      · obtain rfl := (List.cons.inj (List.perm_singleton.1 (List.perm_cons _ |>.1 hp))).1
        exact ⟨0, 1, Or.inl ⟨rfl, rfl, rfl⟩⟩
      · obtain rfl := (List.cons.inj (List.perm_singleton.1 (List.perm_cons _ |>.1 (hp.trans (List.Perm.swap _ _ _))))).1
        exact ⟨1, 0, Or.inr ⟨rfl, rfl, rfl⟩⟩
  have hlen2 : order2.length = 2 := by rcases hkl with ⟨_, _, rfl⟩ | ⟨_, _, rfl⟩ <;> rfl
  have hk : k < 2 ∧ l < 2 := by rcases hkl with ⟨rfl, rfl, _⟩ | ⟨rfl, rfl, _⟩ <;> decide
  have hok : order2[k]? = some in2 ∧ order2[l]? = some in3 := by rcases hkl with ⟨rfl, rfl, rfl⟩ | ⟨rfl, rfl, rfl⟩ <;> exact ⟨rfl, rfl⟩
  have hgk : order2[k]'(by omega) = in2 := Option.some.inj ((List.getElem?_eq_getElem (by omega)).symm.trans hok.1)
  have hgl : order2[l]'(by omega) = in3 := Option.some.inj ((List.getElem?_eq_getElem (by omega)).symm.trans hok.2)
  have q1 := m1 0 (by simp) (by rw [n1]; simp)
  have qk := m2 k (by omega) (by omega)
  have ql := m2 l (by omega) (by omega)
  rw [hgk] at qk
  rw [hgl] at ql
  obtain ⟨ts, c1, ⟨N1, E1, s11, s12, s13⟩, lev1, near1⟩ := segs_exist (q1.2 sampleEnv sampleEnv_ok)
  obtain ⟨tb, c2, ⟨N2, E2, s21, s22, s23⟩, lev2, near2⟩ := segs_exist (qk.2 sampleEnv sampleEnv_ok)
  obtain ⟨tc, c3, ⟨N3, E3, s31, s32, s33⟩, lev3, near3⟩ := segs_exist (ql.2 sampleEnv sampleEnv_ok)
  have c1' : 2 * ts.length = 24 := c1
  have c2' : 2 * tb.length = 24 := c2
  have c3' : 2 * tc.length = 24 := c3
  obtain ⟨o, os, htwo⟩ : ∃ o os, Two o os tb tc k l := by
    rcases hkl with ⟨rfl, rfl, _⟩ | ⟨rfl, rfl, _⟩
    · exact ⟨_, _, Or.inl ⟨rfl, rfl, rfl, rfl⟩⟩
    · exact ⟨_, _, Or.inr ⟨rfl, rfl, rfl, rfl⟩⟩
  have held1 : HeldSeg exSetting sampleEnv file1 t1 [100] [sa ts] := by
    obtain ⟨w, hw⟩ := List.length_eq_one_iff.1 n1
    unfold HeldSeg
    have hw0 : t1.objects[0]'(by rw [hw]; simp) = w := by simp [hw]
    rw [hw0] at q1 s11
    rw [hw, List.forall₂_cons]
    refine ⟨⟨by rw [q1.1]; rfl, ?_⟩, .nil⟩
    intro lod hl
    obtain rfl : lod = 100 := by simpa using hl
    exact ⟨N1, E1, s11, s12, s13⟩
  have held2 : HeldSeg set3 sampleEnv file2 t2 [100] (o :: os) := by
    obtain ⟨w0, w1, hw⟩ := List.length_eq_two.1 (n2.trans hlen2)
    unfold HeldSeg
    have hw0 : t2.objects[0]'(by rw [hw]; simp) = w0 := by simp [hw]
    have hw1 : t2.objects[1]'(by rw [hw]; simp) = w1 := by simp [hw]
    rw [hw]
    rcases htwo with ⟨rfl, rfl, rfl, rfl⟩ | ⟨rfl, rfl, rfl, rfl⟩
    · rw [hw0] at qk s21
      rw [hw1] at ql s31
      rw [List.forall₂_cons, List.forall₂_cons]
      refine ⟨⟨by rw [qk.1]; rfl, ?_⟩, ⟨by rw [ql.1]; rfl, ?_⟩, .nil⟩
      · intro lod hl
        obtain rfl : lod = 100 := by simpa using hl
        exact ⟨N2, E2, s21, s22, s23⟩
      · intro lod hl
        obtain rfl : lod = 100 := by simpa using hl
        exact ⟨N3, E3, s31, s32, s33⟩
    · rw [hw1] at qk s21
      rw [hw0] at ql s31
      rw [List.forall₂_cons, List.forall₂_cons]
      refine ⟨⟨by rw [ql.1]; rfl, ?_⟩, ⟨by rw [qk.1]; rfl, ?_⟩, .nil⟩
      · intro lod hl
        obtain rfl : lod = 100 := by simpa using hl
        exact ⟨N3, E3, s31, s32, s33⟩
      · intro lod hl
        obtain rfl : lod = 100 := by simpa using hl
        exact ⟨N2, E2, s21, s22, s23⟩
  have S := settingN (ts := ts) htwo (by omega) (by omega) (by omega)
  refine ⟨file1, file2, t1, t2, h1, h2, ts, tb, tc, o, os, k, l, htwo, held1, held2, S, ?_, ?_⟩
  · rcases htwo with ⟨rfl, rfl, rfl, rfl⟩ | ⟨rfl, rfl, rfl, rfl⟩
    · have hb : (Octree.build ExWithin.mid 400 10 ⟨2, 0, bb, 1⟩ [⟨3, 1, bc, 1⟩]).isSome = true := by decide +kernel
      exact nnJoin_exists _ _ _ _ _ _ _ _ 10 hb
    · have hb : (Octree.build ExWithin.mid 400 10 ⟨3, 0, bc, 1⟩ [⟨2, 1, bb, 1⟩]).isSome = true := by decide +kernel
      exact nnJoin_exists _ _ _ _ _ _ _ _ 10 hb
  · intro final h
    obtain ⟨_, hall⟩ := C109_files_to_nearest_partial h1 h2 sampleEnv_ok held1 held2 S (by
      intro lod _ v hv
      simp only [heapN]
      split
      · omega
      · split <;> omega) ht h (top := 100) rfl
    have hbm : nb k tb ∈ o :: os := by
      rcases htwo with ⟨rfl, rfl, rfl, rfl⟩ | ⟨rfl, rfl, rfl, rfl⟩ <;> simp
    -- what is known of the segments
    have ha : ∀ u ∈ ts, u.p ≠ u.q ∧ ∀ j, ((-1 - 11 / 100 : ℚ) ≤ u.p j ∧ u.p j ≤ 1 + 11 / 100) ∧ (-1 - 11 / 100 : ℚ) ≤ u.q j ∧ u.q j ≤ 1 + 11 / 100 := by
      obtain ⟨j, i, j1, j2, j3⟩ := heldSeg_spec sampleEnv_ok n1 m1 held1 (a := sa ts) (by simp)
      obtain rfl : j = 0 := by have : ((0 : Nat) : Int) = j := j1; exact_mod_cast this.symm
      obtain rfl : exInput = i := Option.some.inj j2
      intro u hu
      obtain ⟨g1, g2⟩ := j3 100 (by simp) u hu
      exact ⟨g1, in_box half1 oct_range g2⟩
    have hb : ∀ u ∈ tb, u.p ≠ u.q ∧ ∀ j, ((-3 / 4 - 11 / 100 : ℚ) ≤ u.p j ∧ u.p j ≤ 3 / 2 + 11 / 100) ∧ (-3 / 4 - 11 / 100 : ℚ) ≤ u.q j ∧ u.q j ≤ 3 / 2 + 11 / 100 := by
      obtain ⟨j, i, j1, j2, j3⟩ := heldSeg_spec sampleEnv_ok n2 m2 held2 hbm
      obtain rfl : j = k := by have : ((k : Nat) : Int) = j := j1; exact_mod_cast this.symm
      obtain rfl : in2 = i := Option.some.inj (hok.1.symm.trans j2)
      intro u hu
      obtain ⟨g1, g2⟩ := j3 100 (by simp) u hu
      refine ⟨g1, in_box half2 ?_ g2⟩
      intro v j
      have := oct_range v j
      have := sh_range j
      show (-3 / 4 : ℚ) ≤ octPos v j + sh j ∧ octPos v j + sh j ≤ 3 / 2
      constructor <;> linarith
    have hcm : nc l tc ∈ o :: os := by
      rcases htwo with ⟨rfl, rfl, rfl, rfl⟩ | ⟨rfl, rfl, rfl, rfl⟩ <;> simp
    have hpos3 : ∀ v j, (99 : ℚ) ≤ in3.mesh.pos v j ∧ in3.mesh.pos v j ≤ 101 := by
      intro v j
      have := oct_range v j
      show (99 : ℚ) ≤ octPos v j + 100 ∧ octPos v j + 100 ≤ 101
      constructor <;> linarith
    have hc : ∀ u ∈ tc, u.p ≠ u.q ∧ ∀ j, ((99 - 11 / 100 : ℚ) ≤ u.p j ∧ u.p j ≤ 101 + 11 / 100) ∧ (99 - 11 / 100 : ℚ) ≤ u.q j ∧ u.q j ≤ 101 + 11 / 100 := by
      obtain ⟨j, i, j1, j2, j3⟩ := heldSeg_spec sampleEnv_ok n2 m2 held2 hcm
      obtain rfl : j = l := by have : ((l : Nat) : Int) = j := j1; exact_mod_cast this.symm
      obtain rfl : in3 = i := Option.some.inj (hok.2.symm.trans j2)
      intro u hu
      obtain ⟨g1, g2⟩ := j3 100 (by simp) u hu
      exact ⟨g1, in_box half3 hpos3 g2⟩
    -- the least distance
    obtain ⟨s0, hs0, ns0⟩ := near1 3 (show (3 : Nat) ∈ Finset.range 24 by decide)
    obtain ⟨u0, hu0, nu0⟩ := near2 6 (show (6 : Nat) ∈ Finset.range 24 by decide)
    obtain ⟨m, hm1, hm2⟩ := least (ts := ts) (tb := tb) (fun s hs t ht => by
      obtain ⟨v, hv, _⟩ := segD_attained (ha s hs).1 (hb t ht).1
      exact ⟨v, hv⟩) (List.ne_nil_of_mem hs0) (List.ne_nil_of_mem hu0)
    have hm3 : m ≤ 3 := by
      have hle : segD s0 u0 ≤ ((3 : ℚ) : WithTop ℚ) := by
        have hd : ∃ d ∈ [3, exInput.quantised.opp 3], NearSeg 0 exInput.quantised.pos exInput.quantised d s0 := by
          rcases ns0 with h | h
          · exact ⟨_, by simp, h⟩
          · exact ⟨_, by simp, h⟩
        have hd' : ∃ d ∈ [6, in2.quantised.opp 6], NearSeg 0 in2.quantised.pos in2.quantised d u0 := by
          rcases nu0 with h | h
          · exact ⟨_, by simp, h⟩
          · exact ⟨_, by simp, h⟩
        obtain ⟨d, g1, g2⟩ := hd
        obtain ⟨d', g1', g2'⟩ := hd'
        obtain ⟨x1, x2, x3⟩ := close_pair d g1 d' g1'
        rw [ends_of_near g2 x1, ends_of_near g2' x2]
        exact x3
      have := (hm2 s0 hs0 u0 hu0).trans hle
      exact_mod_cast this
    have hres := hall [exInput] order2 ⟨n1, m1⟩ ⟨n2, m2⟩ (sa ts) (by simp) (nb k tb) hbm (by decide : (2 : Nat) ≠ 1) 0 exInput rfl rfl m hm1 (by
        intro lod _ s hs t ht
        exact hm2 s hs t ht) ?_ ?_ ?_
    · exact hres
    · intro x hx hxb _ k' i' hk' hi' lod _ p p' c c' hp hp'
      rcases htwo.mem hx with rfl | rfl
      · exact absurd rfl hxb
      · obtain rfl : l = k' := by have : ((l : Nat) : Int) = k' := hk'; exact_mod_cast this
        obtain rfl : in3 = i' := Option.some.inj (hok.2.symm.trans hi')
        have a := on_range (lo := -1) (hi := 1) (fun v j => oct_range v j) hp 0
        have b := on_range hpos3 hp' 0
        have hs1 := slack_le half1 c
        have hs2 := slack_le half3 c'
        have hd : (98 : ℝ) ≤ eDist p p' := by
          unfold eDist
          refine Real.le_sqrt_of_sq_le ?_
          have : (98 : ℚ) ^ 2 ≤ dist2 p p' := by
            unfold dist2
            nlinarith [sq_nonneg (p 1 - p' 1), sq_nonneg (p 2 - p' 2)]
          exact_mod_cast this
        have hsm : Real.sqrt (m : ℝ) ≤ 2 := by
          refine Real.sqrt_le_iff.2 ⟨by norm_num, ?_⟩
          have : (m : ℝ) ≤ 3 := by exact_mod_cast hm3
          linarith
        have h32 : Real.sqrt 3 ≤ 2 := Real.sqrt_le_iff.2 ⟨by norm_num, by norm_num⟩
        have hsl : ((slack exInput c + slack in3 c' : ℚ) : ℝ) ≤ 1 := by
          have : slack exInput c + slack in3 c' ≤ 1 := by linarith
          exact_mod_cast this
        have h30 : 0 ≤ Real.sqrt 3 := Real.sqrt_nonneg _
        nlinarith
    · intro x hx
      have r1 : ∀ s ∈ ts, bx.Mem s.p ∧ bx.Mem s.q := by
        intro s hs
        refine ⟨fun j => ?_, fun j => ?_⟩
        · obtain ⟨⟨g1, g2⟩, g3, g4⟩ := (ha s hs).2 j
          show (-2 : ℚ) ≤ _ ∧ _ ≤ (2 : ℚ)
          constructor <;> linarith
        · obtain ⟨⟨g1, g2⟩, g3, g4⟩ := (ha s hs).2 j
          show (-2 : ℚ) ≤ _ ∧ _ ≤ (2 : ℚ)
          constructor <;> linarith
      have r2 : ∀ s ∈ tb, bb.Mem s.p ∧ bb.Mem s.q := by
        intro s hs
        refine ⟨fun j => ?_, fun j => ?_⟩
        · obtain ⟨⟨g1, g2⟩, g3, g4⟩ := (hb s hs).2 j
          show (-1 : ℚ) ≤ _ ∧ _ ≤ (3 : ℚ)
          constructor <;> linarith
        · obtain ⟨⟨g1, g2⟩, g3, g4⟩ := (hb s hs).2 j
          show (-1 : ℚ) ≤ _ ∧ _ ≤ (3 : ℚ)
          constructor <;> linarith
      have r3 : ∀ s ∈ tc, bc.Mem s.p ∧ bc.Mem s.q := by
        intro s hs
        refine ⟨fun j => ?_, fun j => ?_⟩
        · obtain ⟨⟨g1, g2⟩, g3, g4⟩ := (hc s hs).2 j
          show (98 : ℚ) ≤ _ ∧ _ ≤ (102 : ℚ)
          constructor <;> linarith
        · obtain ⟨⟨g1, g2⟩, g3, g4⟩ := (hc s hs).2 j
          show (98 : ℚ) ≤ _ ∧ _ ≤ (102 : ℚ)
          constructor <;> linarith
      rcases htwo.mem' hx with rfl | rfl | rfl
      · refine ⟨r1, ?_⟩
        intro v hv s hs
        obtain rfl : v = va := by simpa [sa] using hv
        exact r1 s hs
      · refine ⟨r2, ?_⟩
        intro v hv s hs
        obtain rfl : v = wb := by simpa [nb] using hv
        exact r2 s hs
      · refine ⟨r3, ?_⟩
        intro v hv s hs
        obtain rfl : v = wc := by simpa [nc] using hv
        exact r3 s hs
    · have v1 : (3 : ℚ) ≤ (bb.distance Fp.exact bx).maxdist := by decide +kernel
      have v2 : (3 : ℚ) ≤ (bx.distance Fp.exact bb).maxdist := by decide +kernel
      have v3 : (3 : ℚ) ≤ (bc.distance Fp.exact bx).maxdist := by decide +kernel
      have v4 : (3 : ℚ) ≤ (bx.distance Fp.exact bc).maxdist := by decide +kernel
      intro x hx _
      rcases htwo.mem hx with rfl | rfl
      · refine ⟨hm3.trans v1, ?_⟩
        intro w1 hw1 w2 hw2
        obtain rfl : w1 = va := by simpa [sa] using hw1
        obtain rfl : w2 = wb := by simpa [nb] using hw2
        exact hm3.trans v2
      · refine ⟨hm3.trans v3, ?_⟩
        intro w1 hw1 w2 hw2
        obtain rfl : w1 = va := by simpa [sa] using hw1
        obtain rfl : w2 = wc := by simpa [nc] using hw2
        exact hm3.trans v4

end TDP.FromFiles.ExN
