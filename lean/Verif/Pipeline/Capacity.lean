import Verif.Blocks.Size
import Verif.Pipeline.Props
/-!
# The compression buffer (src/PPMC/mymesh.cpp:43-51, src/PPMC/mymeshIO.cpp:30-46, src/PPMC/rangeCoder/rangecod.h:98-100, src/spatial/spatial_common.cpp:99-118)

`p_data = new char[length]` has as many bytes as the text of the object; the range coder stores through `p_data[dataOffset++]`
without looking at that size. `Stream.writeCompressedData` models the bytes; here is where they go.
-/
namespace TDP.Pipeline
open TDP.Codec TDP.Quant TDP.Tile TDP.Bytes TDP.Bits TDP.BaseMesh TDP.Blocks TDP.Stream

/-- `p_data[dataOffset++] = x` for the bytes of the coder, one after the other (rangecod.c:157-188, 238-260); a store outside the
buffer is undefined behaviour: `none`. -/
def putBytes (b : Buf) (off : Nat) : List Nat → Option (Buf × Nat)
  | [] => some (b, off)
  | x :: xs => if off < b.size then putBytes ⟨fun i => if i = off then x else b.mem i, b.size⟩ (off + 1) xs else none

/-- `writeCompressedData` (mymeshIO.cpp:30-46) into a buffer of `size` bytes: the buffer and `dataOffset`. The coder's
bytes are computed first here and stored after that; the stores are the same. -/
def writeInto (lg : Nat → Nat) (size : Nat) (m : Base) (levels : List Level) : Option (Buf × Nat) := do
  let (b, e) ← writeBaseMesh lg { m with nbDec := levels.length } (Buf.zero size) 0
  let r ← writeLevels levels
  putBytes b e r

/-- The compressing object as in `Codec.compress` (mymesh.cpp:43-72, 161-166), with its buffer. -/
def compressInto {P : Type} (lg : Nat → Nat) (size : Nat) (grid : Header → Grid P) (convex : Mesh P → Nat → Bool) (env : Env P) (n : Nat)
    (hd : Header) (m : Mesh P) (first : Nat) : Option (Buf × Nat) := do
  let v0 := m.src first
  let v1 := m.vert first
  let (ls, b) ← compressLevels (grid hd).geo convex env.init env.hit v0 v1 n n m
  writeInto lg size (baseOf hd (grid hd) env v0 v1 b) ((ls.map (·.2)).reverse.map toLevel)

/-! ### Storing bytes -/

theorem putBytes_some (b : Buf) (off : Nat) (xs : List Nat) (h : off + xs.length ≤ b.size) :
    ∃ b', putBytes b off xs = some (b', off + xs.length) ∧ b'.size = b.size ∧ (∀ i, i < off → b'.mem i = b.mem i) ∧
      ∀ k, k < xs.length → b'.mem (off + k) = xs.getD k 0 := by
  induction xs generalizing b off with
  | nil => exact ⟨b, rfl, rfl, fun _ _ => rfl, by simp⟩
  | cons x xs ih =>
    rw [List.length_cons] at h
    obtain ⟨b', g1, g2, g3, g4⟩ := ih ⟨fun i => if i = off then x else b.mem i, b.size⟩ (off + 1) (by simp only; omega)
    refine ⟨b', ?_, g2, ?_, ?_⟩
    · rw [putBytes, if_pos (by omega), g1, List.length_cons]
      congr 2; omega
    · intro i hi
      rw [g3 i (by omega)]
      simp only
      rw [if_neg (by omega)]
    · intro k hk
      cases k with
      | zero => rw [Nat.add_zero, g3 off (by omega)]; simp
      | succ k =>
        have := g4 k (by simpa using hk)
        rw [show off + (k + 1) = off + 1 + k by omega, this]; simp

theorem putBytes_none (b : Buf) (off : Nat) (xs : List Nat) (h : b.size < off + xs.length) (ho : off ≤ b.size) :
    putBytes b off xs = none := by
  induction xs generalizing b off with
  | nil => simp only [List.length_nil] at h; omega
  | cons x xs ih =>
    rw [putBytes]
    by_cases hc : off < b.size
    · rw [if_pos hc]
      refine ih _ _ ?_ ?_
      · simp only [List.length_cons] at h ⊢; omega
      · simp only; omega
    · rw [if_neg hc]

/-- The bytes stay in the buffer exactly if there are at most `size` of them. -/
theorem writeInto_spec (lg : Nat → Nat) (size : Nat) (m : Base) (levels : List Level) (data : List Nat)
    (h : writeCompressedData lg size m levels = some data)
    (hb : ∀ b e, writeBaseMesh lg { m with nbDec := levels.length } (Buf.zero size) 0 = some (b, e) → b.size = size ∧ e ≤ size) :
    (data.length ≤ size → ∃ b, writeInto lg size m levels = some (b, data.length) ∧ b.size = size ∧
      ∀ i, i < data.length → b.mem i = data.getD i 0) ∧ (size < data.length → writeInto lg size m levels = none) := by
  unfold writeCompressedData at h
  simp only [Option.bind_eq_bind, Option.bind_eq_some_iff] at h
  obtain ⟨⟨b, e⟩, h1, r, h2, h3⟩ := h
  simp only [Option.some.injEq] at h3
  obtain ⟨s1, s2⟩ := hb b e h1
  have hl : data.length = e + r.length := by rw [← h3]; simp
  have hw : writeInto lg size m levels = putBytes b e r := by
    unfold writeInto
    simp only [h1, h2, Option.bind_eq_bind, Option.bind_some]
  rw [hw]
  constructor
  · intro hd
    obtain ⟨b', g1, g2, g3, g4⟩ := putBytes_some b e r (by omega)
    refine ⟨b', by rw [g1, hl], by omega, ?_⟩
    intro i hi
    rw [← h3]
    by_cases hie : i < e
    · rw [g3 i hie]
      simp [List.getElem?_append_left, hie]
    · have := g4 (i - e) (by omega)
      rw [show e + (i - e) = i by omega] at this
      rw [this]
      simp only [List.getD_eq_getElem?_getD]
      rw [List.getElem?_append_right (by simp; omega)]
      simp
  · intro hd
    exact putBytes_none b e r (by omega) (by omega)

/-! ### Specification -/

/-- Bytes that are enough for one decimation: two coded blocks with 5 bytes each, 34 bits of head, 11 bits for each face visited
and each edge asked about, 57 bits for each vertex taken out. -/
def levelRoom (l : LevelSyms Vec) : Nat :=
  10 + (34 + 11 * l.1.length + 57 * (l.1.filterMap id).length) / 8 + 11 * l.2.length / 8

/-- Bytes that are enough for an object with these levels and this base mesh. -/
def room (S : Setting) (L : List (Mesh P3 × LevelSyms Vec)) (B : Mesh P3) : Nat :=
  27 + 6 * (S.enc.vorder B).length + 32 * (S.enc.gates B).length + (L.map (fun x => levelRoom x.2)).sum

theorem writeLevels_size (ls : List Level) (hv : ∀ l ∈ ls, l.Valid) (r : List Nat) (h : writeLevels ls = some r) :
    r.length ≤ (ls.map (fun l => 10 + (34 + 11 * l.faces.length + 57 * (geom l).length) / 8 + 11 * l.edges.length / 8)).sum := by
  induction ls generalizing r with
  | nil => simp [writeLevels] at h; simp [h]
  | cons l ls ih =>
    simp only [writeLevels, Option.bind_eq_bind, Option.bind_eq_some_iff, Option.some.injEq] at h
    obtain ⟨a, ha, b, hb, r', hr, rfl⟩ := h
    obtain ⟨v1, v2, v3⟩ := hv l List.mem_cons_self
    rw [conn_eq, geom_eq] at ha
    rw [geom_eq] at v2
    have := removed_size l.faces v2 a ha
    have := edges_size l.edges v3 b hb
    have := ih (fun x hx => hv x (List.mem_cons_of_mem _ hx)) r' hr
    simp only [List.length_append, List.map_cons, List.sum_cons, geom_eq] at *
    omega

/-- The grid of an acceptable input, and its vertices on it. -/
theorem input_grid (S : Setting) (i : Input) (hi : i.Ok S) :
    (headerGrid S.value i.hd).Ok i.hd.quantBits ∧ i.quantised.OnGrid (headerGrid S.value i.hd) i.hd.quantBits := by
  have hgr : headerGrid S.value i.hd = qgrid (initCfg i.hd.quantBits i.v i.vs) := by
    unfold headerGrid initCfg
    rw [hi.step, hi.bb.1, hi.bb.2.1, hi.bb.2.2]
    congr 2
    funext k
    rcases (by omega : k = 0 ∨ k = 1 ∨ k = 2) with rfl | rfl | rfl <;> rfl
  have hst : 0 < quantStep (bbMin i.v i.vs) (bbMax i.v i.vs) i.hd.quantBits := div_pos hi.range (by positivity)
  have hg : (headerGrid S.value i.hd).Ok i.hd.quantBits := by rw [hgr]; exact qgrid_ok _ _ hst _
  have hbox : ∀ p ∈ i.v :: i.vs, ∀ k, bbMin i.v i.vs k ≤ p k ∧ p k ≤ bbMax i.v i.vs k := by
    intro p hp k
    rcases List.mem_cons.mp hp with rfl | hm
    · exact ⟨(bbMin_le i.v i.vs k).1, (le_bbMax i.v i.vs k).1⟩
    · exact ⟨(bbMin_le i.v i.vs k).2 p hm, (le_bbMax i.v i.vs k).2 p hm⟩
  refine ⟨hg, ?_⟩
  intro d hd'
  obtain ⟨q, q1, q2, _⟩ := quantizeVertex_cell (bbMin i.v i.vs) (bbMax i.v i.vs) i.hd.quantBits (i.mesh.pos (i.mesh.vert d)) hi.range (hbox _ (hi.pos d hd'))
  refine ⟨vecOf q, ?_, ?_⟩
  · rw [InCell.iff, i3Of_vecOf]
    intro k
    have := q2 k
    push_cast at this
    exact this
  · rw [hgr]
    change quantizeVertex _ _ (i.mesh.pos (i.mesh.vert d)) = getPos _ (i3Of (vecOf q))
    rw [i3Of_vecOf]; exact q1

/-- The bytes of an acceptable input: how many, and where they go. -/
theorem object_size (S : Setting) (hS : S.Ok) (i : Input) (hi : i.Ok S) :
    ∃ L B data, Levels S i L B ∧
      Ends (fun n => compress S.lg S.size (headerGrid S.value) S.convex S.enc n i.hd i.quantised i.first) data ∧
      data.length ≤ room S L B ∧
      (data.length ≤ S.size → ∃ b, Ends (fun n => compressInto S.lg S.size (headerGrid S.value) S.convex S.enc n i.hd i.quantised i.first)
        (b, data.length) ∧ b.size = S.size ∧ ∀ j, j < data.length → b.mem j = data.getD j 0) ∧
      (S.size < data.length → ∃ N, ∀ n ≥ N,
        compressInto S.lg S.size (headerGrid S.value) S.convex S.enc n i.hd i.quantised i.first = none) := by
  obtain ⟨hg, hon⟩ := input_grid S i hi
  obtain ⟨L, B, fuel, h1, C, h3⟩ := object_roundtrip S.lg hS.lg (headerGrid S.value) S.convex S.enc S.enc hS.enc hS.enc i.hd hi.floats
    hi.bits hg i.quantised (wf_pos hi.wf _) hi.sep i.first hi.conn hon hi.deg
  have hL : Levels S i L B := ⟨fuel, h1⟩
  obtain ⟨f1, f2, f3, f4, f5⟩ := hi.fits L B hL
  obtain ⟨data, o, c1, -⟩ := h3 S.size fuel le_rfl f1 f2 f3 f4 f5
  have hd : ∀ n ≥ fuel, compress S.lg S.size (headerGrid S.value) S.convex S.enc n i.hd i.quantised i.first =
      writeCompressedData S.lg S.size (baseOf i.hd (headerGrid S.value i.hd) S.enc (i.quantised.src i.first) (i.quantised.vert i.first) B)
        ((L.map (·.2)).reverse.map toLevel) := by
    intro n hn
    simp only [compress]
    rw [h1 n hn]; rfl
  have hi2 : ∀ n ≥ fuel, compressInto S.lg S.size (headerGrid S.value) S.convex S.enc n i.hd i.quantised i.first =
      writeInto S.lg S.size (baseOf i.hd (headerGrid S.value i.hd) S.enc (i.quantised.src i.first) (i.quantised.vert i.first) B)
        ((L.map (·.2)).reverse.map toLevel) := by
    intro n hn
    simp only [compressInto]
    rw [h1 n hn]; rfl
  have hw := (hd fuel le_rfl).symm.trans c1
  generalize hlev : ((L.map (·.2)).reverse.map toLevel) = levels at *
  have hll : levels.length = L.length := by rw [← hlev]; simp
  have honB : B.OnGrid (headerGrid S.value i.hd) i.hd.quantBits := by
    intro d hd'
    obtain ⟨e, he1, he2⟩ := C.vsub d hd'
    obtain ⟨q, hq, hp⟩ := hon e he1
    exact ⟨q, hq, by rw [C.pos, ← he2, hp]⟩
  have hval := base_valid C.wf C.conn.1 hS.enc hg honB (nb := levels.length) hi.floats ⟨hi.bits.1, by have := hi.bits.2; omega⟩ (by omega)
    ⟨f3, f4⟩ (C.degs 10 (by omega) hi.deg)
  rw [C.dep.1, C.dep.2] at hval
  have hlval : ∀ l ∈ levels, l.Valid := by
    intro l hl
    rw [← hlev] at hl
    obtain ⟨x, hx, rfl⟩ := List.mem_map.mp hl
    rw [List.mem_reverse] at hx
    obtain ⟨y, hy, rfl⟩ := List.mem_map.mp hx
    exact level_valid hi.bits.2 hg hon (C.syms y hy)
  have hbase : ∀ b e, writeBaseMesh S.lg { baseOf i.hd (headerGrid S.value i.hd) S.enc (i.quantised.src i.first)
        (i.quantised.vert i.first) B with nbDec := levels.length } (Buf.zero S.size) 0 = some (b, e) →
      b.size = S.size ∧ e ≤ 27 + 6 * (S.enc.vorder B).length + 32 * (S.enc.gates B).length := by
    intro b e hbe
    obtain ⟨b', e', g1, _, g3, _, g5, _⟩ := base_roundtrip (fits_of_valid hS.lg hval) (Buf.zero S.size) 0
      (fun i => by simp [Buf.zero]) (fun g _ => by simp [bitAt, Buf.zero])
      (by have : (Buf.zero S.size).size = S.size := rfl
          simpa [baseOf, faceLists, this] using f5)
    obtain ⟨rfl, rfl⟩ := Prod.mk.inj (Option.some.inj (hbe.symm.trans g1))
    refine ⟨g3, ?_⟩
    simpa [baseOf, faceLists] using g5
  obtain ⟨w1, w2⟩ := writeInto_spec S.lg S.size _ levels data hw (fun b e h => ⟨(hbase b e h).1, le_trans (hbase b e h).2 f5⟩)
  refine ⟨L, B, data, hL, ⟨fuel, fun n hn => (hd n hn).trans hw⟩, ?_, ?_, ?_⟩
  · unfold writeCompressedData at hw
    simp only [Option.bind_eq_bind, Option.bind_eq_some_iff] at hw
    obtain ⟨⟨b, e⟩, x1, r, x2, x3⟩ := hw
    simp only [Option.some.injEq] at x3
    have hr := writeLevels_size levels hlval r x2
    have he := (hbase b e x1).2
    have hsum : (levels.map (fun l => 10 + (34 + 11 * l.faces.length + 57 * (geom l).length) / 8 + 11 * l.edges.length / 8)).sum =
        (L.map (fun x => levelRoom x.2)).sum := by
      rw [← hlev, List.map_map, List.map_reverse, List.sum_reverse, List.map_map]
      congr 1
      apply List.map_congr_left
      intro x _
      simp [levelRoom, toLevel, geom]
    rw [hsum] at hr
    rw [← x3, List.length_append, List.length_map, List.length_range, room]
    omega
  · intro hle
    obtain ⟨b, g1, g2, g3⟩ := w1 hle
    exact ⟨b, ⟨fuel, fun n hn => (hi2 n hn).trans g1⟩, g2, g3⟩
  · intro hlt
    exact ⟨fuel, fun n hn => (hi2 n hn).trans (w2 hlt)⟩

/-- **C88 (what is true).** Compression stores nothing outside the buffer if the text is at least as long as `room` says; then
the buffer holds, from its first byte on, `dataOffset` bytes that decode to the object (`Decodes`, as in C73).
Missing from the full claim: the condition on the length of the text. The code does not check it, and the claim is false without it
(`C88_counterexample`). -/
theorem C88_inside_buffer_partial (S : Setting) (hS : S.Ok) (env' : Env P3) (he' : env'.Ok) (i : Input) (hi : i.Ok S)
    (hroom : ∀ L B, Levels S i L B → room S L B ≤ S.size) :
    ∃ (b : Buf) (off : Nat), Ends (fun n => compressInto S.lg S.size (headerGrid S.value) S.convex S.enc n i.hd i.quantised i.first) (b, off) ∧
      b.size = S.size ∧ off ≤ S.size ∧ Decodes S env' i ((List.range off).map b.mem) := by
  obtain ⟨L, B, data, h1, h2, h3, h4, -⟩ := object_size S hS i hi
  have hle : data.length ≤ S.size := le_trans h3 (hroom L B h1)
  obtain ⟨b, g1, g2, g3⟩ := h4 hle
  refine ⟨b, data.length, g1, g2, hle, ?_⟩
  have heq : (List.range data.length).map b.mem = data := by
    apply List.ext_getElem
    · simp
    · intro k h1 h2
      simp only [List.getElem_map, List.getElem_range]
      rw [g3 k h2, List.getD_eq_getElem?_getD, List.getElem?_eq_getElem h2, Option.getD_some]
  rw [heq]
  obtain ⟨L', B', data', o, f1, f2, f3, f4, f5⟩ := object S hS env' he' i hi
  obtain rfl := Ends.unique f3 h2
  refine ⟨L', B', f1, f2, o, f4, ?_⟩
  intro ps hps
  obtain ⟨k, o', ψ, a1, a2, a3, a4, a5, aw, a6, a7⟩ := f5 ps hps
  exact ⟨k, o', ψ, a1, a2, a3, a4, a5, aw, a6, fun h => ⟨(a7 h).1, (a7 h).2.1⟩⟩

/-- **C88, exactly.** For an acceptable input the coder's bytes stay inside the buffer if and only if there are at most as many as the
text has characters; otherwise compression stores outside (undefined behaviour). -/
theorem C88_exactly (S : Setting) (hS : S.Ok) (i : Input) (hi : i.Ok S) :
    ∃ data, Ends (fun n => compress S.lg S.size (headerGrid S.value) S.convex S.enc n i.hd i.quantised i.first) data ∧
      (data.length ≤ S.size ↔ ∃ b, Ends (fun n => compressInto S.lg S.size (headerGrid S.value) S.convex S.enc n i.hd i.quantised i.first)
        (b, data.length)) ∧
      (S.size < data.length ↔ ∃ N, ∀ n ≥ N,
        compressInto S.lg S.size (headerGrid S.value) S.convex S.enc n i.hd i.quantised i.first = none) := by
  obtain ⟨L, B, data, h1, h2, h3, h4, h5⟩ := object_size S hS i hi
  have hx : ∀ p, Ends (fun n => compressInto S.lg S.size (headerGrid S.value) S.convex S.enc n i.hd i.quantised i.first) p →
      ¬ ∃ N, ∀ n ≥ N, compressInto S.lg S.size (headerGrid S.value) S.convex S.enc n i.hd i.quantised i.first = none := by
    rintro p ⟨a, ha⟩ ⟨c, hc⟩
    have := (ha (max a c) (le_max_left _ _)).symm.trans (hc (max a c) (le_max_right _ _))
    simp at this
  refine ⟨data, h2, ⟨fun h => ?_, fun h => ?_⟩, ⟨h5, fun h => ?_⟩⟩
  · obtain ⟨b, g, -⟩ := h4 h
    exact ⟨b, g⟩
  · by_contra hlt
    obtain ⟨b, hb⟩ := h
    exact hx _ hb (h5 (by omega))
  · by_contra hle
    obtain ⟨b, g, -⟩ := h4 (by omega)
    exact hx _ g h

end TDP.Pipeline
