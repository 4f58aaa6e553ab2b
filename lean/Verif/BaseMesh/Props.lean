import Verif.BaseMesh.Lemmas
/-! # C09: base mesh round trip -/
namespace TDP.BaseMesh
open TDP.Bits

/-- What the header fields and the closed mesh invariants allow: 32-bit floats, at most 16 quantisation
bits, fewer than 64 levels, 16-bit counts, two different departure vertices, coordinates that fit the
quantisation, faces of 3 to 10 vertices that exist. (The first four numeric limits are the code's own
assertions, mymeshIO.cpp:166-176,198,232; the 16-bit counts are *not* asserted anywhere.) -/
structure Base.Valid (m : Base) : Prop where
  floats : m.bb0 < 2 ^ 32 ∧ m.bb1 < 2 ^ 32 ∧ m.bb2 < 2 ^ 32 ∧ m.step < 2 ^ 32
  quantBits : 1 ≤ m.quantBits ∧ m.quantBits ≤ 16
  levels : m.nbDec < 64 ∧ m.nbQuant < m.quantBits
  counts : m.verts.length < 65536 ∧ m.faces.length < 65536
  departure : m.dep0 < m.verts.length ∧ m.dep1 < m.verts.length ∧ m.dep0 ≠ m.dep1
  coords : ∀ p ∈ m.verts, p.1 < 2 ^ (m.quantBits - m.nbQuant) ∧ p.2.1 < 2 ^ (m.quantBits - m.nbQuant) ∧
    p.2.2 < 2 ^ (m.quantBits - m.nbQuant)
  faces : ∀ f ∈ m.faces, 3 ≤ f.length ∧ f.length ≤ 10 ∧ ∀ v ∈ f, v < m.verts.length

/-- What is used of `ceil(log(n) / log(2))` computed in `double`, for `2 ≤ n < 65536`. -/
def LogOk (lg : Nat → Nat) : Prop := ∀ n, 2 ≤ n → n < 65536 → n ≤ 2 ^ lg n ∧ lg n ≤ 25

/-- The decoded mesh is the original one up to a renumbering `σ` of the vertices (new number ↦ old
number) that puts the two departure vertices first: same header, same points, same faces. -/
def SameMesh (m : Base) (d : Decoded) : Prop :=
  (d.bb0 = m.bb0 ∧ d.bb1 = m.bb1 ∧ d.bb2 = m.bb2 ∧ d.step = m.step) ∧
  d.quantBits = m.quantBits ∧ d.nbDec = m.nbDec ∧ d.nbQuant = m.nbQuant ∧
  d.levelNotConvex = m.nbDec - m.levelNotConvex ∧
  ∃ σ : List Nat, σ.Perm (List.range m.verts.length) ∧ σ[0]? = some m.dep0 ∧ σ[1]? = some m.dep1 ∧
    d.verts.map some = σ.map (fun v => m.verts[v]?) ∧
    d.faces.map (fun f => f.map (fun i => σ[i]?)) = m.faces.map (fun f => f.map some)

theorem fits_of_valid {lg : Nat → Nat} (hlg : LogOk lg) {m : Base} (h : m.Valid) : Fits lg m := by
  have hn : 2 ≤ m.verts.length := by have := h.departure; omega
  have hl := hlg _ hn h.counts.1
  exact ⟨h.floats.1, h.floats.2.1, h.floats.2.2.1, h.floats.2.2.2, h.quantBits.1, h.quantBits.2,
    h.levels.1, h.levels.2, h.counts.1, h.counts.2, h.departure.1, h.departure.2.1, h.departure.2.2,
    h.coords, h.faces, hl.1, hl.2⟩

theorem decoded_same {lg : Nat → Nat} {m : Base} (h : Fits lg m) : SameMesh m (decoded m) := by
  refine ⟨⟨rfl, rfl, rfl, rfl⟩, rfl, rfl, rfl, rfl, order m, order_perm m h.dne h.d0 h.d1, rfl, rfl, ?_, ?_⟩
  · simp only [decoded, List.map_map]
    apply List.map_congr_left
    intro v hv
    have hv' : v < m.verts.length := List.mem_range.mp ((order_perm m h.dne h.d0 h.d1).mem_iff.mp hv)
    exact (getElem?_pt m v hv').symm
  · simp only [decoded, List.map_map]
    apply List.map_congr_left
    intro f hf
    simp only [Function.comp_apply, List.map_map]
    apply List.map_congr_left
    intro v hv
    exact (finalIds_spec m h.dne h.d0 h.d1 v ((h.faces f hf).2.2 v hv)).2

/-- **C09.** Every valid base mesh is written without failure into a zero-filled buffer with enough
room, and reading it from any buffer that holds the same first `e` bytes and at least four more (the
level blocks that follow) yields the same mesh and the same offset `e`. -/
theorem C09_base_mesh_roundtrip (lg : Nat → Nat) (hlg : LogOk lg) (m : Base) (h : m.Valid) (size : Nat)
    (hsz : 27 + 6 * m.verts.length + 32 * m.faces.length ≤ size) :
    ∃ b e, writeBaseMesh lg m (Buf.zero size) 0 = some (b, e) ∧
      (∀ c : Buf, (∀ i, c.mem i < 256) → (∀ i, i < e → c.mem i = b.mem i) → e + 4 ≤ c.size →
        ∃ d, readBaseMesh lg c 0 = some (d, e) ∧ SameMesh m d) := by
  have hf := fits_of_valid hlg h
  obtain ⟨b, e, h1, h2, h3, h4, h5, h6, h7⟩ := base_roundtrip hf (Buf.zero size) 0
    (fun i => by simp [Buf.zero]) (fun g _ => by simp [bitAt, Buf.zero])
    (by have : (Buf.zero size).size = size := rfl
        omega)
  refine ⟨b, e, h1, fun c hc he hs => ⟨decoded m, h7 c hc hs (fun g _ hg => ?_), decoded_same hf⟩⟩
  unfold bitAt
  rw [he _ (by omega)]

/-- A tetrahedron whose departure edge is (3, 1). -/
def sample : Base where
  bb0 := 0x3f800000
  bb1 := 0
  bb2 := 0xbf800000
  step := 0x3a000000
  quantBits := 12
  nbDec := 9
  nbQuant := 0
  levelNotConvex := 0
  verts := [(0, 0, 0), (4095, 0, 0), (0, 4095, 0), (0, 0, 4095)]
  dep0 := 3
  dep1 := 1
  faces := [[0, 2, 1], [0, 1, 3], [1, 2, 3], [2, 0, 3]]

example : sample.Valid := by
  constructor <;> simp [sample]

/-- The sample is really renumbered, written and read back (`lg` = number of bits). -/
example : (do let (b, _) ← writeBaseMesh (fun _ => 2) sample (Buf.zero 300) 0
              let (d, e) ← readBaseMesh (fun _ => 2) b 0
              some (d.verts, d.faces, e)) =
    some ([(0, 0, 4095), (4095, 0, 0), (0, 0, 0), (0, 4095, 0)],
      [[2, 3, 1], [2, 1, 0], [1, 3, 0], [3, 2, 0]], 46) := by decide +kernel

end TDP.BaseMesh
