import Verif.Stream.Model
import Verif.BaseMesh.Props
import Verif.Blocks.Props
/-! # C07: progressive decoding of a whole compressed object -/
namespace TDP.Stream
open TDP.Bits TDP.BaseMesh TDP.Blocks TDP.RangeCoder

/-- A level the format can represent: at least one split face (a decimation that removes nothing is
dropped by the compressor, mymeshComp.cpp decimationStep), residual coordinates in 16-bit range, edge
bits. -/
def Level.Valid (l : Level) : Prop := geom l ≠ [] ∧ Codable (geom l) ∧ ∀ s ∈ l.edges, s < 2

/-- How much the decoder reads for a level. -/
def Level.counts (l : Level) : Nat × Nat := (l.faces.length, l.edges.length)

theorem conn_eq (l : Level) : conn l = connOf l.faces := by
  unfold conn
  induction l.faces with
  | nil => rfl
  | cons f fs ih => cases f <;> simp [connOf, ih]

theorem geom_eq (l : Level) : geom l = geomOf l.faces := by
  unfold geom
  induction l.faces with
  | nil => rfl
  | cons f fs ih => cases f <;> simp [geomOf]

theorem done_length (e : Enc) (B : List Nat) (h : doneEncoding e = some B) : 4 ≤ B.length := by
  unfold doneEncoding at h
  simp only [Option.bind_eq_bind] at h
  rw [Option.bind_eq_some_iff] at h
  obtain ⟨e', _, h⟩ := h
  simp only [Option.some.injEq] at h
  rw [← h]; simp

theorem edges_length (s : List Nat) (B : List Nat) (h : encodeInsertedEdges s = some B) : 4 ≤ B.length := by
  unfold encodeInsertedEdges at h
  simp only [Option.bind_eq_bind, Option.bind_eq_some_iff] at h
  obtain ⟨_, _, _, _, h⟩ := h
  exact done_length _ _ h

theorem levels_roundtrip (ls : List Level) (hv : ∀ l ∈ ls, l.Valid) :
    ∃ r, writeLevels ls = some r ∧ (ls ≠ [] → 4 ≤ r.length) ∧ (∀ x ∈ r, x < 256) ∧
      ∀ following, readLevels (ls.map Level.counts) (r ++ following) = some (ls, following) := by
  induction ls with
  | nil => exact ⟨[], rfl, by simp, by simp, fun f => rfl⟩
  | cons l ls ih =>
    obtain ⟨v1, v2, v3⟩ := hv l List.mem_cons_self
    rw [geom_eq] at v1 v2
    obtain ⟨r, w1, _, wb, w3⟩ := ih (fun x hx => hv x (List.mem_cons_of_mem _ hx))
    obtain ⟨a, a1, ab, a2⟩ := C05_removed_vertices_roundtrip l.faces v1 v2
    obtain ⟨b, b1, bb, b2⟩ := C06_inserted_edges_roundtrip l.edges v3
    refine ⟨a ++ (b ++ r), ?_, ?_, ?_, ?_⟩
    · simp only [writeLevels, conn_eq, geom_eq, a1, b1, w1, Option.bind_eq_bind, Option.bind_some]
    · intro _
      have := edges_length _ _ b1
      simp only [List.length_append]; omega
    · intro x hx
      rw [List.mem_append, List.mem_append] at hx
      rcases hx with hx | hx | hx
      · exact ab x hx
      · exact bb x hx
      · exact wb x hx
    · intro f
      simp only [List.map_cons, readLevels, readLevel, Level.counts, List.append_assoc, a2, b2,
        Option.bind_eq_bind, Option.bind_some]
      rw [w3 f]
      rfl

theorem readLevels_append (cs ds : List (Nat × Nat)) (data : List Nat) (xs : List Level) (rest : List Nat)
    (h : readLevels (cs ++ ds) data = some (xs, rest)) :
    ∃ mid, readLevels cs data = some (xs.take cs.length, mid) ∧
      readLevels ds mid = some (xs.drop cs.length, rest) := by
  induction cs generalizing data xs with
  | nil => exact ⟨data, by simp [readLevels], by simpa using h⟩
  | cons c cs ih =>
    simp only [List.cons_append, readLevels, Option.bind_eq_bind, Option.bind_eq_some_iff] at h
    obtain ⟨⟨l, d1⟩, h1, ⟨ls, d2⟩, h2, h3⟩ := h
    simp only [Option.some.injEq, Prod.mk.injEq] at h3
    obtain ⟨rfl, rfl⟩ := h3
    obtain ⟨mid, m1, m2⟩ := ih d1 ls h2
    refine ⟨mid, ?_, by simpa using m2⟩
    simp only [readLevels, h1, Option.bind_eq_bind, Option.bind_some, m1, List.length_cons,
      List.take_succ_cons]

/-- **C07.** For every valid base mesh and every non-empty list of valid levels (fewer than 64), the
compressed object is produced; and for every `k` up to the number of levels, decoding the base mesh and
`k` refinements yields the same base mesh and exactly the `k` coarsest levels, coarsest first. Decoding
all of them ends exactly at the end of the data. -/
theorem C07_progressive_roundtrip (lg : Nat → Nat) (hlg : LogOk lg) (m : Base) (levels : List Level)
    (hm : ({ m with nbDec := levels.length } : Base).Valid) (hne : levels ≠ [])
    (hl : ∀ l ∈ levels, l.Valid) (size : Nat)
    (hsz : 27 + 6 * m.verts.length + 32 * m.faces.length ≤ size) :
    ∃ data, writeCompressedData lg size m levels = some data ∧ 4 ≤ data.length ∧
      ∀ k, k ≤ levels.length →
        ∃ d off, readCompressedData lg data ((levels.take k).map Level.counts) =
            some (d, levels.take k, off) ∧
          SameMesh { m with nbDec := levels.length } d ∧ (k = levels.length → off = data.length) := by
  generalize hM : ({ m with nbDec := levels.length } : Base) = M at hm
  have hv : M.verts = m.verts := by rw [← hM]
  have hff : M.faces = m.faces := by rw [← hM]
  have hf := fits_of_valid hlg hm
  obtain ⟨b, e, h1, h2, h3, h4, h5, h6, h7⟩ := base_roundtrip hf (Buf.zero size) 0
    (fun i => by simp [Buf.zero]) (fun g _ => by simp [bitAt, Buf.zero])
    (by have : (Buf.zero size).size = size := rfl
        rw [hv, hff]; omega)
  obtain ⟨r, w1, w2, wb, w3⟩ := levels_roundtrip levels hl
  have hlenr := w2 hne
  have hget : ∀ i, i < e → ((List.range e).map b.mem ++ r).getD i 0 = b.mem i := by
    intro i hi
    simp [List.getElem?_append_left, hi]
  refine ⟨(List.range e).map b.mem ++ r, ?_, by rw [List.length_append]; omega, ?_⟩
  · unfold writeCompressedData
    rw [hM]
    simp only [h1, w1, Option.bind_eq_bind, Option.bind_some]
  · intro k hk
    have hread : readBaseMesh lg (toBuf ((List.range e).map b.mem ++ r)) 0 = some (decoded M, e) := by
      refine h7 _ ?_ ?_ ?_
      · intro i
        simp only [toBuf]
        rcases Nat.lt_or_ge i ((List.range e).map b.mem ++ r).length with hi | hi
        · have hmem : ((List.range e).map b.mem ++ r).getD i 0 ∈ (List.range e).map b.mem ++ r := by
            simp only [List.getD_eq_getElem?_getD, List.getElem?_eq_getElem hi, Option.getD_some]
            exact List.getElem_mem hi
          rw [List.mem_append, List.mem_map] at hmem
          rcases hmem with ⟨j, _, hj⟩ | hmem
          · rw [← hj]; exact h2 j
          · exact wb _ hmem
        · simp [List.getElem?_eq_none hi]
      · simp only [toBuf, List.length_append, List.length_map, List.length_range]; omega
      · intro g _ hg
        simp only [bitAt, toBuf]
        rw [hget _ (by omega)]
    have hall := w3 []
    rw [List.append_nil] at hall
    have hsplit : levels.map Level.counts =
        (levels.take k).map Level.counts ++ (levels.drop k).map Level.counts := by
      rw [← List.map_append, List.take_append_drop]
    rw [hsplit] at hall
    obtain ⟨mid, m1, m2⟩ := readLevels_append _ _ _ _ _ hall
    rw [List.length_map, List.length_take, Nat.min_eq_left hk] at m1 m2
    have hdrop : ((List.range e).map b.mem ++ r).drop e = r := by
      rw [List.drop_append_of_le_length (by simp), List.drop_of_length_le (by simp), List.nil_append]
    refine ⟨decoded M, ((List.range e).map b.mem ++ r).length - mid.length, ?_, decoded_same hf, ?_⟩
    · unfold readCompressedData
      simp only [hread, Option.bind_eq_bind, Option.bind_some, hdrop, m1]
    · intro hkl
      rw [hkl, List.drop_length, List.map_nil] at m2
      simp only [readLevels, Option.some.injEq, Prod.mk.injEq] at m2
      rw [m2.2]; rfl

/-- Non-vacuity: two levels on the sample tetrahedron. -/
def sampleLevels : List Level :=
  [⟨[none, some ⟨-5, 0, 1234⟩, none, none], [1, 0, 0]⟩, ⟨[some ⟨7, -7, 0⟩, none], []⟩]

example : ({ sample with nbDec := sampleLevels.length } : Base).Valid ∧ sampleLevels ≠ [] ∧
    ∀ l ∈ sampleLevels, l.Valid := by
  refine ⟨by constructor <;> simp [sample, sampleLevels], by simp [sampleLevels], ?_⟩
  intro l hl
  simp only [sampleLevels, List.mem_cons, List.not_mem_nil, or_false] at hl
  rcases hl with rfl | rfl
  · refine ⟨by simp [geom], ⟨-5, 1234, by decide, by decide, by decide, by simp [geom]⟩, by simp⟩
  · refine ⟨by simp [geom], ⟨-7, 7, by decide, by decide, by decide, by simp [geom]⟩, by simp⟩

end TDP.Stream
