import Verif.Blocks.Lemmas
/-! Properties C05, C06 -/
namespace TDP.Blocks
open TDP.RangeCoder TDP.QsModel

/-- **C06.** Every sequence of edge bits is encoded without failure, and decoding that many symbols
from the block, whatever follows it, gives exactly the same sequence and stops exactly at the end of
the block. -/
theorem C06_inserted_edges_roundtrip (syms : List Nat) (hs : ∀ s ∈ syms, s < 2) :
    ∃ block, encodeInsertedEdges syms = some block ∧ (∀ b ∈ block, b < 256) ∧
      ∀ following, decodeInsertedEdges syms.length (block ++ following) = some (syms, following) := by
  obtain ⟨mc, md, i1, i2, p⟩ := Pair.init 2 10 (1 <<< 9) (by simp [LegalParams, GoodInit])
  obtain ⟨mc', md', c⟩ := codec_syms syms hs mc md p
  obtain ⟨B, b1, b3, b2⟩ := c.block
  refine ⟨B, ?_, b3, ?_⟩
  · simp only [encodeInsertedEdges, Option.bind_eq_bind]
    rw [i1]; exact b1
  · intro tail
    obtain ⟨d, d', s1, s2, d'', s3, s4⟩ := b2 tail
    rw [Option.bind_eq_some_iff] at s2
    obtain ⟨⟨ss, dd, mm⟩, s5, s6⟩ := s2
    simp only [Option.some.injEq, Prod.mk.injEq] at s6
    obtain ⟨⟨rfl, -⟩, rfl⟩ := s6
    simp only [decodeInsertedEdges, i2, s1, s5, s3, s4, Option.bind_eq_bind, Option.bind_some]

example : ∀ s ∈ [0, 1, 1, 0, 1], s < 2 := by decide

/-- Residuals the block format can represent: all coordinates in an interval `[lo, hi]` of 16-bit
signed values with fewer than 65536 values. (The code asserts the stronger `|min| ≤ 2^14`,
`range < 2^14`, mymeshComp.cpp:511,514; the assertions are compiled out.) -/
def Codable (geom : List Vec) : Prop :=
  ∃ lo hi : Int, -32768 ≤ lo ∧ hi < 32768 ∧ hi - lo + 1 < 65536 ∧
    ∀ v ∈ geom, (lo ≤ v.x ∧ v.x ≤ hi) ∧ (lo ≤ v.y ∧ v.y ≤ hi) ∧ (lo ≤ v.z ∧ v.z ≤ hi)

/-- **C05.** For every list of visited faces (a residual for each split face) with at least one split
face and residuals in the representable range, the block is written without failure, and decoding that
many faces, whatever follows the block, gives back exactly the same marks and residuals and stops
exactly at the end of the block. -/
theorem C05_removed_vertices_roundtrip (faces : List (Option Vec)) (hne : geomOf faces ≠ [])
    (hr : Codable (geomOf faces)) :
    ∃ block, encodeRemovedVertices (connOf faces) (geomOf faces) = some block ∧
      (∀ b ∈ block, b < 256) ∧
      ∀ following, decodeRemovedVertices faces.length (block ++ following) = some (faces, following) := by
  obtain ⟨lo, hi, h1, h2, h3, h4⟩ := hr
  cases hg : geomOf faces with
  | nil => exact absurd hg hne
  | cons g0 gs =>
    rw [hg] at h4
    generalize hmn : minLoop g0.x (g0 :: gs) = mn
    generalize hmx : maxLoop g0.x (g0 :: gs) = mx
    have a1 := minLoop_le g0.x (g0 :: gs)
    have a2 := le_maxLoop g0.x (g0 :: gs)
    have a3 := minLoop_ge lo g0.x (g0 :: gs) (h4 g0 List.mem_cons_self).1.1
      (fun v hv => ⟨(h4 v hv).1.1, (h4 v hv).2.1.1, (h4 v hv).2.2.1⟩)
    have a4 := maxLoop_le hi g0.x (g0 :: gs) (h4 g0 List.mem_cons_self).1.2
      (fun v hv => ⟨(h4 v hv).1.2, (h4 v hv).2.1.2, (h4 v hv).2.2.2⟩)
    rw [hmn] at a1 a3
    rw [hmx] at a2 a4
    generalize hrg : (max (mx - mn + 1) 2).toNat = range
    have hrange : mx - mn + 1 ≤ range ∧ 2 ≤ range ∧ range < 65536 := by omega
    have hpow : (2:Nat) ^ 18 = 262144 := by decide
    obtain ⟨mg, mdg, i1, i2, pg⟩ := Pair.init range 18 (1 <<< 17)
      ⟨by omega, by decide, by show range ≤ 2 ^ 18; omega⟩
    obtain ⟨mc, mdc, j1, j2, pc⟩ := Pair.init 2 10 (1 <<< 9) (by simp [LegalParams, GoodInit])
    obtain ⟨m', c⟩ := codec_faces faces range mn (by
      rw [hg]
      intro v hv
      have b1 := a1.2 v hv
      have b2 := a2.2 v hv
      omega) mc mdc mg mdg pc pg
    have c2 := Codec.bind (encQ := fun _ e => encFaces e mc mg mn (connOf faces) (geomOf faces))
      (decQ := fun r d => (initqsmodel r 18 (1 <<< 17) none false).bind fun mg =>
        (initqsmodel 2 10 (1 <<< 9) none false).bind fun mc =>
          decFaces d mc mg mn faces.length) (codec_short range hrange.2.2)
      (c.congr (fun e => rfl) (fun d => by rw [i2, j2]; rfl))
    have hmn16 : fromU16 (toU16 mn) = mn := fromU16_toU16 mn (by omega) (by omega)
    have c3 := Codec.bind
      (encQ := fun _ e => ((encodeShort e range).bind fun e => some (e, ())).bind fun p =>
        encFaces p.1 mc mg mn (connOf faces) (geomOf faces))
      (decQ := fun r d => (decodeShort d).bind fun p => (initqsmodel p.1 18 (1 <<< 17) none false).bind
        fun mg => (initqsmodel 2 10 (1 <<< 9) none false).bind fun mc =>
          decFaces p.2 mc mg (fromU16 r) faces.length) (codec_short (toU16 mn) (toU16_lt mn))
      (c2.congr (fun e => rfl) (fun d => by rw [hmn16]))
    obtain ⟨B, b1, b3, b2⟩ := c3.block
    refine ⟨B, ?_, b3, ?_⟩
    · simp only [encodeRemovedVertices]
      rw [hmn, hmx, hrg]
      simp only [i1, j1, Option.bind_eq_bind, Option.bind_some]
      rw [← b1, hg]
      cases encodeShort (startEncoding 0 0) (toU16 mn) with
      | none => rfl
      | some e1 =>
        simp only [Option.bind_some]
        cases encodeShort e1 range <;> rfl
    · intro tail
      obtain ⟨d, d', s1, s2, d'', s3, s4⟩ := b2 tail
      simp only [decodeRemovedVertices, s1, Option.bind_eq_bind, Option.bind_some]
      simp only [Option.bind_eq_some_iff] at s2
      obtain ⟨⟨r1, d1⟩, t1, ⟨r2, d2⟩, t2, g, t3, c', t4, t5⟩ := s2
      simp only at t3 t5 t2
      simp only [t1, t2, t3, t4, t5, s3, s4, Option.bind_some]

/-- A non-trivial instance of the hypotheses: two split faces with signed residuals among four. -/
example : geomOf [none, some ⟨-5, 0, 1234⟩, none, some ⟨7, -7, 0⟩] ≠ [] ∧
    Codable (geomOf [none, some ⟨-5, 0, 1234⟩, none, some ⟨7, -7, 0⟩]) := by
  refine ⟨by simp [geomOf], -7, 1234, by decide, by decide, by decide, ?_⟩
  simp [geomOf]

end TDP.Blocks
