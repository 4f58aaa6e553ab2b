import Verif.Bits.Lemmas
/-!
# C08: bit fields read back as they were written
-/
namespace TDP.Bits

/-- **C08.** Take any sequence of fields whose widths are 1..25 bits (the limit asserted by the code)
and whose values fit their widths, and any write position whose following bits are still zero, as in the
zero-filled buffer of the compressor. Written one after the other they never leave the buffer (given room
for the fields plus the 4-byte access window), and reading the same widths from *any* buffer holding the
same bytes gives back the same values and ends at the same position as the writer. -/
theorem C08_fields_roundtrip (b : Buf) (pos : Pos) (fs : List (Nat × Nat))
    (hwf : ∀ i, b.mem i < 256) (hp : pos.bit < 8 ∧ 1 ≤ pos.off)
    (hz : ∀ g, 8 * (pos.off - 1) + pos.bit ≤ g → bitAt b g = false)
    (hfs : ∀ f ∈ fs, 1 ≤ f.2 ∧ f.2 ≤ 25 ∧ f.1 < 2 ^ f.2)
    (hsz : pos.off + (pos.bit + (fs.map (·.2)).sum) / 8 + 3 ≤ b.size) :
    ∃ b1 pos1, writeFields b pos fs = some (b1, pos1) ∧
      8 * (pos1.off - 1) + pos1.bit = 8 * (pos.off - 1) + pos.bit + (fs.map (·.2)).sum ∧
      (∀ b' : Buf, (∀ i, b'.mem i = b1.mem i) → b.size ≤ b'.size →
        readFields b' pos (fs.map (·.2)) = some (fs.map (·.1), pos1)) := by
  have hs : (pos.idx + width fs) / 8 + 4 ≤ b.size := by
    have := hp.2; unfold Pos.idx width; omega
  obtain ⟨b1, h1, h2, h3, h4, _, _⟩ := writeFields_spec b pos fs hwf hp hfs hz hs
  refine ⟨b1, _, h1, pos.advs_idx fs hp, fun b' hb hsz' => ?_⟩
  refine readFields_spec b' _ fs (fun i => by rw [hb]; exact h2 i) hp hfs
    (HoldsAll.congr b1 b' _ fs h4 (fun g _ _ => by simp [bitAt, hb])) (Nat.le_trans hs hsz')

/-- Writing fields leaves every earlier bit of the buffer alone (so what was stored before survives). -/
theorem C08_earlier_bits_untouched (b b' : Buf) (pos pos' : Pos) (fs : List (Nat × Nat))
    (hwf : ∀ i, b.mem i < 256) (hp : pos.bit < 8 ∧ 1 ≤ pos.off)
    (hfs : ∀ f ∈ fs, 1 ≤ f.2 ∧ f.2 ≤ 25 ∧ f.1 < 2 ^ f.2)
    (hz : ∀ g, 8 * (pos.off - 1) + pos.bit ≤ g → bitAt b g = false)
    (hsz : pos.off + (pos.bit + (fs.map (·.2)).sum) / 8 + 3 ≤ b.size)
    (h : writeFields b pos fs = some (b', pos')) (g : Nat) (hg : g < 8 * (pos.off - 1) + pos.bit) :
    bitAt b' g = bitAt b g := by
  obtain ⟨c, h1, _, _, _, h5, _⟩ := writeFields_spec b pos fs hwf hp hfs hz
    (by have := hp.2; unfold Pos.idx width; omega)
  rw [h1] at h
  cases h
  exact h5 g hg

/-- A concrete case: the header fields of a base mesh, followed by two coordinates. -/
example : ∃ b pos, writeFields (Buf.zero 40) ⟨0, 17⟩
      [(11, 4), (9, 6), (0, 6), (9, 6), (1500, 16), (2996, 16), (4095, 12), (17, 12)] = some (b, pos) ∧
    readFields ⟨b.mem, 40⟩ ⟨0, 17⟩ [4, 6, 6, 6, 16, 16, 12, 12] =
      some ([11, 9, 0, 9, 1500, 2996, 4095, 17], pos) := by
  obtain ⟨b, pos, h1, _, h2⟩ := C08_fields_roundtrip (Buf.zero 40) ⟨0, 17⟩
    [(11, 4), (9, 6), (0, 6), (9, 6), (1500, 16), (2996, 16), (4095, 12), (17, 12)]
    (fun i => by simp [Buf.zero]) (by decide) (fun g _ => by simp [bitAt, Buf.zero])
    (by decide) (by decide)
  exact ⟨b, pos, h1, h2 _ (fun _ => rfl) (Nat.le_refl _)⟩

/-- Why the width bound is needed: with assertions compiled out a value too large for its field spills
into the *previous* field. A base mesh of 65536 + n vertices therefore changes the level count field
written just before its 16-bit vertex count. -/
theorem C08_too_wide_value_corrupts_neighbour :
    (do let (b, _) ← writeFields (Buf.zero 16) ⟨0, 1⟩ [(0, 6), (65536, 16)]
        let (vs, _) ← readFields b ⟨0, 1⟩ [6, 16]
        some vs) = some [1, 0] := by decide +kernel

end TDP.Bits
