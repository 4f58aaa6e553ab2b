import Verif.BaseMesh.Props
/-! Reading a base mesh from a buffer that is longer; how far reading goes beyond the last bit. -/
namespace TDP.BaseMesh
open TDP.Bits

/-- `c` holds what `b` holds and perhaps more. -/
def Ext (b c : Buf) : Prop := b.size ≤ c.size ∧ ∀ i, i < b.size → c.mem i = b.mem i

theorem load_ext {b c : Buf} (h : Ext b c) {p w : Nat} (hr : load32 b p = some w) : load32 c p = some w := by
  obtain ⟨h1, h2⟩ := h
  unfold load32 at hr ⊢
  by_cases hp : p + 4 ≤ b.size
  · rw [if_pos hp] at hr
    rw [if_pos (by omega), h2 p (by omega), h2 (p + 1) (by omega), h2 (p + 2) (by omega), h2 (p + 3) (by omega)]
    exact hr
  · rw [if_neg hp] at hr; exact absurd hr (by simp)

theorem readBits_ext {b c : Buf} (h : Ext b c) {pos : Pos} {nb : Nat} {r : Nat × Pos} (hr : readBits b pos nb = some r) :
    readBits c pos nb = some r := by
  unfold readBits at hr ⊢
  by_cases hp : nb + pos.bit = 0 ∨ 32 < nb + pos.bit
  · rw [if_pos hp] at hr; exact absurd hr (by simp)
  · rw [if_neg hp] at hr ⊢
    simp only [Option.bind_eq_bind, Option.bind_eq_some_iff] at hr ⊢
    obtain ⟨w, h1, h2⟩ := hr
    exact ⟨w, load_ext h h1, h2⟩

theorem readFloat_ext {b c : Buf} (h : Ext b c) {off : Nat} {r : Nat × Nat} (hr : readFloat b off = some r) :
    readFloat c off = some r := by
  unfold readFloat at hr ⊢
  simp only [Option.bind_eq_bind, Option.bind_eq_some_iff] at hr ⊢
  obtain ⟨w, h1, h2⟩ := hr
  exact ⟨w, load_ext h h1, h2⟩

theorem readFields_ext {b c : Buf} (h : Ext b c) : ∀ (ws : List Nat) (pos : Pos) (r : List Nat × Pos),
    readFields b pos ws = some r → readFields c pos ws = some r := by
  intro ws
  induction ws with
  | nil => intro pos r hr; exact hr
  | cons w ws ih =>
    intro pos r hr
    simp only [readFields, Option.bind_eq_bind, Option.bind_eq_some_iff] at hr ⊢
    obtain ⟨x, h1, y, h2, h3⟩ := hr
    exact ⟨x, readBits_ext h h1, y, ih _ _ h2, h3⟩

theorem readVerts_ext {b c : Buf} (h : Ext b c) (w : Nat) : ∀ (n : Nat) (pos : Pos) (r : List Pt × Pos),
    readVerts b w pos n = some r → readVerts c w pos n = some r := by
  intro n
  induction n with
  | zero => intro pos r hr; exact hr
  | succ n ih =>
    intro pos r hr
    simp only [readVerts, Option.bind_eq_bind, Option.bind_eq_some_iff] at hr ⊢
    obtain ⟨x, h1, y, h2, z, h3, u, h4, h5⟩ := hr
    exact ⟨x, readBits_ext h h1, y, readBits_ext h h2, z, readBits_ext h h3, u, ih _ _ h4, h5⟩

theorem readFaces_ext {b c : Buf} (h : Ext b c) (nbits : Nat) : ∀ (n : Nat) (pos : Pos) (r : List (List Nat) × Pos),
    readFaces b nbits pos n = some r → readFaces c nbits pos n = some r := by
  intro n
  induction n with
  | zero => intro pos r hr; exact hr
  | succ n ih =>
    intro pos r hr
    simp only [readFaces, Option.bind_eq_bind, Option.bind_eq_some_iff] at hr ⊢
    obtain ⟨x, h1, y, h2, u, h4, h5⟩ := hr
    exact ⟨x, readBits_ext h h1, y, readFields_ext h _ _ _ h2, u, ih _ _ h4, h5⟩

theorem readBaseMesh_ext {b c : Buf} (h : Ext b c) {lg : Nat → Nat} {off : Nat} {r : Decoded × Nat}
    (hr : readBaseMesh lg b off = some r) : readBaseMesh lg c off = some r := by
  simp only [readBaseMesh, Option.bind_eq_bind, Option.bind_eq_some_iff] at hr ⊢
  obtain ⟨f0, a0, f1, a1, f2, a2, f3, a3, x1, b1, x2, b2, x3, b3, x4, b4, x5, b5, x6, b6, y, c1, z, c2, e⟩ := hr
  exact ⟨f0, readFloat_ext h a0, f1, readFloat_ext h a1, f2, readFloat_ext h a2, f3, readFloat_ext h a3, x1, readBits_ext h b1, x2,
    readBits_ext h b2, x3, readBits_ext h b3, x4, readBits_ext h b4, x5, readBits_ext h b5, x6, readBits_ext h b6, y,
    readVerts_ext h _ _ _ _ c1, z, readFaces_ext h _ _ _ _ c2, e⟩

/-- A field of at most 17 bits, read: its last bit is before the last byte of the buffer. -/
def Short (b : Buf) (pos : Pos) : Prop := pos.bit < 8 ∧ 1 ≤ pos.off ∧ 8 * (pos.off - 1) + pos.bit + 8 ≤ 8 * b.size

theorem readBits_short {b : Buf} {pos : Pos} {nb : Nat} {r : Nat × Pos} (hb : pos.bit < 8 ∧ 1 ≤ pos.off) (hn : nb ≤ 17)
    (hr : readBits b pos nb = some r) : Short b r.2 := by
  unfold readBits at hr
  by_cases hp : nb + pos.bit = 0 ∨ 32 < nb + pos.bit
  · rw [if_pos hp] at hr; exact absurd hr (by simp)
  · rw [if_neg hp] at hr
    simp only [Option.bind_eq_bind, Option.bind_eq_some_iff, Option.some.injEq] at hr
    obtain ⟨w, h1, rfl⟩ := hr
    unfold load32 at h1
    by_cases hs : pos.off - 1 + 4 ≤ b.size
    · refine ⟨Nat.mod_lt _ (by decide), ?_, ?_⟩ <;> simp only <;> omega
    · rw [if_neg hs] at h1; exact absurd h1 (by simp)

theorem readBits_ok {b : Buf} {pos : Pos} {nb : Nat} {r : Nat × Pos} (hb : pos.bit < 8 ∧ 1 ≤ pos.off)
    (hr : readBits b pos nb = some r) : r.2.bit < 8 ∧ 1 ≤ r.2.off := by
  unfold readBits at hr
  by_cases hp : nb + pos.bit = 0 ∨ 32 < nb + pos.bit
  · rw [if_pos hp] at hr; exact absurd hr (by simp)
  · rw [if_neg hp] at hr
    simp only [Option.bind_eq_bind, Option.bind_eq_some_iff, Option.some.injEq] at hr
    obtain ⟨w, h1, rfl⟩ := hr
    exact ⟨Nat.mod_lt _ (by decide), by simp only; omega⟩

theorem readFields_short {b : Buf} : ∀ (ws : List Nat) (pos : Pos) (r : List Nat × Pos), (∀ w ∈ ws, w ≤ 17) → Short b pos →
    readFields b pos ws = some r → Short b r.2 := by
  intro ws
  induction ws with
  | nil => intro pos r _ hs hr; simp only [readFields, Option.some.injEq] at hr; rw [← hr]; exact hs
  | cons w ws ih =>
    intro pos r hw hs hr
    simp only [readFields, Option.bind_eq_bind, Option.bind_eq_some_iff, Option.some.injEq] at hr
    obtain ⟨x, h1, y, h2, rfl⟩ := hr
    exact ih _ y (fun w' h => hw w' (List.mem_cons_of_mem _ h))
      (readBits_short ⟨hs.1, hs.2.1⟩ (hw w List.mem_cons_self) h1) h2

theorem readVerts_ok {b : Buf} {w : Nat} : ∀ (n : Nat) (pos : Pos) (r : List Pt × Pos), (pos.bit < 8 ∧ 1 ≤ pos.off) →
    readVerts b w pos n = some r → r.2.bit < 8 ∧ 1 ≤ r.2.off := by
  intro n
  induction n with
  | zero => intro pos r hs hr; simp only [readVerts, Option.some.injEq] at hr; rw [← hr]; exact hs
  | succ n ih =>
    intro pos r hs hr
    simp only [readVerts, Option.bind_eq_bind, Option.bind_eq_some_iff, Option.some.injEq] at hr
    obtain ⟨x, h1, y, h2, z, h3, u, h4, rfl⟩ := hr
    exact ih _ u (readBits_ok (readBits_ok (readBits_ok hs h1) h2) h3) h4

theorem readFaces_short {b : Buf} {nbits : Nat} (hn : nbits ≤ 17) : ∀ (n : Nat) (pos : Pos) (r : List (List Nat) × Pos), 0 < n →
    (pos.bit < 8 ∧ 1 ≤ pos.off) → readFaces b nbits pos n = some r → Short b r.2 := by
  intro n
  induction n with
  | zero => intro pos r h; omega
  | succ n ih =>
    intro pos r _ hs hr
    simp only [readFaces, Option.bind_eq_bind, Option.bind_eq_some_iff, Option.some.injEq] at hr
    obtain ⟨x, h1, y, h2, u, h4, rfl⟩ := hr
    have s1 : Short b x.2 := readBits_short hs (by omega) h1
    have s2 : Short b y.2 := readFields_short _ _ _ (fun w hw => by rw [List.eq_of_mem_replicate hw]; exact hn) s1 h2
    rcases Nat.eq_zero_or_pos n with rfl | h0
    · simp only [readFaces, Option.some.injEq] at h4
      rw [← h4]; exact s2
    · exact ih _ u h0 ⟨s2.1, s2.2.1⟩ h4

/-- Reading a base mesh touches at least one byte beyond its end. -/
theorem readBaseMesh_beyond {b : Buf} {lg : Nat → Nat} {off : Nat} {d : Decoded} {e : Nat}
    (hr : readBaseMesh lg b off = some (d, e)) (hf : d.faces ≠ []) (hl : lg d.verts.length ≤ 17) : e < b.size := by
  simp only [readBaseMesh, Option.bind_eq_bind, Option.bind_eq_some_iff, Option.some.injEq, Prod.mk.injEq] at hr
  obtain ⟨f0, a0, f1, a1, f2, a2, f3, a3, x1, b1, x2, b2, x3, b3, x4, b4, x5, b5, x6, b6, y, c1, z, c2, rfl, rfl⟩ := hr
  have hv : ∀ (n : Nat) (w : Nat) (pos : Pos) (r : List Pt × Pos), readVerts b w pos n = some r → r.1.length = n := by
    intro n w
    induction n with
    | zero => intro pos r h; simp only [readVerts, Option.some.injEq] at h; rw [← h]; rfl
    | succ n ih =>
      intro pos r h
      simp only [readVerts, Option.bind_eq_bind, Option.bind_eq_some_iff, Option.some.injEq] at h
      obtain ⟨_, _, _, _, _, _, u, h4, rfl⟩ := h
      simp [ih _ _ h4]
  simp only at hf hl
  rw [hv _ _ _ _ c1] at hl
  have h0 : 0 < x6.1 := by
    rcases Nat.eq_zero_or_pos x6.1 with h | h
    · rw [h] at c2
      simp only [readFaces, Option.some.injEq] at c2
      rw [← c2] at hf
      exact absurd rfl hf
    · exact h
  have hs := readFaces_short hl _ _ _ h0 (readVerts_ok _ _ _ (readBits_ok (readBits_ok (readBits_ok (readBits_ok (readBits_ok
    (readBits_ok (by exact ⟨by simp, by simp⟩) b1) b2) b3) b4) b5) b6) c1) c2
  obtain ⟨s1, s2, s3⟩ := hs
  split <;> omega

end TDP.BaseMesh
