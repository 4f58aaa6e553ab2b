import Verif.BaseMesh.Model
import Verif.Bits.Lemmas
/-! Reader and writer of the base mesh as field lists. -/
namespace TDP.BaseMesh
open TDP.Bits

/-- The fields `fs` can be read at `pos`. -/
structure Rd (b : Buf) (pos : Pos) (fs : List (Nat × Nat)) : Prop where
  wf : b.WF
  ok : pos.Ok
  good : Good fs
  holds : HoldsAll b pos.idx fs
  size : (pos.idx + width fs) / 8 + 4 ≤ b.size

theorem width_cons (f : Nat × Nat) (fs : List (Nat × Nat)) : width (f :: fs) = f.2 + width fs := by
  simp [width]

theorem width_append (fs gs : List (Nat × Nat)) : width (fs ++ gs) = width fs + width gs := by
  simp [width]

theorem Rd.step {b : Buf} {pos : Pos} {f : Nat × Nat} {fs : List (Nat × Nat)} (h : Rd b pos (f :: fs)) :
    readBits b pos f.2 = some (f.1, pos.adv f.2) ∧ Rd b (pos.adv f.2) fs := by
  obtain ⟨h1, h2, h3, h4, h5⟩ := h
  rw [width_cons] at h5
  obtain ⟨g1, g2, g3⟩ := h3 f List.mem_cons_self
  have hidx := pos.adv_idx f.2 h2
  refine ⟨readBits_spec b pos f.1 f.2 h1 h2 g1 g2 ?_ h4.1,
    h1, pos.adv_ok _ h2, fun x hx => h3 x (List.mem_cons_of_mem _ hx), by rw [hidx]; exact h4.2, ?_⟩
  · have := h2.1; have := h2.2
    have : pos.idx = 8 * (pos.off - 1) + pos.bit := rfl
    omega
  · rw [hidx, Nat.add_assoc]; exact h5

theorem advs_append (pos : Pos) (fs gs : List (Nat × Nat)) :
    pos.advs (fs ++ gs) = (pos.advs fs).advs gs := by simp [Pos.advs]

theorem Rd.steps {b : Buf} {pos : Pos} {fs gs : List (Nat × Nat)} (h : Rd b pos (fs ++ gs)) :
    readFields b pos (fs.map (·.2)) = some (fs.map (·.1), pos.advs fs) ∧ Rd b (pos.advs fs) gs := by
  obtain ⟨h1, h2, h3, h4, h5⟩ := h
  rw [width_append] at h5
  rw [HoldsAll.append] at h4
  refine ⟨readFields_spec b pos fs h1 h2 (fun x hx => h3 x (List.mem_append_left _ hx)) h4.1 (by omega),
    h1, pos.advs_ok fs h2, fun x hx => h3 x (List.mem_append_right _ hx), ?_, ?_⟩
  · rw [pos.advs_idx fs h2]; exact h4.2
  · rw [pos.advs_idx fs h2]; omega

theorem writeFields_append (b : Buf) (pos : Pos) (fs gs : List (Nat × Nat)) :
    writeFields b pos (fs ++ gs) = (writeFields b pos fs).bind (fun r => writeFields r.1 r.2 gs) := by
  induction fs generalizing b pos with
  | nil => rfl
  | cons f fs ih =>
    simp only [List.cons_append, writeFields, Option.bind_eq_bind]
    cases writeBits b pos f.1 f.2 with
    | none => rfl
    | some r => simp only [Option.bind_some, ih]

/-- The fields of one vertex. -/
def vf (w : Nat) (p : Pt) : List (Nat × Nat) := [(p.1, w), (p.2.1, w), (p.2.2, w)]

/-- Successive `setId`s. -/
def assign : (Nat → Nat) → Nat → List Nat → Nat → Nat
  | ids, _, [] => ids
  | ids, id, v :: vs => assign (setId ids v id) (id + 1) vs

/-- Vertices other than the two departure vertices. -/
def keep (m : Base) (v : Nat) : Bool := !(v == m.dep0 || v == m.dep1)

def pt (m : Base) (v : Nat) : Pt := m.verts.getD v (0, 0, 0)

theorem getElem?_pt (m : Base) (v : Nat) (h : v < m.verts.length) : m.verts[v]? = some (pt m v) := by
  simp [pt, h]

theorem writeOthers_eq (m : Base) (w : Nat) (b : Buf) (pos : Pos) (ids : Nat → Nat) (id : Nat)
    (todo : List Nat) (h : ∀ v ∈ todo, v < m.verts.length) :
    writeOthers m w b pos ids id todo =
      (writeFields b pos ((todo.filter (keep m)).flatMap (fun v => vf w (pt m v)))).map
        (fun r => (r.1, r.2, assign ids id (todo.filter (keep m)))) := by
  induction todo generalizing b pos ids id with
  | nil => rfl
  | cons v todo ih =>
    have ht : ∀ v ∈ todo, v < m.verts.length := fun x hx => h x (List.mem_cons_of_mem _ hx)
    unfold writeOthers
    by_cases hk : v = m.dep0 ∨ v = m.dep1
    · rw [if_pos hk, ih _ _ _ _ ht, List.filter_cons_of_neg]
      simp only [keep, Bool.not_eq_true, Bool.not_eq_false', Bool.or_eq_true, beq_iff_eq]; exact hk
    · rw [if_neg hk, List.filter_cons_of_pos, getElem?_pt m v (h v List.mem_cons_self)]
      · simp only [Option.bind_eq_bind, Option.bind_some, List.flatMap_cons, writeFields_append, writeVertex]
        change (writeFields b pos (vf w (pt m v))).bind _ = _
        cases writeFields b pos (vf w (pt m v)) with
        | none => rfl
        | some r => simp only [Option.bind_some, ih _ _ _ _ ht, assign]
      · simp only [keep, Bool.not_eq_true', Bool.or_eq_false_iff, beq_eq_false_iff_ne, ne_eq]
        exact not_or.mp hk

/-- The fields of one face. -/
def ff (nbits : Nat) (ids : Nat → Nat) (f : List Nat) : List (Nat × Nat) :=
  ((f.length + 4294967296 - 3) % 4294967296, 3) :: f.map (fun v => (ids v, nbits))

theorem writeFaces_eq (nbits : Nat) (ids : Nat → Nat) (b : Buf) (pos : Pos) (fs : List (List Nat)) :
    writeFaces nbits ids b pos fs = writeFields b pos (fs.flatMap (ff nbits ids)) := by
  induction fs generalizing b pos with
  | nil => rfl
  | cons f fs ih =>
    simp only [writeFaces, List.flatMap_cons, writeFields_append, ff, writeFields, Option.bind_eq_bind]
    cases writeBits b pos ((f.length + 4294967296 - 3) % 4294967296) 3 with
    | none => rfl
    | some r =>
      simp only [Option.bind_some]
      cases writeFields r.1 r.2 (f.map (fun v => (ids v, nbits))) with
      | none => rfl
      | some r => simp only [Option.bind_some, ih]

/-- The order in which the vertices are written. -/
def order (m : Base) : List Nat := m.dep0 :: m.dep1 :: (List.range m.verts.length).filter (keep m)

/-- The ids the vertices end up with. -/
def finalIds (m : Base) : Nat → Nat :=
  assign (setId (setId (fun _ => 0) m.dep0 0) m.dep1 1) 2 ((List.range m.verts.length).filter (keep m))

def hdr (m : Base) : List (Nat × Nat) :=
  [(m.quantBits - 1, 4), (m.nbDec, 6), (m.nbQuant, 6), (m.nbDec - m.levelNotConvex, 6),
     (m.verts.length, 16), (m.faces.length, 16)]

/-- All the bit fields of a base mesh. -/
def fields (lg : Nat → Nat) (m : Base) : List (Nat × Nat) :=
  hdr m ++ ((order m).flatMap (fun v => vf (m.quantBits - m.nbQuant) (pt m v)) ++
    m.faces.flatMap (ff (lg m.verts.length) (finalIds m)))

def endOff (pos : Pos) : Nat := if pos.bit = 0 then pos.off - 1 else pos.off

def writeFloats (m : Base) (b : Buf) (off : Nat) : Option (Buf × Nat) := do
  let (b, off) ← writeFloat b off m.bb0
  let (b, off) ← writeFloat b off m.bb1
  let (b, off) ← writeFloat b off m.bb2
  writeFloat b off m.step

theorem writeBaseMesh_eq (lg : Nat → Nat) (m : Base) (b : Buf) (off : Nat)
    (h0 : m.dep0 < m.verts.length) (h1 : m.dep1 < m.verts.length) :
    writeBaseMesh lg m b off = (writeFloats m b off).bind (fun r =>
      (writeFields r.1 ⟨0, r.2 + 1⟩ (fields lg m)).map (fun s => (s.1, endOff s.2))) := by
  unfold writeBaseMesh writeFloats
  simp only [Option.bind_eq_bind, Option.bind_assoc]
  congr 1; funext r1
  congr 1; funext r2
  congr 1; funext r3
  congr 1; funext r4
  unfold fields order
  rw [writeFields_append]
  change _ = Option.map _ (Option.bind (writeFields r4.1 ⟨0, r4.2 + 1⟩ (hdr m)) _)
  change Option.bind (writeFields r4.1 ⟨0, r4.2 + 1⟩ (hdr m)) _ = _
  cases writeFields r4.1 ⟨0, r4.2 + 1⟩ (hdr m) with
  | none => rfl
  | some s =>
    simp only [Option.bind_some, getElem?_pt m _ h0, getElem?_pt m _ h1]
    rw [List.flatMap_cons, List.append_assoc, writeFields_append]
    change Option.bind (writeFields s.1 s.2 (vf _ (pt m m.dep0))) _ = _
    cases writeFields s.1 s.2 (vf (m.quantBits - m.nbQuant) (pt m m.dep0)) with
    | none => rfl
    | some s =>
      simp only [Option.bind_some]
      rw [List.flatMap_cons, List.append_assoc, writeFields_append]
      change Option.bind (writeFields s.1 s.2 (vf _ (pt m m.dep1))) _ = _
      cases writeFields s.1 s.2 (vf (m.quantBits - m.nbQuant) (pt m m.dep1)) with
      | none => rfl
      | some s =>
        simp only [Option.bind_some]
        rw [writeOthers_eq _ _ _ _ _ _ _ (fun v hv => List.mem_range.mp hv), writeFields_append]
        cases writeFields s.1 s.2 (((List.range m.verts.length).filter (keep m)).flatMap
          (fun v => vf (m.quantBits - m.nbQuant) (pt m v))) with
        | none => rfl
        | some s =>
          simp only [Option.map_some, Option.bind_some, writeFaces_eq]
          change Option.bind (writeFields s.1 s.2 (m.faces.flatMap (ff (lg m.verts.length) (finalIds m)))) _ = _
          cases writeFields s.1 s.2 (m.faces.flatMap (ff (lg m.verts.length) (finalIds m))) with
          | none => rfl
          | some s => rfl

/-! ### ids -/

theorem assign_not_mem (ids : Nat → Nat) (id : Nat) (vs : List Nat) (v : Nat) (h : v ∉ vs) :
    assign ids id vs v = ids v := by
  induction vs generalizing ids id with
  | nil => rfl
  | cons u vs ih =>
    rw [List.mem_cons, not_or] at h
    rw [assign, ih _ _ h.2, setId, if_neg h.1]

theorem assign_getElem (ids : Nat → Nat) (id : Nat) (vs : List Nat) (hn : vs.Nodup) (i : Nat)
    (hi : i < vs.length) : assign ids id vs vs[i] = id + i := by
  induction vs generalizing ids id i with
  | nil => simp at hi
  | cons u vs ih =>
    rw [List.nodup_cons] at hn
    cases i with
    | zero => simp only [List.getElem_cons_zero, assign]; rw [assign_not_mem _ _ _ _ hn.1]; simp [setId]
    | succ i =>
      simp only [List.getElem_cons_succ, assign]
      rw [ih _ _ hn.2 i (by simpa using hi)]; omega

theorem mem_others (m : Base) (v : Nat) : v ∈ (List.range m.verts.length).filter (keep m) ↔
    v < m.verts.length ∧ v ≠ m.dep0 ∧ v ≠ m.dep1 := by
  simp [keep]

theorem order_nodup (m : Base) (hne : m.dep0 ≠ m.dep1) : (order m).Nodup := by
  unfold order
  rw [List.nodup_cons, List.nodup_cons, List.mem_cons]
  refine ⟨?_, ?_, List.nodup_range.filter _⟩
  · rintro (h | h)
    · exact hne h
    · exact ((mem_others m _).mp h).2.1 rfl
  · intro h; exact ((mem_others m _).mp h).2.2 rfl

theorem order_perm (m : Base) (hne : m.dep0 ≠ m.dep1) (h0 : m.dep0 < m.verts.length)
    (h1 : m.dep1 < m.verts.length) : (order m).Perm (List.range m.verts.length) := by
  rw [List.perm_ext_iff_of_nodup (order_nodup m hne) List.nodup_range]
  intro v
  unfold order
  rw [List.mem_cons, List.mem_cons, mem_others, List.mem_range]
  constructor
  · rintro (h | h | h)
    · omega
    · omega
    · exact h.1
  · intro h; omega

theorem finalIds_order (m : Base) (hne : m.dep0 ≠ m.dep1) (i : Nat) (hi : i < (order m).length) :
    finalIds m (order m)[i] = i := by
  have hno0 : m.dep0 ∉ (List.range m.verts.length).filter (keep m) :=
    fun h => ((mem_others m _).mp h).2.1 rfl
  have hno1 : m.dep1 ∉ (List.range m.verts.length).filter (keep m) :=
    fun h => ((mem_others m _).mp h).2.2 rfl
  unfold finalIds
  match i with
  | 0 =>
    change assign _ _ _ m.dep0 = 0
    rw [assign_not_mem _ _ _ _ hno0, setId, if_neg hne, setId, if_pos rfl]
  | 1 =>
    change assign _ _ _ m.dep1 = 1
    rw [assign_not_mem _ _ _ _ hno1, setId, if_pos rfl]
  | i + 2 =>
    unfold order at hi ⊢
    simp only [List.getElem_cons_succ]
    rw [assign_getElem _ _ _ (List.nodup_range.filter _)]; omega

/-- Every vertex has an id, which is its place in the written order. -/
theorem finalIds_spec (m : Base) (hne : m.dep0 ≠ m.dep1) (h0 : m.dep0 < m.verts.length)
    (h1 : m.dep1 < m.verts.length) (v : Nat) (hv : v < m.verts.length) :
    finalIds m v < m.verts.length ∧ (order m)[finalIds m v]? = some v := by
  have hp := order_perm m hne h0 h1
  have hmem : v ∈ order m := hp.mem_iff.mpr (List.mem_range.mpr hv)
  obtain ⟨i, hi, rfl⟩ := List.getElem_of_mem hmem
  have hlen : (order m).length = m.verts.length := by rw [hp.length_eq, List.length_range]
  rw [finalIds_order m hne i hi]
  exact ⟨by omega, by simp [hi]⟩

/-! ### reading -/

theorem readVerts_spec (b : Buf) (w : Nat) (pos : Pos) (ps : List Pt) (gs : List (Nat × Nat))
    (h : Rd b pos (ps.flatMap (vf w) ++ gs)) :
    readVerts b w pos ps.length = some (ps, pos.advs (ps.flatMap (vf w))) ∧
      Rd b (pos.advs (ps.flatMap (vf w))) gs := by
  induction ps generalizing pos with
  | nil => exact ⟨rfl, h⟩
  | cons p ps ih =>
    simp only [List.flatMap_cons, vf, List.cons_append, List.nil_append] at h
    obtain ⟨e1, h⟩ := h.step
    obtain ⟨e2, h⟩ := h.step
    obtain ⟨e3, h⟩ := h.step
    obtain ⟨e4, h⟩ := ih _ h
    refine ⟨?_, h⟩
    simp only [List.length_cons, readVerts, Option.bind_eq_bind, e1, Option.bind_some, e2, e3, e4]
    rfl

theorem readFaces_spec (b : Buf) (nbits : Nat) (ids : Nat → Nat) (pos : Pos) (fs : List (List Nat))
    (gs : List (Nat × Nat)) (hd : ∀ f ∈ fs, 3 ≤ f.length ∧ f.length ≤ 10)
    (h : Rd b pos (fs.flatMap (ff nbits ids) ++ gs)) :
    readFaces b nbits pos fs.length = some (fs.map (·.map ids), pos.advs (fs.flatMap (ff nbits ids))) ∧
      Rd b (pos.advs (fs.flatMap (ff nbits ids))) gs := by
  induction fs generalizing pos with
  | nil => exact ⟨rfl, h⟩
  | cons f fs ih =>
    obtain ⟨d1, d2⟩ := hd f List.mem_cons_self
    have hdeg : (f.length + 4294967296 - 3) % 4294967296 = f.length - 3 := by omega
    simp only [List.flatMap_cons, ff, List.cons_append, List.append_assoc, hdeg] at h
    obtain ⟨e1, h⟩ := h.step
    obtain ⟨e2, h⟩ := h.steps
    obtain ⟨e3, h⟩ := ih _ (fun x hx => hd x (List.mem_cons_of_mem _ hx)) h
    have hrep : (f.map (fun v => (ids v, nbits))).map (·.2) = List.replicate (f.length - 3 + 3) nbits := by
      rw [List.map_map]
      change f.map (fun _ => nbits) = _
      rw [List.map_const', Nat.sub_add_cancel d1]
    have hval : (f.map (fun v => (ids v, nbits))).map (·.1) = f.map ids := by
      rw [List.map_map]; rfl
    rw [hrep, hval] at e2
    have hadv : pos.advs ((f :: fs).flatMap (ff nbits ids)) =
        ((pos.adv 3).advs (f.map (fun v => (ids v, nbits)))).advs (fs.flatMap (ff nbits ids)) := by
      rw [List.flatMap_cons, advs_append]; rfl
    rw [hadv]
    refine ⟨?_, h⟩
    simp only [List.length_cons, readFaces, Option.bind_eq_bind, e1, Option.bind_some, e2, e3, List.map_cons]

end TDP.BaseMesh

namespace TDP.BaseMesh
open TDP.Bits

theorem writeFloats_spec (m : Base) (b : Buf) (off : Nat) (hwf : b.WF) (f0 : m.bb0 < 4294967296)
    (f1 : m.bb1 < 4294967296) (f2 : m.bb2 < 4294967296) (f3 : m.step < 4294967296)
    (hsz : off + 16 ≤ b.size) :
    ∃ b', writeFloats m b off = some (b', off + 16) ∧ b'.WF ∧ b'.size = b.size ∧
      (∀ g, (g < 8 * off ∨ 8 * (off + 16) ≤ g) → bitAt b' g = bitAt b g) ∧
      (∀ c : Buf, c.WF → off + 16 ≤ c.size →
        (∀ g, 8 * off ≤ g → g < 8 * (off + 16) → bitAt c g = bitAt b' g) →
        readFloat c off = some (m.bb0, off + 4) ∧ readFloat c (off + 4) = some (m.bb1, off + 8) ∧
        readFloat c (off + 8) = some (m.bb2, off + 12) ∧ readFloat c (off + 12) = some (m.step, off + 16)) := by
  obtain ⟨b1, a1, a2, a3, a4, a5⟩ := writeFloat_spec b off m.bb0 hwf f0 (by omega)
  obtain ⟨b2, c1, c2, c3, c4, c5⟩ := writeFloat_spec b1 (off + 4) m.bb1 a2 f1 (by omega)
  obtain ⟨b3, d1, d2, d3, d4, d5⟩ := writeFloat_spec b2 (off + 4 + 4) m.bb2 c2 f2 (by omega)
  obtain ⟨b4, e1, e2, e3, e4, e5⟩ := writeFloat_spec b3 (off + 4 + 4 + 4) m.step d2 f3 (by omega)
  refine ⟨b4, ?_, e2, by omega, ?_, ?_⟩
  · simp only [writeFloats, Option.bind_eq_bind, a1, Option.bind_some, c1, d1, e1]
  · intro g hg
    rw [e4 g (by omega), d4 g (by omega), c4 g (by omega), a4 g (by omega)]
  · intro c hc hcs hbits
    have g0 := load_congr b1 c a2 hc off (by omega) (by omega) (fun g h1 h2 => by
      rw [hbits g (by omega) (by omega), e4 g (by omega), d4 g (by omega), c4 g (by omega)])
    have g1 := load_congr b2 c c2 hc (off + 4) (by omega) (by omega) (fun g h1 h2 => by
      rw [hbits g (by omega) (by omega), e4 g (by omega), d4 g (by omega)])
    have g2 := load_congr b3 c d2 hc (off + 8) (by omega) (by omega) (fun g h1 h2 => by
      rw [hbits g (by omega) (by omega), e4 g (by omega)])
    have g3 := load_congr b4 c e2 hc (off + 12) (by omega) (by omega) (fun g h1 h2 => by
      rw [hbits g (by omega) (by omega)])
    rw [a5] at g0; rw [c5] at g1; rw [show off + 4 + 4 = off + 8 from rfl] at d5
    rw [d5] at g2; rw [show off + 4 + 4 + 4 = off + 12 from rfl] at e5; rw [e5] at g3
    simp only [readFloat, Option.bind_eq_bind, g0, g1, g2, g3, Option.bind_some]
    exact ⟨trivial, trivial, trivial, trivial⟩

/-- The mesh the reader gets. -/
def decoded (m : Base) : Decoded :=
  ⟨m.bb0, m.bb1, m.bb2, m.step, m.quantBits, m.nbDec, m.nbQuant, m.nbDec - m.levelNotConvex,
   (order m).map (pt m), m.faces.map (·.map (finalIds m))⟩

/-- Internal form of the preconditions. -/
structure Fits (lg : Nat → Nat) (m : Base) : Prop where
  f0 : m.bb0 < 4294967296
  f1 : m.bb1 < 4294967296
  f2 : m.bb2 < 4294967296
  f3 : m.step < 4294967296
  q1 : 1 ≤ m.quantBits
  q2 : m.quantBits ≤ 16
  dec : m.nbDec < 64
  qua : m.nbQuant < m.quantBits
  nv : m.verts.length < 65536
  nf : m.faces.length < 65536
  d0 : m.dep0 < m.verts.length
  d1 : m.dep1 < m.verts.length
  dne : m.dep0 ≠ m.dep1
  coords : ∀ p ∈ m.verts, p.1 < 2 ^ (m.quantBits - m.nbQuant) ∧ p.2.1 < 2 ^ (m.quantBits - m.nbQuant) ∧
    p.2.2 < 2 ^ (m.quantBits - m.nbQuant)
  faces : ∀ f ∈ m.faces, 3 ≤ f.length ∧ f.length ≤ 10 ∧ ∀ v ∈ f, v < m.verts.length
  lg1 : m.verts.length ≤ 2 ^ lg m.verts.length
  lg2 : lg m.verts.length ≤ 25

theorem order_length (m : Base) (h : Fits lg m) : (order m).length = m.verts.length := by
  rw [(order_perm m h.dne h.d0 h.d1).length_eq, List.length_range]

theorem lg_pos (h : Fits lg m) : 1 ≤ lg m.verts.length := by
  rcases Nat.eq_zero_or_pos (lg m.verts.length) with h0 | h0
  · have h1 := h.lg1
    rw [h0] at h1
    have := h.d0; have := h.d1; have := h.dne
    simp only [Nat.pow_zero] at h1
    omega
  · exact h0

theorem fields_good (h : Fits lg m) : Good (fields lg m) := by
  intro x hx
  unfold fields at hx
  rw [List.mem_append, List.mem_append] at hx
  rcases hx with hx | hx | hx
  · have e1 := h.q2; have e2 := h.dec; have e3 := h.qua; have e4 := h.nv; have e5 := h.nf; have e6 := h.q1
    simp only [hdr, List.mem_cons, List.not_mem_nil, or_false] at hx
    rcases hx with rfl | rfl | rfl | rfl | rfl | rfl <;> simp only <;> omega
  · rw [List.mem_flatMap] at hx
    obtain ⟨v, hv, hx⟩ := hx
    have hv' : v < m.verts.length := List.mem_range.mp ((order_perm m h.dne h.d0 h.d1).mem_iff.mp hv)
    have hc := h.coords (pt m v) (by simp [pt, hv'])
    have e1 := h.q2; have e3 := h.qua
    simp only [vf, List.mem_cons, List.not_mem_nil, or_false] at hx
    rcases hx with rfl | rfl | rfl
    · exact ⟨by simp only; omega, by simp only; omega, hc.1⟩
    · exact ⟨by simp only; omega, by simp only; omega, hc.2.1⟩
    · exact ⟨by simp only; omega, by simp only; omega, hc.2.2⟩
  · rw [List.mem_flatMap] at hx
    obtain ⟨f, hf, hx⟩ := hx
    obtain ⟨g1, g2, g3⟩ := h.faces f hf
    unfold ff at hx
    rw [List.mem_cons, List.mem_map] at hx
    rcases hx with rfl | ⟨v, hv, rfl⟩
    · simp only; omega
    · refine ⟨lg_pos h, h.lg2, ?_⟩
      have := (finalIds_spec m h.dne h.d0 h.d1 v (g3 v hv)).1
      exact Nat.lt_of_lt_of_le this h.lg1

theorem width_flatMap_le {α : Type} (l : List α) (k : α → List (Nat × Nat)) (c : Nat)
    (h : ∀ a ∈ l, width (k a) ≤ c) : width (l.flatMap k) ≤ c * l.length := by
  induction l with
  | nil => simp [width]
  | cons a l ih =>
    rw [List.flatMap_cons, width_append, List.length_cons]
    have := h a List.mem_cons_self
    have := ih (fun x hx => h x (List.mem_cons_of_mem _ hx))
    rw [Nat.mul_add]; omega

theorem width_const (l : List Nat) (g : Nat → Nat) (w : Nat) :
    width (l.map (fun v => (g v, w))) = l.length * w := by
  induction l with
  | nil => simp [width]
  | cons a l ih => rw [List.map_cons, width_cons, ih, List.length_cons, Nat.add_mul]; simp only; omega

theorem fields_width (h : Fits lg m) :
    width (fields lg m) ≤ 54 + 48 * m.verts.length + 253 * m.faces.length := by
  unfold fields
  rw [width_append, width_append]
  have h1 : width (hdr m) = 54 := rfl
  have h2 := width_flatMap_le (order m) (fun v => vf (m.quantBits - m.nbQuant) (pt m v)) 48 (fun v _ => by
    have := h.q2
    simp only [vf, width_cons]; simp only [width, List.map_nil, List.sum_nil]; omega)
  have h3 := width_flatMap_le m.faces (ff (lg m.verts.length) (finalIds m)) 253 (fun f hf => by
    obtain ⟨_, g2, _⟩ := h.faces f hf
    unfold ff
    rw [width_cons, width_const]
    have : f.length * lg m.verts.length ≤ 10 * 25 := Nat.mul_le_mul g2 h.lg2
    simp only; omega)
  rw [order_length m h] at h2
  omega

theorem endOff_spec (pos : Pos) (h : pos.Ok) : endOff pos = (pos.idx + 7) / 8 := by
  obtain ⟨h1, h2⟩ := h
  unfold endOff Pos.idx
  split <;> omega

/-- Round trip, in terms of bits. -/
theorem base_roundtrip (h : Fits lg m) (b : Buf) (off : Nat) (hwf : b.WF)
    (hz : ∀ g, 8 * off ≤ g → bitAt b g = false)
    (hsz : off + 27 + 6 * m.verts.length + 32 * m.faces.length ≤ b.size) :
    ∃ b' e, writeBaseMesh lg m b off = some (b', e) ∧ b'.WF ∧ b'.size = b.size ∧
      off + 16 < e ∧ e ≤ off + 27 + 6 * m.verts.length + 32 * m.faces.length ∧
      (∀ g, g < 8 * off → bitAt b' g = bitAt b g) ∧
      (∀ c : Buf, c.WF → e + 4 ≤ c.size → (∀ g, 8 * off ≤ g → g < 8 * e → bitAt c g = bitAt b' g) →
        readBaseMesh lg c off = some (decoded m, e)) := by
  have hw := fields_width h
  obtain ⟨b1, a1, a2, a3, a4, a5⟩ := writeFloats_spec m b off hwf h.f0 h.f1 h.f2 h.f3 (by omega)
  have hp : Pos.Ok ⟨0, off + 16 + 1⟩ := ⟨by simp, by simp⟩
  have hidx : Pos.idx ⟨0, off + 16 + 1⟩ = 8 * (off + 16) := by simp [Pos.idx]
  obtain ⟨b2, c1, c2, c3, c4, c5, _⟩ := writeFields_spec b1 ⟨0, off + 16 + 1⟩ (fields lg m) a2 hp
    (fields_good h) (fun g hg => by rw [hidx] at hg; rw [a4 g (by omega)]; exact hz g (by omega))
    (by rw [hidx]; omega)
  have hend := endOff_spec _ (Pos.advs_ok ⟨0, off + 16 + 1⟩ (fields lg m) hp)
  rw [Pos.advs_idx _ _ hp, hidx] at hend
  have hwpos : 54 ≤ width (fields lg m) := by
    unfold fields; rw [width_append]; have h1 : width (hdr m) = 54 := rfl; omega
  refine ⟨b2, endOff (Pos.advs ⟨0, off + 16 + 1⟩ (fields lg m)), ?_, c2, by omega, by omega, by omega, ?_, ?_⟩
  · rw [writeBaseMesh_eq lg m b off h.d0 h.d1, a1, Option.bind_some]
    simp only [c1, Option.map_some]
  · intro g hg
    rw [c5 g (by omega), a4 g (by omega)]
  · intro c hc hcs hbits
    obtain ⟨r0, r1, r2, r3⟩ := a5 c hc (by omega) (fun g g1 g2 => by
      rw [hbits g g1 (by omega), c5 g (by omega)])
    have hrd : Rd c ⟨0, off + 16 + 1⟩ (fields lg m ++ []) := by
      rw [List.append_nil]
      refine ⟨hc, hp, fields_good h, HoldsAll.congr b2 c _ _ c4 (fun g g1 g2 => ?_), by rw [hidx]; omega⟩
      exact hbits g (by omega) (by omega)
    unfold fields at hrd
    simp only [hdr, List.cons_append, List.nil_append, List.append_assoc] at hrd
    obtain ⟨s1, hrd⟩ := hrd.step
    obtain ⟨s2, hrd⟩ := hrd.step
    obtain ⟨s3, hrd⟩ := hrd.step
    obtain ⟨s4, hrd⟩ := hrd.step
    obtain ⟨s5, hrd⟩ := hrd.step
    obtain ⟨s6, hrd⟩ := hrd.step
    have hmap : (order m).flatMap (fun v => vf (m.quantBits - m.nbQuant) (pt m v)) =
        ((order m).map (pt m)).flatMap (vf (m.quantBits - m.nbQuant)) := by
      rw [List.flatMap_map]
    rw [hmap] at hrd
    obtain ⟨s7, hrd⟩ := readVerts_spec c _ _ _ _ hrd
    obtain ⟨s8, hrd⟩ := readFaces_spec c _ _ _ _ _ (fun f hf => ⟨(h.faces f hf).1, (h.faces f hf).2.1⟩) hrd
    rw [List.length_map, order_length m h] at s7
    have hq : m.quantBits - 1 + 1 = m.quantBits := Nat.sub_add_cancel h.q1
    unfold readBaseMesh
    simp only [Option.bind_eq_bind, r0, Option.bind_some, r1, r2, r3, s1, s2, s3, s4, s5, s6, hq, s7, s8]
    unfold fields
    rw [hmap, advs_append, advs_append]
    rfl

end TDP.BaseMesh
