import Verif.Blocks.Props
import Mathlib.Tactic.Ring
import Mathlib.Algebra.Order.Ring.Nat
/-! How many bytes a coded block can take (rangecod.c:157-260, mymeshComp.cpp:435-575). -/
namespace TDP.Blocks
open TDP.RangeCoder TDP.QsModel

/-- The bits a call may cost: those of its total, and one for the rounding of the division. -/
def callBits (c : Call) : Nat := Nat.log2 c.tot + 1 + (if 2 ^ Nat.log2 c.tot = c.tot then 0 else 1)

theorem le_two_pow (c : Call) (h : 0 < c.tot) : 2 * c.tot ≤ 2 ^ callBits c := by
  have h1 := Nat.lt_log2_self (n := c.tot)
  unfold callBits
  split
  · rw [Nat.add_zero, Nat.pow_succ]; omega
  · rw [Nat.pow_succ, Nat.mul_comm]; exact Nat.mul_le_mul_right _ (le_of_lt h1)

theorem callBits_shift (sy lt sh : Nat) : callBits (.shift sy lt sh) = sh + 1 := by
  simp [callBits, Call.tot, Nat.log2_two_pow]

/-- `W` bits have been spent at most. -/
def Spent (e : Enc) (W : Nat) : Prop := 2147483648 * 256 ^ (e.out.length + e.help) ≤ e.range * 2 ^ W

theorem Spent.shifted {e en : Enc} {k W : Nat} (h : Spent e W) (hs : Shifted e en k) : Spent en W := by
  have hl := hs.len
  rw [Enc.base_length, Enc.base_length] at hl
  unfold Spent at *
  rw [show en.out.length + en.help = (e.out.length + e.help) + k by omega, hs.rng, pow_add, ← mul_assoc]
  calc _ ≤ (e.range * 2 ^ W) * 256 ^ k := Nat.mul_le_mul_right _ h
    _ = _ := by rw [mul_assoc, mul_assoc, mul_comm (2 ^ W)]

theorem Spent.sub {e e' : Enc} {c : Call} {W : Nat} (h : Spent e W) (hc : c.Valid) (hr : 8388608 < e.range) (hs : Sub e e' c) :
    Spent e' (W + callBits c) := by
  obtain ⟨c1, c2, c3⟩ := hc
  have hb := congrArg List.length hs.base
  rw [Enc.base_length, Enc.base_length] at hb
  have hq : 1 ≤ e.range / c.tot := by rw [Nat.le_div_iff_mul_le (by omega)]; omega
  have hlow : e.range / c.tot ≤ e'.range := by
    rw [hs.rng]
    split
    · exact Nat.le_mul_of_pos_right _ c1
    · have h1 : e.range / c.tot * (c.lt + 1) ≤ e.range := div_mul_le' _ _ _ (by omega)
      rw [Nat.mul_add] at h1; omega
  have hup : e.range ≤ e.range / c.tot * (2 * c.tot) := by
    have h1 := Nat.div_add_mod e.range c.tot
    have h2 := Nat.mod_lt e.range (show c.tot > 0 by omega)
    have h3 : c.tot * 1 ≤ c.tot * (e.range / c.tot) := Nat.mul_le_mul_left _ hq
    have h4 : e.range / c.tot * (2 * c.tot) = 2 * (c.tot * (e.range / c.tot)) := by ring
    rw [h4]; omega
  unfold Spent at *
  rw [show e'.out.length + e'.help = e.out.length + e.help by omega, pow_add 2 W]
  calc _ ≤ e.range * 2 ^ W := h
    _ ≤ (e.range / c.tot * (2 * c.tot)) * 2 ^ W := Nat.mul_le_mul_right _ hup
    _ ≤ (e'.range * 2 ^ callBits c) * 2 ^ W :=
        Nat.mul_le_mul_right _ (Nat.mul_le_mul hlow (le_two_pow c (by omega)))
    _ = _ := by ring

theorem spent_calls (e : Enc) (W : Nat) (cs : List Call) (hi : e.Inv) (hw : Spent e W) (hv : ∀ c ∈ cs, c.Valid) :
    ∃ e', encCalls e cs = some e' ∧ e'.Inv ∧ Spent e' (W + (cs.map callBits).sum) := by
  induction cs generalizing e W with
  | nil => exact ⟨e, rfl, hi, by simpa using hw⟩
  | cons c cs ih =>
    have hc := hv c List.mem_cons_self
    obtain ⟨en, k, e', h1, h2, h3, h4, h5, h6, h7⟩ := enc_spec e c hi hc
    obtain ⟨e'', g1, g2, g3⟩ := ih e' (W + callBits c) h6 ((hw.shifted h4).sub hc h3 h7) (fun x hx => hv x (List.mem_cons_of_mem _ hx))
    refine ⟨e'', by simp only [encCalls, h5, Option.bind_eq_bind, Option.bind_some, g1], g2, ?_⟩
    rw [List.map_cons, List.sum_cons, ← Nat.add_assoc]; exact g3

theorem spent_done (e : Enc) (W : Nat) (hi : e.Inv) (hw : Spent e W) (B : List Nat) (h : doneEncoding e = some B) :
    B.length ≤ 5 + W / 8 := by
  obtain ⟨en, k, B', h1, h2, h3, h4, h5, h6, -, -⟩ := done_spec e hi
  obtain rfl := Option.some.inj (h.symm.trans h5)
  have hs := hw.shifted h2
  have hl := h6.1
  rw [Enc.base_length] at hl
  have hn : 8 * (en.out.length + en.help) ≤ W := by
    unfold Spent at hs
    have h7 : 2147483648 * 256 ^ (en.out.length + en.help) ≤ 2147483648 * 2 ^ W := le_trans hs (Nat.mul_le_mul_right _ h3.rng)
    have h8 := Nat.le_of_mul_le_mul_left h7 (by decide)
    rw [show (256 : Nat) = 2 ^ 8 by decide, ← pow_mul] at h8
    exact (Nat.pow_le_pow_iff_right (by decide)).1 h8
  omega

/-- A block of legal calls takes at most 5 bytes and one for every 8 bits of the totals. -/
theorem block_size (cs : List Call) (hv : ∀ c ∈ cs, c.Valid) (B : List Nat) (h : encodeBlock cs = some B) :
    B.length ≤ 5 + (cs.map callBits).sum / 8 := by
  have h0 : Spent (startEncoding 0 0) 0 := by simp [Spent, startEncoding]
  obtain ⟨e', g1, g2, g3⟩ := spent_calls _ 0 cs inv_start h0 hv
  rw [Nat.zero_add] at g3
  simp only [encodeBlock, g1, Option.bind_eq_bind, Option.bind_some] at h
  exact spent_done e' _ g2 g3 B h

/-! ### The clients of the coder -/

/-- `encP` performs a fixed list of legal calls that cost `w` bits at most, and yields `m`. -/
def Costs {M : Type} (encP : Enc → Option (Enc × M)) (m : M) (w : Nat) : Prop :=
  ∃ cs, (∀ c ∈ cs, c.Valid) ∧ (cs.map callBits).sum ≤ w ∧ ∀ e, encP e = (encCalls e cs).bind fun e => some (e, m)

theorem Costs.bind {M N : Type} {p : Enc → Option (Enc × M)} {m : M} {a : Nat} {q : M → Enc → Option (Enc × N)} {n : N} {b : Nat}
    (h1 : Costs p m a) (h2 : Costs (q m) n b) : Costs (fun e => (p e).bind fun x => q x.2 x.1) n (a + b) := by
  obtain ⟨cs1, v1, w1, e1⟩ := h1
  obtain ⟨cs2, v2, w2, e2⟩ := h2
  refine ⟨cs1 ++ cs2, ?_, by rw [List.map_append, List.sum_append]; omega, ?_⟩
  · intro c hc
    rcases List.mem_append.1 hc with h | h
    · exact v1 c h
    · exact v2 c h
  · intro e
    simp only [e1, encCalls_append]
    cases encCalls e cs1 with
    | none => rfl
    | some e' => simp only [Option.bind_some]; exact e2 e'

theorem Costs.block {M : Type} {p : Enc → Option (Enc × M)} {m : M} {w : Nat} (h : Costs p m w) (B : List Nat)
    (hb : ((p (startEncoding 0 0)).bind fun x => doneEncoding x.1) = some B) : B.length ≤ 5 + w / 8 := by
  obtain ⟨cs, v, w1, e1⟩ := h
  have : encodeBlock cs = some B := by
    rw [← hb, e1, encodeBlock]
    cases encCalls (startEncoding 0 0) cs <;> rfl
  have := block_size cs v B this
  have : (cs.map callBits).sum / 8 ≤ w / 8 := Nat.div_le_div_right w1
  omega

theorem cost_sym (m : QS) (n lg s : Nat) (h : Inv m n lg) (hs : s < n) (h23 : lg ≤ 23) :
    ∃ m', Inv m' n lg ∧ Costs (fun e => encSym e m s lg) m' (lg + 1) := by
  obtain ⟨m', u1, u2⟩ := qsupdate_inv m n lg s h hs
  have hf := h.getfreq s hs
  have hm := h.cfmono s hs
  have hle : m.cf (s + 1) ≤ 2 ^ lg := by
    rw [← h.cfn]; exact cf_le m.cf n h.cfmono (s + 1) (by omega)
  refine ⟨m', u2, [.shift (m.cf (s + 1) - m.cf s) (m.cf s) lg], ?_, by simp [callBits_shift], ?_⟩
  · intro c hc
    simp only [List.mem_singleton] at hc
    subst hc
    refine ⟨?_, ?_, ?_⟩
    · simp only [Call.sy]; omega
    · simp only [Call.sy, Call.lt, Call.tot]; omega
    · simp only [Call.tot]; exact Nat.pow_le_pow_right (by decide) h23
  · intro e
    simp only [encSym, hf, u1, encCalls, Call.enc, Option.bind_eq_bind]
    cases encodeShift e (m.cf (s + 1) - m.cf s) (m.cf s) lg <;> rfl

theorem Costs.nil {M : Type} (m : M) : Costs (fun e => some (e, m)) m 0 := ⟨[], by simp, by simp, fun _ => rfl⟩

theorem Costs.le {M : Type} {p : Enc → Option (Enc × M)} {m : M} {a b : Nat} (h : Costs p m a) (hab : a ≤ b) : Costs p m b := by
  obtain ⟨cs, v, w, e⟩ := h
  exact ⟨cs, v, by omega, e⟩

theorem cost_syms (syms : List Nat) (hs : ∀ s ∈ syms, s < 2) (m : QS) (h : Inv m 2 10) :
    ∃ m', Costs (fun e => encSyms e m syms) m' (11 * syms.length) := by
  induction syms generalizing m with
  | nil => exact ⟨m, Costs.nil m⟩
  | cons s ss ih =>
    obtain ⟨m1, i1, c1⟩ := cost_sym m 2 10 s h (hs s List.mem_cons_self) (by decide)
    obtain ⟨m2, c2⟩ := ih (fun x hx => hs x (List.mem_cons_of_mem _ hx)) m1 i1
    exact ⟨m2, (Costs.bind (q := fun m e => encSyms e m ss) c1 c2).le (by rw [List.length_cons]; omega)⟩

theorem cost_vec (m : QS) (n : Nat) (mn : Int) (v : Vec) (h : Inv m n 18)
    (hx : mn ≤ v.x ∧ v.x < mn + n) (hy : mn ≤ v.y ∧ v.y < mn + n) (hz : mn ≤ v.z ∧ v.z < mn + n) :
    ∃ m', Inv m' n 18 ∧ Costs (fun e => encVec e m mn v) m' 57 := by
  obtain ⟨m1, i1, c1⟩ := cost_sym m n 18 (v.x - mn).toNat h (by omega) (by decide)
  obtain ⟨m2, i2, c2⟩ := cost_sym m1 n 18 (v.y - mn).toNat i1 (by omega) (by decide)
  obtain ⟨m3, i3, c3⟩ := cost_sym m2 n 18 (v.z - mn).toNat i2 (by omega) (by decide)
  exact ⟨m3, i3, (Costs.bind (q := fun m e => (encSym e m (v.y - mn).toNat 18).bind fun x => encSym x.1 x.2 (v.z - mn).toNat 18) c1
    (Costs.bind (q := fun m e => encSym e m (v.z - mn).toNat 18) c2 c3)).le (by omega)⟩

theorem cost_faces (faces : List (Option Vec)) (n : Nat) (mn : Int)
    (hv : ∀ v ∈ geomOf faces, (mn ≤ v.x ∧ v.x < mn + n) ∧ (mn ≤ v.y ∧ v.y < mn + n) ∧ (mn ≤ v.z ∧ v.z < mn + n))
    (mc mg : QS) (hc : Inv mc 2 10) (hg : Inv mg n 18) :
    ∃ m', Costs (fun e => encFaces e mc mg mn (connOf faces) (geomOf faces)) m' (11 * faces.length + 57 * (geomOf faces).length) := by
  induction faces generalizing mc mg with
  | nil => exact ⟨(mc, mg), Costs.nil _⟩
  | cons f fs ih =>
    cases f with
    | none =>
      obtain ⟨m1, i1, c1⟩ := cost_sym mc 2 10 0 hc (by decide) (by decide)
      obtain ⟨m2, c2⟩ := ih (fun v h => hv v (by simpa [geomOf] using h)) m1 mg i1 hg
      refine ⟨m2, (Costs.bind (q := fun m e => encFaces e m mg mn (connOf fs) (geomOf fs)) c1 c2).le ?_⟩
      have : geomOf (none :: fs) = geomOf fs := rfl
      rw [this, List.length_cons]; omega
    | some v =>
      obtain ⟨m1, i1, c1⟩ := cost_sym mc 2 10 1 hc (by decide) (by decide)
      have hvv := hv v (by simp [geomOf])
      obtain ⟨g1, j1, k1⟩ := cost_vec mg n mn v hg hvv.1 hvv.2.1 hvv.2.2
      obtain ⟨m2, c2⟩ := ih (fun v h => hv v (by simp only [geomOf, List.filterMap_cons, id]; exact List.mem_cons_of_mem _ h)) m1 g1 i1 j1
      refine ⟨m2, (Costs.bind (q := fun m e => (encVec e mg mn v).bind fun x => encFaces x.1 m x.2 mn (connOf fs) (geomOf fs)) c1
        (Costs.bind (q := fun g e => encFaces e m1 g mn (connOf fs) (geomOf fs)) k1 c2)).le ?_⟩
      have : geomOf (some v :: fs) = v :: geomOf fs := rfl
      rw [this, List.length_cons, List.length_cons]; omega

theorem cost_short (x : Nat) (hx : x < 65536) : Costs (fun e => (encodeShort e x).bind fun e => some (e, ())) () 17 := by
  refine ⟨[.shift 1 x 16], ?_, by simp [callBits_shift], ?_⟩
  · intro c hc
    simp only [List.mem_singleton] at hc
    subst hc
    refine ⟨by simp [Call.sy], ?_, by simp [Call.tot]⟩
    simp only [Call.sy, Call.lt, Call.tot]; omega
  · intro e
    simp only [encodeShort, encCalls, Call.enc, Option.bind_eq_bind]
    cases encodeShift e 1 x 16 <;> rfl

/-- An inserted-edge block: at most 5 bytes and 11 bits for each edge. -/
theorem edges_size (syms : List Nat) (hs : ∀ s ∈ syms, s < 2) (B : List Nat) (h : encodeInsertedEdges syms = some B) :
    B.length ≤ 5 + 11 * syms.length / 8 := by
  obtain ⟨m, i1, i2⟩ := init_inv 2 10 (1 <<< 9) none true (by simp [LegalParams, GoodInit])
  obtain ⟨m', c⟩ := cost_syms syms hs m i2
  refine c.block B ?_
  simp only [encodeInsertedEdges, Option.bind_eq_bind] at h
  rw [i1] at h
  exact h

/-- A removed-vertex block: at most 5 bytes, 34 bits for its head, 11 bits for each face and 57 bits for each removed vertex. -/
theorem removed_size (faces : List (Option Vec)) (hr : Codable (geomOf faces)) (B : List Nat)
    (h : encodeRemovedVertices (connOf faces) (geomOf faces) = some B) :
    B.length ≤ 5 + (34 + 11 * faces.length + 57 * (geomOf faces).length) / 8 := by
  obtain ⟨lo, hi, h1, h2, h3, h4⟩ := hr
  cases hg : geomOf faces with
  | nil => rw [hg] at h; simp [encodeRemovedVertices] at h
  | cons g0 gs =>
    rw [hg] at h4
    simp only [encodeRemovedVertices, hg, Option.bind_eq_bind] at h
    generalize hmn : minLoop g0.x (g0 :: gs) = mn at *
    generalize hmx : maxLoop g0.x (g0 :: gs) = mx at *
    have a1 := minLoop_le g0.x (g0 :: gs)
    have a2 := le_maxLoop g0.x (g0 :: gs)
    have a3 := minLoop_ge lo g0.x (g0 :: gs) (h4 g0 List.mem_cons_self).1.1
      (fun v hv => ⟨(h4 v hv).1.1, (h4 v hv).2.1.1, (h4 v hv).2.2.1⟩)
    have a4 := maxLoop_le hi g0.x (g0 :: gs) (h4 g0 List.mem_cons_self).1.2
      (fun v hv => ⟨(h4 v hv).1.2, (h4 v hv).2.1.2, (h4 v hv).2.2.2⟩)
    rw [hmn] at a1 a3
    rw [hmx] at a2 a4
    generalize hrg : (max (mx - mn + 1) 2).toNat = range at *
    have hrange : mx - mn + 1 ≤ range ∧ 2 ≤ range ∧ range < 65536 := by omega
    have hpow : (2:Nat) ^ 18 = 262144 := by decide
    obtain ⟨mg, i1, i2⟩ := init_inv range 18 (1 <<< 17) none true ⟨by omega, by decide, by show range ≤ 2 ^ 18; omega⟩
    obtain ⟨mc, j1, j2⟩ := init_inv 2 10 (1 <<< 9) none true (by simp [LegalParams, GoodInit])
    obtain ⟨m', c⟩ := cost_faces faces range mn (by
      rw [hg]
      intro v hv
      have b1 := a1.2 v hv
      have b2 := a2.2 v hv
      omega) mc mg j2 i2
    have c2 := Costs.bind (q := fun _ e => encFaces e mc mg mn (connOf faces) (geomOf faces)) (cost_short range hrange.2.2) c
    have c3 := Costs.bind (q := fun _ e => ((encodeShort e range).bind fun e => some (e, ())).bind fun x =>
      encFaces x.1 mc mg mn (connOf faces) (geomOf faces)) (cost_short (toU16 mn) (toU16_lt mn)) c2
    rw [i1, j1] at h
    have := c3.block B (by
      rw [← h, hg]
      cases encodeShort (startEncoding 0 0) (toU16 mn) with
      | none => rfl
      | some e1 =>
        simp only [Option.bind_some]
        cases encodeShort e1 range <;> rfl)
    rw [hg] at this
    refine le_trans this ?_
    have : (17 + (17 + (11 * faces.length + 57 * (g0 :: gs).length))) = 34 + 11 * faces.length + 57 * (g0 :: gs).length := by omega
    rw [this]

end TDP.Blocks
