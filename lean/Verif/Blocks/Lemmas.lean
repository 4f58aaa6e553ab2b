import Verif.Blocks.Model
import Verif.RangeCoder.Props
import Verif.QsModel.Props
/-! Compositional round trips for symbol streams. -/
namespace TDP.Blocks
open TDP.RangeCoder TDP.QsModel

/-- `encP` performs a fixed legal call sequence (and yields `m`), which `decP` decodes to `a`. -/
def Codec {M α : Type} (encP : Enc → Option (Enc × M)) (m : M) (decP : Dec → Option (α × Dec))
    (a : α) : Prop :=
  ∃ cs, (∀ c ∈ cs, c.Valid) ∧ (∀ e, encP e = (encCalls e cs).bind fun e => some (e, m)) ∧
    (∀ d rest tail, Ready d (cs ++ rest) tail → ∃ d', decP d = some (a, d') ∧ Ready d' rest tail)

theorem encCalls_append (e : Enc) (cs cs' : List Call) :
    encCalls e (cs ++ cs') = (encCalls e cs).bind fun e => encCalls e cs' := by
  induction cs generalizing e with
  | nil => rfl
  | cons c cs ih =>
    simp only [List.cons_append, encCalls, Option.bind_eq_bind]
    cases c.enc e with
    | none => rfl
    | some e1 => exact ih e1

theorem Codec.pure {M α : Type} (m : M) (a : α) :
    Codec (fun e => some (e, m)) m (fun d => some (a, d)) a :=
  ⟨[], by simp, fun e => rfl, fun d rest tail h => ⟨d, rfl, h⟩⟩

theorem Codec.bind {M α N β : Type} {encP : Enc → Option (Enc × M)} {m : M}
    {decP : Dec → Option (α × Dec)} {a : α}
    {encQ : M → Enc → Option (Enc × N)} {n : N} {decQ : α → Dec → Option (β × Dec)} {b : β}
    (h1 : Codec encP m decP a) (h2 : Codec (encQ m) n (decQ a) b) :
    Codec (fun e => (encP e).bind fun p => encQ p.2 p.1) n
      (fun d => (decP d).bind fun p => decQ p.1 p.2) b := by
  obtain ⟨cs1, v1, e1, d1⟩ := h1
  obtain ⟨cs2, v2, e2, d2⟩ := h2
  refine ⟨cs1 ++ cs2, ?_, ?_, ?_⟩
  · intro c hc
    rcases List.mem_append.1 hc with h | h
    · exact v1 c h
    · exact v2 c h
  · intro e
    simp only [e1, encCalls_append]
    cases encCalls e cs1 with
    | none => rfl
    | some e' => simp only [Option.bind_some]; exact e2 e'
  · intro d rest tail hr
    rw [List.append_assoc] at hr
    obtain ⟨d', a1, a2⟩ := d1 d (cs2 ++ rest) tail hr
    obtain ⟨d'', b1, b2⟩ := d2 d' rest tail a2
    exact ⟨d'', by simp only [a1, Option.bind_some, b1], b2⟩

theorem Codec.congr {M α : Type} {encP encP' : Enc → Option (Enc × M)} {m : M}
    {decP decP' : Dec → Option (α × Dec)} {a : α} (h : Codec encP m decP a)
    (he : ∀ e, encP' e = encP e) (hd : ∀ d, decP' d = decP d) : Codec encP' m decP' a := by
  obtain ⟨cs, v, e1, d1⟩ := h
  exact ⟨cs, v, fun e => by rw [he, e1], fun d rest tail hr => by rw [hd]; exact d1 d rest tail hr⟩

/-- Running a codec as a block. -/
theorem Codec.block {M α : Type} {encP : Enc → Option (Enc × M)} {m : M}
    {decP : Dec → Option (α × Dec)} {a : α} (h : Codec encP m decP a) :
    ∃ B, ((encP (startEncoding 0 0)).bind fun p => doneEncoding p.1) = some B ∧ (∀ b ∈ B, b < 256) ∧
      ∀ tail, ∃ d d', startDecoding (B ++ tail) = some d ∧ decP d = some (a, d') ∧
        ∃ d'', doneDecoding d' = some d'' ∧ d''.inp = tail := by
  obtain ⟨cs, v, e1, d1⟩ := h
  obtain ⟨B, k, h1, h2, h3, h4⟩ := encCalls_spec _ inv_start cs v
  refine ⟨B, ?_, h3, ?_⟩
  · rw [e1]
    cases hc : encCalls (startEncoding 0 0) cs with
    | none => rw [hc] at h1; cases h1
    | some e' => rw [hc] at h1; exact h1
  · intro tail
    obtain ⟨d, g1, g2⟩ := ready_start cs v B tail h1
    rw [← List.append_nil cs] at g2
    obtain ⟨d', k1, k2⟩ := d1 d [] tail g2
    obtain ⟨d'', l1, l2⟩ := ready_done d' tail k2
    exact ⟨d, d', g1, k1, d'', l1, l2⟩

/-- Compressing and decompressing model in lockstep. -/
structure Pair (mc md : QS) (n lg : Nat) : Prop where
  er : mc = erase md
  inv : Inv md n lg
  dec : md.search.isSome

theorem Pair.init (n lg : Nat) (rescale : Int) (h : LegalParams n lg none) :
    ∃ mc md, initqsmodel n lg rescale none true = some mc ∧ initqsmodel n lg rescale none false = some md ∧
      Pair mc md n lg := by
  obtain ⟨m0, i1, i2⟩ := init_inv n lg rescale none false h
  have hi : initqsmodel n lg rescale none true = some (erase m0) := by
    unfold initqsmodel at i1 ⊢
    exact step_erase _ m0 (.reset none) i1
  have hs : m0.search.isSome := by
    unfold initqsmodel at i1
    exact reset_isSome _ m0 none i1 rfl
  exact ⟨erase m0, m0, hi, i1, rfl, i2, hs⟩

/-- One symbol. -/
theorem codec_sym (mc md : QS) (n lg s : Nat) (h : Pair mc md n lg) (hs : s < n) (h7 : 7 ≤ lg)
    (h23 : lg ≤ 23) :
    ∃ mc' md', Pair mc' md' n lg ∧
      Codec (fun e => encSym e mc s lg) mc'
        (fun d => (decSym d md lg).bind fun p => some ((p.1, p.2.2), p.2.1)) (s, md') := by
  obtain ⟨md', u1, u2⟩ := qsupdate_inv md n lg s h.inv hs
  have u3 : qsupdate mc s = some (erase md') := by
    rw [h.er]; exact step_erase md md' (.update s) u1
  have u4 : md'.search.isSome := step_isSome md md' (.update s) u1 h.dec
  have hf : qsgetfreq mc s = (md.cf (s + 1) - md.cf s, md.cf s) := by
    rw [h.er]; exact h.inv.getfreq s hs
  have hfd := h.inv.getfreq s hs
  have hm := h.inv.cfmono s hs
  have hle : md.cf (s + 1) ≤ 2 ^ lg := by
    rw [← h.inv.cfn]; exact cf_le md.cf n h.inv.cfmono (s + 1) (by omega)
  refine ⟨erase md', md', ⟨rfl, u2, u4⟩, ?_⟩
  refine ⟨[.shift (md.cf (s + 1) - md.cf s) (md.cf s) lg], ?_, ?_, ?_⟩
  · intro c hc
    simp only [List.mem_singleton] at hc
    subst hc
    refine ⟨?_, ?_, ?_⟩
    · simp only [Call.sy]; omega
    · simp only [Call.sy, Call.lt, Call.tot]; omega
    · simp only [Call.tot]; exact Nat.pow_le_pow_right (by decide) h23
  · intro e
    simp only [encSym, hf, u3, encCalls, Call.enc, Option.bind_eq_bind]
    cases encodeShift e (md.cf (s + 1) - md.cf s) (md.cf s) lg <;> rfl
  · intro d rest tail hr
    obtain ⟨v, d1, a1, a2, a3, a4⟩ := ready_step d _ rest tail hr
    simp only [Call.tot, Call.lt, Call.sy] at a1 a2 a3 a4
    obtain ⟨s', b1, b2, b3, b4⟩ := h.inv.getsym h7 h.dec v (by omega)
    have e1 := cf_inj_lt md.cf n h.inv.cfmono s s' v hs b2 a2 b4
    have e2 := cf_inj_lt md.cf n h.inv.cfmono s' s v b2 hs b3 (by omega)
    have : s' = s := by omega
    subst this
    refine ⟨_, ?_, a4⟩
    simp only [decSym, decodeCulshift_eq, a1, b1, hfd, u1, Option.bind_eq_bind, Option.bind_some,
      Nat.shiftLeft_eq, Nat.one_mul]

/-- The edge symbols. -/
theorem codec_syms (syms : List Nat) (hs : ∀ s ∈ syms, s < 2) (mc md : QS) (h : Pair mc md 2 10) :
    ∃ mc' md', Codec (fun e => encSyms e mc syms) mc'
      (fun d => (decSyms d md syms.length).bind fun p => some ((p.1, p.2.2), p.2.1)) (syms, md') := by
  induction syms generalizing mc md with
  | nil => exact ⟨mc, md, (Codec.pure mc (([] : List Nat), md)).congr (fun e => rfl) (fun d => rfl)⟩
  | cons s ss ih =>
    obtain ⟨mc1, md1, p1, c1⟩ := codec_sym mc md 2 10 s h (hs s List.mem_cons_self) (by decide) (by decide)
    obtain ⟨mc2, md2, c2⟩ := ih (fun x hx => hs x (List.mem_cons_of_mem _ hx)) mc1 md1 p1
    refine ⟨mc2, md2, ?_⟩
    have := (Codec.bind (encQ := fun m e => encSyms e m ss)
      (decQ := fun a d => ((decSyms d a.2 ss.length).bind fun p => some ((p.1, p.2.2), p.2.1)).bind
        fun q => some ((a.1 :: q.1.1, q.1.2), q.2)) c1
        (Codec.bind (encQ := fun m e => some (e, m))
          (decQ := fun q d => some ((s :: q.1, q.2), d)) c2 (Codec.pure mc2 (s :: ss, md2)) |>.congr
          (encP' := fun e => encSyms e mc1 ss)
          (decP' := fun d => ((decSyms d md1 ss.length).bind fun p => some ((p.1, p.2.2), p.2.1)).bind
            fun q => some ((s :: q.1.1, q.1.2), q.2))
          (fun e => by cases encSyms e mc1 ss <;> rfl) (fun d => rfl)))
    refine this.congr ?_ ?_
    · intro e; rfl
    · intro d
      simp only [List.length_cons, decSyms, Option.bind_eq_bind]
      cases decSym d md 10 with
      | none => rfl
      | some p =>
        simp only [Option.bind_some]
        cases decSyms p.2.1 p.2.2 ss.length <;> rfl

/-- The three symbols of a residual. -/
theorem codec_vec (mg md : QS) (n : Nat) (mn : Int) (v : Vec) (h : Pair mg md n 18)
    (hx : mn ≤ v.x ∧ v.x < mn + n) (hy : mn ≤ v.y ∧ v.y < mn + n) (hz : mn ≤ v.z ∧ v.z < mn + n) :
    ∃ mg' md', Pair mg' md' n 18 ∧ Codec (fun e => encVec e mg mn v) mg'
      (fun d => (decVec d md mn).bind fun p => some ((p.1, p.2.2), p.2.1)) (v, md') := by
  obtain ⟨m1, d1, p1, c1⟩ := codec_sym mg md n 18 (v.x - mn).toNat h (by omega) (by decide) (by decide)
  obtain ⟨m2, d2, p2, c2⟩ := codec_sym m1 d1 n 18 (v.y - mn).toNat p1 (by omega) (by decide) (by decide)
  obtain ⟨m3, d3, p3, c3⟩ := codec_sym m2 d2 n 18 (v.z - mn).toNat p2 (by omega) (by decide) (by decide)
  refine ⟨m3, d3, p3, ?_⟩
  have c4 : Codec (fun e => encSym e m2 (v.z - mn).toNat 18) m3
      (fun d => (decSym d d2 18).bind fun p =>
        some ((⟨mn + (v.x - mn).toNat, mn + (v.y - mn).toNat, mn + p.1⟩, p.2.2), p.2.1)) (v, d3) := by
    have := Codec.bind (encQ := fun m e => some (e, m))
      (decQ := fun q d => some (((⟨mn + (v.x - mn).toNat, mn + (v.y - mn).toNat, mn + q.1⟩ : Vec), q.2), d))
      c3 (Codec.pure m3 _)
    have hv : (⟨mn + (v.x - mn).toNat, mn + (v.y - mn).toNat, mn + (v.z - mn).toNat⟩ : Vec) = v := by
      cases v; simp only [Vec.mk.injEq] at *; omega
    rw [hv] at this
    refine this.congr ?_ ?_
    · intro e; cases encSym e m2 (v.z - mn).toNat 18 <;> rfl
    · intro d; cases decSym d d2 18 <;> rfl
  have c5 := Codec.bind (encQ := fun m e => encSym e m (v.z - mn).toNat 18)
    (decQ := fun q d => (decSym d q.2 18).bind fun p =>
        some (((⟨mn + (v.x - mn).toNat, mn + q.1, mn + p.1⟩ : Vec), p.2.2), p.2.1)) c2 c4
  have c6 := Codec.bind
    (encQ := fun m e => (encSym e m (v.y - mn).toNat 18).bind fun p => encSym p.1 p.2 (v.z - mn).toNat 18)
    (decQ := fun r d => ((decSym d r.2 18).bind fun p => some ((p.1, p.2.2), p.2.1)).bind fun q' =>
      (fun q d => (decSym d q.2 18).bind fun p =>
        some (((⟨mn + r.1, mn + q.1, mn + p.1⟩ : Vec), p.2.2), p.2.1)) q'.1 q'.2) c1 c5
  refine c6.congr ?_ ?_
  · intro e; rfl
  · intro d
    simp only [decVec, Option.bind_eq_bind]
    cases decSym d md 18 with
    | none => rfl
    | some p =>
      simp only [Option.bind_some]
      cases decSym p.2.1 p.2.2 18 with
      | none => rfl
      | some q =>
        simp only [Option.bind_some]
        cases decSym q.2.1 q.2.2 18 <;> rfl

/-- What the coder queues for the visited faces (RemovedVertexCodingStep, mymeshComp.cpp:305-352). -/
def connOf (faces : List (Option Vec)) : List Nat := faces.map fun f => if f.isSome then 1 else 0
def geomOf (faces : List (Option Vec)) : List Vec := faces.filterMap id

theorem bind_pair_id {α β : Type} (x : Option (α × β)) : (x.bind fun p => some (p.1, p.2)) = x := by
  cases x <;> rfl

theorem encFaces_none (e : Enc) (mc mg : QS) (mn : Int) (fs : List (Option Vec)) :
    encFaces e mc mg mn (connOf (none :: fs)) (geomOf (none :: fs)) =
      (encSym e mc 0 10).bind fun p => encFaces p.1 p.2 mg mn (connOf fs) (geomOf fs) := by
  rfl

theorem encFaces_some (e : Enc) (mc mg : QS) (mn : Int) (v : Vec) (fs : List (Option Vec)) :
    encFaces e mc mg mn (connOf (some v :: fs)) (geomOf (some v :: fs)) =
      (encSym e mc 1 10).bind fun p => (encVec p.1 mg mn v).bind fun q =>
        encFaces q.1 p.2 q.2 mn (connOf fs) (geomOf fs) := by
  rfl

theorem codec_faces (faces : List (Option Vec)) (n : Nat) (mn : Int)
    (hv : ∀ v ∈ geomOf faces, (mn ≤ v.x ∧ v.x < mn + n) ∧ (mn ≤ v.y ∧ v.y < mn + n) ∧
      (mn ≤ v.z ∧ v.z < mn + n))
    (mc mdc mg mdg : QS) (hc : Pair mc mdc 2 10) (hg : Pair mg mdg n 18) :
    ∃ m', Codec (fun e => (encFaces e mc mg mn (connOf faces) (geomOf faces))) m'
      (fun d => decFaces d mdc mdg mn faces.length) faces := by
  induction faces generalizing mc mdc mg mdg with
  | nil => exact ⟨(mc, mg), (Codec.pure (mc, mg) _).congr (fun e => rfl) (fun d => rfl)⟩
  | cons f fs ih =>
    cases f with
    | none =>
      obtain ⟨m1, d1, p1, c1⟩ := codec_sym mc mdc 2 10 0 hc (by decide) (by decide) (by decide)
      obtain ⟨m2, c2⟩ := ih (fun v h => hv v (by simpa [geomOf] using h)) m1 d1 mg mdg p1 hg
      refine ⟨m2, ?_⟩
      have c3 := Codec.bind (encQ := fun m e => some (e, m))
        (decQ := fun q d => some (none :: q, d)) c2 (Codec.pure m2 (none :: fs))
      have c4 := Codec.bind
        (encQ := fun m e => (encFaces e m mg mn (connOf fs) (geomOf fs)).bind fun p => some (p.1, p.2))
        (decQ := fun q d => if q.1 = 1 then
            (decVec d mdg mn).bind fun p => (decFaces p.2.1 q.2 p.2.2 mn fs.length).bind fun p' =>
              some (some p.1 :: p'.1, p'.2)
          else (decFaces d q.2 mdg mn fs.length).bind fun p => some (none :: p.1, p.2)) c1
        (c3.congr (fun e => rfl) (fun d => by simp))
      refine c4.congr ?_ ?_
      · intro e
        simp only [bind_pair_id]
        rw [encFaces_none]
      · intro d
        simp only [List.length_cons, decFaces, Option.bind_eq_bind]
        cases decSym d mdc 10 with
        | none => rfl
        | some p => rfl
    | some v =>
      obtain ⟨m1, d1, p1, c1⟩ := codec_sym mc mdc 2 10 1 hc (by decide) (by decide) (by decide)
      have hvv := hv v (by simp [geomOf])
      obtain ⟨g1, gd1, q1, k1⟩ := codec_vec mg mdg n mn v hg hvv.1 hvv.2.1 hvv.2.2
      obtain ⟨m2, c2⟩ := ih (fun v h => hv v (by simp only [geomOf, List.filterMap_cons, id]; exact List.mem_cons_of_mem _ h))
        m1 d1 g1 gd1 p1 q1
      refine ⟨m2, ?_⟩
      have c3 := Codec.bind (encQ := fun m e => some (e, m))
        (decQ := fun q d => some (some v :: q, d)) c2 (Codec.pure m2 (some v :: fs))
      have c4 := Codec.bind
        (encQ := fun g e => (encFaces e m1 g mn (connOf fs) (geomOf fs)).bind fun p => some (p.1, p.2))
        (decQ := fun q d => (decFaces d d1 q.2 mn fs.length).bind fun p => some (some q.1 :: p.1, p.2)) k1
        (c3.congr (fun e => rfl) (fun d => rfl))
      have c5 := Codec.bind
        (encQ := fun m e => (encVec e mg mn v).bind fun p =>
          (encFaces p.1 m p.2 mn (connOf fs) (geomOf fs)).bind fun p => some (p.1, p.2))
        (decQ := fun q d => if q.1 = 1 then
            (decVec d mdg mn).bind fun p => (decFaces p.2.1 q.2 p.2.2 mn fs.length).bind fun p' =>
              some (some p.1 :: p'.1, p'.2)
          else (decFaces d q.2 mdg mn fs.length).bind fun p => some (none :: p.1, p.2)) c1
        (c4.congr (fun e => rfl) (fun d => by
          simp only [if_true]; cases decVec d mdg mn <;> rfl))
      refine c5.congr ?_ ?_
      · intro e
        simp only [bind_pair_id]
        rw [encFaces_some]
      · intro d
        simp only [List.length_cons, decFaces, Option.bind_eq_bind]
        cases decSym d mdc 10 with
        | none => rfl
        | some p => rfl

/-- One `encode_short`/`decode_short`. -/
theorem codec_short (x : Nat) (hx : x < 65536) :
    Codec (fun e => (encodeShort e x).bind fun e => some (e, ())) () (fun d => decodeShort d) x := by
  refine ⟨[.shift 1 x 16], ?_, ?_, ?_⟩
  · intro c hc
    simp only [List.mem_singleton] at hc
    subst hc
    refine ⟨by simp [Call.sy], ?_, by simp [Call.tot]⟩
    simp only [Call.sy, Call.lt, Call.tot]; omega
  · intro e
    simp only [encodeShort, encCalls, Call.enc, Option.bind_eq_bind]
    cases encodeShift e 1 x 16 <;> rfl
  · intro d rest tail hr
    exact C01_short x hx rest d tail hr

theorem minLoop_le (a : Int) (vs : List Vec) :
    minLoop a vs ≤ a ∧ ∀ v ∈ vs, minLoop a vs ≤ v.x ∧ minLoop a vs ≤ v.y ∧ minLoop a vs ≤ v.z := by
  induction vs generalizing a with
  | nil => simp [minLoop]
  | cons v vs ih =>
    simp only [minLoop, List.mem_cons, forall_eq_or_imp]
    have key := ih (if v.z < (if v.y < (if v.x < a then v.x else a) then v.y else (if v.x < a then v.x else a))
      then v.z else (if v.y < (if v.x < a then v.x else a) then v.y else (if v.x < a then v.x else a)))
    refine ⟨?_, ?_, key.2⟩
    · refine Int.le_trans key.1 ?_; split <;> split <;> split <;> omega
    · have := key.1
      refine ⟨Int.le_trans this ?_, Int.le_trans this ?_, Int.le_trans this ?_⟩ <;>
        (split <;> split <;> split <;> omega)

theorem le_maxLoop (a : Int) (vs : List Vec) :
    a ≤ maxLoop a vs ∧ ∀ v ∈ vs, v.x ≤ maxLoop a vs ∧ v.y ≤ maxLoop a vs ∧ v.z ≤ maxLoop a vs := by
  induction vs generalizing a with
  | nil => simp [maxLoop]
  | cons v vs ih =>
    simp only [maxLoop, List.mem_cons, forall_eq_or_imp]
    have key := ih (if v.z > (if v.y > (if v.x > a then v.x else a) then v.y else (if v.x > a then v.x else a))
      then v.z else (if v.y > (if v.x > a then v.x else a) then v.y else (if v.x > a then v.x else a)))
    refine ⟨?_, ?_, key.2⟩
    · refine Int.le_trans ?_ key.1; split <;> split <;> split <;> omega
    · have := key.1
      refine ⟨Int.le_trans ?_ this, Int.le_trans ?_ this, Int.le_trans ?_ this⟩ <;>
        (split <;> split <;> split <;> omega)

theorem minLoop_ge (lo a : Int) (vs : List Vec) (ha : lo ≤ a)
    (h : ∀ v ∈ vs, lo ≤ v.x ∧ lo ≤ v.y ∧ lo ≤ v.z) : lo ≤ minLoop a vs := by
  induction vs generalizing a with
  | nil => exact ha
  | cons v vs ih =>
    have hv := h v List.mem_cons_self
    refine ih _ ?_ (fun w hw => h w (List.mem_cons_of_mem _ hw))
    split <;> split <;> split <;> omega

theorem maxLoop_le (hi a : Int) (vs : List Vec) (ha : a ≤ hi)
    (h : ∀ v ∈ vs, v.x ≤ hi ∧ v.y ≤ hi ∧ v.z ≤ hi) : maxLoop a vs ≤ hi := by
  induction vs generalizing a with
  | nil => exact ha
  | cons v vs ih =>
    have hv := h v List.mem_cons_self
    refine ih _ ?_ (fun w hw => h w (List.mem_cons_of_mem _ hw))
    split <;> split <;> split <;> omega

theorem fromU16_toU16 (x : Int) (h1 : -32768 ≤ x) (h2 : x < 32768) : fromU16 (toU16 x) = x := by
  unfold fromU16 toU16; split <;> omega

theorem toU16_lt (x : Int) : toU16 x < 65536 := by unfold toU16; omega

end TDP.Blocks
