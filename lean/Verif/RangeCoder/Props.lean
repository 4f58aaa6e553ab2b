import Verif.RangeCoder.Lemmas
/-! Properties C01, C02 -/
namespace TDP.RangeCoder

theorem decCalls_ready (cs : List Call) (d : Dec) (tail : List Nat) (h : Ready d cs tail) :
    ∃ vs d', decCalls d cs = some (vs, d') ∧ Inside cs vs ∧ Ready d' [] tail := by
  induction cs generalizing d with
  | nil => exact ⟨[], d, rfl, .nil, h⟩
  | cons c cs ih =>
    obtain ⟨v, d', h1, h2, h3, h4⟩ := ready_call d c cs tail h
    obtain ⟨vs, d'', g1, g2, g3⟩ := ih d' h4
    exact ⟨v :: vs, d'', by simp [decCalls, h1, g1], .cons ⟨h2, h3⟩ g2, g3⟩

/-- **C01 / C02.** Every legal sequence of coding calls is encoded without failure; whatever bytes
follow the block in the buffer, decoding with the matching calls reports at each step a value inside
exactly the interval that was encoded at that step, and after `done_decoding` the read position is
exactly the end of the block (what remains to be read is what followed it). -/
theorem C01_range_coder_roundtrip (cs : List Call) (hv : ∀ c ∈ cs, c.Valid) :
    ∃ block, encodeBlock cs = some block ∧ (∀ b ∈ block, b < 256) ∧
      ∀ following : List Nat, ∃ vs, decodeBlock (block ++ following) cs = some (vs, following) ∧
        Inside cs vs := by
  obtain ⟨B, k, h1, h2, h3, h4⟩ := encCalls_spec _ inv_start cs hv
  refine ⟨B, h1, h3, fun tail => ?_⟩
  obtain ⟨d, g1, g2⟩ := ready_start cs hv B tail h1
  obtain ⟨vs, d', g3, g4, g5⟩ := decCalls_ready cs d tail g2
  obtain ⟨d'', g6, g7⟩ := ready_done d' tail g5
  exact ⟨vs, by simp [decodeBlock, g1, g3, g6, g7], g4⟩

/-- `encode_short`/`decode_short` round trip as part of a block. -/
theorem C01_short (x : Nat) (hx : x < 65536) (cs : List Call) (d : Dec) (tail : List Nat)
    (h : Ready d (.shift 1 x 16 :: cs) tail) :
    ∃ d', decodeShort d = some (x, d') ∧ Ready d' cs tail := by
  obtain ⟨v, d1, h1, h2, h3, h4⟩ := ready_step d _ cs tail h
  simp only [Call.tot, Call.lt, Call.sy] at h1 h2 h3 h4
  have : v = x := by omega
  subst this
  refine ⟨_, ?_, h4⟩
  rw [decodeShort, decodeCulshift_eq, h1]
  simp only [Option.bind_eq_bind, Option.bind_some]
  rw [Nat.mod_eq_of_lt hx]
  rfl

/-- `encode_byte`/`decode_byte` round trip as part of a block. -/
theorem C01_byte (x : Nat) (hx : x < 256) (cs : List Call) (d : Dec) (tail : List Nat)
    (h : Ready d (.shift 1 x 8 :: cs) tail) :
    ∃ d', decodeByte d = some (x, d') ∧ Ready d' cs tail := by
  obtain ⟨v, d1, h1, h2, h3, h4⟩ := ready_step d _ cs tail h
  simp only [Call.tot, Call.lt, Call.sy] at h1 h2 h3 h4
  have : v = x := by omega
  subst this
  refine ⟨_, ?_, h4⟩
  rw [decodeByte, decodeCulshift_eq, h1]
  simp only [Option.bind_eq_bind, Option.bind_some]
  rw [Nat.mod_eq_of_lt hx]
  rfl

/-- A client that writes numbers: the width (`false`: `encode_byte`, `true`: `encode_short`) and the number. -/
def encNumbers (e : Enc) : List (Bool × Nat) → Option Enc
  | [] => some e
  | (false, x) :: r => (encodeByte e x).bind (fun e => encNumbers e r)
  | (true, x) :: r => (encodeShort e x).bind (fun e => encNumbers e r)

/-- The client that reads them, told the widths only. -/
def decNumbers (d : Dec) : List Bool → Option (List Nat × Dec)
  | [] => some ([], d)
  | false :: r => (decodeByte d).bind (fun v => (decNumbers v.2 r).map (fun w => (v.1 :: w.1, w.2)))
  | true :: r => (decodeShort d).bind (fun v => (decNumbers v.2 r).map (fun w => (v.1 :: w.1, w.2)))

/-- The call made for a number. -/
def numCall (x : Bool × Nat) : Call := .shift 1 x.2 (if x.1 then 16 else 8)

theorem encNumbers_eq (l : List (Bool × Nat)) : ∀ e, encNumbers e l = encCalls e (l.map numCall) := by
  induction l with
  | nil => intro e; rfl
  | cons x l ih =>
    intro e
    obtain ⟨w, x⟩ := x
    cases w
    · show (encodeShift e 1 x 8).bind (fun e => encNumbers e l) = (encodeShift e 1 x 8).bind (fun e => encCalls e (l.map numCall))
      congr 1; funext e; exact ih e
    · show (encodeShift e 1 x 16).bind (fun e => encNumbers e l) = (encodeShift e 1 x 16).bind (fun e => encCalls e (l.map numCall))
      congr 1; funext e; exact ih e

/-- **C01 (bytes and shorts).** Numbers written with `encode_byte` and `encode_short` in any mixture are read back as they were, and the read
position is then the end of the block, whatever follows it. -/
theorem C01_numbers (l : List (Bool × Nat)) (hl : ∀ x ∈ l, x.2 < if x.1 then 65536 else 256) :
    ∃ block, (encNumbers (startEncoding 0 0) l).bind doneEncoding = some block ∧
      ∀ following : List Nat, ∃ d d1 d2, startDecoding (block ++ following) = some d ∧
        decNumbers d (l.map Prod.fst) = some (l.map Prod.snd, d1) ∧ doneDecoding d1 = some d2 ∧ d2.inp = following := by
  have hv : ∀ c ∈ l.map numCall, c.Valid := by
    intro c hc
    obtain ⟨⟨w, x⟩, hx, rfl⟩ := List.mem_map.1 hc
    have := hl _ hx
    cases w
    · have : x < 256 := this
      refine ⟨by simp [numCall, Call.sy], ?_, by simp [numCall, Call.tot]⟩
      simp only [numCall, Call.sy, Call.lt, Call.tot]; simp; omega
    · have : x < 65536 := this
      refine ⟨by simp [numCall, Call.sy], ?_, by simp [numCall, Call.tot]⟩
      simp only [numCall, Call.sy, Call.lt, Call.tot]; simp; omega
  obtain ⟨B, hB⟩ := encodeBlock_some _ hv
  refine ⟨B, by rw [encNumbers_eq]; exact hB, fun tail => ?_⟩
  obtain ⟨d, h1, h2⟩ := ready_start _ hv B tail hB
  have key : ∀ (l : List (Bool × Nat)), (∀ x ∈ l, x.2 < if x.1 then 65536 else 256) → ∀ d, Ready d (l.map numCall) tail →
      ∃ d1, decNumbers d (l.map Prod.fst) = some (l.map Prod.snd, d1) ∧ Ready d1 [] tail := by
    intro l
    induction l with
    | nil => intro _ d h; exact ⟨d, rfl, h⟩
    | cons x l ih =>
      intro hl d h
      have hx := hl x List.mem_cons_self
      have hl' := fun y hy => hl y (List.mem_cons_of_mem _ hy)
      obtain ⟨w, x⟩ := x
      cases w
      · obtain ⟨d', e1, e2⟩ := C01_byte x hx _ d tail h
        obtain ⟨d1, e3, e4⟩ := ih hl' d' e2
        refine ⟨d1, ?_, e4⟩
        show (decodeByte d).bind _ = _
        rw [e1, Option.bind_some, e3]; rfl
      · obtain ⟨d', e1, e2⟩ := C01_short x hx _ d tail h
        obtain ⟨d1, e3, e4⟩ := ih hl' d' e2
        refine ⟨d1, ?_, e4⟩
        show (decodeShort d).bind _ = _
        rw [e1, Option.bind_some, e3]; rfl
  obtain ⟨d1, h3, h4⟩ := key l hl d h2
  obtain ⟨d2, h5, h6⟩ := ready_done d1 tail h4
  exact ⟨d, d1, d2, h1, h3, h5, h6⟩

/-- Three numbers and two following bytes. -/
example : (((encNumbers (startEncoding 0 0) [(false, 200), (true, 60000), (false, 3)]).bind doneEncoding).bind fun b =>
    (startDecoding (b ++ [7, 8])).bind fun d => (decNumbers d [false, true, false]).bind fun v =>
      (doneDecoding v.2).map fun d => (v.1, d.inp)) = some ([200, 60000, 3], [7, 8]) := by decide +kernel

/-- The blocks of several call sequences, one after the other in one buffer. -/
def encodeBlocks : List (List Call) → Option (List Nat)
  | [] => some []
  | cs :: css => do
      let b ← encodeBlock cs
      let r ← encodeBlocks css
      some (b ++ r)

/-- Decoding several blocks, one after the other. -/
def decodeBlocks (data : List Nat) : List (List Call) → Option (List (List Nat) × List Nat)
  | [] => some ([], data)
  | cs :: css => do
      let (vs, data) ← decodeBlock data cs
      let (vss, data) ← decodeBlocks data css
      some (vs :: vss, data)

/-- **C02.** Blocks written one after the other are read back one after the other, whatever follows
them; nothing but the blocks themselves delimits them. -/
theorem C02_blocks_self_delimiting (css : List (List Call)) (hv : ∀ cs ∈ css, ∀ c ∈ cs, c.Valid) :
    ∃ bytes, encodeBlocks css = some bytes ∧
      ∀ following : List Nat, ∃ vss, decodeBlocks (bytes ++ following) css = some (vss, following) ∧
        List.Forall₂ Inside css vss := by
  induction css with
  | nil => exact ⟨[], rfl, fun f => ⟨[], rfl, .nil⟩⟩
  | cons cs css ih =>
    obtain ⟨B, h1, -, h2⟩ := C01_range_coder_roundtrip cs (hv cs List.mem_cons_self)
    obtain ⟨R, g1, g2⟩ := ih (fun c h => hv c (List.mem_cons_of_mem _ h))
    refine ⟨B ++ R, by simp [encodeBlocks, h1, g1], fun f => ?_⟩
    obtain ⟨vs, k1, k2⟩ := h2 (R ++ f)
    obtain ⟨vss, l1, l2⟩ := g2 f
    exact ⟨vs :: vss, by simp [decodeBlocks, k1, l1], .cons k2 l2⟩

/-- The exact size of a block: the number of bytes the encoder counted (`bytecount`) is the number
of bytes written, i.e. the value `done_encoding` returns is right. -/
theorem C02_bytecount (cs : List Call) (hv : ∀ c ∈ cs, c.Valid) :
    ∃ e en block, encCalls (startEncoding 0 0) cs = some e ∧ encNormalize e = some en ∧
      encodeBlock cs = some block ∧ block.length = en.bytecount + 5 := by
  have key : ∀ (cs : List Call) (e : Enc), e.Inv → (∀ c ∈ cs, c.Valid) →
      e.base.length = e.bytecount + 1 →
      ∃ e' en B, encCalls e cs = some e' ∧ encNormalize e' = some en ∧
        doneEncoding e' = some B ∧ B.length = en.bytecount + 5 := by
    intro cs
    induction cs with
    | nil =>
      intro e hi _ hl
      obtain ⟨en, k, B, h1, h2, h3, h4, h5, h6, h7, h8⟩ := done_spec e hi
      refine ⟨e, en, B, rfl, h1, h5, ?_⟩
      have := h6.1; have := h2.len; have := h2.bc; omega
    | cons c cs ih =>
      intro e hi hv hl
      obtain ⟨en, k, e', h1, h2, h3, h4, h5, h6, h7⟩ := enc_spec e c hi (hv c List.mem_cons_self)
      obtain ⟨a, b, B, g⟩ := ih e' h6 (fun c' h' => hv c' (List.mem_cons_of_mem _ h'))
        (by have := h4.len; have := h4.bc; rw [h7.base, h7.bc]; omega)
      exact ⟨a, b, B, by simp [encCalls, h5, g.1], g.2⟩
  obtain ⟨e', en, B, h1, h2, h3, h4⟩ := key cs _ inv_start hv (by simp [startEncoding, Enc.base])
  exact ⟨e', en, B, h1, h2, by simp [encodeBlock, h1, h3], h4⟩

/-! Non-vacuity: a concrete legal call sequence, with skewed intervals that force carries and
multi-byte shifts, and its actual bytes. -/
def sampleCalls : List Call :=
  [.shift 1 65535 16, .shift 1 131071 18, .freq 1 5 7, .shift 1023 1 10, .shift 1 0 10, .freq 3 0 3]

example : ∀ c ∈ sampleCalls, c.Valid := by
  simp [sampleCalls, Call.Valid, Call.sy, Call.lt, Call.tot]

example : (encodeBlock sampleCalls).isSome = true := by
  obtain ⟨B, h, -⟩ := C01_range_coder_roundtrip sampleCalls
    (by simp [sampleCalls, Call.Valid, Call.sy, Call.lt, Call.tot])
  simp [h]

end TDP.RangeCoder
