/-!
# Model of the range coder (src/PPMC/rangeCoder/rangecod.c, rangecod.h)

Conventions
* `uint4`/`code_value`/`freq` (32-bit unsigned) values are natural numbers; every operation of the
  C code that can leave the 32-bit range is followed by an explicit `u32` (reduction modulo `2^32`).
* bytes written are reduced modulo 256 (`u8`), as the C code stores them in a `char`.
* `*(p_data + offset++) = x` is modelled by appending to a list of written bytes, and
  `*(p_data + offset++)` by popping the head of the list of bytes still to be read; reading past the
  end of the buffer is the outcome `none`.
* a `while` loop that never ends (range = 0) and a division by zero are the outcome `none`.
* `help` (bytes to follow) and `bytecount` are unbounded: `bytecount` is only used through
  `& 0xffffff`, and `help` would wrap only after 2^32 outstanding bytes (the code's buffer is 10 MB).
-/
namespace TDP.RangeCoder

/-- 32-bit wrap-around of `uint4` (rangeCoder/port.h; rangecod.h:84,90). -/
def u32 (x : Nat) : Nat := x % 4294967296

/-- Truncation to a byte, as in storing to a `char`/`unsigned char` (rangecod.h:98, rangecod.c:98). -/
def u8 (x : Nat) : Nat := x % 256

/-- `Top_value` (rangecod.c:90-91). -/
def topValue : Nat := 2147483648
/-- `Bottom_value = Top_value >> 8` (rangecod.c:107). -/
def bottomValue : Nat := topValue >>> 8
/-- `SHIFT_BITS = CODE_BITS - 9` (rangecod.c:105). -/
def shiftBits : Nat := 23
/-- `EXTRA_BITS = (CODE_BITS-2) % 8 + 1` (rangecod.c:106). -/
def extraBits : Nat := (32 - 2) % 8 + 1

/-- Encoder half of `struct rangecoder` (rangecod.h:94-104). `out` is what has been written at
`p_data` since `start_encoding`. -/
structure Enc where
  low : Nat
  range : Nat
  help : Nat
  buffer : Nat
  bytecount : Nat
  out : List Nat
deriving Repr, DecidableEq

/-- Decoder half of `struct rangecoder` (rangecod.h:94-104). `inp` is what is left to read at
`p_data + *p_dataOffset`. -/
structure Dec where
  low : Nat
  range : Nat
  help : Nat
  buffer : Nat
  inp : List Nat
deriving Repr, DecidableEq

/-- `start_encoding` (rangecod.c:145-151). -/
def startEncoding (c : Nat) (initlength : Nat) : Enc :=
  { low := 0, range := topValue, help := 0, buffer := u8 c, bytecount := initlength, out := [] }

/-- The body of the `while` loop of `enc_normalize` (rangecod.c:160-187). -/
def encShift (e : Enc) : Enc :=
  let e :=
    if e.low < 0xff <<< shiftBits then
      { e with out := e.out ++ u8 e.buffer :: List.replicate e.help 0xff,
               help := 0, buffer := u8 (e.low >>> shiftBits) }
    else if e.low &&& topValue ≠ 0 then
      { e with out := e.out ++ u8 (e.buffer + 1) :: List.replicate e.help 0,
               help := 0, buffer := u8 (e.low >>> shiftBits) }
    else { e with help := e.help + 1 }
  { e with range := u32 (e.range <<< 8),
           low := u32 (e.low <<< 8) &&& (topValue - 1),
           bytecount := e.bytecount + 1 }

/-- `enc_normalize` (rangecod.c:157-188). `none` models the endless loop entered when `range = 0`. -/
def encNormalize (e : Enc) : Option Enc :=
  if _h : e.range ≤ bottomValue then
    if _h0 : e.range = 0 then none else encNormalize (encShift e)
  else some e
termination_by bottomValue + 1 - e.range
decreasing_by
  have hr : (encShift e).range = u32 (e.range <<< 8) := by
    unfold encShift; dsimp only; split <;> (try split) <;> rfl
  have : bottomValue = 8388608 := by decide
  rw [hr, u32, Nat.shiftLeft_eq]
  omega

/-- `encode_freq` (rangecod.c:198-212). -/
def encodeFreq (e : Enc) (sy lt tot : Nat) : Option Enc := do
  let e ← encNormalize e
  if tot = 0 then none
  else
    let r := e.range / tot
    let tmp := u32 (r * lt)
    some { e with low := u32 (e.low + tmp),
                  range := if u32 (lt + sy) < tot then u32 (r * sy)
                           else u32 (e.range + 4294967296 - tmp) }

/-- `encode_shift` (rangecod.c:214-229). -/
def encodeShift (e : Enc) (sy lt shift : Nat) : Option Enc := do
  let e ← encNormalize e
  let r := e.range >>> shift
  let tmp := u32 (r * lt)
  some { e with low := u32 (e.low + tmp),
                range := if u32 (lt + sy) >>> shift ≠ 0 then u32 (e.range + 4294967296 - tmp)
                         else u32 (r * sy) }

/-- `encode_short` (rangecod.h:143). -/
def encodeShort (e : Enc) (s : Nat) : Option Enc := encodeShift e 1 s 16

/-- `encode_byte` (rangecod.h:142). -/
def encodeByte (e : Enc) (b : Nat) : Option Enc := encodeShift e 1 b 8

/-- `done_encoding` (rangecod.c:238-260): the bytes written since `start_encoding`.
The returned byte count is the third component of the state and is not used by the callers. -/
def doneEncoding (e : Enc) : Option (List Nat) := do
  let e ← encNormalize e
  let bc := e.bytecount + 5
  let tmp := if e.low &&& (bottomValue - 1) < (bc &&& 0xffffff) >>> 1
             then e.low >>> shiftBits else (e.low >>> shiftBits) + 1
  let out := if tmp > 0xff then e.out ++ u8 (e.buffer + 1) :: List.replicate e.help 0
             else e.out ++ u8 e.buffer :: List.replicate e.help 0xff
  some (out ++ [tmp &&& 0xff, (bc >>> 16) &&& 0xff, (bc >>> 8) &&& 0xff, bc &&& 0xff])

/-- `start_decoding` (rangecod.c:266-274). The first byte is compared with `EOF` (-1 as a signed
`char`, i.e. 255); in that case the coder state stays uninitialised, which we model by `none`. -/
def startDecoding (data : List Nat) : Option Dec :=
  match data with
  | [] => none
  | c :: rest =>
    if c = 255 then none else
    match rest with
    | [] => none
    | b :: rest =>
      some { low := b >>> (8 - extraBits), range := 1 <<< extraBits, help := 0, buffer := b,
             inp := rest }

/-- `dec_normalize` (rangecod.c:277-284). `none`: endless loop (range = 0) or read past the end. -/
def decNormalize (d : Dec) : Option Dec :=
  if _h : d.range ≤ bottomValue then
    if _h0 : d.range = 0 then none else
    match d.inp with
    | [] => none
    | b :: rest =>
      decNormalize
        { d with low := (u32 (d.low <<< 8) ||| ((d.buffer <<< extraBits) &&& 0xff))
                          ||| (b >>> (8 - extraBits)),
                 buffer := b,
                 range := u32 (d.range <<< 8),
                 inp := rest }
  else some d
termination_by bottomValue + 1 - d.range
decreasing_by
  have : bottomValue = 8388608 := by decide
  simp only [u32, Nat.shiftLeft_eq]
  omega

/-- `decode_culfreq` (rangecod.c:293-303). -/
def decodeCulfreq (d : Dec) (tot : Nat) : Option (Nat × Dec) := do
  let d ← decNormalize d
  if tot = 0 then none else
  let help := d.range / tot
  if help = 0 then none else
  let tmp := d.low / help
  some (if tmp ≥ tot then tot - 1 else tmp, { d with help := help })

/-- `decode_culshift` (rangecod.c:305-315). -/
def decodeCulshift (d : Dec) (shift : Nat) : Option (Nat × Dec) := do
  let d ← decNormalize d
  let help := d.range >>> shift
  if help = 0 then none else
  let tmp := d.low / help
  some (if tmp >>> shift ≠ 0 then (1 <<< shift) - 1 else tmp, { d with help := help })

/-- `decode_update` (rangecod.c:323-335). -/
def decodeUpdate (d : Dec) (sy lt tot : Nat) : Dec :=
  let tmp := u32 (d.help * lt)
  { d with low := u32 (d.low + 4294967296 - tmp),
           range := if u32 (lt + sy) < tot then u32 (d.help * sy)
                    else u32 (d.range + 4294967296 - tmp) }

/-- `decode_short` (rangecod.c:346-350). -/
def decodeShort (d : Dec) : Option (Nat × Dec) := do
  let (v, d) ← decodeCulshift d 16
  let tmp := v % 65536
  some (tmp, decodeUpdate d 1 tmp (1 <<< 16))

/-- `decode_byte` (rangecod.c:340-344). -/
def decodeByte (d : Dec) : Option (Nat × Dec) := do
  let (v, d) ← decodeCulshift d 8
  let tmp := v % 256
  some (tmp, decodeUpdate d 1 tmp (1 <<< 8))

/-- `done_decoding` (rangecod.c:355-357). -/
def doneDecoding (d : Dec) : Option Dec := decNormalize d

/-! ## Clients: a sequence of coding calls -/

/-- One coding call: `encode_freq(sy,lt,tot)` or `encode_shift(sy,lt,shift)`. -/
inductive Call
  | freq (sy lt tot : Nat)
  | shift (sy lt sh : Nat)
deriving Repr, DecidableEq

/-- Execute one coding call. -/
def Call.enc (e : Enc) : Call → Option Enc
  | .freq sy lt tot => encodeFreq e sy lt tot
  | .shift sy lt sh => encodeShift e sy lt sh

/-- Execute the matching decoding calls (`decode_culfreq`/`decode_culshift`, then `decode_update`
with the same interval); returns the cumulative value the first of them reported. -/
def Call.dec (d : Dec) : Call → Option (Nat × Dec)
  | .freq sy lt tot => do
      let (v, d) ← decodeCulfreq d tot
      some (v, decodeUpdate d sy lt tot)
  | .shift sy lt sh => do
      let (v, d) ← decodeCulshift d sh
      some (v, decodeUpdate d sy lt (1 <<< sh))

/-- The coding calls of a block, one after the other. -/
def encCalls (e : Enc) : List Call → Option Enc
  | [] => some e
  | c :: cs => do encCalls (← c.enc e) cs

/-- The decoding calls of a block, one after the other; collects the reported values. -/
def decCalls (d : Dec) : List Call → Option (List Nat × Dec)
  | [] => some ([], d)
  | c :: cs => do
      let (v, d) ← c.dec d
      let (vs, d) ← decCalls d cs
      some (v :: vs, d)

/-- A block as the callers write it: `start_encoding(0,0)`, calls, `done_encoding`
(mymeshComp.cpp:439-463, 500-574). -/
def encodeBlock (cs : List Call) : Option (List Nat) := do
  doneEncoding (← encCalls (startEncoding 0 0) cs)

/-- Reading such a block: `start_decoding`, calls, `done_decoding`; returns the reported values and
what is left to read after the block. -/
def decodeBlock (data : List Nat) (cs : List Call) : Option (List Nat × List Nat) := do
  let d ← startDecoding data
  let (vs, d) ← decCalls d cs
  let d ← doneDecoding d
  some (vs, d.inp)

end TDP.RangeCoder
