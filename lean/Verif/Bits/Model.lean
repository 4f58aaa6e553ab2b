/-!
# Model of the bit-field and float I/O (src/PPMC/mymeshIO.cpp:59-124)

A buffer is a zero-filled `char` array of `size` bytes; a 32-bit access that leaves it is `none`.
The machine is little endian, as the code assumes (it uses `__builtin_bswap32`). Unaligned 32-bit
accesses through `*(uint32_t *)p` are taken to work (x86). A `float` is its 32-bit pattern.
-/
namespace TDP.Bits

/-- `p_data` (mymesh.cpp:45-49). -/
structure Buf where
  mem : Nat → Nat
  size : Nat

/-- (`i_bitOffset`, `dataOffset`). -/
structure Pos where
  bit : Nat
  off : Nat
deriving Repr, DecidableEq

/-- A freshly allocated compression buffer, filled with 0 (mymesh.cpp:45-49). -/
def Buf.zero (size : Nat) : Buf := ⟨fun _ => 0, size⟩

/-- `*(uint32_t *)p` (little endian), as an rvalue. -/
def load32 (b : Buf) (p : Nat) : Option Nat :=
  if p + 4 ≤ b.size then
    some (b.mem p + b.mem (p + 1) * 256 + b.mem (p + 2) * 65536 + b.mem (p + 3) * 16777216)
  else none

/-- `*(uint32_t *)p = w` (little endian). -/
def store32 (b : Buf) (p w : Nat) : Option Buf :=
  if p + 4 ≤ b.size then
    some ⟨fun i =>
      if i = p then w % 256
      else if i = p + 1 then (w >>> 8) % 256
      else if i = p + 2 then (w >>> 16) % 256
      else if i = p + 3 then (w >>> 24) % 256
      else b.mem i, b.size⟩
  else none

/-- `__builtin_bswap32`. -/
def bswap32 (w : Nat) : Nat :=
  (w % 256) <<< 24 ||| ((w >>> 8) % 256) <<< 16 ||| ((w >>> 16) % 256) <<< 8 ||| (w >>> 24) % 256

/-- `writeBits(data, nb, p_data + dataOffset - 1, i_bitOffset, dataOffset)` (mymeshIO.cpp:60-75).
A shift by 32 or by a negative amount is undefined behaviour (`none`). -/
def writeBits (b : Buf) (pos : Pos) (data nb : Nat) : Option (Buf × Pos) :=
  if nb + pos.bit = 0 ∨ 32 < nb + pos.bit then none else do
  let dataToAdd := (data <<< (32 - nb - pos.bit)) % 4294967296
  let dataToAdd := bswap32 dataToAdd
  let w ← load32 b (pos.off - 1)
  let b ← store32 b (pos.off - 1) (w ||| dataToAdd)
  some (b, ⟨(pos.bit + nb) % 8, pos.off + (pos.bit + nb) / 8⟩)

/-- The mask loop of `readBits` (mymeshIO.cpp:87-89), `k` iterations. -/
def maskLoop : Nat → Nat
  | 0 => 0
  | k + 1 => maskLoop k ||| 1 <<< k

/-- `readBits(nb, p_data + dataOffset - 1, i_bitOffset, dataOffset)` (mymeshIO.cpp:81-105). -/
def readBits (b : Buf) (pos : Pos) (nb : Nat) : Option (Nat × Pos) :=
  if nb + pos.bit = 0 ∨ 32 < nb + pos.bit then none else do
  let mask := bswap32 (maskLoop (32 - pos.bit))
  let w ← load32 b (pos.off - 1)
  let data := bswap32 (w &&& mask)
  let data := data >>> (32 - nb - pos.bit)
  some (data, ⟨(pos.bit + nb) % 8, pos.off + (pos.bit + nb) / 8⟩)

/-- `writeFloat` (mymeshIO.cpp:109-113): `f` is the bit pattern. -/
def writeFloat (b : Buf) (off f : Nat) : Option (Buf × Nat) := do
  let b ← store32 b off f
  some (b, off + 4)

/-- `readFloat` (mymeshIO.cpp:119-124). -/
def readFloat (b : Buf) (off : Nat) : Option (Nat × Nat) := do
  let f ← load32 b off
  some (f, off + 4)

/-- Fields written one after the other. A field is (value, width). -/
def writeFields (b : Buf) (pos : Pos) : List (Nat × Nat) → Option (Buf × Pos)
  | [] => some (b, pos)
  | f :: fs => do
      let (b, pos) ← writeBits b pos f.1 f.2
      writeFields b pos fs

/-- Fields read one after the other with the given widths. -/
def readFields (b : Buf) (pos : Pos) : List Nat → Option (List Nat × Pos)
  | [] => some ([], pos)
  | w :: ws => do
      let (v, pos) ← readBits b pos w
      let (vs, pos) ← readFields b pos ws
      some (v :: vs, pos)

end TDP.Bits
