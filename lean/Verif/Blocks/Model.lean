import Verif.RangeCoder.Model
import Verif.QsModel.Model
/-!
# Model of the two coded blocks of a decimation level
(src/PPMC/mymeshComp.cpp:435-575, src/PPMC/mymeshDecomp.cpp:57-136, 142-235, 313-335)

The traversals that decide in which order (and how many) symbols occur are modelled elsewhere
(`Verif.Traversal`); here the decoder is told how many faces/edges it will visit.
The second range coder `rangeCoderMes` of `encodeRemovedVertices` only measures sizes
(mymeshComp.cpp:517-524,541,564) and is not modelled.
-/
namespace TDP.Blocks
open TDP.RangeCoder TDP.QsModel

/-- `VectorInt`: a residual (mymesh.h). -/
structure Vec where
  x : Int
  y : Int
  z : Int
deriving Repr, DecidableEq

/-- `qsgetfreq; encode_shift; qsupdate` (mymeshComp.cpp:453-456, 539-543, 554-557). -/
def encSym (e : Enc) (m : QS) (sym sh : Nat) : Option (Enc × QS) := do
  let f := qsgetfreq m sym
  let e ← encodeShift e f.1 f.2 sh
  let m ← qsupdate m sym
  some (e, m)

/-- `decode_culshift; qsgetsym; qsgetfreq; decode_update; qsupdate`
(mymeshDecomp.cpp:102-107, 192-198, 320-325). -/
def decSym (d : Dec) (m : QS) (sh : Nat) : Option (Nat × Dec × QS) := do
  let (v, d) ← decodeCulshift d sh
  let sym ← qsgetsym m v
  let f := qsgetfreq m sym
  let d := decodeUpdate d f.1 f.2 (1 <<< sh)
  let m ← qsupdate m sym
  some (sym, d, m)

/-- The symbol loop of `encodeInsertedEdges` (mymeshComp.cpp:448-457). -/
def encSyms (e : Enc) (m : QS) : List Nat → Option (Enc × QS)
  | [] => some (e, m)
  | s :: ss => do
      let (e, m) ← encSym e m s 10
      encSyms e m ss

/-- `encodeInsertedEdges` (mymeshComp.cpp:435-464): the bytes written. -/
def encodeInsertedEdges (symbols : List Nat) : Option (List Nat) := do
  let m ← initqsmodel 2 10 (1 <<< 9) none true
  let (e, _) ← encSyms (startEncoding 0 0) m symbols
  doneEncoding e

/-- The symbol reads of `InsertedEdgeDecodingStep` (mymeshDecomp.cpp:191-203), `count` of them. -/
def decSyms (d : Dec) (m : QS) : Nat → Option (List Nat × Dec × QS)
  | 0 => some ([], d, m)
  | k + 1 => do
      let (s, d, m) ← decSym d m 10
      let (ss, d, m) ← decSyms d m k
      some (s :: ss, d, m)

/-- Reading one inserted-edge block (mymeshDecomp.cpp:148-151, 191-203, 223): the symbols and what is
left to read. -/
def decodeInsertedEdges (count : Nat) (data : List Nat) : Option (List Nat × List Nat) := do
  let m ← initqsmodel 2 10 (1 <<< 9) none false
  let d ← startDecoding data
  let (ss, d, _) ← decSyms d m count
  let d ← doneDecoding d
  some (ss, d.inp)

/-- `alphaBetaMin` (mymeshComp.cpp:484-496); `g0` is `geomSym[0].x()`. -/
def minLoop (a : Int) : List Vec → Int
  | [] => a
  | v :: vs =>
      let a := if v.x < a then v.x else a
      let a := if v.y < a then v.y else a
      let a := if v.z < a then v.z else a
      minLoop a vs

/-- `alphaBetaMax` (mymeshComp.cpp:485, 498-503). -/
def maxLoop (a : Int) : List Vec → Int
  | [] => a
  | v :: vs =>
      let a := if v.x > a then v.x else a
      let a := if v.y > a then v.y else a
      let a := if v.z > a then v.z else a
      maxLoop a vs

/-- Conversion to `int16_t` and reinterpretation as `uint16_t` (mymeshComp.cpp:510-513). -/
def toU16 (x : Int) : Nat := (x % 65536).toNat
/-- Reinterpretation of a `uint16_t` as `int16_t` (mymeshDecomp.cpp:69-71). -/
def fromU16 (x : Nat) : Int := if x < 32768 then x else (x : Int) - 65536

/-- Three geometry symbols (mymeshComp.cpp:549-558). `sym = v[j] - alphaBetaMin` is an `unsigned`. -/
def encVec (e : Enc) (mg : QS) (mn : Int) (v : Vec) : Option (Enc × QS) := do
  let (e, mg) ← encSym e mg (v.x - mn).toNat 18
  let (e, mg) ← encSym e mg (v.y - mn).toNat 18
  encSym e mg (v.z - mn).toNat 18

/-- The loop of `encodeRemovedVertices` (mymeshComp.cpp:530-561). Reading `geomSym[k]` past the end
of the deque is `none`. -/
def encFaces (e : Enc) (mc mg : QS) (mn : Int) : List Nat → List Vec → Option (Enc × QS × QS)
  | [], _ => some (e, mc, mg)
  | s :: conn, geom => do
      let (e, mc) ← encSym e mc s 10
      if s ≠ 0 then
        match geom with
        | [] => none
        | v :: geom => do
          let (e, mg) ← encVec e mg mn v
          encFaces e mc mg mn conn geom
      else encFaces e mc mg mn conn geom

/-- `encodeRemovedVertices` (mymeshComp.cpp:470-575): the bytes written. An empty `geomSym` is the
failed assertion of line 480 (compiled out: undefined behaviour), `none`. -/
def encodeRemovedVertices (conn : List Nat) (geom : List Vec) : Option (List Nat) := do
  match geom with
  | [] => none
  | g0 :: _ =>
    let mn := minLoop g0.x geom
    let mx := maxLoop g0.x geom
    let range := (max (mx - mn + 1) 2).toNat
    let e ← encodeShort (startEncoding 0 0) (toU16 mn)
    let e ← encodeShort e range
    let mg ← initqsmodel range 18 (1 <<< 17) none true
    let mc ← initqsmodel 2 10 (1 <<< 9) none true
    let (e, _, _) ← encFaces e mc mg mn conn geom
    doneEncoding e

/-- `decodeGeometrySym` (mymeshDecomp.cpp:313-335). -/
def decVec (d : Dec) (mg : QS) (mn : Int) : Option (Vec × Dec × QS) := do
  let (a, d, mg) ← decSym d mg 18
  let (b, d, mg) ← decSym d mg 18
  let (c, d, mg) ← decSym d mg 18
  some (⟨mn + a, mn + b, mn + c⟩, d, mg)

/-- The symbol reads of `undecimationStep` (mymeshDecomp.cpp:101-125) for `count` visited faces:
`some residual` for a splittable face, `none` for an unsplittable one. -/
def decFaces (d : Dec) (mc mg : QS) (mn : Int) : Nat → Option (List (Option Vec) × Dec)
  | 0 => some ([], d)
  | k + 1 => do
      let (s, d, mc) ← decSym d mc 10
      if s = 1 then
        let (v, d, mg) ← decVec d mg mn
        let (fs, d) ← decFaces d mc mg mn k
        some (some v :: fs, d)
      else
        let (fs, d) ← decFaces d mc mg mn k
        some (none :: fs, d)

/-- Reading one removed-vertex block (mymeshDecomp.cpp:47-49, 68-76, 101-129): the face marks and what
is left to read. -/
def decodeRemovedVertices (count : Nat) (data : List Nat) :
    Option (List (Option Vec) × List Nat) := do
  let d ← startDecoding data
  let (m16, d) ← decodeShort d
  let (range, d) ← decodeShort d
  let mg ← initqsmodel range 18 (1 <<< 17) none false
  let mc ← initqsmodel 2 10 (1 <<< 9) none false
  let (fs, d) ← decFaces d mc mg (fromU16 m16) count
  let d ← doneDecoding d
  some (fs, d.inp)

end TDP.Blocks
