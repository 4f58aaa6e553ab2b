import Verif.Common.Fp
/-!
# Model of level-of-detail control
(src/spatial/himesh.cpp:329-336, src/PPMC/mymeshDecomp.cpp:29-51,231-233, src/PPMC/mymesh.cpp:112-164)

The state is what decides how many refinement levels are decoded. Decoding one level is the transition
`Idle → UndecimationConquest → InsertedEdgeDecoding → Idle`, which increments `i_curOperationId`
(mymeshDecomp.cpp:231-233); its effect on the mesh is modelled elsewhere, here it is one `refine`.
`i_nbQuantizations` is always 0 in this code base (mymeshIO.cpp:34), so the denominator is
`i_nbDecimations`.
-/
namespace TDP.Lod

/-- `i_curOperationId`, `i_decompPercentage`. `b_jobCompleted` is true between calls. -/
structure St where
  curOp : Nat
  pct : Nat
deriving Repr, DecidableEq

/-- The object after construction with percentage 0 (himesh.cpp:424-432, mymesh.cpp:36-38).
`i_levelNotConvexId = i_nbDecimations` in what this compressor writes, so lines 90-96 of mymesh.cpp do
nothing. -/
def fresh : St := ⟨0, 0⟩

/-- `(float)i_curOperationId / (i_nbQuantizations + i_nbDecimations) * 100 >= i_decompPercentage`
(mymeshDecomp.cpp:32). With 0 levels the left side is `0/0`, NaN, and the test fails. -/
def reached (F : Fp) (n k : Nat) (pct : Nat) : Bool :=
  if n = 0 then false else decide ((pct : ℚ) ≤ F.rnd (F.rnd ((k : ℚ) / (n : ℚ)) * 100))

/-- `completeOperation` (mymesh.cpp:158-164) from the idle state: `n` is `i_nbDecimations`.
Decoding a level that was never written reads past the data: `none`. -/
def complete (F : Fp) (n : Nat) (s : St) : Option St :=
  if reached F n s.curOp s.pct then some s
  else if s.curOp < n then complete F n { s with curOp := s.curOp + 1 }
  else none
termination_by n - s.curOp

/-- Conversion of an `int` to `unsigned` (`i_decompPercentage` is unsigned, mymesh.h:520). -/
def toUnsigned (x : Int) : Nat := (x % 4294967296).toNat

/-- `advance_to` (himesh.cpp:329-336). The comparison is between unsigned numbers. -/
def advanceTo (F : Fp) (n : Nat) (lod : Int) (s : St) : Option St :=
  if s.pct ≥ toUnsigned lod then some s else complete F n { s with pct := toUnsigned lod }

/-- A history of requests. -/
def run (F : Fp) (n : Nat) : List Int → St → Option St
  | [], s => some s
  | p :: ps, s => do run F n ps (← advanceTo F n p s)

end TDP.Lod
