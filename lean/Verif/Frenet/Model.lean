import Mathlib.Data.Rat.Floor
import Mathlib.Data.Fin.VecNotation
import Mathlib.Data.Fintype.Fin
import Mathlib.Tactic.FinCases
/-!
# Model of the integer rotation into a local frame (src/PPMC/frenetRotation.cpp:47-257)

The functions `sqrt`, `acos`, `tan`, `sin`, `cos` of the C library and the rounding to `float` and `double` are parameters: any
functions. The code computes the same fifteen matrices when it rotates and when it rotates back, so that what these functions
return does not matter as long as it is always the same.
-/
namespace TDP.Frenet

/-- A vector of integers, `VectorInt`. -/
abbrev IVec := Fin 3 → ℤ
/-- `Vector`. -/
abbrev Vec := Fin 3 → ℚ
/-- `CGAL::MatrixC33<MyKernelDouble>` (frenetRotation.h:27). -/
abbrev Mat := Fin 3 → Fin 3 → ℚ

/-- Its constructor from nine numbers, row by row. -/
def mat (a b c d e f g h i : ℚ) : Mat := ![![a, b, c], ![d, e, f], ![g, h, i]]

/-- The C library and the rounding of `float` and `double`. -/
structure Env where
  sqrt : ℚ → ℚ
  acos : ℚ → ℚ
  tan : ℚ → ℚ
  sin : ℚ → ℚ
  cos : ℚ → ℚ
  flt : ℚ → ℚ
  dbl : ℚ → ℚ

/-- `signe` (frenetRotation.cpp:47-50). -/
def signe (x : ℚ) : ℚ := if x < 0 then -1 else 1

/-- `matProd` (frenetRotation.cpp:52-79), in floats. -/
def matProd (E : Env) (m n : Mat) : Mat := fun i j =>
  E.flt (E.flt (E.flt (0 + E.flt (E.flt (m i 0) * E.flt (n 0 j))) + E.flt (E.flt (m i 1) * E.flt (n 1 j))) + E.flt (E.flt (m i 2) * E.flt (n 2 j)))

def D1 : Mat := mat 1 0 0 0 1 0 0 0 1
def D2 : Mat := mat 0 1 0 1 0 0 0 0 1
def D3 : Mat := mat (-1) 0 0 0 (-1) 0 0 0 1
def D4 : Mat := mat 1 0 0 0 0 1 0 1 0
def D5 : Mat := mat 1 0 0 0 (-1) 0 0 0 (-1)

/-- The angle computed from two entries (frenetRotation.cpp:126-127, 158-159, 189-190). -/
def angle (E : Env) (a b : ℚ) : ℚ :=
  let len := E.flt (E.dbl (E.dbl (a * a) + E.dbl (b * b)))
  E.flt (if len = 0 then 0 else E.dbl (signe (-1 * a) * E.acos (E.dbl (b / E.sqrt len))))

/-- `compRotationMat` (frenetRotation.cpp:82-202): the matrices `S[0] … S[14]`. -/
def compRotationMat (E : Env) (T1 T2 normal : Vec) : List Mat :=
  let M := mat (T1 0) (T2 0) (normal 0) (T1 1) (T2 1) (normal 1) (T1 2) (T2 2) (normal 2)
  let S0 := if |M 0 2| > |M 1 2| then D2 else D1
  let M := matProd E S0 M
  let S1 := if M 1 2 < 0 then D3 else D1
  let M := matProd E S1 M
  let phi := angle E (M 0 2) (M 1 2)
  let S2 := mat 1 (-E.tan (phi / 2)) 0 0 1 0 0 0 1
  let S3 := mat 1 0 0 (E.sin phi) 1 0 0 0 1
  let S4 := S2
  let R1inv := mat (E.cos phi) (E.sin phi) 0 (-E.sin phi) (E.cos phi) 0 0 0 1
  let M := matProd E R1inv M
  let S5 := if |M 1 2| > |M 2 2| then D4 else D1
  let M := matProd E S5 M
  let S6 := if M 2 2 < 0 then D5 else D1
  let M := matProd E S6 M
  let psi := angle E (M 1 2) (M 2 2)
  let S7 := mat 1 0 0 0 1 (-E.tan (psi / 2)) 0 0 1
  let S8 := mat 1 0 0 0 1 0 0 (E.sin psi) 1
  let S9 := S7
  let R2inv := mat 1 0 0 0 (E.cos psi) (E.sin psi) 0 (-E.sin psi) (E.cos psi)
  let M := matProd E R2inv M
  let S10 := if |M 0 1| > |M 1 1| then D2 else D1
  let M := matProd E S10 M
  let S11 := if M 1 1 < 0 then D3 else D1
  let M := matProd E S11 M
  let theta := angle E (M 0 1) (M 1 1)
  let S12 := mat 1 (-E.tan (theta / 2)) 0 0 1 0 0 0 1
  let S13 := mat 1 0 0 (E.sin theta) 1 0 0 0 1
  let S14 := S12
  [S0, S1, S2, S3, S4, S5, S6, S7, S8, S9, S10, S11, S12, S13, S14]

/-- `round` of the C library: halves away from zero. -/
def cround (x : ℚ) : ℤ := if 0 ≤ x then ⌊x + 1 / 2⌋ else -⌊-x + 1 / 2⌋

/-- One row of `m_inter * u`, in doubles. -/
def rowDot (E : Env) (A : Mat) (u : IVec) (r : Fin 3) : ℚ :=
  E.dbl (E.dbl (E.dbl (A r 0 * u 0) + E.dbl (A r 1 * u 1)) + E.dbl (A r 2 * u 2))

/-- The body of both loops (frenetRotation.cpp:223-230, 246-253): multiply, round, convert to `int` (undefined outside its range). -/
def step (E : Env) (A : Mat) (u : IVec) : Option IVec :=
  let v : IVec := fun r => cround (rowDot E A u r)
  if ∀ r, -2147483648 ≤ v r ∧ v r ≤ 2147483647 then some v else none

/-- `m_inter` for a shear (frenetRotation.cpp:221-223). -/
def offNeg (A : Mat) : Mat := fun i j => if i = j then A i j else -A i j

/-- `m_inter` in `frenetRotation` (frenetRotation.cpp:217-223). -/
def inter (i : Nat) (A : Mat) : Mat :=
  if i = 0 ∨ i = 1 ∨ i = 5 ∨ i = 6 ∨ i = 10 ∨ i = 11 then A else offNeg A

/-- `frenetRotation` (frenetRotation.cpp:206-233). -/
def frenetRotation (E : Env) (dist : IVec) (T1 T2 normal : Vec) : Option IVec :=
  (compRotationMat E T1 T2 normal).zipIdx.foldlM (fun u p => step E (inter p.2 p.1) u) dist

/-- `invFrenetRotation` (frenetRotation.cpp:236-257). -/
def invFrenetRotation (E : Env) (frenet : IVec) (T1 T2 normal : Vec) : Option IVec :=
  (compRotationMat E T1 T2 normal).reverse.foldlM (fun u A => step E A u) frenet

end TDP.Frenet
