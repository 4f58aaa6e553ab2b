import Mathlib.Data.Rat.Floor
/-!
# Model of the quantisation (src/PPMC/mymesh.cpp:167-262)

Floating-point numbers are replaced by exact rationals (`float`/`double` rounding is not modelled here,
see `Verif.Quant.Props` for a statement that tolerates a bounded error). A point is a function of the
three axes.
-/
namespace TDP.Quant

abbrev P3 := Fin 3 → ℚ
abbrev I3 := Fin 3 → ℤ

/-- Conversion of a floating-point number to `int`: truncation towards zero. -/
def toInt (x : ℚ) : ℤ := if 0 ≤ x then ⌊x⌋ else ⌈x⌉

/-- `computeBoundingBox` (mymesh.cpp:168-176): smallest and largest coordinate per axis;
`CGAL::bounding_box` of an empty mesh is not defined. -/
def bbMin : P3 → List P3 → P3
  | a, [] => a
  | a, p :: ps => bbMin (fun i => if p i < a i then p i else a i) ps
def bbMax : P3 → List P3 → P3
  | a, [] => a
  | a, p :: ps => bbMax (fun i => if a i < p i then p i else a i) ps

/-- `f_maxRange` (mymesh.cpp:205-211). -/
def maxRange (mn mx : P3) : ℚ :=
  let r := (0 : ℚ)
  let r := if mx 0 - mn 0 > r then mx 0 - mn 0 else r
  let r := if mx 1 - mn 1 > r then mx 1 - mn 1 else r
  if mx 2 - mn 2 > r then mx 2 - mn 2 else r

/-- `determineQuantStep` (mymesh.cpp:203-213). -/
def quantStep (mn mx : P3) (bits : Nat) : ℚ := maxRange mn mx / ((2 ^ bits : ℕ) : ℚ)

/-- What the quantisation functions read from the mesh object: `bbMin`, `f_quantStep`,
`i_curQuantizationId`. -/
structure Cfg where
  mn : P3
  step : ℚ
  curQ : Nat

/-- `getQuantizedPos` (mymesh.cpp:246-251). -/
def getQuantizedPos (c : Cfg) (p : P3) : I3 :=
  fun i => toInt ((p i - c.mn i) / (c.step * ((2 ^ c.curQ : ℕ) : ℚ)))

/-- `getPos` (mymesh.cpp:257-262). -/
def getPos (c : Cfg) (q : I3) : P3 :=
  fun i => ((q i : ℚ) + 1 / 2) * c.step * ((2 ^ c.curQ : ℕ) : ℚ) + c.mn i

/-- The body of the loop of `quantizeVertexPositions` (mymesh.cpp:224-238). -/
def quantizeVertex (c : Cfg) (bits : Nat) (p : P3) : P3 :=
  let q := getQuantizedPos c p
  getPos c (fun i => if q i = ((2 ^ bits : ℕ) : ℤ) then ((2 ^ bits : ℕ) : ℤ) - 1 else q i)

/-- The sequence `computeBoundingBox; determineQuantStep; quantizeVertexPositions` of the compressing
constructor (mymesh.cpp:68-70), for the vertices `v :: vs`; `i_curQuantizationId` is 0. -/
def initCfg (bits : Nat) (v : P3) (vs : List P3) : Cfg :=
  ⟨bbMin v vs, quantStep (bbMin v vs) (bbMax v vs) bits, 0⟩
def quantizeMesh (bits : Nat) (v : P3) (vs : List P3) : List P3 :=
  (v :: vs).map (quantizeVertex (initCfg bits v vs) bits)

/-- `barycenter(Halfedge_handle)` (mymeshUtils.cpp:109-124) of the vertex positions met around the
face. -/
def barycenter (ps : List P3) : P3 :=
  fun i => (ps.foldl (fun s p => fun i => s i + p i) (fun _ => 0)) i / (ps.length : ℚ)

/-- The residual stored for a removed vertex (mymeshComp.cpp:277-278). -/
def residual (c : Cfg) (removed bary : P3) : I3 :=
  fun i => getQuantizedPos c removed i - getQuantizedPos c bary i

/-- The position at which the decompressor inserts the vertex (mymeshDecomp.cpp:277). -/
def insertedPos (c : Cfg) (bary : P3) (res : I3) : P3 :=
  getPos c (fun i => getQuantizedPos c bary i + res i)

end TDP.Quant
