import Verif.Boxes.Model
import Mathlib.Order.WithBot
/-!
# Model of the geometry kernels (src/geometry/SegDist.cpp, TriInt.cpp, geometry_computer.cpp)

Arithmetic is exact (`float` rounding is not modelled here). `DBL_MAX` stored in a `float` is infinity, `⊤`.
-/
namespace TDP.Kernels
open TDP.Boxes

/-- `VmV` (geometry.h:26-33). -/
def vsub (a b : Pt ℚ) : Pt ℚ := pt3 (a 0 - b 0) (a 1 - b 1) (a 2 - b 2)
/-- `VpV` (geometry.h:36-43). -/
def vadd (a b : Pt ℚ) : Pt ℚ := pt3 (a 0 + b 0) (a 1 + b 1) (a 2 + b 2)
/-- `VpVxS` (geometry.h:46-53). -/
def vaxpy (a b : Pt ℚ) (s : ℚ) : Pt ℚ := pt3 (a 0 + b 0 * s) (a 1 + b 1 * s) (a 2 + b 2 * s)
/-- `VcrossV` (geometry.h:55-62). -/
def vcross (a b : Pt ℚ) : Pt ℚ := pt3 (a 1 * b 2 - a 2 * b 1) (a 2 * b 0 - a 0 * b 2) (a 0 * b 1 - a 1 * b 0)
/-- `VdotV` (geometry.h:65-70). -/
def vdot (a b : Pt ℚ) : ℚ := a 0 * b 0 + a 1 * b 1 + a 2 * b 2

/-- `SegDist` (SegDist.cpp:17-77): segments from `P` with direction `A` and from `Q` with direction `B`. -/
def segDist (P Q A B : Pt ℚ) (AdA BdB : ℚ) : WithTop ℚ :=
  let T := vsub Q P
  let AB := vdot A B
  let AT := vdot A T
  let BT := vdot B T
  if AdA = 0 ∨ BdB = 0 then ⊤
  else
    let denom := AdA * BdB - AB * AB
    let t := if denom = 0 then 0 else (AT * BdB - BT * AB) / denom
    let u := (t * AB - BT) / BdB
    let Yt : Pt ℚ × ℚ :=
      if u ≤ 0 then (Q, AT / AdA)
      else if u ≥ 1 then (vadd Q B, (AB + AT) / AdA)
      else (vaxpy Q B u, t)
    let X := if Yt.2 ≤ 0 then P else if Yt.2 ≥ 1 then vadd P A else vaxpy P A Yt.2
    let D := vsub X Yt.1
    ((vdot D D : ℚ) : WithTop ℚ)

/-- The point at `p` in an array of floats. -/
def ptAt (data : Nat → ℚ) (p : Nat) : Pt ℚ := pt3 (data p) (data (p + 1)) (data (p + 2))

/-- The inner body of `SegDist_single` (SegDist.cpp:95-109): segment `i` of the first against segment `j` of the
second array; `A`, `AdA` etc. are the precomputed values. -/
def segPair (d1 d2 : Nat → ℚ) (i j : Nat) : WithTop ℚ :=
  let A := vsub (ptAt d1 (i * 6 + 3)) (ptAt d1 (i * 6))
  let B := vsub (ptAt d2 (j * 6 + 3)) (ptAt d2 (j * 6))
  segDist (ptAt d1 (i * 6)) (ptAt d2 (j * 6)) A B (vdot A A) (vdot B B)

/-- `SegDist_single` (SegDist.cpp:81-120). -/
def segDistSingle (d1 d2 : Nat → ℚ) (size1 size2 : Nat) : WithTop ℚ :=
  let n1 := if size1 > 10000 then 10000 else size1
  let n2 := if size2 > 10000 then 10000 else size2
  (List.range n1).foldl (fun m i => (List.range n2).foldl (fun m j =>
    if segPair d1 d2 i j < m then segPair d1 d2 i j else m) m) ⊤

/-! ## Splitting among threads -/

/-- The slices `(start, count)` handed out by `get_distance_cpu` (geometry_computer.cpp:111-136). -/
def distChunks (pairs threads : Nat) : List (Nat × Nat) :=
  let each0 := pairs / threads
  let n := if each0 = 0 then pairs else threads
  let each := each0 + 1
  ((List.range n).takeWhile (fun i => decide (¬ each * i ≥ pairs))).map (fun i => (each * i, min each (pairs - each * i)))

/-- The number of threads `get_distance_cpu` decides for (geometry_computer.cpp:112-115). -/
def distThreads (pairs threads : Nat) : Nat := if pairs / threads = 0 then pairs else threads

/-- The slices handed out by `get_intersect_cpu` (geometry_computer.cpp:174-189). -/
def intChunks (pairs threads : Nat) : List (Nat × Nat) :=
  let each := pairs / threads
  ((List.range threads).takeWhile (fun i => decide (¬ each * i ≥ pairs))).map (fun i => (each * i, min each (pairs - each * i)))

/-- The writes of one unit (geometry_computer.cpp:14-23, 159-168): entry and value. -/
def unitWrites {R : Type} (kernel : Nat → R) (c : Nat × Nat) : List (Nat × R) :=
  (List.range c.2).map (fun i => (c.1 + i, kernel (c.1 + i)))

/-- All units started by `get_distance_cpu`: with one thread the unit is run directly *and* in a thread
(geometry_computer.cpp:132-135). -/
def distUnits {R : Type} (kernel : Nat → R) (pairs threads : Nat) : List (List (Nat × R)) :=
  (distChunks pairs threads).flatMap (fun c =>
    if distThreads pairs threads = 1 then [unitWrites kernel c, unitWrites kernel c] else [unitWrites kernel c])

/-- All units started by `get_intersect_cpu`. -/
def intUnits {R : Type} (kernel : Nat → R) (pairs threads : Nat) : List (List (Nat × R)) :=
  (intChunks pairs threads).flatMap (fun c =>
    if threads = 1 then [unitWrites kernel c, unitWrites kernel c] else [unitWrites kernel c])

/-- A result array. -/
abbrev Arr (R : Type) := Nat → R
/-- One write. -/
def Arr.set {R : Type} (a : Arr R) (w : Nat × R) : Arr R := fun i => if i = w.1 then w.2 else a i
/-- Writes in order. -/
def runWrites {R : Type} (a : Arr R) (ws : List (Nat × R)) : Arr R := ws.foldl Arr.set a

/-- `ws` is an interleaving of the units' writes: what the memory sees for some schedule of the threads. -/
inductive Interleaving {R : Type} : List (List (Nat × R)) → List (Nat × R) → Prop
  | done (us) : (∀ u ∈ us, u = []) → Interleaving us []
  | step (pre post : List (List (Nat × R))) (w u ws) :
      Interleaving (pre ++ u :: post) ws → Interleaving (pre ++ (w :: u) :: post) (w :: ws)

/-! ## Triangles -/

/-- `EDGE_EDGE_TEST` (TriInt.cpp:53-71): does it return true? -/
def edgeEdge (i0 i1 : Fin 3) (Ax Ay : ℚ) (V0 U0 U1 : Pt ℚ) : Bool :=
  let Bx := U0 i0 - U1 i0
  let By := U0 i1 - U1 i1
  let Cx := V0 i0 - U0 i0
  let Cy := V0 i1 - U0 i1
  let f := Ay * Bx - Ax * By
  let d := By * Cx - Bx * Cy
  if (f > 0 ∧ d ≥ 0 ∧ d ≤ f) ∨ (f < 0 ∧ d ≤ 0 ∧ d ≥ f) then
    let e := Ax * Cy - Ay * Cx
    if f > 0 then decide (e ≥ 0 ∧ e ≤ f) else decide (e ≤ 0 ∧ e ≥ f)
  else false

/-- `EDGE_AGAINST_TRI_EDGES` (TriInt.cpp:73-84). -/
def edgeTri (i0 i1 : Fin 3) (V0 V1 U0 U1 U2 : Pt ℚ) : Bool :=
  let Ax := V1 i0 - V0 i0
  let Ay := V1 i1 - V0 i1
  edgeEdge i0 i1 Ax Ay V0 U0 U1 || edgeEdge i0 i1 Ax Ay V0 U1 U2 || edgeEdge i0 i1 Ax Ay V0 U2 U0

/-- The line function `a*V0[i0]+b*V0[i1]+c` of an edge in `POINT_IN_TRI` (TriInt.cpp:91-94). -/
def edgeSide (i0 i1 : Fin 3) (V0 U0 U1 : Pt ℚ) : ℚ :=
  let a := U1 i1 - U0 i1
  let b := -(U1 i0 - U0 i0)
  let c := -a * U0 i0 - b * U0 i1
  a * V0 i0 + b * V0 i1 + c

/-- `POINT_IN_TRI` (TriInt.cpp:86-109). -/
def pointInTri (i0 i1 : Fin 3) (V0 U0 U1 U2 : Pt ℚ) : Bool :=
  let d0 := edgeSide i0 i1 V0 U0 U1
  let d1 := edgeSide i0 i1 V0 U1 U2
  let d2 := edgeSide i0 i1 V0 U2 U0
  if d0 * d1 > 0 then decide (d0 * d2 > 0) else false

/-- The axes projected onto (TriInt.cpp:125-145). -/
def projAxes (N : Pt ℚ) : Fin 3 × Fin 3 :=
  if |N 0| > |N 1| then (if |N 0| > |N 2| then (1, 2) else (0, 1))
  else (if |N 2| > |N 1| then (0, 1) else (0, 2))

/-- `coplanar_tri_tri` (TriInt.cpp:117-157). -/
def coplanarTriTri (N V0 V1 V2 U0 U1 U2 : Pt ℚ) : Bool :=
  let i0 := (projAxes N).1
  let i1 := (projAxes N).2
  edgeTri i0 i1 V0 V1 U0 U1 U2 || edgeTri i0 i1 V1 V2 U0 U1 U2 || edgeTri i0 i1 V2 V0 U0 U1 U2 ||
    pointInTri i0 i1 V0 U0 U1 U2 || pointInTri i0 i1 U0 V0 V1 V2

/-- The test in the plane (TriInt.cpp:260-288): the segment from `r4` to `r4+t` against the triangle `0, p1, p2`. -/
def test2D (p10 p11 p20 p21 r40 r41 t0 t1 : ℚ) : Bool :=
  let det1 := p10 * t1 - t0 * p11
  let gama1 := (p10 * r41 - r40 * p11) * det1
  let alpha1 := (r40 * t1 - t0 * r41) * det1
  let legal1 : Bool := decide (alpha1 ≥ 0) && (decide (alpha1 ≤ det1 * det1) && decide (det1 ≠ 0))
  let det2 := p20 * t1 - t0 * p21
  let alpha2 := (r40 * t1 - t0 * r41) * det2
  let gama2 := (p20 * r41 - r40 * p21) * det2
  let legal2 : Bool := decide (alpha2 ≥ 0) && (decide (alpha2 ≤ det2 * det2) && decide (det2 ≠ 0))
  let det3 := det2 - det1
  let gama3 := ((p20 - p10) * (r41 - p11) - (r40 - p10) * (p21 - p11)) * det3
  if legal1 then
    if legal2 then
      decide ((gama1 ≤ 0 ∧ gama1 ≥ -(det1 * det1)) ∨ (gama2 ≤ 0 ∧ gama2 ≥ -(det2 * det2)) ∨ gama1 * gama2 < 0)
    else
      decide ((gama1 ≤ 0 ∧ gama1 ≥ -(det1 * det1)) ∨ (gama3 ≤ 0 ∧ gama3 ≥ -(det3 * det3)) ∨ gama1 * gama3 < 0)
  else if legal2 then
    decide ((gama2 ≤ 0 ∧ gama2 ≥ -(det2 * det2)) ∨ (gama3 ≤ 0 ∧ gama3 ≥ -(det3 * det3)) ∨ gama2 * gama3 < 0)
  else false

/-- The scaling before it (TriInt.cpp:254-259) from `SF`, `t`, `beta1` and the (possibly replaced) `Q1`. Only the
first two coordinates are used. -/
def triInt2D (P1 P2 r : Pt ℚ) (SF t0 t1 beta1 : ℚ) (Q1 : Pt ℚ) : Bool :=
  test2D (SF * P1 0) (SF * P1 1) (SF * P2 0) (SF * P2 1) (SF * r 0 + beta1 * Q1 0) (SF * r 1 + beta1 * Q1 1) t0 t1

/-- `TriInt` (TriInt.cpp:170-289): triangles `C1, C1+P1, C1+P2` and `D1, D1+Q1, D1+Q2`. -/
def triInt (C1 P1 P2 D1 Q1 Q2 : Pt ℚ) : Bool :=
  let r := vsub D1 C1
  let dp0 := P1 1 * P2 2 - P2 1 * P1 2
  let dp1 := P1 0 * P2 2 - P2 0 * P1 2
  let dp2 := P1 0 * P2 1 - P2 0 * P1 1
  let dq1 := Q1 0 * dp0 - Q1 1 * dp1 + Q1 2 * dp2
  let dq2 := Q2 0 * dp0 - Q2 1 * dp1 + Q2 2 * dp2
  let dr := -(r 0) * dp0 + r 1 * dp1 - r 2 * dp2
  let beta1 := dr * dq2
  let beta2 := dr * dq1
  let beta1_legal : Bool := decide (beta2 ≥ 0) && decide (beta2 ≤ dq1 * dq1) && decide (dq1 ≠ 0)
  let beta2_legal : Bool := decide (beta1 ≥ 0) && decide (beta1 ≤ dq2 * dq2) && decide (dq2 ≠ 0)
  let dq3 := dq2 - dq1
  let dr3 := dr - dq1
  if dq1 = 0 ∧ dq2 = 0 then
    if dr ≠ 0 then false
    else coplanarTriTri (vcross P1 P2) C1 (vadd C1 P1) (vadd C1 P2) D1 (vadd D1 Q1) (vadd D1 Q2)
  else if !beta2_legal && !beta1_legal then false
  else if beta2_legal && beta1_legal then
    triInt2D P1 P2 r (dq1 * dq2) (beta2 * Q2 0 + -beta1 * Q1 0) (beta2 * Q2 1 + -beta1 * Q1 1) beta1 Q1
  else if beta1_legal then
    let SF := dq1 * dq3
    let b1 := beta1 - beta2
    let b3 := dr3 * dq1
    triInt2D P1 P2 r SF ((SF - b3 - b1) * Q1 0 + b3 * Q2 0) ((SF - b3 - b1) * Q1 1 + b3 * Q2 1) b1 Q1
  else
    let SF := dq2 * dq3
    let b2 := beta1 - beta2
    let b3 := dr3 * dq2
    triInt2D P1 P2 r SF ((SF - b3) * Q1 0 + (b3 - b2) * Q2 0) ((SF - b3) * Q1 1 + (b3 - b2) * Q2 1) b2 Q2

/-- The inner body of `TriInt_single`. -/
def triPair (d1 d2 : Nat → ℚ) (i j : Nat) : Bool :=
  triInt (ptAt d1 (9 * i)) (ptAt d1 (9 * i + 3)) (ptAt d1 (9 * i + 6))
    (ptAt d2 (9 * j)) (ptAt d2 (9 * j + 3)) (ptAt d2 (9 * j + 6))

/-- `TriInt_single` (TriInt.cpp:291-300): the loops with their early return. -/
def triIntSingle (d1 d2 : Nat → ℚ) (size1 size2 : Nat) : Bool :=
  (List.range size1).any (fun i => (List.range size2).any (fun j => triPair d1 d2 i j))

end TDP.Kernels
