import Verif.Boxes.Model
import Mathlib.Order.WithBot
import Mathlib.Algebra.Order.Field.Basic
import Mathlib.Algebra.Module.Pi
/-!
# Model of the distance of two triangles (src/geometry/TriDist.cpp)

Arithmetic is exact, over any ordered field (so over the rational and over the real numbers; `float` rounding is not modelled).
Distances are modelled by their squares: where the code returns `sqrt(x)` the model returns `x`, and the value `-1` by which `TriDist_other`
says "not the case" is `none`. `DBL_MAX` stored in a `float` is infinity, `⊤`. `assert` is compiled out.
-/
namespace TDP.TriDist
open TDP.Boxes

variable {K : Type} [Field K] [LinearOrder K]

/-- `VdotV` (geometry.h:65-70). `VmV`, `VpV`, `VxS` and `VpVxS` (geometry.h:26-53, 85-92) are `-`, `+`, `•` of vectors. -/
def dot (a b : Pt K) : K := a 0 * b 0 + a 1 * b 1 + a 2 * b 2
/-- `VcrossV` (geometry.h:55-62). -/
def cross (a b : Pt K) : Pt K := pt3 (a 1 * b 2 - a 2 * b 1) (a 2 * b 0 - a 0 * b 2) (a 0 * b 1 - a 1 * b 0)
/-- `VdistV2` (geometry.h:73-81). -/
def dist2 (a b : Pt K) : K := (a 0 - b 0) * (a 0 - b 0) + (a 1 - b 1) * (a 1 - b 1) + (a 2 - b 2) * (a 2 - b 2)

/-- What `SegPoints` stores: `VEC`, `X`, `Y`. -/
structure SegPts (K : Type) where
  vec : Pt K
  x : Pt K
  y : Pt K

/-- `SegPoints` (TriDist.cpp:58-170): segments from `P` with direction `A` and from `Q` with direction `B`. -/
def segPoints (P A Q B : Pt K) : SegPts K :=
  let T := Q - P
  let AA := dot A A
  let BB := dot B B
  let AB := dot A B
  let AT := dot A T
  let BT := dot B T
  let denom := AA * BB - AB * AB
  let t := if denom = 0 then 0 else (AT * BB - BT * AB) / denom
  let u := if BB = 0 then 0 else (t * AB - BT) / BB
  if u ≤ 0 then
    let t := if AA = 0 then 0 else AT / AA
    if t ≤ 0 then ⟨Q - P, P, Q⟩
    else if t ≥ 1 then ⟨Q - (P + A), P + A, Q⟩
    else ⟨cross A (cross T A), P + t • A, Q⟩
  else if u ≥ 1 then
    let Y := Q + B
    let t := if AA = 0 then 0 else (AB + AT) / AA
    if t ≤ 0 then ⟨Y - P, P, Y⟩
    else if t ≥ 1 then ⟨Y - (P + A), P + A, Y⟩
    else ⟨cross A (cross (Y - P) A), P + t • A, Y⟩
  else
    let Y := Q + u • B
    if t ≤ 0 then ⟨cross B (cross T B), P, Y⟩
    else if t ≥ 1 then ⟨cross B (cross (Q - (P + A)) B), P + A, Y⟩
    else ⟨if dot (cross A B) T < 0 then (-1 : K) • cross A B else cross A B, P + t • A, Y⟩

/-- A triangle: nine floats, three points. -/
abbrev Tri (K : Type) := Fin 3 → Pt K

/-- The vectors `Sv`, `Tv` along the sides (TriDist.cpp:188-197, 261-270); indices modulo 3. -/
def side (S : Tri K) (i : Fin 3) : Pt K := S (i + 1) - S i

/-- The result of `TriDist_seg`: closest points found on two edges (`closest_find`), or the smallest distance of two edges and
`shown_disjoint`. -/
inductive SegRes (K : Type)
  | found (d : K)
  | more (d : WithTop K) (shown : Bool)

/-- The loop of `TriDist_seg` (TriDist.cpp:210-241) over the remaining pairs of edges, with the current `mindd` and `shown_disjoint`. -/
def segLoop (S T : Tri K) : List (Fin 3 × Fin 3) → WithTop K → Bool → SegRes K
  | [], mindd, shown => .more mindd shown
  | (i, j) :: rest, mindd, shown =>
    let c := segPoints (S i) (side S i) (T j) (side T j)
    let V := c.y - c.x
    let dd := dot V V
    if (dd : WithTop K) ≤ mindd then
      let a := dot (S (i + 2) - c.x) c.vec
      let b := dot (T (j + 2) - c.y) c.vec
      if a ≤ 0 ∧ b ≥ 0 then .found dd
      else segLoop S T rest dd (shown || decide (dot V c.vec - (if a < 0 then 0 else a) + (if b > 0 then 0 else b) > 0))
    else segLoop S T rest mindd shown

/-- The pairs of edges in the order of the two loops (TriDist.cpp:210-211). -/
def edgePairs : List (Fin 3 × Fin 3) := [(0, 0), (0, 1), (0, 2), (1, 0), (1, 1), (1, 2), (2, 0), (2, 1), (2, 2)]

/-- `TriDist_seg` (TriDist.cpp:177-246). -/
def triDistSeg (S T : Tri K) : SegRes K := segLoop S T edgePairs ⊤ false

/-- The choice of `point` (TriDist.cpp:294-301, 339-348): if all three values have the same sign, the one nearest to 0. -/
def pick (p : Fin 3 → K) : Option (Fin 3) :=
  if p 0 > 0 ∧ p 1 > 0 ∧ p 2 > 0 then
    let k : Fin 3 := if p 0 < p 1 then 0 else 1
    some (if p 2 < p k then 2 else k)
  else if p 0 < 0 ∧ p 1 < 0 ∧ p 2 < 0 then
    let k : Fin 3 := if p 0 > p 1 then 0 else 1
    some (if p 2 > p k then 2 else k)
  else none

/-- The constant `1e-15` (TriDist.cpp:280, 333). -/
def eps : K := 1 / 10 ^ 15

/-- One half of `TriDist_other` (TriDist.cpp:273-328): a corner of `T` above the face of `S`. The second half (329-378) is the same with the
triangles exchanged (the distance of `P` and `Q` is symmetric). The result: the distance if the corner passes, and `shown_disjoint`. -/
def faceTest (S T : Tri K) (shown : Bool) : Option K × Bool :=
  let Sn := cross (side S 0) (side S 1)
  let Snl := dot Sn Sn
  let Tp : Fin 3 → K := fun k => dot (S 0 - T k) Sn
  if Snl > eps then
    match pick Tp with
    | none => (none, shown)
    | some k =>
      (if dot (T k - S 0) (cross Sn (side S 0)) > 0 ∧ dot (T k - S 1) (cross Sn (side S 1)) > 0 ∧
          dot (T k - S 2) (cross Sn (side S 2)) > 0 then
        some (dist2 (T k + (Tp k / Snl) • Sn) (T k))
      else none, true)
  else (none, shown)

/-- `TriDist_other` (TriDist.cpp:253-381). -/
def triDistOther (S T : Tri K) (shown : Bool) : Option K × Bool :=
  match faceTest S T shown with
  | (some d, sh) => (some d, sh)
  | (none, sh) => faceTest T S sh

/-- `TriDist` (TriDist.cpp:399-439), squared. -/
def triDist2 (S T : Tri K) : WithTop K :=
  match triDistSeg S T with
  | .found d => d
  | .more m shown =>
    match triDistOther S T shown with
    | (some d, _) => d
    | (none, true) => m
    | (none, false) => ((0 : K) : WithTop K)

/-- The triangle at `data + 9 * i`. -/
def triAt (data : Nat → K) (i : Nat) : Tri K := fun k => pt3 (data (9 * i + 3 * k.val)) (data (9 * i + 3 * k.val + 1)) (data (9 * i + 3 * k.val + 2))

/-- `TriDist_single` (TriDist.cpp:441-455), squared. -/
def triDist2Single (d1 d2 : Nat → K) (size1 size2 : Nat) : WithTop K :=
  (List.range size1).foldl (fun m i => (List.range size2).foldl (fun m j =>
    if triDist2 (triAt d1 i) (triAt d2 j) < m then triDist2 (triAt d1 i) (triAt d2 j) else m) m) ⊤

end TDP.TriDist
