import Verif.Common.Fp
import Mathlib.Order.BoundedOrder.Basic
import Mathlib.Tactic.FinCases
/-!
# Model of axis-aligned boxes and distance ranges (src/geometry/aab.h)

A coordinate array `float[3]` is a function of `Fin 3`. Code that only compares coordinates is modelled
over any linear order (`float` without NaN, including the two infinities, is one); code that computes is
modelled over `ℚ` with the rounding `F` applied after every operation.
-/
namespace TDP.Boxes

/-- A point (`float[3]`). -/
abbrev Pt (α : Type) := Fin 3 → α

/-- A point from its three coordinates. -/
def pt3 {α : Type} (x y z : α) : Pt α
  | 0 => x
  | 1 => y
  | 2 => z

/-- `class aab` (aab.h:52-55). -/
structure Box (α : Type) where
  min : Pt α
  max : Pt α

section Order
variable {α : Type} [LinearOrder α]

/-- `aab::aab()` (aab.h:56-61): `DBL_MAX` stored in a `float` is `+inf`, `-DBL_MAX` is `-inf`. -/
def emptyBox [BoundedOrder α] : Box α := ⟨fun _ => ⊤, fun _ => ⊥⟩

/-- `aab::update(float,float,float)` (aab.h:73-92). -/
def Box.addPt (b : Box α) (p : Pt α) : Box α where
  min i := if b.min i > p i then p i else b.min i
  max i := if b.max i < p i then p i else b.max i

/-- `aab::update(aab&)` (aab.h:94-103). -/
def Box.addBox (b c : Box α) : Box α where
  min i := if b.min i > c.min i then c.min i else b.min i
  max i := if b.max i < c.max i then c.max i else b.max i

/-- `aab::intersect` (aab.h:106-110). -/
def Box.intersect (a o : Box α) : Bool :=
  !(decide (o.min 0 ≥ a.max 0) || decide (o.max 0 ≤ a.min 0) ||
    decide (o.min 1 ≥ a.max 1) || decide (o.max 1 ≤ a.min 1) ||
    decide (o.min 2 ≥ a.max 2) || decide (o.max 2 ≤ a.min 2))

/-- `aab::contains(aab*)` (aab.h:111-121): the loop with its early returns. -/
def Box.containsBox (a o : Box α) : Bool :=
  [0, 1, 2].all (fun i : Fin 3 => !decide (o.min i < a.min i) && !decide (o.max i > a.max i))

/-- `aab::contains(float*)` (aab.h:123-133). -/
def Box.containsPt (a : Box α) (p : Pt α) : Bool :=
  [0, 1, 2].all (fun i : Fin 3 => !decide (p i < a.min i) && !decide (p i > a.max i))

/-- The calls that grow a box. -/
inductive Upd (α : Type) | pt (p : Pt α) | box (b : Box α)

/-- One call. -/
def Box.upd (b : Box α) : Upd α → Box α
  | .pt p => b.addPt p
  | .box c => b.addBox c

end Order

/-- `struct range` (aab.h:24-27). -/
structure Range where
  mindist : ℚ
  maxdist : ℚ
deriving DecidableEq, Repr

/-- `range::operator>` (aab.h:29-31). -/
def Range.gt (a d : Range) : Bool := decide (a.mindist > d.maxdist)
/-- `range::operator<` (aab.h:32-34). -/
def Range.lt (a d : Range) : Bool := decide (a.maxdist < d.mindist)
/-- `range::operator==` (aab.h:35-37). -/
def Range.eq (a d : Range) : Bool := !(decide (a.mindist > d.maxdist) || decide (a.maxdist < d.mindist))
/-- `range::update` (aab.h:43-46): the minimum of both fields. -/
def Range.update (a r : Range) : Range := ⟨min a.mindist r.mindist, min a.maxdist r.maxdist⟩

section Arith
variable (F : Fp)

/-- One turn of the loop of `aab::distance` (aab.h:182-191) on axis `i`. -/
def distStep (a b : Box ℚ) (r : Range) (i : Fin 3) : Range :=
  let tmp1 := F.rnd (a.min i - b.max i)
  let tmp2 := F.rnd (a.max i - b.min i)
  let s := F.rnd (tmp1 + tmp2)
  { maxdist := F.rnd (r.maxdist + F.rnd (F.rnd (s * s) / 4))
    mindist :=
      if tmp2 < 0 then F.rnd (r.mindist + F.rnd (tmp2 * tmp2))
      else if tmp1 > 0 then F.rnd (r.mindist + F.rnd (tmp1 * tmp1))
      else r.mindist }

/-- `aab::distance` (aab.h:176-193). -/
def Box.distance (a b : Box ℚ) : Range := [0, 1, 2].foldl (distStep F a b) ⟨0, 0⟩

/-- `distance(const float*, const float*)` (geometry.h:105-111). -/
def ptDist (p q : Pt ℚ) : ℚ :=
  [0, 1, 2].foldl (fun acc (t : Fin 3) => F.rnd (acc + F.rnd (F.rnd (p t - q t) * F.rnd (p t - q t)))) 0

/-- `VdistV2` (geometry.h:75-80). -/
def vdist2 (p q : Pt ℚ) : ℚ :=
  F.rnd (F.rnd (F.rnd (F.rnd (p 0 - q 0) * F.rnd (p 0 - q 0)) + F.rnd (F.rnd (p 1 - q 1) * F.rnd (p 1 - q 1))) +
    F.rnd (F.rnd (p 2 - q 2) * F.rnd (p 2 - q 2)))

end Arith

end TDP.Boxes
