import Verif.RTree.File
import Mathlib.Data.Multiset.AddSub
import Mathlib.Data.Multiset.Filter
import Mathlib.Data.Rat.Floor
import Mathlib.Algebra.BigOperators.Group.List.Basic
/-! What a user of the R-tree expects, without its nodes; and the volume used by default. -/
namespace TDP.RTree
variable {n : Nat} {K D : Type} [LinearOrder K]

/-- A box that is not inside out. -/
def Rect.Valid (r : Rect n K) : Prop := ∀ i, r.min i ≤ r.max i

/-- The point `x` is in the closed box. -/
def Rect.Has (r : Rect n K) (x : Fin n → K) : Prop := ∀ i, r.min i ≤ x i ∧ x i ≤ r.max i

/-- Two closed boxes have a point in common. -/
def Meets (a b : Rect n K) : Prop := ∃ x, a.Has x ∧ b.Has x

/-- Calls that change a tree. -/
inductive Op (n : Nat) (K D : Type) where
  | insert (r : Rect n K) (d : D)
  | remove (r : Rect n K) (d : D)
  | removeAll

/-- Running them one after another. -/
def run [DecidableEq D] (P : Params n K) : List (Op n K D) → Node n K D → Option (Node n K D)
  | [], t => some t
  | .insert r d :: h, t => (insert P r d t).bind (run P h)
  | .remove r d :: h, t => (remove P r d t).bind (run P h)
  | .removeAll :: h, _ => run P h empty

/-- `Contents h M`: after the calls `h` the tree may hold the entries `M`. `Remove(r, d)` removes one entry with the id `d`, if there is one
with that id that meets `r`, and may also do so otherwise. -/
inductive Contents : List (Op n K D) → Multiset (Rect n K × D) → Prop
  | new : Contents [] 0
  | insert {h M} (r d) : Contents h M → Contents (h ++ [.insert r d]) (M + {(r, d)})
  | removed {h M} (r r' d) : Contents h (M + {(r', d)}) → Contents (h ++ [.remove r d]) M
  | missing {h M} (r d) : Contents h M → (∀ e ∈ M, e.2 = d → ¬ Meets r e.1) → Contents (h ++ [.remove r d]) M
  | removeAll {h M} : Contents h M → Contents (h ++ [.removeAll]) 0

/-- `p` are the ids a callback with state sees when it may be called on `ds` in order and stops at the first answer `false`. -/
def Calls {S : Type} (cb : S → D → S × Bool) (s : S) (ds p : List D) : Prop :=
  p <+: ds ∧ (∀ a x b, p = a ++ x :: b → b ≠ [] → (cb (a.foldl (fun s d => (cb s d).1) s) x).2 = true) ∧
  (p = ds ∨ ∃ a x, p = a ++ [x] ∧ (cb (a.foldl (fun s d => (cb s d).1) s) x).2 = false)

/-- Every node has at most `mx` branches, every node below the root at least `mn`, all leaves are at the same depth, and the box stored
with a child is the smallest one containing the boxes of all entries below it. -/
def Shape (mx mn : Nat) : Nat → Node n K D → List (Rect n K × D) → Prop
  | 0, .leaf bs, L => bs = L ∧ bs.length ≤ mx
  | l + 1, .inner k bs, L => k = l ∧ bs.length ≤ mx ∧ ∃ parts : List (List (Rect n K × D)), parts.flatten = L ∧
      List.Forall₂ (fun b part => Shape mx mn l b.2 part ∧ mn ≤ b.2.count ∧ part ≠ [] ∧
        ∀ x : Rect n K, (∀ i, x.min i ≤ b.1.min i ∧ b.1.max i ≤ x.max i) ↔
          ∀ e ∈ part, ∀ i, x.min i ≤ e.1.min i ∧ e.1.max i ≤ x.max i) bs parts
  | _, _, _ => False

/-! ## The default volume -/

/-- Standard functions of the C library: `sqrt` and `pow(·, n)` with their rounding; monotone and not negative. -/
structure Lib where
  sqrt : ℚ → ℚ
  pow : Nat → ℚ → ℚ
  sqrt_mono : ∀ x y, 0 ≤ x → x ≤ y → sqrt x ≤ sqrt y
  sqrt_nonneg : ∀ x, 0 ≤ x → 0 ≤ sqrt x
  pow_mono : ∀ m x y, 0 ≤ x → x ≤ y → pow m x ≤ pow m y
  pow_nonneg : ∀ m x, 0 ≤ x → 0 ≤ pow m x

/-- `halfExtent` (RTree.h:1199). -/
def halfExtent (F : Fp) (r : Rect n ℚ) (i : Fin n) : ℚ := F.rnd (F.rnd (r.max i - r.min i) * (1 / 2))

/-- `sumOfSquares` (RTree.h:1197-1201). -/
def sumOfSquares (F : Fp) (r : Rect n ℚ) : ℚ :=
  (List.finRange n).foldl (fun s i => F.rnd (s + F.rnd (halfExtent F r i * halfExtent F r i))) 0

/-- `RectSphericalVolume` (RTree.h:1190-1218); `unit` is `m_unitSphereVolume`. -/
def sphereVol (F : Fp) (lib : Lib) (unit : ℚ) (r : Rect n ℚ) : ℚ :=
  let radius := F.rnd (lib.sqrt (sumOfSquares F r))
  if n = 3 then F.rnd (F.rnd (F.rnd (radius * radius) * radius) * unit)
  else if n = 2 then F.rnd (F.rnd (radius * radius) * unit)
  else F.rnd (F.rnd (lib.pow n radius) * unit)

/-- Calls with valid boxes. -/
def OpOk : Op n K D → Prop
  | .insert r _ => r.Valid
  | .remove r _ => r.Valid
  | .removeAll => True

/-- The parameters of a tree of floating-point boxes. -/
def floatParams (n maxN minN : Nat) (F : Fp) (lib : Lib) (unit : ℚ) : Params n ℚ := ⟨maxN, minN, sphereVol F lib unit, F⟩

end TDP.RTree
