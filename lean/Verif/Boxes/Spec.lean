import Verif.Boxes.Model
/-! Geometric vocabulary used by the statements about boxes, independent of the code. -/
namespace TDP.Boxes

variable {α : Type} [LinearOrder α]

/-- `p` lies in the closed box. -/
def Box.Mem (b : Box α) (p : Pt α) : Prop := ∀ i, b.min i ≤ p i ∧ p i ≤ b.max i

/-- The box `c` lies inside `b`, coordinate by coordinate. -/
def Box.Le (c b : Box α) : Prop := ∀ i, b.min i ≤ c.min i ∧ c.max i ≤ b.max i

/-- A box with `min ≤ max` on every axis. -/
def Box.Valid (b : Box α) : Prop := ∀ i, b.min i ≤ b.max i

/-- A box of positive extent on every axis. -/
def Box.Solid (b : Box α) : Prop := ∀ i, b.min i < b.max i

/-- `u` lies in `b`. -/
def Upd.In (u : Upd α) (b : Box α) : Prop :=
  match u with
  | .pt p => b.Mem p
  | .box c => c.Le b

/-- Exact squared Euclidean distance. -/
def dist2 (p q : Pt ℚ) : ℚ := (p 0 - q 0) ^ 2 + (p 1 - q 1) ^ 2 + (p 2 - q 2) ^ 2

/-- An object (a set of points) with bounding box `b`: inside it and touching all six sides. -/
structure BoundedBy (O : Pt ℚ → Prop) (b : Box ℚ) : Prop where
  inside : ∀ p, O p → b.Mem p
  touchMin : ∀ i, ∃ p, O p ∧ p i = b.min i
  touchMax : ∀ i, ∃ p, O p ∧ p i = b.max i

end TDP.Boxes
