import Mathlib.Data.Rat.Floor
import Mathlib.Order.Monotone.Basic
/-!
# Abstract floating-point rounding

A rounding function applied after every elementary operation. IEEE round-to-nearest-even `float`
arithmetic satisfies these laws as long as nothing overflows or is NaN (trusted). `Fp.exact` is the
instance without rounding.
-/
namespace TDP

structure Fp where
  /-- the representable number an exact result is rounded to -/
  rnd : ℚ → ℚ
  mono : Monotone rnd
  neg : ∀ x, rnd (-x) = -rnd x
  idem : ∀ x, rnd (rnd x) = rnd x
  /-- numbers with at most 24 significant bits and a moderate exponent are representable -/
  dyad : ∀ (n : ℤ) (k : ℕ), |n| ≤ 16777216 → k ≤ 100 → rnd (n / 2 ^ k) = n / 2 ^ k

def Fp.exact : Fp where
  rnd := id
  mono := fun _ _ h => h
  neg := fun _ => rfl
  idem := fun _ => rfl
  dyad := fun _ _ _ _ => rfl

/-- Integers up to 2^24 are representable. -/
theorem Fp.int (F : Fp) (n : ℤ) (h : |n| ≤ 16777216) : F.rnd n = n := by
  have := F.dyad n 0 h (by omega)
  simpa using this

theorem Fp.zero (F : Fp) : F.rnd 0 = 0 := by
  have := F.int 0 (by decide)
  simpa using this

theorem Fp.one (F : Fp) : F.rnd 1 = 1 := by
  have := F.int 1 (by decide)
  simpa using this

theorem Fp.nonneg (F : Fp) {x : ℚ} (h : 0 ≤ x) : 0 ≤ F.rnd x := by
  have := F.mono h
  rwa [F.zero] at this

theorem Fp.nonpos (F : Fp) {x : ℚ} (h : x ≤ 0) : F.rnd x ≤ 0 := by
  have := F.mono h
  rwa [F.zero] at this

end TDP
