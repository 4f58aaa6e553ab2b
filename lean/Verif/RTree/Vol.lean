import Verif.RTree.Spec
import Verif.RTree.Split
import Mathlib.Tactic.Positivity
/-! The default volume does what splitting needs for boxes that are not inside out. -/
namespace TDP.RTree
variable {n : Nat}

theorem half_mono (F : Fp) {a b : Rect n ℚ} (ha : a.Valid) (h : a.Le b) (i : Fin n) : 0 ≤ halfExtent F a i ∧ halfExtent F a i ≤ halfExtent F b i := by
  unfold halfExtent
  have h1 : 0 ≤ a.max i - a.min i := sub_nonneg.2 (ha i)
  have h2 : a.max i - a.min i ≤ b.max i - b.min i := by have := h i; linarith [this.1, this.2]
  refine ⟨F.nonneg (mul_nonneg (F.nonneg h1) (by norm_num)), F.mono ?_⟩
  have := F.mono h2
  linarith

theorem sum_mono (F : Fp) {a b : Rect n ℚ} (ha : a.Valid) (h : a.Le b) : 0 ≤ sumOfSquares F a ∧ sumOfSquares F a ≤ sumOfSquares F b := by
  unfold sumOfSquares
  suffices H : ∀ (l : List (Fin n)) (x y : ℚ), 0 ≤ x → x ≤ y →
      0 ≤ l.foldl (fun s i => F.rnd (s + F.rnd (halfExtent F a i * halfExtent F a i))) x ∧
      l.foldl (fun s i => F.rnd (s + F.rnd (halfExtent F a i * halfExtent F a i))) x ≤
      l.foldl (fun s i => F.rnd (s + F.rnd (halfExtent F b i * halfExtent F b i))) y by
    exact H _ 0 0 le_rfl le_rfl
  intro l
  induction l with
  | nil => intro x y hx hxy; exact ⟨hx, hxy⟩
  | cons i l ih =>
    intro x y hx hxy
    obtain ⟨h1, h2⟩ := half_mono F ha h i
    refine ih _ _ (F.nonneg (add_nonneg hx (F.nonneg (mul_nonneg h1 h1)))) (F.mono (add_le_add hxy (F.mono ?_)))
    exact mul_le_mul h2 h2 h1 (le_trans h1 h2)

theorem sphere_mono (F : Fp) (lib : Lib) {unit : ℚ} (hu : 0 ≤ unit) {a b : Rect n ℚ} (ha : a.Valid) (h : a.Le b) :
    sphereVol F lib unit a ≤ sphereVol F lib unit b := by
  obtain ⟨s1, s2⟩ := sum_mono F ha h
  have r1 : 0 ≤ F.rnd (lib.sqrt (sumOfSquares F a)) := F.nonneg (lib.sqrt_nonneg _ s1)
  have r2 : F.rnd (lib.sqrt (sumOfSquares F a)) ≤ F.rnd (lib.sqrt (sumOfSquares F b)) := F.mono (lib.sqrt_mono _ _ s1 s2)
  unfold sphereVol
  obtain ⟨x, hx⟩ : ∃ x, F.rnd (lib.sqrt (sumOfSquares F a)) = x := ⟨_, rfl⟩
  obtain ⟨y, hy⟩ : ∃ y, F.rnd (lib.sqrt (sumOfSquares F b)) = y := ⟨_, rfl⟩
  rw [hx, hy] at r2
  rw [hx] at r1
  simp only [hx, hy]
  have sq : F.rnd (x * x) ≤ F.rnd (y * y) := F.mono (mul_le_mul r2 r2 r1 (le_trans r1 r2))
  have sq0 : 0 ≤ F.rnd (x * x) := F.nonneg (mul_nonneg r1 r1)
  by_cases h3 : n = 3
  · simp only [if_pos h3]
    refine F.mono (mul_le_mul_of_nonneg_right (F.mono ?_) hu)
    exact mul_le_mul sq r2 r1 (le_trans sq0 sq)
  · simp only [if_neg h3]
    by_cases h2 : n = 2
    · simp only [if_pos h2]
      exact F.mono (mul_le_mul_of_nonneg_right sq hu)
    · simp only [if_neg h2]
      exact F.mono (mul_le_mul_of_nonneg_right (F.mono (lib.pow_mono _ _ _ r1 r2)) hu)

theorem sphere_rep (F : Fp) (lib : Lib) (unit : ℚ) (a : Rect n ℚ) : F.rnd (sphereVol F lib unit a) = sphereVol F lib unit a := by
  unfold sphereVol
  by_cases h3 : n = 3
  · simp only [if_pos h3]; exact F.idem _
  · simp only [if_neg h3]
    by_cases h2 : n = 2
    · simp only [if_pos h2]; exact F.idem _
    · simp only [if_neg h2]; exact F.idem _

theorem sphere_ok {maxN minN : Nat} {F : Fp} {lib : Lib} {unit : ℚ} (hu : 0 ≤ unit) :
    VolOk (floatParams n maxN minN F lib unit) Rect.Valid where
  comb := fun a _ ha _ i => le_trans (min_le_left _ _) (le_trans (ha i) (le_max_left _ _))
  mono := fun _ _ ha _ h => sphere_mono F lib hu ha h
  rep := fun a _ => sphere_rep F lib unit a

end TDP.RTree
