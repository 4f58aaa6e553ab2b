import Verif.Quant.Model
import Mathlib.Analysis.Real.Sqrt
import Mathlib.Tactic.Ring
import Mathlib.Tactic.LinearCombination
import Mathlib.Tactic.Positivity
import Mathlib.Tactic.FieldSimp
import Mathlib.Data.List.Rotate
import Mathlib.Algebra.BigOperators.Intervals
/-!
# Model of the convexity test of decimation
(src/PPMC/mymeshCompTests.cpp:64-108, src/PPMC/mymeshUtils.cpp:57-68)

Positions are rational (they are doubles in the code); the square root makes the normal real. Arithmetic is exact: the
rounding of `double`, and of `float f_sqLen`, is not modelled.
-/
namespace TDP.Codec
open TDP.Quant

section Vec
variable {K : Type} [CommRing K]

/-- `CGAL::cross_product`. -/
def cross (a b : Fin 3 → K) : Fin 3 → K := fun i => a (i + 1) * b (i + 2) - a (i + 2) * b (i + 1)

/-- The scalar product of two `Vector`s, `a * b`. -/
def dot (a b : Fin 3 → K) : K := a 0 * b 0 + a 1 * b 1 + a 2 * b 2

/-- `n = n + cross_product(op, op2)` over the polygon (mymeshUtils.cpp:59-66), before it is normalised. -/
def normalSum (p : List (Fin 3 → K)) : Fin 3 → K :=
  (List.range p.length).foldl (fun n i => n + cross (p.getD i 0) (p.getD ((i + 1) % p.length) 0)) 0

end Vec

/-- `computeNormal(polygon)` (mymeshUtils.cpp:57-68). -/
noncomputable def polyNormal (p : List (Fin 3 → ℝ)) : Fin 3 → ℝ :=
  if dot (normalSum p) (normalSum p) = 0 then 0
  else fun c => normalSum p c / Real.sqrt (dot (normalSum p) (normalSum p))

/-- `projPoints[i]` (mymeshCompTests.cpp:73-77). -/
noncomputable def projPoint (n p0 p : Fin 3 → ℝ) : Fin 3 → ℝ := fun c => p c - n c * dot (p - p0) n

/-- `comp` (mymeshCompTests.cpp:84). -/
def compTable : List Nat := [0, 1, 2, 1, 1, 3, 2, 3, 2]

open Classical in
/-- `side` (mymeshCompTests.cpp:101). -/
noncomputable def sideOf (cp : ℝ) : Nat := if |cp| > 1 / 1000000 then (if cp > 0 then 1 else 2) else 0

/-- The loop over `j` for edge `i` (mymeshCompTests.cpp:94-108): the remaining `j`s, and `globalSide`. `false` is
`return false`. -/
def sideLoop (side : Nat → Nat) (i : Nat) : List Nat → Nat → Bool
  | [], _ => true
  | j :: js, g =>
      if j = i ∨ j = i + 1 then sideLoop side i js g
      else
        let g := compTable.getD (g * 3 + side j) 0
        if g = 3 then false else sideLoop side i js g

/-- `isConvex` (mymeshCompTests.cpp:64-108). -/
noncomputable def isConvex (points : List P3) : Bool :=
  let p : List (Fin 3 → ℝ) := points.map (fun q c => ((q c : ℚ) : ℝ))
  let n := polyNormal p
  let s := p.length
  let proj := p.map (projPoint n (p.getD 0 0))
  (List.range s).all fun i =>
    let ev := proj.getD ((i + 1) % s) 0 - proj.getD i 0
    sideLoop (fun j => sideOf (dot (cross ev n) (proj.getD j 0 - proj.getD i 0))) i (List.range s) 0

/-! ### Specification -/

/-- How far point `j` is to one side of the line through points `i` and `i + 1`, seen along the polygon's normal: three times
the signed volume spanned by the edge, the (not normalised) normal, and the vector to the point. -/
def turn (p : List P3) (i j : Nat) : ℚ :=
  dot (cross (p.getD ((i + 1) % p.length) 0 - p.getD i 0) (normalSum p)) (p.getD j 0 - p.getD i 0)

/-- Point `j` lies clearly on the first side of edge `i`: `turn / |normal| > 10⁻⁶`, without the square root. -/
def OnLeft (p : List P3) (i j : Nat) : Prop :=
  0 < turn p i j ∧ 1 / 1000000 ^ 2 * dot (normalSum p) (normalSum p) < turn p i j ^ 2

/-- Point `j` lies clearly on the second side of edge `i`. -/
def OnRight (p : List P3) (i j : Nat) : Prop :=
  turn p i j < 0 ∧ 1 / 1000000 ^ 2 * dot (normalSum p) (normalSum p) < turn p i j ^ 2

instance (p : List P3) (i j : Nat) : Decidable (OnLeft p i j) := inferInstanceAs (Decidable (_ ∧ _))
instance (p : List P3) (i j : Nat) : Decidable (OnRight p i j) := inferInstanceAs (Decidable (_ ∧ _))

/-- No edge has points clearly on both sides. -/
def OneSided (p : List P3) : Prop :=
  ∀ i < p.length, ∀ j < p.length, ∀ k < p.length, ¬ (OnLeft p i j ∧ OnRight p i k)

instance (p : List P3) : Decidable (OneSided p) := inferInstanceAs (Decidable (∀ i < _, ∀ j < _, ∀ k < _, _))

/-! ### The test decides the specification -/

theorem sideLoop_iff (side : Nat → Nat) (hs : ∀ j, side j = 0 ∨ side j = 1 ∨ side j = 2) (i : Nat) (js : List Nat) (g : Nat)
    (hg : g = 0 ∨ g = 1 ∨ g = 2) :
    sideLoop side i js g = true ↔
      ¬ ((g = 1 ∨ ∃ j ∈ js, j ≠ i ∧ j ≠ i + 1 ∧ side j = 1) ∧ (g = 2 ∨ ∃ j ∈ js, j ≠ i ∧ j ≠ i + 1 ∧ side j = 2)) := by
  induction js generalizing g with
  | nil =>
    simp only [sideLoop, List.not_mem_nil, false_and, exists_false, or_false, true_iff]
    omega
  | cons j js ih =>
    rw [sideLoop]
    by_cases hj : j = i ∨ j = i + 1
    · rw [if_pos hj, ih g hg]
      have : ∀ c, (∃ k ∈ j :: js, k ≠ i ∧ k ≠ i + 1 ∧ side k = c) ↔ ∃ k ∈ js, k ≠ i ∧ k ≠ i + 1 ∧ side k = c := by
        intro c
        constructor
        · rintro ⟨k, hk, h1, h2, h3⟩
          rcases List.mem_cons.mp hk with rfl | hk
          · exact absurd hj (by omega)
          · exact ⟨k, hk, h1, h2, h3⟩
        · rintro ⟨k, hk, h⟩
          exact ⟨k, List.mem_cons_of_mem _ hk, h⟩
      rw [this 1, this 2]
    · rw [if_neg hj]
      have : ∀ c, (∃ k ∈ j :: js, k ≠ i ∧ k ≠ i + 1 ∧ side k = c) ↔
          side j = c ∨ ∃ k ∈ js, k ≠ i ∧ k ≠ i + 1 ∧ side k = c := by
        intro c
        constructor
        · rintro ⟨k, hk, h1, h2, h3⟩
          rcases List.mem_cons.mp hk with rfl | hk
          · exact Or.inl h3
          · exact Or.inr ⟨k, hk, h1, h2, h3⟩
        · rintro (h | ⟨k, hk, h⟩)
          · exact ⟨j, List.mem_cons_self, by omega, by omega, h⟩
          · exact ⟨k, List.mem_cons_of_mem _ hk, h⟩
      rw [this 1, this 2]
      rcases hg with rfl | rfl | rfl <;> rcases hs j with h | h | h <;> rw [h] <;> simp [compTable, ih]

section
variable {p : List P3}

/-- Rational points as real ones. -/
abbrev toR (q : P3) : Fin 3 → ℝ := fun c => ((q c : ℚ) : ℝ)

theorem toR_getD (p : List P3) (i : Nat) : (p.map toR).getD i 0 = toR (p.getD i 0) := by
  rw [List.getD_eq_getElem?_getD, List.getD_eq_getElem?_getD, List.getElem?_map]
  cases p[i]? with
  | none => simp; funext c; simp [toR]
  | some q => rfl

theorem toR_cross (a b : P3) : cross (toR a) (toR b) = toR (cross a b) := by
  funext i; simp [cross, toR]

theorem toR_dot (a b : P3) : dot (toR a) (toR b) = ((dot a b : ℚ) : ℝ) := by
  simp [dot, toR]

theorem toR_sub (a b : P3) : toR a - toR b = toR (a - b) := by
  funext i; simp [toR]

theorem toR_add (a b : P3) : toR a + toR b = toR (a + b) := by
  funext i; simp [toR]

theorem toR_normalSum (p : List P3) : normalSum (p.map toR) = toR (normalSum p) := by
  unfold normalSum
  rw [List.length_map]
  have : ∀ (l : List Nat) (n : P3),
      l.foldl (fun n i => n + cross ((p.map toR).getD i 0) ((p.map toR).getD ((i + 1) % p.length) 0)) (toR n) =
      toR (l.foldl (fun n i => n + cross (p.getD i 0) (p.getD ((i + 1) % p.length) 0)) n) := by
    intro l
    induction l with
    | nil => intro n; rfl
    | cons i l ih =>
      intro n
      rw [List.foldl_cons, List.foldl_cons, toR_getD, toR_getD, toR_cross, toR_add, ih]
  have h := this (List.range p.length) 0
  have e0 : toR (0 : P3) = 0 := by funext i; simp [toR]
  rw [e0] at h
  exact h

theorem getD_map_proj (n p0 : Fin 3 → ℝ) (l : List (Fin 3 → ℝ)) {i : Nat} (hi : i < l.length) :
    (l.map (projPoint n p0)).getD i 0 = projPoint n p0 (l.getD i 0) := by
  rw [List.getD_eq_getElem?_getD, List.getD_eq_getElem?_getD, List.getElem?_map, List.getElem?_eq_getElem hi]
  rfl

/-- Projecting on the plane changes nothing for the test. -/
theorem proj_cancel (n p0 a b c : Fin 3 → ℝ) :
    dot (cross (projPoint n p0 b - projPoint n p0 a) n) (projPoint n p0 c - projPoint n p0 a) = dot (cross (b - a) n) (c - a) := by
  simp only [dot, cross, projPoint, Pi.sub_apply]
  simp only [show (0 : Fin 3) + 1 = 1 from rfl, show (0 : Fin 3) + 2 = 2 from rfl, show (1 : Fin 3) + 1 = 2 from rfl,
    show (1 : Fin 3) + 2 = 0 from rfl, show (2 : Fin 3) + 1 = 0 from rfl, show (2 : Fin 3) + 2 = 1 from rfl]
  ring

theorem dot_self_nonneg (a : P3) : 0 ≤ dot a a := by
  unfold dot
  nlinarith [mul_self_nonneg (a 0), mul_self_nonneg (a 1), mul_self_nonneg (a 2)]

theorem dot_self_zero {a : P3} (h : dot a a = 0) : a = 0 := by
  unfold dot at h
  have h0 := mul_self_nonneg (a 0)
  have h1 := mul_self_nonneg (a 1)
  have h2 := mul_self_nonneg (a 2)
  funext i
  have : i = 0 ∨ i = 1 ∨ i = 2 := by omega
  rcases this with rfl | rfl | rfl
  · exact mul_self_eq_zero.mp (by linarith)
  · exact mul_self_eq_zero.mp (by linarith)
  · exact mul_self_eq_zero.mp (by linarith)

/-- The value compared: the turn over the length of the normal. -/
theorem cp_eq (p : List P3) (i j : Nat) :
    dot (cross (toR (p.getD ((i + 1) % p.length) 0) - toR (p.getD i 0)) (polyNormal (p.map toR)))
      (toR (p.getD j 0) - toR (p.getD i 0)) =
    if dot (normalSum p) (normalSum p) = 0 then 0
    else (turn p i j : ℝ) / Real.sqrt (dot (normalSum p) (normalSum p) : ℚ) := by
  unfold polyNormal
  rw [toR_normalSum, toR_dot]
  by_cases h : dot (normalSum p) (normalSum p) = 0
  · rw [if_pos h, if_pos (by exact_mod_cast h)]
    simp [cross, dot]
  · rw [if_neg h, if_neg (by exact_mod_cast h)]
    rw [toR_sub, toR_sub]
    have : (turn p i j : ℝ) = dot (cross (toR (p.getD ((i + 1) % p.length) 0 - p.getD i 0)) (toR (normalSum p)))
        (toR (p.getD j 0 - p.getD i 0)) := by
      rw [toR_cross, toR_dot]; rfl
    rw [this]
    simp only [dot, cross]
    ring

theorem side_iff (p : List P3) (i j : Nat) :
    (sideOf (if dot (normalSum p) (normalSum p) = 0 then 0
      else (turn p i j : ℝ) / Real.sqrt (dot (normalSum p) (normalSum p) : ℚ)) = 1 ↔ OnLeft p i j) ∧
    (sideOf (if dot (normalSum p) (normalSum p) = 0 then 0
      else (turn p i j : ℝ) / Real.sqrt (dot (normalSum p) (normalSum p) : ℚ)) = 2 ↔ OnRight p i j) := by
  by_cases h : dot (normalSum p) (normalSum p) = 0
  · rw [if_pos h]
    have ht : turn p i j = 0 := by
      have := dot_self_zero h
      unfold turn; rw [this]; simp [cross, dot]
    have h0 : sideOf 0 = 0 := by simp [sideOf]
    rw [h0]
    unfold OnLeft OnRight
    rw [ht]
    simp
  · rw [if_neg h]
    have hpos : 0 < dot (normalSum p) (normalSum p) := lt_of_le_of_ne (dot_self_nonneg _) (Ne.symm h)
    obtain ⟨D, hD⟩ : ∃ D, dot (normalSum p) (normalSum p) = D := ⟨_, rfl⟩
    obtain ⟨t, ht⟩ : ∃ t, turn p i j = t := ⟨_, rfl⟩
    unfold OnLeft OnRight
    rw [hD] at hpos ⊢
    rw [ht]
    have hpR : (0 : ℝ) < (D : ℝ) := by exact_mod_cast hpos
    have hs : 0 < Real.sqrt (D : ℝ) := Real.sqrt_pos.mpr hpR
    have hss : Real.sqrt (D : ℝ) ^ 2 = (D : ℝ) := Real.sq_sqrt hpR.le
    have key : |(t : ℝ) / Real.sqrt (D : ℝ)| > 1 / 1000000 ↔ 1 / 1000000 ^ 2 * D < t ^ 2 := by
      rw [abs_div, abs_of_pos hs, gt_iff_lt, lt_div_iff₀ hs]
      have e : (1 / 1000000 ^ 2 * D < t ^ 2) ↔ ((1 / 1000000 * Real.sqrt (D : ℝ)) ^ 2 < |(t : ℝ)| ^ 2) := by
        rw [mul_pow, hss, sq_abs]
        constructor
        · intro h; have : ((1 / 1000000 ^ 2 * D : ℚ) : ℝ) < ((t ^ 2 : ℚ) : ℝ) := by exact_mod_cast h
          push_cast at this
          have e : ((1 : ℝ) / 1000000) ^ 2 = 1 / 1000000 ^ 2 := by norm_num
          rw [e]; exact this
        · intro h
          have e : ((1 : ℝ) / 1000000) ^ 2 = 1 / 1000000 ^ 2 := by norm_num
          rw [e] at h
          have : ((1 / 1000000 ^ 2 * D : ℚ) : ℝ) < ((t ^ 2 : ℚ) : ℝ) := by push_cast; exact h
          exact_mod_cast this
      rw [e, sq_lt_sq₀ (by positivity) (abs_nonneg _)]
    have sgn : (t : ℝ) / Real.sqrt (D : ℝ) > 0 ↔ 0 < t := by
      rw [gt_iff_lt, lt_div_iff₀ hs, zero_mul]
      exact_mod_cast Iff.rfl
    unfold sideOf
    by_cases h1 : |(t : ℝ) / Real.sqrt (D : ℝ)| > 1 / 1000000
    · rw [if_pos h1]
      have h1' := key.mp h1
      by_cases h2 : (t : ℝ) / Real.sqrt (D : ℝ) > 0
      · rw [if_pos h2]
        have := sgn.mp h2
        refine ⟨⟨fun _ => ⟨this, h1'⟩, fun _ => rfl⟩, ⟨fun h => absurd h (by decide), fun h => absurd h.1 (by linarith)⟩⟩
      · rw [if_neg h2]
        have h2' : ¬ 0 < t := fun h => h2 (sgn.mpr h)
        have h3 : t ≠ 0 := by
          rintro rfl
          rw [zero_pow two_ne_zero] at h1'
          have : 0 ≤ 1 / 1000000 ^ 2 * D := by positivity
          linarith
        have h4 : t < 0 := lt_of_le_of_ne (not_lt.mp h2') h3
        refine ⟨⟨fun h => absurd h (by decide), fun h => absurd h.1 h2'⟩, ⟨fun _ => ⟨h4, h1'⟩, fun _ => rfl⟩⟩
    · rw [if_neg h1]
      have h1' : ¬ 1 / 1000000 ^ 2 * D < t ^ 2 := fun h => h1 (key.mpr h)
      refine ⟨⟨fun h => absurd h (by decide), fun h => absurd h.2 h1'⟩, ⟨fun h => absurd h (by decide), fun h => absurd h.2 h1'⟩⟩

theorem turn_self (p : List P3) (i : Nat) : turn p i i = 0 := by
  simp [turn, dot]

theorem turn_next (p : List P3) (i : Nat) : turn p i ((i + 1) % p.length) = 0 := by
  unfold turn dot cross
  simp only [show (0 : Fin 3) + 1 = 1 from rfl, show (0 : Fin 3) + 2 = 2 from rfl, show (1 : Fin 3) + 1 = 2 from rfl,
    show (1 : Fin 3) + 2 = 0 from rfl, show (2 : Fin 3) + 1 = 0 from rfl, show (2 : Fin 3) + 2 = 1 from rfl]
  ring

/-- The test says yes exactly when no edge has points clearly on both sides. -/
theorem isConvex_iff (p : List P3) : isConvex p = true ↔ OneSided p := by
  have hside : ∀ x : ℝ, sideOf x = 0 ∨ sideOf x = 1 ∨ sideOf x = 2 := by
    intro x; unfold sideOf; split
    · split
      · exact Or.inr (Or.inl rfl)
      · exact Or.inr (Or.inr rfl)
    · exact Or.inl rfl
  have lenm : (p.map toR).length = p.length := List.length_map _
  unfold isConvex OneSided
  change (List.range (p.map toR).length).all _ = true ↔ _
  rw [List.all_eq_true]
  refine forall_congr' (fun i => ?_)
  rw [List.mem_range, lenm]
  refine forall_congr' (fun hi => ?_)
  have hn : (i + 1) % p.length < p.length := Nat.mod_lt _ (by omega)
  have val : ∀ j, j < p.length →
      dot (cross (((p.map toR).map (projPoint (polyNormal (p.map toR)) ((p.map toR).getD 0 0))).getD ((i + 1) % p.length) 0 -
        ((p.map toR).map (projPoint (polyNormal (p.map toR)) ((p.map toR).getD 0 0))).getD i 0) (polyNormal (p.map toR)))
        (((p.map toR).map (projPoint (polyNormal (p.map toR)) ((p.map toR).getD 0 0))).getD j 0 -
          ((p.map toR).map (projPoint (polyNormal (p.map toR)) ((p.map toR).getD 0 0))).getD i 0) =
      if dot (normalSum p) (normalSum p) = 0 then 0
        else (turn p i j : ℝ) / Real.sqrt (dot (normalSum p) (normalSum p) : ℚ) := by
    intro j hj
    rw [getD_map_proj _ _ _ (by rw [lenm]; exact hn), getD_map_proj _ _ _ (by rw [lenm]; exact hi),
      getD_map_proj _ _ _ (by rw [lenm]; exact hj), proj_cancel, toR_getD, toR_getD, toR_getD]
    exact cp_eq p i j
  change sideLoop (fun j => sideOf (dot (cross (((p.map toR).map (projPoint (polyNormal (p.map toR)) ((p.map toR).getD 0 0))).getD ((i + 1) % p.length) 0 -
        ((p.map toR).map (projPoint (polyNormal (p.map toR)) ((p.map toR).getD 0 0))).getD i 0) (polyNormal (p.map toR)))
        (((p.map toR).map (projPoint (polyNormal (p.map toR)) ((p.map toR).getD 0 0))).getD j 0 -
          ((p.map toR).map (projPoint (polyNormal (p.map toR)) ((p.map toR).getD 0 0))).getD i 0))) i (List.range p.length) 0 = true ↔ _
  rw [sideLoop_iff _ (fun j => hside _) i _ 0 (Or.inl rfl)]
  have nz : ∀ j, j < p.length → (j = i ∨ j = i + 1) → turn p i j = 0 := by
    intro j hj h
    rcases h with rfl | rfl
    · exact turn_self _ _
    · have := turn_next p i
      rwa [Nat.mod_eq_of_lt hj] at this
  have L : (0 = 1 ∨ ∃ j ∈ List.range p.length, j ≠ i ∧ j ≠ i + 1 ∧ sideOf (dot (cross (((p.map toR).map (projPoint (polyNormal (p.map toR)) ((p.map toR).getD 0 0))).getD ((i + 1) % p.length) 0 -
        ((p.map toR).map (projPoint (polyNormal (p.map toR)) ((p.map toR).getD 0 0))).getD i 0) (polyNormal (p.map toR)))
        (((p.map toR).map (projPoint (polyNormal (p.map toR)) ((p.map toR).getD 0 0))).getD j 0 -
          ((p.map toR).map (projPoint (polyNormal (p.map toR)) ((p.map toR).getD 0 0))).getD i 0)) = 1) ↔
      ∃ j < p.length, OnLeft p i j := by
    constructor
    · rintro (h | ⟨j, hj, _, _, h⟩)
      · exact absurd h (by decide)
      · have hj' := List.mem_range.mp hj
        rw [val j hj'] at h
        exact ⟨j, hj', (side_iff p i j).1.mp h⟩
    · rintro ⟨j, hj, h⟩
      refine Or.inr ⟨j, List.mem_range.mpr hj, ?_, ?_, ?_⟩
      · rintro e; have := nz j hj (Or.inl e); unfold OnLeft at h; rw [this] at h; exact absurd h.1 (by decide)
      · rintro e; have := nz j hj (Or.inr e); unfold OnLeft at h; rw [this] at h; exact absurd h.1 (by decide)
      · rw [val j hj]; exact (side_iff p i j).1.mpr h
  have R : (0 = 2 ∨ ∃ j ∈ List.range p.length, j ≠ i ∧ j ≠ i + 1 ∧ sideOf (dot (cross (((p.map toR).map (projPoint (polyNormal (p.map toR)) ((p.map toR).getD 0 0))).getD ((i + 1) % p.length) 0 -
        ((p.map toR).map (projPoint (polyNormal (p.map toR)) ((p.map toR).getD 0 0))).getD i 0) (polyNormal (p.map toR)))
        (((p.map toR).map (projPoint (polyNormal (p.map toR)) ((p.map toR).getD 0 0))).getD j 0 -
          ((p.map toR).map (projPoint (polyNormal (p.map toR)) ((p.map toR).getD 0 0))).getD i 0)) = 2) ↔
      ∃ j < p.length, OnRight p i j := by
    constructor
    · rintro (h | ⟨j, hj, _, _, h⟩)
      · exact absurd h (by decide)
      · have hj' := List.mem_range.mp hj
        rw [val j hj'] at h
        exact ⟨j, hj', (side_iff p i j).2.mp h⟩
    · rintro ⟨j, hj, h⟩
      refine Or.inr ⟨j, List.mem_range.mpr hj, ?_, ?_, ?_⟩
      · rintro e; have := nz j hj (Or.inl e); unfold OnRight at h; rw [this] at h; exact absurd h.1 (by decide)
      · rintro e; have := nz j hj (Or.inr e); unfold OnRight at h; rw [this] at h; exact absurd h.1 (by decide)
      · rw [val j hj]; exact (side_iff p i j).2.mpr h
  rw [L, R]
  constructor
  · rintro h j hj k hk ⟨h1, h2⟩
    exact h ⟨⟨j, hj, h1⟩, ⟨k, hk, h2⟩⟩
  · rintro h ⟨⟨j, hj, h1⟩, ⟨k, hk, h2⟩⟩
    exact h j hj k hk ⟨h1, h2⟩

end

/-! ### The starting point does not matter -/

theorem normalSum_eq (p : List P3) :
    normalSum p = ∑ i ∈ Finset.range p.length, cross (p.getD i 0) (p.getD ((i + 1) % p.length) 0) := by
  unfold normalSum
  have : ∀ (n : Nat) (a : P3) (f : Nat → P3), (List.range n).foldl (fun n i => n + f i) a = a + ∑ i ∈ Finset.range n, f i := by
    intro n a f
    induction n with
    | zero => simp
    | succ n ih => rw [List.range_succ, List.foldl_append, ih, Finset.sum_range_succ]; simp [add_assoc]
  rw [this, zero_add]

theorem rotate_getD (p : List P3) {i : Nat} (hi : i < p.length) : (p.rotate 1).getD i 0 = p.getD ((i + 1) % p.length) 0 := by
  rw [List.getD_eq_getElem?_getD, List.getD_eq_getElem?_getD, List.getElem?_eq_getElem (by rw [List.length_rotate]; exact hi),
    List.getElem_rotate, List.getElem?_eq_getElem (Nat.mod_lt _ (by omega))]

theorem normalSum_rotate (p : List P3) : normalSum (p.rotate 1) = normalSum p := by
  rw [normalSum_eq, normalSum_eq, List.length_rotate]
  obtain ⟨s, hs⟩ : ∃ s, p.length = s := ⟨_, rfl⟩
  cases s with
  | zero => rw [hs]; rfl
  | succ n =>
    have e : ∀ i ∈ Finset.range p.length, cross ((p.rotate 1).getD i 0) ((p.rotate 1).getD ((i + 1) % p.length) 0) =
        cross (p.getD ((i + 1) % p.length) 0) (p.getD (((i + 1) % p.length + 1) % p.length) 0) := by
      intro i hi
      rw [rotate_getD p (Finset.mem_range.mp hi), rotate_getD p (Nat.mod_lt _ (by omega))]
    rw [Finset.sum_congr rfl e, hs, Finset.sum_range_succ, Finset.sum_range_succ', Nat.mod_self]
    congr 1
    refine Finset.sum_congr rfl (fun i hi => ?_)
    have := Finset.mem_range.mp hi
    rw [Nat.mod_eq_of_lt (show i + 1 < n + 1 by omega)]

theorem turn_rotate (p : List P3) {i j : Nat} (hi : i < p.length) (hj : j < p.length) :
    turn (p.rotate 1) i j = turn p ((i + 1) % p.length) ((j + 1) % p.length) := by
  unfold turn
  rw [normalSum_rotate, List.length_rotate, rotate_getD p hi, rotate_getD p hj, rotate_getD p (Nat.mod_lt _ (by omega))]

theorem OneSided.rotate1 {p : List P3} (h : OneSided p) : OneSided (p.rotate 1) := by
  intro i hi j hj k hk hh
  rw [List.length_rotate] at hi hj hk
  unfold OnLeft OnRight at hh
  rw [turn_rotate p hi hj, turn_rotate p hi hk, normalSum_rotate] at hh
  exact h _ (Nat.mod_lt _ (by omega)) _ (Nat.mod_lt _ (by omega)) _ (Nat.mod_lt _ (by omega)) hh

theorem OneSided.rotated {p q : List P3} (h : OneSided p) (hr : p ~r q) : OneSided q := by
  obtain ⟨n, rfl⟩ := hr
  induction n with
  | zero => rwa [List.rotate_zero]
  | succ n ih => rw [← List.rotate_rotate]; exact ih.rotate1

theorem isConvex_rotated {p q : List P3} (hr : p ~r q) : isConvex p = isConvex q := by
  rw [Bool.eq_iff_iff, isConvex_iff, isConvex_iff]
  exact ⟨fun h => h.rotated hr, fun h => h.rotated hr.symm⟩

/-! ### Two ways in which the test is not a convexity test -/

/-- A polygon whose area vector is zero always passes. -/
theorem oneSided_of_zero {p : List P3} (h : normalSum p = 0) : OneSided p := by
  intro i _ j _ k _ hh
  have : turn p i j = 0 := by unfold turn; rw [h]; simp [cross, dot]
  have h1 := hh.1.1
  rw [this] at h1
  exact absurd h1 (by decide)

theorem turn_sq_le (p : List P3) (i j : Nat) : turn p i j ^ 2 ≤
    dot (normalSum p) (normalSum p) * (dot (p.getD ((i + 1) % p.length) 0 - p.getD i 0) (p.getD ((i + 1) % p.length) 0 - p.getD i 0) *
      dot (p.getD j 0 - p.getD i 0) (p.getD j 0 - p.getD i 0)) := by
  unfold turn
  obtain ⟨e, he⟩ : ∃ e, p.getD ((i + 1) % p.length) 0 - p.getD i 0 = e := ⟨_, rfl⟩
  obtain ⟨d, hd⟩ : ∃ d, p.getD j 0 - p.getD i 0 = d := ⟨_, rfl⟩
  obtain ⟨n, hn⟩ : ∃ n, normalSum p = n := ⟨_, rfl⟩
  rw [he, hd, hn]
  have e1 : dot (cross e n) d = dot n (cross d e) := by
    simp only [dot, cross, show (0 : Fin 3) + 1 = 1 from rfl, show (0 : Fin 3) + 2 = 2 from rfl, show (1 : Fin 3) + 1 = 2 from rfl,
      show (1 : Fin 3) + 2 = 0 from rfl, show (2 : Fin 3) + 1 = 0 from rfl, show (2 : Fin 3) + 2 = 1 from rfl]
    ring
  have lag : ∀ a b : P3, dot a b ^ 2 + dot (cross a b) (cross a b) = dot a a * dot b b := by
    intro a b
    simp only [dot, cross, show (0 : Fin 3) + 1 = 1 from rfl, show (0 : Fin 3) + 2 = 2 from rfl, show (1 : Fin 3) + 1 = 2 from rfl,
      show (1 : Fin 3) + 2 = 0 from rfl, show (2 : Fin 3) + 1 = 0 from rfl, show (2 : Fin 3) + 2 = 1 from rfl]
    ring
  have h1 := lag n (cross d e)
  have h2 := lag d e
  have h3 := dot_self_nonneg (cross n (cross d e))
  have h4 : dot (cross d e) (cross d e) ≤ dot e e * dot d d := by nlinarith [sq_nonneg (dot d e)]
  rw [e1]
  have h5 := mul_le_mul_of_nonneg_left h4 (dot_self_nonneg n)
  linarith

/-- A polygon whose points are close to each other always passes: the tolerance is not relative to its size. -/
theorem oneSided_of_small {p : List P3}
    (h : ∀ i < p.length, ∀ j < p.length, ∀ c, |p.getD i 0 c - p.getD j 0 c| ≤ 1 / 2000) : OneSided p := by
  have sm : ∀ i < p.length, ∀ j < p.length, dot (p.getD i 0 - p.getD j 0) (p.getD i 0 - p.getD j 0) ≤ 1 / 1000000 := by
    intro i hi j hj
    have hc : ∀ c, (p.getD i 0 - p.getD j 0) c * (p.getD i 0 - p.getD j 0) c ≤ 1 / 4000000 := by
      intro c
      have := abs_le.mp (h i hi j hj c)
      rw [Pi.sub_apply]
      nlinarith
    have h0 := hc 0
    have h1 := hc 1
    have h2 := hc 2
    unfold dot
    linarith
  intro i hi j hj k _ hh
  have h1 := hh.1.2
  have h2 := turn_sq_le p i j
  have a := sm _ (Nat.mod_lt (i + 1) (show 0 < p.length by omega)) i hi
  have b := sm j hj i hi
  have c := mul_le_mul a b (dot_self_nonneg _) (by norm_num)
  have d := mul_le_mul_of_nonneg_left c (dot_self_nonneg (normalSum p))
  have e : (1 : ℚ) / 1000000 * (1 / 1000000) = 1 / 1000000 ^ 2 := by norm_num
  rw [e] at d
  linarith

end TDP.Codec
