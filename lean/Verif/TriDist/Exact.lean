import Verif.TriDist.Descent
import Mathlib.Tactic.Positivity
/-!
# C100: the distance of two triangles
-/
set_option linter.unusedSectionVars false
namespace TDP.TriDist
open TDP.Boxes

variable {K : Type} [Field K] [LinearOrder K] [IsStrictOrderedRing K]

/-! ## The points found on two segments -/

/-- The parameters computed by `SegPoints`. -/
def lineT (P A Q B : Pt K) : K :=
  if dot A A * dot B B - dot A B * dot A B = 0 then 0
  else (dot A (Q - P) * dot B B - dot B (Q - P) * dot A B) / (dot A A * dot B B - dot A B * dot A B)
/-- The parameters computed by `SegPoints`. -/
def lineU (P A Q B : Pt K) : K := if dot B B = 0 then 0 else (lineT P A Q B * dot A B - dot B (Q - P)) / dot B B
/-- The parameter of the point of the first line nearest to `Y`. -/
def backT (P A Y : Pt K) : K := if dot A A = 0 then 0 else dot A (Y - P) / dot A A

/-- The nine cases of `SegPoints`. -/
theorem seg_cases (P A Q B : Pt K) (C : SegPts K → Prop)
    (h1 : lineU P A Q B ≤ 0 → backT P A Q ≤ 0 → C ⟨Q - P, P, Q⟩)
    (h2 : lineU P A Q B ≤ 0 → 0 < backT P A Q → 1 ≤ backT P A Q → C ⟨Q - (P + A), P + A, Q⟩)
    (h3 : lineU P A Q B ≤ 0 → 0 < backT P A Q → backT P A Q < 1 → C ⟨cross A (cross (Q - P) A), P + backT P A Q • A, Q⟩)
    (h4 : 0 < lineU P A Q B → 1 ≤ lineU P A Q B → backT P A (Q + B) ≤ 0 → C ⟨Q + B - P, P, Q + B⟩)
    (h5 : 0 < lineU P A Q B → 1 ≤ lineU P A Q B → 0 < backT P A (Q + B) → 1 ≤ backT P A (Q + B) → C ⟨Q + B - (P + A), P + A, Q + B⟩)
    (h6 : 0 < lineU P A Q B → 1 ≤ lineU P A Q B → 0 < backT P A (Q + B) → backT P A (Q + B) < 1 →
      C ⟨cross A (cross (Q + B - P) A), P + backT P A (Q + B) • A, Q + B⟩)
    (h7 : 0 < lineU P A Q B → lineU P A Q B < 1 → lineT P A Q B ≤ 0 → C ⟨cross B (cross (Q - P) B), P, Q + lineU P A Q B • B⟩)
    (h8 : 0 < lineU P A Q B → lineU P A Q B < 1 → 0 < lineT P A Q B → 1 ≤ lineT P A Q B →
      C ⟨cross B (cross (Q - (P + A)) B), P + A, Q + lineU P A Q B • B⟩)
    (h9 : 0 < lineU P A Q B → lineU P A Q B < 1 → 0 < lineT P A Q B → lineT P A Q B < 1 →
      C ⟨if dot (cross A B) (Q - P) < 0 then (-1 : K) • cross A B else cross A B, P + lineT P A Q B • A, Q + lineU P A Q B • B⟩) :
    C (segPoints P A Q B) := by
  have e : dot A (Q + B - P) = dot A B + dot A (Q - P) := by
    simp only [dot, Pi.add_apply, Pi.sub_apply]; ring
  have hb : backT P A (Q + B) = if dot A A = 0 then 0 else (dot A B + dot A (Q - P)) / dot A A := by unfold backT; rw [e]
  have eq : segPoints P A Q B =
    if lineU P A Q B ≤ 0 then
      if backT P A Q ≤ 0 then ⟨Q - P, P, Q⟩
      else if backT P A Q ≥ 1 then ⟨Q - (P + A), P + A, Q⟩
      else ⟨cross A (cross (Q - P) A), P + backT P A Q • A, Q⟩
    else if lineU P A Q B ≥ 1 then
      if backT P A (Q + B) ≤ 0 then ⟨Q + B - P, P, Q + B⟩
      else if backT P A (Q + B) ≥ 1 then ⟨Q + B - (P + A), P + A, Q + B⟩
      else ⟨cross A (cross (Q + B - P) A), P + backT P A (Q + B) • A, Q + B⟩
    else
      if lineT P A Q B ≤ 0 then ⟨cross B (cross (Q - P) B), P, Q + lineU P A Q B • B⟩
      else if lineT P A Q B ≥ 1 then ⟨cross B (cross (Q - (P + A)) B), P + A, Q + lineU P A Q B • B⟩
      else ⟨if dot (cross A B) (Q - P) < 0 then (-1 : K) • cross A B else cross A B, P + lineT P A Q B • A, Q + lineU P A Q B • B⟩ := by
    rw [hb]; rfl
  rw [eq]
  by_cases a : lineU P A Q B ≤ 0
  · rw [if_pos a]
    by_cases b : backT P A Q ≤ 0
    · rw [if_pos b]; exact h1 a b
    · rw [if_neg b]
      by_cases c : backT P A Q ≥ 1
      · rw [if_pos c]; exact h2 a (not_le.1 b) c
      · rw [if_neg c]; exact h3 a (not_le.1 b) (not_le.1 c)
  · rw [if_neg a]
    have a := not_le.1 a
    by_cases a' : lineU P A Q B ≥ 1
    · rw [if_pos a']
      by_cases b : backT P A (Q + B) ≤ 0
      · rw [if_pos b]; exact h4 a a' b
      · rw [if_neg b]
        by_cases c : backT P A (Q + B) ≥ 1
        · rw [if_pos c]; exact h5 a a' (not_le.1 b) c
        · rw [if_neg c]; exact h6 a a' (not_le.1 b) (not_le.1 c)
    · rw [if_neg a']
      have a' := not_le.1 a'
      by_cases b : lineT P A Q B ≤ 0
      · rw [if_pos b]; exact h7 a a' b
      · rw [if_neg b]
        by_cases c : lineT P A Q B ≥ 1
        · rw [if_pos c]; exact h8 a a' (not_le.1 b) c
        · rw [if_neg c]; exact h9 a a' (not_le.1 b) (not_le.1 c)

/-- The two points lie on the segments. -/
theorem seg_on (P A Q B : Pt K) :
    (∃ s : K, 0 ≤ s ∧ s ≤ 1 ∧ (segPoints P A Q B).x = P + s • A) ∧ (∃ v : K, 0 ≤ v ∧ v ≤ 1 ∧ (segPoints P A Q B).y = Q + v • B) := by
  have z : ∀ a b : Pt K, ∃ s : K, 0 ≤ s ∧ s ≤ 1 ∧ a = a + s • b := fun a b => ⟨0, le_refl _, zero_le_one, by rw [zero_smul, add_zero]⟩
  have o : ∀ a b : Pt K, ∃ s : K, 0 ≤ s ∧ s ≤ 1 ∧ a + b = a + s • b := fun a b => ⟨1, zero_le_one, le_refl _, by rw [one_smul]⟩
  have m : ∀ (a b : Pt K) (s : K), 0 < s → s < 1 → ∃ s' : K, 0 ≤ s' ∧ s' ≤ 1 ∧ a + s • b = a + s' • b :=
    fun a b s h0 h1 => ⟨s, le_of_lt h0, le_of_lt h1, rfl⟩
  refine seg_cases P A Q B (fun r => (∃ s : K, 0 ≤ s ∧ s ≤ 1 ∧ r.x = P + s • A) ∧ (∃ v : K, 0 ≤ v ∧ v ≤ 1 ∧ r.y = Q + v • B))
    ?_ ?_ ?_ ?_ ?_ ?_ ?_ ?_ ?_
  · exact fun _ _ => ⟨z _ _, z _ _⟩
  · exact fun _ _ _ => ⟨o _ _, z _ _⟩
  · exact fun _ h h' => ⟨m _ _ _ h h', z _ _⟩
  · exact fun _ _ _ => ⟨z _ _, o _ _⟩
  · exact fun _ _ _ _ => ⟨o _ _, o _ _⟩
  · exact fun _ _ h h' => ⟨m _ _ _ h h', o _ _⟩
  · exact fun h h' _ => ⟨z _ _, m _ _ _ h h'⟩
  · exact fun h h' _ _ => ⟨o _ _, m _ _ _ h h'⟩
  · exact fun h h' g g' => ⟨m _ _ _ g g', m _ _ _ h h'⟩

/-- A point strictly inside a segment and nearest to `x` there: the connection is orthogonal. -/
theorem inner_orth {x Q B : Pt K} {u : K} (h0 : 0 < u) (h1 : u < 1)
    (hY : ∀ v : K, 0 ≤ v → v ≤ 1 → d2 x (Q + u • B) ≤ d2 x (Q + v • B)) : dot B (Q + u • B - x) = 0 := by
  have a := variation (x := Q + u • B) (y := x) (z := Q) (by
    intro r r0 r1
    have := hY (u - r * u) (by nlinarith) (by nlinarith)
    rw [d2_comm (Q + u • B) x, d2_comm _ x]
    convert this using 2
    apply vec_ext <;> simp <;> ring)
  have b := variation (x := Q + u • B) (y := x) (z := Q + B) (by
    intro r r0 r1
    have := hY (u + r * (1 - u)) (by nlinarith) (by nlinarith)
    rw [d2_comm (Q + u • B) x, d2_comm _ x]
    convert this using 2
    apply vec_ext <;> simp <;> ring)
  have ea : dot (Q - (Q + u • B)) (x - (Q + u • B)) = u * dot B (Q + u • B - x) := by
    simp only [dot, Pi.add_apply, Pi.sub_apply, Pi.smul_apply, smul_eq_mul]; ring
  have eb : dot (Q + B - (Q + u • B)) (x - (Q + u • B)) = -(1 - u) * dot B (Q + u • B - x) := by
    simp only [dot, Pi.add_apply, Pi.sub_apply, Pi.smul_apply, smul_eq_mul]; ring
  rw [ea] at a
  rw [eb] at b
  generalize dot B (Q + u • B - x) = d at *
  nlinarith

/-- A vector orthogonal to `A` and `B` is a multiple of `A × B`. -/
theorem orth_cross {A B v : Pt K} (hA : dot A v = 0) (hB : dot B v = 0) :
    dot (cross A B) (cross A B) • v = dot (cross A B) v • cross A B := by
  have hz : cross v (cross A B) = 0 := by
    have : cross v (cross A B) = dot B v • A - dot A v • B := by
      apply vec_ext <;> simp [dot] <;> ring
    rw [this, hA, hB]; simp
  have ht := triple (cross A B) v
  rw [hz] at ht
  have hz2 : cross (cross A B) (0 : Pt K) = 0 := by apply vec_ext <;> simp
  rw [hz2] at ht
  exact sub_eq_zero.1 ht.symm

/-- If `Y` is nearest to `X`, the stored vector points from `X` to `Y`. -/
theorem seg_vec (P A Q B : Pt K)
    (hY : ∀ v : K, 0 ≤ v → v ≤ 1 → d2 (segPoints P A Q B).x (segPoints P A Q B).y ≤ d2 (segPoints P A Q B).x (Q + v • B)) :
    (segPoints P A Q B).x = (segPoints P A Q B).y ∨
      ∃ k : K, 0 < k ∧ (segPoints P A Q B).vec = k • ((segPoints P A Q B).y - (segPoints P A Q B).x) := by
  have one : ∀ a b : Pt K, ∃ k : K, 0 < k ∧ a - b = k • (a - b) := fun a b => ⟨1, zero_lt_one, by rw [one_smul]⟩
  have pos : ∀ {a : Pt K}, dot a a ≠ 0 → 0 < dot a a := fun {a} h => lt_of_le_of_ne (dot_self_nonneg a) (Ne.symm h)
  -- `X` strictly inside the first segment
  have inner : ∀ Y : Pt K, 0 < backT P A Y → ∃ k : K, 0 < k ∧ cross A (cross (Y - P) A) = k • (Y - (P + backT P A Y • A)) := by
    intro Y h
    by_cases hz : dot A A = 0
    · rw [backT, if_pos hz] at h; exact absurd h (lt_irrefl _)
    · rw [backT, if_neg hz]
      refine ⟨dot A A, pos hz, ?_⟩
      rw [triple]
      apply vec_ext <;> simp <;> field_simp <;> ring
  have hBB : 0 < lineU P A Q B → dot B B ≠ 0 := by
    intro h hz; rw [lineU, if_pos hz] at h; exact lt_irrefl _ h
  -- `Y` strictly inside the second segment
  have inner2 : ∀ (x : Pt K) (u : K), 0 < u → u < 1 → (∀ v : K, 0 ≤ v → v ≤ 1 → d2 x (Q + u • B) ≤ d2 x (Q + v • B)) → dot B B ≠ 0 →
      ∃ k : K, 0 < k ∧ cross B (cross (Q - x) B) = k • (Q + u • B - x) := by
    intro x u u0 u1 h hz
    have ho := inner_orth u0 u1 h
    have e : dot B (Q - x) = -u * dot B B := by
      have : dot B (Q + u • B - x) = dot B (Q - x) + u * dot B B := by
        simp only [dot, Pi.add_apply, Pi.sub_apply, Pi.smul_apply, smul_eq_mul]; ring
      rw [ho] at this; linarith
    refine ⟨dot B B, pos hz, ?_⟩
    rw [triple, e]
    apply vec_ext <;> simp <;> ring
  revert hY
  refine seg_cases P A Q B (fun r => (∀ v : K, 0 ≤ v → v ≤ 1 → d2 r.x r.y ≤ d2 r.x (Q + v • B)) →
    r.x = r.y ∨ ∃ k : K, 0 < k ∧ r.vec = k • (r.y - r.x)) ?_ ?_ ?_ ?_ ?_ ?_ ?_ ?_ ?_
  · exact fun _ _ _ => Or.inr (one _ _)
  · exact fun _ _ _ _ => Or.inr (one _ _)
  · exact fun _ h _ _ => Or.inr (inner Q h)
  · exact fun _ _ _ _ => Or.inr (one _ _)
  · exact fun _ _ _ _ _ => Or.inr (one _ _)
  · exact fun _ _ h _ _ => Or.inr (inner (Q + B) h)
  · exact fun h h' _ hY => Or.inr (inner2 P _ h h' hY (hBB h))
  · exact fun h h' _ _ hY => Or.inr (inner2 (P + A) _ h h' hY (hBB h))
  · intro h _ g _ _
    have hBB' := hBB h
    clear hBB
    have hBB := hBB'
    have hden : dot A A * dot B B - dot A B * dot A B ≠ 0 := by
      intro hz; rw [lineT, if_pos hz] at g; exact lt_irrefl _ g
    have ht' : lineT P A Q B * (dot A A * dot B B - dot A B * dot A B) = dot A (Q - P) * dot B B - dot B (Q - P) * dot A B := by
      rw [lineT, if_neg hden]; exact div_mul_cancel₀ _ hden
    have hu' : lineU P A Q B * dot B B = lineT P A Q B * dot A B - dot B (Q - P) := by
      rw [lineU, if_neg hBB]; exact div_mul_cancel₀ _ hBB
    show P + lineT P A Q B • A = Q + lineU P A Q B • B ∨ ∃ k : K, 0 < k ∧
      (if dot (cross A B) (Q - P) < 0 then (-1 : K) • cross A B else cross A B) = k • (Q + lineU P A Q B • B - (P + lineT P A Q B • A))
    generalize lineT P A Q B = t at *
    generalize lineU P A Q B = u at *
    have oB : dot B (Q + u • B - (P + t • A)) = 0 := by
      have : dot B (Q + u • B - (P + t • A)) = dot B (Q - P) + u * dot B B - t * dot A B := by
        simp only [dot, Pi.add_apply, Pi.sub_apply, Pi.smul_apply, smul_eq_mul]; ring
      rw [this]; linarith
    have oA : dot A (Q + u • B - (P + t • A)) = 0 := by
      have e : dot A (Q + u • B - (P + t • A)) = dot A (Q - P) + u * dot A B - t * dot A A := by
        simp only [dot, Pi.add_apply, Pi.sub_apply, Pi.smul_apply, smul_eq_mul]; ring
      have : dot B B * (dot A (Q - P) + u * dot A B - t * dot A A) = 0 := by
        linear_combination dot A B * hu' - ht'
      rw [e]
      exact (mul_eq_zero.1 this).resolve_left hBB
    have hT : dot (cross A B) (Q - P) = dot (cross A B) (Q + u • B - (P + t • A)) := by
      simp only [dot, cross_0, cross_1, cross_2, Pi.add_apply, Pi.sub_apply, Pi.smul_apply, smul_eq_mul]; ring
    have hN : dot (cross A B) (cross A B) = dot A A * dot B B - dot A B * dot A B := by
      simp only [dot, cross_0, cross_1, cross_2]; ring
    have hNp : 0 < dot (cross A B) (cross A B) := pos (by rw [hN]; exact hden)
    have hc := orth_cross oA oB
    rw [hT]
    have hx : P + t • A = Q + u • B ↔ Q + u • B - (P + t • A) = 0 := by rw [sub_eq_zero, eq_comm]
    rw [hx]
    generalize Q + u • B - (P + t • A) = v at *
    generalize cross A B = n at *
    generalize dot n n = N at *
    generalize dot n v = d at *
    have hNne := ne_of_gt hNp
    have hv : v = (d / N) • n := by
      have := congrArg (fun w => N⁻¹ • w) hc
      simp only [smul_smul, inv_mul_cancel₀ hNne, one_smul] at this
      rw [this, div_eq_inv_mul]
    rcases lt_trichotomy d 0 with hd | hd | hd
    · right
      rw [if_pos hd]
      refine ⟨N / -d, div_pos hNp (by linarith), ?_⟩
      rw [hv, smul_smul]
      congr 1
      have : d ≠ 0 := ne_of_lt hd
      field_simp
    · left
      rw [hv, hd, zero_div, zero_smul]
    · right
      rw [if_neg (not_lt.2 (le_of_lt hd))]
      refine ⟨N / d, div_pos hNp hd, ?_⟩
      rw [hv, smul_smul]
      have : d ≠ 0 := ne_of_gt hd
      rw [show N / d * (d / N) = 1 by field_simp, one_smul]

end TDP.TriDist
