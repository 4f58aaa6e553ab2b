import Verif.Frenet.Model
import Mathlib.Tactic.Linarith
import Mathlib.Tactic.NormNum
import Mathlib.Tactic.Ring
import Mathlib.Tactic.IntervalCases
/-!
# The integer rotation can be undone
-/
namespace TDP.Frenet

/-! ## Specification -/

/-- What `double` arithmetic guarantees (IEEE, round to nearest): symmetric, exact on integers, and accurate. -/
structure Double (rnd : ℚ → ℚ) : Prop where
  neg : ∀ x, rnd (-x) = -rnd x
  idem : ∀ x, rnd (rnd x) = rnd x
  int : ∀ n : ℤ, |n| ≤ 2 ^ 53 → rnd n = n
  err : ∀ x, |x| ≤ 2 ^ 33 → |rnd x - x| ≤ 1 / 2 ^ 20

/-- The integers met on the way: `us 0` is the vector given, `us (i+1)` comes from `us i` by the `i`-th of the fifteen steps. -/
def Trajectory (E : Env) (S : List Mat) (us : Nat → IVec) : Prop :=
  ∀ i (h : i < S.length), step E (inter i S[i]) (us i) = some (us (i + 1))

/-- No tie: in no step a coordinate is moved by (nearly) a whole number and a half. -/
def NoTie (S : List Mat) (us : Nat → IVec) : Prop :=
  ∀ i (h : i < S.length) (r c : Fin 3), r ≠ c → |S[i] r c * us i c| ≤ 2 ^ 32 ∧ ∀ k : ℤ, 1 / 2 ^ 18 ≤ |S[i] r c * us i c - (k + 1 / 2)|

/-! ## Rounding -/

theorem cround_near {x : ℚ} {n : ℤ} (h : |x - n| < 1 / 2) : cround x = n := by
  rw [abs_lt] at h
  unfold cround
  by_cases hx : 0 ≤ x
  · rw [if_pos hx, Int.floor_eq_iff]
    constructor <;> linarith
  · rw [if_neg hx]
    have : ⌊-x + 1 / 2⌋ = -n := by
      rw [Int.floor_eq_iff]
      push_cast
      constructor <;> linarith
    rw [this, neg_neg]

theorem nearest (p : ℚ) : ∃ n : ℤ, |p - n| ≤ 1 / 2 := by
  refine ⟨⌊p + 1 / 2⌋, ?_⟩
  have h1 := Int.floor_le (p + 1 / 2)
  have h2 := Int.lt_floor_add_one (p + 1 / 2)
  rw [abs_le]
  constructor <;> linarith

/-- Far from a tie: the integer is well inside. -/
theorem nearest_away {p : ℚ} (h : ∀ k : ℤ, 1 / 2 ^ 18 ≤ |p - (k + 1 / 2)|) : ∃ n : ℤ, |p - n| ≤ 1 / 2 - 1 / 2 ^ 18 := by
  obtain ⟨n, hn⟩ := nearest p
  refine ⟨n, ?_⟩
  rw [abs_le] at hn ⊢
  have h1 := h n
  have h2 := h (n - 1)
  push_cast at h2
  constructor
  · rcases le_abs.1 h2 with h2 | h2 <;> linarith
  · rcases le_abs.1 h1 with h1 | h1 <;> linarith

/-- Moving a coordinate and moving it back. -/
theorem lift_back {rnd : ℚ → ℚ} (hd : Double rnd) (y : ℤ) (p : ℚ) (hy : |y| ≤ 2 ^ 31) (hp : |p| ≤ 2 ^ 32)
    (h : ∀ k : ℤ, 1 / 2 ^ 18 ≤ |p - (k + 1 / 2)|) (hz : |cround (rnd (y + rnd (-p)))| ≤ 2 ^ 31) :
    cround (rnd (cround (rnd (y + rnd (-p))) + rnd p)) = y := by
  obtain ⟨n, hn⟩ := nearest_away h
  have e1 := hd.err p (by linarith [show (2 : ℚ) ^ 32 ≤ 2 ^ 33 by norm_num])
  have hyq : |(y : ℚ)| ≤ 2 ^ 31 := by exact_mod_cast hy
  rw [hd.neg] at hz ⊢
  have hp' : |rnd p| ≤ 2 ^ 32 + 1 := by
    have := abs_add_le (rnd p - p) p
    rw [sub_add_cancel] at this
    linarith [show (1 : ℚ) / 2 ^ 20 ≤ 1 by norm_num]
  have e2 := hd.err (y + -rnd p) (by
    have := abs_add_le (y : ℚ) (-rnd p)
    rw [abs_neg] at this
    linarith [show (2 : ℚ) ^ 31 + (2 ^ 32 + 1) ≤ 2 ^ 33 by norm_num])
  have r1 : cround (rnd (y + -rnd p)) = y - n := by
    apply cround_near
    push_cast
    rw [abs_le] at e1 e2 hn
    rw [abs_lt]
    norm_num at *
    constructor <;> linarith
  rw [r1] at hz ⊢
  have hzq : |((y - n : ℤ) : ℚ)| ≤ 2 ^ 31 := by exact_mod_cast hz
  have e3 := hd.err (((y - n : ℤ) : ℚ) + rnd p) (by
    have := abs_add_le ((y - n : ℤ) : ℚ) (rnd p)
    linarith [show (2 : ℚ) ^ 31 + (2 ^ 32 + 1) ≤ 2 ^ 33 by norm_num])
  apply cround_near
  push_cast at e3 ⊢
  rw [abs_le] at e1 e3 hn
  rw [abs_lt]
  norm_num at *
  constructor <;> linarith

theorem cround_int (n : ℤ) : cround n = n := cround_near (by simp)

/-! ## One step -/

/-- All coordinates fit `int`. -/
def Fits (u : IVec) : Prop := ∀ r, |u r| ≤ 2 ^ 31

theorem step_fits {E : Env} {A : Mat} {u v : IVec} (h : step E A u = some v) : Fits v := by
  unfold step at h
  simp only at h
  split at h
  · next hc =>
    cases h
    intro r
    have := hc r
    simp only
    rw [abs_le]
    constructor <;> omega
  · cases h

theorem step_some {E : Env} {A : Mat} {u v : IVec} (e : ∀ r, cround (rowDot E A u r) = v r)
    (hv : ∀ r, -2147483648 ≤ v r ∧ v r ≤ 2147483647) : step E A u = some v := by
  have e' : (fun r => cround (rowDot E A u r)) = v := funext e
  unfold step
  simp only
  rw [if_pos (by intro r; rw [e r]; exact hv r), e']

/-- A matrix that is its own inverse in step `i`. -/
def Swap (A : Mat) : Prop := A = D1 ∨ A = D2 ∨ A = D3 ∨ A = D4 ∨ A = D5
theorem swap_ite {p : Prop} [Decidable p] {a b : Mat} (ha : Swap a) (hb : Swap b) : Swap (if p then a else b) := by
  split <;> assumption

/-- A matrix whose step is undone by the inverse loop. -/
def Undone (E : Env) (i : Nat) (A : Mat) : Prop := ∀ u v : IVec, (∀ r, -2147483648 ≤ u r ∧ u r ≤ 2147483647) →
  (∀ r c : Fin 3, r ≠ c → |A r c * u c| ≤ 2 ^ 32 ∧ ∀ k : ℤ, 1 / 2 ^ 18 ≤ |A r c * u c - (k + 1 / 2)|) →
  step E (inter i A) u = some v → step E A v = some u

section
variable {E : Env} (hd : Double E.dbl)
include hd

theorem dbl_int {n : ℤ} (hn : |n| ≤ 2 ^ 53) : E.dbl n = n := hd.int n hn

theorem dbl_zero : E.dbl 0 = 0 := by simpa using hd.int 0 (by norm_num)

/-- A row with a single entry 1 or -1. -/
theorem rowDot_unit (A : Mat) (u : IVec) (hu : Fits u) (r c : Fin 3) (s : ℤ) (hs : s = 1 ∨ s = -1)
    (hA : ∀ j, A r j = if j = c then (s : ℚ) else 0) : cround (rowDot E A u r) = s * u c := by
  have hb : |s * u c| ≤ 2 ^ 53 := by
    have := hu c
    rcases hs with rfl | rfl
    · rw [one_mul]; exact le_trans this (by norm_num)
    · rw [neg_one_mul, abs_neg]; exact le_trans this (by norm_num)
  have e : E.dbl ((s : ℚ) * (u c : ℚ)) = ((s * u c : ℤ) : ℚ) := by
    have := dbl_int hd hb
    push_cast at this ⊢
    exact this
  have e' : E.dbl ((s * u c : ℤ) : ℚ) = ((s * u c : ℤ) : ℚ) := dbl_int hd hb
  have z := dbl_zero hd
  unfold rowDot
  rw [hA 0, hA 1, hA 2]
  have : E.dbl (E.dbl (E.dbl ((if (0 : Fin 3) = c then (s : ℚ) else 0) * u 0) + E.dbl ((if (1 : Fin 3) = c then (s : ℚ) else 0) * u 1)) +
      E.dbl ((if (2 : Fin 3) = c then (s : ℚ) else 0) * u 2)) = ((s * u c : ℤ) : ℚ) := by
    fin_cases c
    · simp only [Fin.zero_eta, if_true] at *
      rw [if_neg (by decide), if_neg (by decide), zero_mul, zero_mul, z, e, add_zero, add_zero, e', e']
    · simp only [Fin.mk_one, if_true] at *
      rw [if_neg (by decide), if_neg (by decide), zero_mul, zero_mul, z, e, zero_add, e', add_zero, e']
    · simp only [Fin.reduceFinMk, if_true] at *
      rw [if_neg (by decide), if_neg (by decide), zero_mul, zero_mul, z, zero_add, z, e, zero_add, e']
  rw [this, cround_int]

/-- A row that adds a multiple of another coordinate. -/
theorem rowDot_shear (A : Mat) (u : IVec) (hu : Fits u) (r c : Fin 3) (hrc : r ≠ c) (s : ℚ)
    (hA : ∀ j, A r j = if j = r then 1 else if j = c then s else 0) : rowDot E A u r = E.dbl (u r + E.dbl (s * u c)) := by
  have z := dbl_zero hd
  have i : ∀ k, E.dbl (u k : ℚ) = u k := fun k => dbl_int hd (le_trans (hu k) (by norm_num))
  unfold rowDot
  rw [hA 0, hA 1, hA 2]
  fin_cases r <;> fin_cases c <;> first | exact absurd rfl hrc | skip
  all_goals
    simp [z, i, hd.idem, add_comm]

/-- Permutations with signs are undone by themselves. -/
theorem step_perm (A : Mat) (σ : Fin 3 → Fin 3) (s : Fin 3 → ℤ) (hs : ∀ r, s r = 1 ∨ s r = -1) (hσ : ∀ r, σ (σ r) = r)
    (hsσ : ∀ r, s r * s (σ r) = 1) (hA : ∀ r j, A r j = if j = σ r then (s r : ℚ) else 0) {u v : IVec} (hu : ∀ r, -2147483648 ≤ u r ∧ u r ≤ 2147483647)
    (h : step E A u = some v) : step E A v = some u := by
  have hfu : Fits u := by
    intro r
    have := hu r
    rw [abs_le]
    constructor <;> omega
  have hfv := step_fits h
  have hv : ∀ r, v r = s r * u (σ r) := by
    unfold step at h
    simp only at h
    split at h
    · cases h
      intro r
      exact rowDot_unit hd A u hfu r (σ r) (s r) (hs r) (hA r)
    · cases h
  have e : (fun r => cround (rowDot E A v r)) = u := by
    funext r
    rw [rowDot_unit hd A v hfv r (σ r) (s r) (hs r) (hA r), hv, hσ, ← mul_assoc, hsσ, one_mul]
  exact step_some (fun r => congrFun e r) hu

/-- Shears are undone by the opposite shear. -/
theorem step_shear (A : Mat) (r c : Fin 3) (hrc : r ≠ c) (s : ℚ)
    (hA : ∀ i j, A i j = if j = i then 1 else if i = r ∧ j = c then s else 0) {u v : IVec} (hu : ∀ r, -2147483648 ≤ u r ∧ u r ≤ 2147483647)
    (hp : |s * u c| ≤ 2 ^ 32) (hn : ∀ k : ℤ, 1 / 2 ^ 18 ≤ |s * u c - (k + 1 / 2)|)
    (h : step E (offNeg A) u = some v) : step E A v = some u := by
  have hfu : Fits u := by
    intro r
    have := hu r
    rw [abs_le]
    constructor <;> omega
  have hfv := step_fits h
  have hN : ∀ i j, offNeg A i j = if j = i then 1 else if i = r ∧ j = c then -s else 0 := by
    intro i j
    unfold offNeg
    by_cases hij : i = j
    · subst hij; simp [hA]
    · rw [if_neg hij, hA, if_neg (Ne.symm hij), if_neg (Ne.symm hij)]
      split <;> simp
  have hv : ∀ i, v i = if i = r then cround (E.dbl (u r + E.dbl (-(s * u c)))) else u i := by
    unfold step at h
    simp only at h
    split at h
    · cases h
      intro i
      by_cases hi : i = r
      · subst hi
        simp only [if_true]
        rw [rowDot_shear hd (offNeg A) u hfu i c hrc (-s) (by intro j; rw [hN]; simp), neg_mul]
      · rw [if_neg hi]
        have := rowDot_unit hd (offNeg A) u hfu i i 1 (Or.inl rfl) (by intro j; rw [hN]; simp [hi])
        simpa using this
    · cases h
  have hvc : v c = u c := by rw [hv, if_neg (Ne.symm hrc)]
  have e : (fun i => cround (rowDot E A v i)) = u := by
    funext i
    by_cases hi : i = r
    · subst hi
      rw [rowDot_shear hd A v hfv i c hrc s (by intro j; rw [hA]; simp), hvc]
      have h1 := hv i
      rw [if_pos rfl] at h1
      have h2 := hfv i
      rw [h1] at h2 ⊢
      exact lift_back hd (u i) (s * u c) (hfu i) hp hn h2
    · have := rowDot_unit hd A v hfv i i 1 (Or.inl rfl) (by intro j; rw [hA]; simp [hi])
      rw [this, hv, if_neg hi, one_mul]
  exact step_some (fun r => congrFun e r) hu

/-! ## The fifteen steps -/

theorem back_swap {A : Mat} (hA : Swap A) {u v : IVec} (hu : ∀ r, -2147483648 ≤ u r ∧ u r ≤ 2147483647)
    (h : step E A u = some v) : step E A v = some u := by
  rcases hA with rfl | rfl | rfl | rfl | rfl
  · exact step_perm hd D1 ![0, 1, 2] ![1, 1, 1] (by decide) (by decide) (by decide)
      (by decide +kernel) hu h
  · exact step_perm hd D2 ![1, 0, 2] ![1, 1, 1] (by decide) (by decide) (by decide)
      (by decide +kernel) hu h
  · exact step_perm hd D3 ![0, 1, 2] ![-1, -1, 1] (by decide) (by decide) (by decide)
      (by decide +kernel) hu h
  · exact step_perm hd D4 ![0, 2, 1] ![1, 1, 1] (by decide) (by decide) (by decide)
      (by decide +kernel) hu h
  · exact step_perm hd D5 ![0, 1, 2] ![1, -1, -1] (by decide) (by decide) (by decide)
      (by decide +kernel) hu h

theorem undone_swap {i : Nat} (hi : i = 0 ∨ i = 1 ∨ i = 5 ∨ i = 6 ∨ i = 10 ∨ i = 11) {A : Mat} (hA : Swap A) : Undone E i A := by
  intro u v hu _ h
  unfold inter at h
  rw [if_pos hi] at h
  exact back_swap hd hA hu h

theorem undone_shear {i : Nat} (hi : ¬ (i = 0 ∨ i = 1 ∨ i = 5 ∨ i = 6 ∨ i = 10 ∨ i = 11)) {A : Mat} (r c : Fin 3) (hrc : r ≠ c) (s : ℚ)
    (hA : ∀ i j, A i j = if j = i then 1 else if i = r ∧ j = c then s else 0) : Undone E i A := by
  intro u v hu hn h
  unfold inter at h
  rw [if_neg hi] at h
  have hAc : A r c = s := by rw [hA, if_neg (Ne.symm hrc)]; simp
  have := hn r c hrc
  rw [hAc] at this
  exact step_shear hd A r c hrc s hA hu this.1 this.2 h

theorem undone_all (T1 T2 normal : Vec) : ∀ i (h : i < (compRotationMat E T1 T2 normal).length),
    Undone E i (compRotationMat E T1 T2 normal)[i] := by
  intro i h
  have hl : (compRotationMat E T1 T2 normal).length = 15 := rfl
  have hi : i < 15 := by rw [hl] at h; exact h
  have sw : ∀ (p : Prop) [Decidable p] (a b : Mat), Swap a → Swap b → Swap (if p then a else b) := fun p _ a b => swap_ite
  have s1 : Swap D1 := Or.inl rfl
  have s2 : Swap D2 := Or.inr (Or.inl rfl)
  have s3 : Swap D3 := Or.inr (Or.inr (Or.inl rfl))
  have s4 : Swap D4 := Or.inr (Or.inr (Or.inr (Or.inl rfl)))
  have s5 : Swap D5 := Or.inr (Or.inr (Or.inr (Or.inr rfl)))
  interval_cases i
  · exact undone_swap hd (by decide) (sw _ _ _ s2 s1)
  · exact undone_swap hd (by decide) (sw _ _ _ s3 s1)
  · exact undone_shear hd (by decide) 0 1 (by decide) _ (by intro r j; fin_cases r <;> fin_cases j <;> rfl)
  · exact undone_shear hd (by decide) 1 0 (by decide) _ (by intro r j; fin_cases r <;> fin_cases j <;> rfl)
  · exact undone_shear hd (by decide) 0 1 (by decide) _ (by intro r j; fin_cases r <;> fin_cases j <;> rfl)
  · exact undone_swap hd (by decide) (sw _ _ _ s4 s1)
  · exact undone_swap hd (by decide) (sw _ _ _ s5 s1)
  · exact undone_shear hd (by decide) 1 2 (by decide) _ (by intro r j; fin_cases r <;> fin_cases j <;> rfl)
  · exact undone_shear hd (by decide) 2 1 (by decide) _ (by intro r j; fin_cases r <;> fin_cases j <;> rfl)
  · exact undone_shear hd (by decide) 1 2 (by decide) _ (by intro r j; fin_cases r <;> fin_cases j <;> rfl)
  · exact undone_swap hd (by decide) (sw _ _ _ s2 s1)
  · exact undone_swap hd (by decide) (sw _ _ _ s3 s1)
  · exact undone_shear hd (by decide) 0 1 (by decide) _ (by intro r j; fin_cases r <;> fin_cases j <;> rfl)
  · exact undone_shear hd (by decide) 1 0 (by decide) _ (by intro r j; fin_cases r <;> fin_cases j <;> rfl)
  · exact undone_shear hd (by decide) 0 1 (by decide) _ (by intro r j; fin_cases r <;> fin_cases j <;> rfl)

end

/-- Both loops over any list of matrices. -/
theorem fold_back {E : Env} : ∀ (S : List Mat) (k : Nat) (us : Nat → IVec),
    (∀ i (h : i < S.length), Undone E (k + i) S[i]) →
    (∀ i (h : i < S.length), step E (inter (k + i) S[i]) (us i) = some (us (i + 1))) →
    (∀ r, -2147483648 ≤ us 0 r ∧ us 0 r ≤ 2147483647) → NoTie S us →
    (S.zipIdx k).foldlM (fun u p => step E (inter p.2 p.1) u) (us 0) = some (us S.length) ∧
      S.reverse.foldlM (fun u A => step E A u) (us S.length) = some (us 0) := by
  intro S
  induction S with
  | nil => intro k us _ _ _ _; exact ⟨rfl, rfl⟩
  | cons A S ih =>
    intro k us hU hT h0 hN
    have t0 := hT 0 (by simp)
    simp only [Nat.add_zero, List.getElem_cons_zero, Nat.zero_add] at t0
    have h1 : ∀ r, -2147483648 ≤ us 1 r ∧ us 1 r ≤ 2147483647 := by
      unfold step at t0
      simp only at t0
      split at t0
      · next hc => rw [← Option.some.inj t0]; exact hc
      · cases t0
    obtain ⟨e1, e2⟩ := ih (k + 1) (fun i => us (i + 1))
      (by
        intro i h
        have := hU (i + 1) (by simpa using h)
        simp only [List.getElem_cons_succ] at this
        rwa [show k + 1 + i = k + (i + 1) by omega])
      (by
        intro i h
        have := hT (i + 1) (by simpa using h)
        simp only [List.getElem_cons_succ] at this
        rwa [show k + 1 + i = k + (i + 1) by omega]) h1
      (by
        intro i h r c hrc
        have := hN (i + 1) (by simpa using h) r c hrc
        simpa only [List.getElem_cons_succ] using this)
    refine ⟨?_, ?_⟩
    · rw [List.zipIdx_cons, List.foldlM_cons, t0]
      simpa using e1
    · rw [List.reverse_cons, List.foldlM_append, List.length_cons]
      rw [e2]
      have := hU 0 (by simp) (us 0) (us 1) h0 (fun r c hrc => by have := hN 0 (by simp) r c hrc; rwa [List.getElem_cons_zero] at this) (by simpa using t0)
      simp only [List.getElem_cons_zero] at this
      simp [this]

/-- **C87, rotating back**: whatever the frame and whatever the C library returns for the angles, if on the way no coordinate
is moved by (nearly) a whole number and a half, `invFrenetRotation` returns the vector `frenetRotation` was given. -/
theorem C87_roundtrip_partial {E : Env} (hd : Double E.dbl) (T1 T2 normal : Vec) (us : Nat → IVec)
    (hT : Trajectory E (compRotationMat E T1 T2 normal) us) (hN : NoTie (compRotationMat E T1 T2 normal) us)
    (h0 : ∀ r, -2147483648 ≤ us 0 r ∧ us 0 r ≤ 2147483647) :
    ∃ v, frenetRotation E (us 0) T1 T2 normal = some v ∧ invFrenetRotation E v T1 T2 normal = some (us 0) := by
  obtain ⟨h1, h2⟩ := fold_back (compRotationMat E T1 T2 normal) 0 us
    (fun i h => by rw [Nat.zero_add]; exact undone_all hd T1 T2 normal i h)
    (fun i h => by rw [Nat.zero_add]; exact hT i h) h0 hN
  exact ⟨_, h1, h2⟩

/-- Two vectors are never rotated to the same one. -/
theorem C87_injective_partial {E : Env} (hd : Double E.dbl) (T1 T2 normal : Vec) (us ws : Nat → IVec)
    (hT : Trajectory E (compRotationMat E T1 T2 normal) us) (hN : NoTie (compRotationMat E T1 T2 normal) us)
    (h0 : ∀ r, -2147483648 ≤ us 0 r ∧ us 0 r ≤ 2147483647)
    (hT' : Trajectory E (compRotationMat E T1 T2 normal) ws) (hN' : NoTie (compRotationMat E T1 T2 normal) ws)
    (h0' : ∀ r, -2147483648 ≤ ws 0 r ∧ ws 0 r ≤ 2147483647)
    (he : frenetRotation E (us 0) T1 T2 normal = frenetRotation E (ws 0) T1 T2 normal) : us 0 = ws 0 := by
  obtain ⟨v, h1, h2⟩ := C87_roundtrip_partial hd T1 T2 normal us hT hN h0
  obtain ⟨w, h3, h4⟩ := C87_roundtrip_partial hd T1 T2 normal ws hT' hN' h0'
  rw [h1, h3] at he
  cases he
  rw [h2] at h4
  exact Option.some.inj h4

/-! ## A tie -/

/-- Exact arithmetic; the functions are right where they are used below: one angle has sine 8/17 and cosine 15/17 (half of it
has tangent 1/4), the other angles are 0. -/
def exEnv : Env where
  sqrt := id
  acos x := if x = 1 then 0 else 1
  tan x := if x = 0 then 0 else 1 / 4
  sin x := if x = 0 then 0 else 8 / 17
  cos x := if x = 0 then 1 else 15 / 17
  flt := id
  dbl := id

/-- An orthonormal frame. -/
def exT1 : Vec := ![15 / 17, 8 / 17, 0]
def exT2 : Vec := ![0, 0, 1]
def exN : Vec := ![-8 / 17, 15 / 17, 0]

theorem exEnv_double : Double exEnv.dbl := ⟨fun _ => rfl, fun _ => rfl, fun _ _ => rfl, fun x _ => by simp [exEnv]⟩

theorem mat_ext {A B : Mat} (h : ∀ i j, A i j = B i j) : A = B := by funext i j; exact h i j

theorem matProd_mat (a b c d e f g h i a' b' c' d' e' f' g' h' i' : ℚ) :
    matProd exEnv (mat a b c d e f g h i) (mat a' b' c' d' e' f' g' h' i') =
      mat (a*a'+b*d'+c*g') (a*b'+b*e'+c*h') (a*c'+b*f'+c*i') (d*a'+e*d'+f*g') (d*b'+e*e'+f*h') (d*c'+e*f'+f*i')
        (g*a'+h*d'+i*g') (g*b'+h*e'+i*h') (g*c'+h*f'+i*i') := by
  have key : ∀ x y z : ℚ, 0 + x + y + z = x + y + z := by intros; ring
  apply mat_ext
  intro i j
  fin_cases i <;> fin_cases j <;> exact key _ _ _

/-- Its two shears. -/
def exA : Mat := mat 1 (-(1/4)) 0 0 1 0 0 0 1
def exB : Mat := mat 1 0 0 (8/17) 1 0 0 0 1

theorem ex_mats : compRotationMat exEnv exT1 exT2 exN =
    [D1, D1, exA, exB, exA, D4, D1, D1, D1, D1, D1, D1, D1, D1, D1] := by
  have e02 : ∀ a b c d e f g h i, (mat a b c d e f g h i) 0 2 = c := fun _ _ _ _ _ _ _ _ _ => rfl
  have e12 : ∀ a b c d e f g h i, (mat a b c d e f g h i) 1 2 = f := fun _ _ _ _ _ _ _ _ _ => rfl
  have e22 : ∀ a b c d e f g h i, (mat a b c d e f g h i) 2 2 = i := fun _ _ _ _ _ _ _ _ _ => rfl
  have e01 : ∀ a b c d e f g h i, (mat a b c d e f g h i) 0 1 = b := fun _ _ _ _ _ _ _ _ _ => rfl
  have e11 : ∀ a b c d e f g h i, (mat a b c d e f g h i) 1 1 = e := fun _ _ _ _ _ _ _ _ _ => rfl
  have s0 : (if |(-8/17 : ℚ)| > |(15/17 : ℚ)| then D2 else D1) = D1 := if_neg (by norm_num [abs_of_neg, abs_of_pos])
  have m1 : ∀ a b c d e f g h i, matProd exEnv D1 (mat a b c d e f g h i) = mat a b c d e f g h i := by
    intros
    rw [D1, matProd_mat]
    simp
  have s1 : (if (15/17 : ℚ) < 0 then D3 else D1) = D1 := if_neg (by norm_num)
  have phi : angle exEnv (-8/17) (15/17) = 1 := by norm_num [angle, exEnv, signe]
  have hh : exEnv.tan (1 / 2) = 1 / 4 := by norm_num [exEnv]
  have hs : exEnv.sin 1 = 8 / 17 := by norm_num [exEnv]
  have hc : exEnv.cos 1 = 15 / 17 := by norm_num [exEnv]
  have m2 : matProd exEnv (mat (15/17) (8/17) 0 (-(8/17)) (15/17) 0 0 0 1) (mat (15/17) 0 (-8/17) (8/17) 0 (15/17) 0 1 0) =
      mat 1 0 0 0 0 1 0 1 0 := by
    rw [matProd_mat]; norm_num
  have s5 : (if |(1 : ℚ)| > |(0 : ℚ)| then D4 else D1) = D4 := if_pos (by norm_num)
  have m3 : matProd exEnv D4 (mat 1 0 0 0 0 1 0 1 0) = mat 1 0 0 0 1 0 0 0 1 := by
    rw [D4, matProd_mat]; norm_num
  have s6 : (if (1 : ℚ) < 0 then D5 else D1) = D1 := if_neg (by norm_num)
  have psi : angle exEnv 0 1 = 0 := by norm_num [angle, exEnv, signe]
  have h0 : exEnv.tan (0 / 2) = 0 := by norm_num [exEnv]
  have hs0 : exEnv.sin 0 = 0 := by norm_num [exEnv]
  have hc0 : exEnv.cos 0 = 1 := by norm_num [exEnv]
  have s10 : (if |(0 : ℚ)| > |(1 : ℚ)| then D2 else D1) = D1 := if_neg (by norm_num)
  have s11 : (if (1 : ℚ) < 0 then D3 else D1) = D1 := if_neg (by norm_num)
  have d1 : mat 1 0 0 0 1 0 0 0 1 = D1 := rfl
  have d1' : ∀ M, matProd exEnv (mat 1 0 0 0 1 0 0 0 1) M = matProd exEnv D1 M := fun _ => rfl
  have n0 : exN 0 = -8/17 := rfl
  have n1 : exN 1 = 15/17 := rfl
  have n2 : exN 2 = 0 := rfl
  have t0 : exT1 0 = 15/17 := rfl
  have t1 : exT1 1 = 8/17 := rfl
  have t2 : exT1 2 = 0 := rfl
  have q0 : exT2 0 = 0 := rfl
  have q1 : exT2 1 = 0 := rfl
  have q2 : exT2 2 = 1 := rfl
  unfold compRotationMat
  simp only [n0, n1, n2, t0, t1, t2, q0, q1, q2, e02, e12, e22, e01, e11, s0, m1, s1, phi, hh, hs, hc, m2, s5, m3, s6, psi, h0, hs0, hc0, neg_zero, d1', s10, s11]
  rfl

theorem fm {A B : Type} {f : B → A → Option B} {b b' : B} {a : A} {l : List A} (h : f b a = some b') : (a :: l).foldlM f b = l.foldlM f b' := by
  rw [List.foldlM_cons, h]; rfl

theorem ex_fwd : [D1, D1, exA, exB, exA, D4, D1, D1, D1, D1, D1, D1, D1, D1, D1].zipIdx.foldlM (fun u p => step exEnv (inter p.2 p.1) u) ![0, 2, 0] = some ![2, 0, 2] := by
  have f0 : step exEnv (inter 0 D1) ![0, 2, 0] = some ![0, 2, 0] := by decide +kernel
  have f1 : step exEnv (inter 1 D1) ![0, 2, 0] = some ![0, 2, 0] := by decide +kernel
  have f2 : step exEnv (inter 2 exA) ![0, 2, 0] = some ![1, 2, 0] := by decide +kernel
  have f3 : step exEnv (inter 3 exB) ![1, 2, 0] = some ![1, 2, 0] := by decide +kernel
  have f4 : step exEnv (inter 4 exA) ![1, 2, 0] = some ![2, 2, 0] := by decide +kernel
  have f5 : step exEnv (inter 5 D4) ![2, 2, 0] = some ![2, 0, 2] := by decide +kernel
  have f6 : step exEnv (inter 6 D1) ![2, 0, 2] = some ![2, 0, 2] := by decide +kernel
  have f7 : step exEnv (inter 7 D1) ![2, 0, 2] = some ![2, 0, 2] := by decide +kernel
  have f8 : step exEnv (inter 8 D1) ![2, 0, 2] = some ![2, 0, 2] := by decide +kernel
  have f9 : step exEnv (inter 9 D1) ![2, 0, 2] = some ![2, 0, 2] := by decide +kernel
  have f10 : step exEnv (inter 10 D1) ![2, 0, 2] = some ![2, 0, 2] := by decide +kernel
  have f11 : step exEnv (inter 11 D1) ![2, 0, 2] = some ![2, 0, 2] := by decide +kernel
  have f12 : step exEnv (inter 12 D1) ![2, 0, 2] = some ![2, 0, 2] := by decide +kernel
  have f13 : step exEnv (inter 13 D1) ![2, 0, 2] = some ![2, 0, 2] := by decide +kernel
  have f14 : step exEnv (inter 14 D1) ![2, 0, 2] = some ![2, 0, 2] := by decide +kernel
  exact (fm f0).trans ((fm f1).trans ((fm f2).trans ((fm f3).trans ((fm f4).trans ((fm f5).trans ((fm f6).trans ((fm f7).trans ((fm f8).trans ((fm f9).trans ((fm f10).trans ((fm f11).trans ((fm f12).trans ((fm f13).trans ((fm f14).trans (rfl)))))))))))))))

theorem ex_bwd : [D1, D1, D1, D1, D1, D1, D1, D1, D1, D4, exA, exB, exA, D1, D1].foldlM (fun u A => step exEnv A u) ![2, 0, 2] = some ![1, 3, 0] := by
  have f0 : step exEnv D1 ![2, 0, 2] = some ![2, 0, 2] := by decide +kernel
  have f1 : step exEnv D1 ![2, 0, 2] = some ![2, 0, 2] := by decide +kernel
  have f2 : step exEnv D1 ![2, 0, 2] = some ![2, 0, 2] := by decide +kernel
  have f3 : step exEnv D1 ![2, 0, 2] = some ![2, 0, 2] := by decide +kernel
  have f4 : step exEnv D1 ![2, 0, 2] = some ![2, 0, 2] := by decide +kernel
  have f5 : step exEnv D1 ![2, 0, 2] = some ![2, 0, 2] := by decide +kernel
  have f6 : step exEnv D1 ![2, 0, 2] = some ![2, 0, 2] := by decide +kernel
  have f7 : step exEnv D1 ![2, 0, 2] = some ![2, 0, 2] := by decide +kernel
  have f8 : step exEnv D1 ![2, 0, 2] = some ![2, 0, 2] := by decide +kernel
  have f9 : step exEnv D4 ![2, 0, 2] = some ![2, 2, 0] := by decide +kernel
  have f10 : step exEnv exA ![2, 2, 0] = some ![2, 2, 0] := by decide +kernel
  have f11 : step exEnv exB ![2, 2, 0] = some ![2, 3, 0] := by decide +kernel
  have f12 : step exEnv exA ![2, 3, 0] = some ![1, 3, 0] := by decide +kernel
  have f13 : step exEnv D1 ![1, 3, 0] = some ![1, 3, 0] := by decide +kernel
  have f14 : step exEnv D1 ![1, 3, 0] = some ![1, 3, 0] := by decide +kernel
  exact (fm f0).trans ((fm f1).trans ((fm f2).trans ((fm f3).trans ((fm f4).trans ((fm f5).trans ((fm f6).trans ((fm f7).trans ((fm f8).trans ((fm f9).trans ((fm f10).trans ((fm f11).trans ((fm f12).trans ((fm f13).trans ((fm f14).trans (rfl)))))))))))))))

/-- **C87 is false of the code when there is a tie**: with this frame the vector (0, 2, 0) is not recovered, even in exact
arithmetic, because `round` takes halves away from zero on the way there and on the way back. -/
theorem C87_counterexample : ∃ (E : Env) (T1 T2 normal : Vec) (u v w : IVec), Double E.dbl ∧ frenetRotation E u T1 T2 normal = some v ∧
    invFrenetRotation E v T1 T2 normal = some w ∧ w ≠ u := by
  refine ⟨exEnv, exT1, exT2, exN, ![0, 2, 0], ![2, 0, 2], ![1, 3, 0], exEnv_double, ?_, ?_, by decide⟩
  · unfold frenetRotation
    rw [ex_mats]
    exact ex_fwd
  · unfold invFrenetRotation
    rw [ex_mats]
    exact ex_bwd

theorem away_of {q : ℚ} {n : ℤ} (h : |q - n| ≤ 1 / 4) (k : ℤ) : 1 / 2 ^ 18 ≤ |q - (k + 1 / 2)| := by
  rw [abs_le] at h
  rcases le_or_gt n k with hk | hk
  · have : (n : ℚ) ≤ k := by exact_mod_cast hk
    rw [le_abs]; right; norm_num; linarith [h.1, h.2]
  · have : (k : ℚ) + 1 ≤ n := by exact_mod_cast hk
    rw [le_abs]; left; norm_num; linarith [h.1, h.2]

/-- The vectors met from (0, 1, 0). -/
def exUs (i : Nat) : IVec := if i ≤ 5 then ![0, 1, 0] else ![0, 0, 1]

/-- Non-vacuity of C87: in the same frame the vector (0, 1, 0) meets no tie and is recovered. -/
example : ∃ v, frenetRotation exEnv ![0, 1, 0] exT1 exT2 exN = some v ∧ invFrenetRotation exEnv v exT1 exT2 exN = some ![0, 1, 0] := by
  refine C87_roundtrip_partial exEnv_double exT1 exT2 exN exUs ?_ ?_ (by decide +kernel)
  · rw [ex_mats]
    have : ∀ i : Fin 15, step exEnv (inter i [D1, D1, exA, exB, exA, D4, D1, D1, D1, D1, D1, D1, D1, D1, D1][i]) (exUs i) = some (exUs (i + 1)) := by
      decide +kernel
    intro i h
    exact this ⟨i, h⟩
  · rw [ex_mats]
    have : ∀ i : Fin 15, ∀ r c : Fin 3, r ≠ c →
        |([D1, D1, exA, exB, exA, D4, D1, D1, D1, D1, D1, D1, D1, D1, D1][i]) r c * exUs i c| ≤ 2 ^ 32 ∧
        |([D1, D1, exA, exB, exA, D4, D1, D1, D1, D1, D1, D1, D1, D1, D1][i]) r c * exUs i c -
          (⌊([D1, D1, exA, exB, exA, D4, D1, D1, D1, D1, D1, D1, D1, D1, D1][i]) r c * exUs i c + 1 / 2⌋ : ℤ)| ≤ 1 / 4 := by
      decide +kernel
    intro i h r c hrc
    exact ⟨(this ⟨i, h⟩ r c hrc).1, fun k => away_of (this ⟨i, h⟩ r c hrc).2 k⟩

end TDP.Frenet
