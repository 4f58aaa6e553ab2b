import Verif.Boxes.Spec
import Mathlib.Tactic.Linarith
import Mathlib.Tactic.Positivity
import Mathlib.Tactic.NormNum
import Mathlib.Tactic.Ring
/-! Readable forms of the box operations. -/
namespace TDP.Boxes

theorem forall3 {p : Fin 3 → Prop} : (∀ i, p i) ↔ p 0 ∧ p 1 ∧ p 2 := by
  constructor
  · intro h; exact ⟨h 0, h 1, h 2⟩
  · rintro ⟨h0, h1, h2⟩ i
    fin_cases i
    · exact h0
    · exact h1
    · exact h2

section Order
variable {α : Type} [LinearOrder α]

theorem containsPt_iff (b : Box α) (p : Pt α) : b.containsPt p = true ↔ b.Mem p := by
  unfold Box.containsPt Box.Mem
  rw [forall3]
  simp [and_assoc]

theorem containsBox_iff (b c : Box α) : b.containsBox c = true ↔ c.Le b := by
  unfold Box.containsBox Box.Le
  rw [forall3]
  simp [and_assoc]

theorem intersect_iff (a o : Box α) : a.intersect o = true ↔ ∀ i, a.min i < o.max i ∧ o.min i < a.max i := by
  unfold Box.intersect
  rw [forall3]
  simp only [Bool.not_eq_true', Bool.or_eq_false_iff, decide_eq_false_iff_not, not_le, ge_iff_le]
  tauto

theorem addPt_min (b : Box α) (p : Pt α) (i : Fin 3) : (b.addPt p).min i = min (b.min i) (p i) := by
  unfold Box.addPt
  simp only
  split
  · rename_i h; rw [min_eq_right (le_of_lt h)]
  · rename_i h; rw [min_eq_left (not_lt.mp h)]

theorem addPt_max (b : Box α) (p : Pt α) (i : Fin 3) : (b.addPt p).max i = max (b.max i) (p i) := by
  unfold Box.addPt
  simp only
  split
  · rename_i h; rw [max_eq_right (le_of_lt h)]
  · rename_i h; rw [max_eq_left (not_lt.mp h)]

theorem addBox_min (b c : Box α) (i : Fin 3) : (b.addBox c).min i = min (b.min i) (c.min i) := by
  unfold Box.addBox
  simp only
  split
  · rename_i h; rw [min_eq_right (le_of_lt h)]
  · rename_i h; rw [min_eq_left (not_lt.mp h)]

theorem addBox_max (b c : Box α) (i : Fin 3) : (b.addBox c).max i = max (b.max i) (c.max i) := by
  unfold Box.addBox
  simp only
  split
  · rename_i h; rw [max_eq_right (le_of_lt h)]
  · rename_i h; rw [max_eq_left (not_lt.mp h)]

theorem Box.Le.trans {a b c : Box α} (h : a.Le b) (k : b.Le c) : a.Le c :=
  fun i => ⟨le_trans (k i).1 (h i).1, le_trans (h i).2 (k i).2⟩

theorem Box.Le.refl (a : Box α) : a.Le a := fun _ => ⟨le_rfl, le_rfl⟩

/-- The box is inside the updated one, and so is what was added. -/
theorem upd_le (b : Box α) (u : Upd α) : b.Le (b.upd u) := by
  intro i
  cases u with
  | pt p => simp only [Box.upd, addPt_min, addPt_max]; exact ⟨min_le_left _ _, le_max_left _ _⟩
  | box c => simp only [Box.upd, addBox_min, addBox_max]; exact ⟨min_le_left _ _, le_max_left _ _⟩

theorem Upd.In.mono {u : Upd α} {b c : Box α} (h : u.In b) (k : b.Le c) : u.In c := by
  cases u with
  | pt p => exact fun i => ⟨le_trans (k i).1 (h i).1, le_trans (h i).2 (k i).2⟩
  | box d => exact Box.Le.trans h k

theorem upd_in (b : Box α) (u : Upd α) : u.In (b.upd u) := by
  cases u with
  | pt p =>
    intro i
    simp only [Box.upd, addPt_min, addPt_max]
    exact ⟨min_le_right _ _, le_max_right _ _⟩
  | box c =>
    intro i
    simp only [Box.upd, addBox_min, addBox_max]
    exact ⟨min_le_right _ _, le_max_right _ _⟩

theorem upd_least {b c : Box α} {u : Upd α} (h : b.Le c) (k : u.In c) : (b.upd u).Le c := by
  intro i
  cases u with
  | pt p =>
    simp only [Box.upd, addPt_min, addPt_max]
    exact ⟨le_min (h i).1 (k i).1, max_le (h i).2 (k i).2⟩
  | box d =>
    simp only [Box.upd, addBox_min, addBox_max]
    exact ⟨le_min (h i).1 (k i).1, max_le (h i).2 (k i).2⟩

theorem foldl_le (b : Box α) (us : List (Upd α)) : b.Le (us.foldl Box.upd b) := by
  induction us generalizing b with
  | nil => exact Box.Le.refl b
  | cons u us ih => exact Box.Le.trans (upd_le b u) (ih _)

theorem foldl_in (b : Box α) (us : List (Upd α)) : ∀ u ∈ us, u.In (us.foldl Box.upd b) := by
  induction us generalizing b with
  | nil => simp
  | cons v us ih =>
    intro u hu
    rcases List.mem_cons.mp hu with rfl | hu
    · exact (upd_in b u).mono (foldl_le _ us)
    · exact ih _ u hu

theorem foldl_least (b c : Box α) (us : List (Upd α)) (hb : b.Le c) (h : ∀ u ∈ us, u.In c) :
    (us.foldl Box.upd b).Le c := by
  induction us generalizing b with
  | nil => exact hb
  | cons v us ih =>
    exact ih _ (upd_least hb (h v List.mem_cons_self)) (fun u hu => h u (List.mem_cons_of_mem _ hu))

end Order

section Arith
variable (F : Fp)

/-- What one axis adds to `mindist`. -/
def gap (a b : Box ℚ) (i : Fin 3) : ℚ :=
  if F.rnd (a.max i - b.min i) < 0 then F.rnd (F.rnd (a.max i - b.min i) * F.rnd (a.max i - b.min i))
  else if F.rnd (a.min i - b.max i) > 0 then F.rnd (F.rnd (a.min i - b.max i) * F.rnd (a.min i - b.max i))
  else 0

/-- What one axis adds to `maxdist`. -/
def far (a b : Box ℚ) (i : Fin 3) : ℚ :=
  F.rnd (F.rnd (F.rnd (F.rnd (a.min i - b.max i) + F.rnd (a.max i - b.min i)) *
    F.rnd (F.rnd (a.min i - b.max i) + F.rnd (a.max i - b.min i))) / 4)

/-- Accumulating three terms from 0. -/
def sum3 (t : Fin 3 → ℚ) : ℚ := F.rnd (F.rnd (F.rnd (t 0) + t 1) + t 2)

theorem sum3_mono {s t : Fin 3 → ℚ} (h : ∀ i, s i ≤ t i) : sum3 F s ≤ sum3 F t := by
  unfold sum3
  apply F.mono
  have := F.mono (add_le_add (F.mono (h 0)) (h 1))
  exact add_le_add this (h 2)

theorem gap_nonneg (a b : Box ℚ) (i : Fin 3) : 0 ≤ gap F a b i := by
  unfold gap
  split
  · exact F.nonneg (mul_self_nonneg _)
  · split
    · exact F.nonneg (mul_self_nonneg _)
    · exact le_rfl

theorem far_nonneg (a b : Box ℚ) (i : Fin 3) : 0 ≤ far F a b i := by
  unfold far
  apply F.nonneg
  have := F.nonneg (mul_self_nonneg (F.rnd (F.rnd (a.min i - b.max i) + F.rnd (a.max i - b.min i))))
  linarith

theorem maxdist_eq (a b : Box ℚ) : (a.distance F b).maxdist = sum3 F (far F a b) := by
  unfold Box.distance sum3 far
  simp only [List.foldl_cons, List.foldl_nil, distStep, zero_add, F.idem]

theorem mindist_step (a b : Box ℚ) (r : Range) (i : Fin 3) (h : F.rnd r.mindist = r.mindist) :
    (distStep F a b r i).mindist = F.rnd (r.mindist + gap F a b i) := by
  unfold distStep gap
  simp only
  split
  · rfl
  · split
    · rfl
    · rw [add_zero, h]

theorem mindist_eq (a b : Box ℚ) : (a.distance F b).mindist = sum3 F (gap F a b) := by
  unfold Box.distance sum3
  simp only [List.foldl_cons, List.foldl_nil]
  have e0 : (distStep F a b ⟨0, 0⟩ 0).mindist = F.rnd (gap F a b 0) := by
    rw [mindist_step F a b _ 0 (by simpa using F.zero)]
    simp
  have e1 : (distStep F a b (distStep F a b ⟨0, 0⟩ 0) 1).mindist = F.rnd (F.rnd (gap F a b 0) + gap F a b 1) := by
    rw [mindist_step F a b _ 1 (by rw [e0, F.idem]), e0]
  rw [mindist_step F a b _ 2 (by rw [e1, F.idem]), e1]

theorem ptDist_eq (p q : Pt ℚ) :
    ptDist F p q = sum3 F (fun t => F.rnd (F.rnd (p t - q t) * F.rnd (p t - q t))) := by
  unfold ptDist sum3
  simp only [List.foldl_cons, List.foldl_nil, zero_add]

theorem vdist2_eq (p q : Pt ℚ) : vdist2 F p q = ptDist F p q := by
  rw [ptDist_eq]
  unfold vdist2 sum3
  simp only [F.idem]

/-- Rounded squares grow with the number, on the positive side. -/
theorem sq_mono {x y : ℚ} (h0 : 0 ≤ x) (h : x ≤ y) : F.rnd (x * x) ≤ F.rnd (y * y) :=
  F.mono (mul_self_le_mul_self h0 h)

/-- ... and on the negative side. -/
theorem sq_anti {x y : ℚ} (h0 : y ≤ 0) (h : x ≤ y) : F.rnd (y * y) ≤ F.rnd (x * x) :=
  F.mono (by nlinarith)

/-- The gap of two boxes is at most the gap of two boxes inside them. -/
theorem gap_anti {a a' b b' : Box ℚ} (i : Fin 3) (ha1 : a.min i ≤ a'.min i) (ha2 : a'.max i ≤ a.max i)
    (hb1 : b.min i ≤ b'.min i) (hb2 : b'.max i ≤ b.max i)
    (hva : a'.min i ≤ a'.max i) (hvb : b'.min i ≤ b'.max i) : gap F a b i ≤ gap F a' b' i := by
  have m2 : F.rnd (a'.max i - b'.min i) ≤ F.rnd (a.max i - b.min i) := F.mono (by linarith)
  have m1 : F.rnd (a.min i - b.max i) ≤ F.rnd (a'.min i - b'.max i) := F.mono (by linarith)
  have m12 : F.rnd (a'.min i - b'.max i) ≤ F.rnd (a'.max i - b'.min i) := F.mono (by linarith)
  conv_lhs => unfold gap
  split
  · rename_i h
    have h' : F.rnd (a'.max i - b'.min i) < 0 := lt_of_le_of_lt m2 h
    unfold gap
    rw [if_pos h']
    exact sq_anti F (le_of_lt h) m2
  · split
    · rename_i h1 h2
      have h' : F.rnd (a'.min i - b'.max i) > 0 := lt_of_lt_of_le h2 m1
      unfold gap
      rw [if_neg (by linarith), if_pos h']
      exact sq_mono F (le_of_lt h2) m1
    · exact gap_nonneg F a' b' i

/-- The gap of two one-point boxes is the rounded square. -/
theorem gap_pt (p q : Pt ℚ) (i : Fin 3) :
    gap F ⟨p, p⟩ ⟨q, q⟩ i = F.rnd (F.rnd (p i - q i) * F.rnd (p i - q i)) := by
  unfold gap
  simp only
  split
  · rfl
  · split
    · rfl
    · have : F.rnd (p i - q i) = 0 := le_antisymm (by linarith) (by linarith)
      rw [this, mul_zero, F.zero]

theorem gap_symm (a b : Box ℚ) (i : Fin 3) (hva : a.min i ≤ a.max i) (hvb : b.min i ≤ b.max i) :
    gap F a b i = gap F b a i := by
  have e1 : F.rnd (b.max i - a.min i) = -F.rnd (a.min i - b.max i) := by rw [← F.neg]; congr 1; ring
  have e2 : F.rnd (b.min i - a.max i) = -F.rnd (a.max i - b.min i) := by rw [← F.neg]; congr 1; ring
  have m12 : F.rnd (a.min i - b.max i) ≤ F.rnd (a.max i - b.min i) := F.mono (by linarith)
  unfold gap
  rw [e1, e2]
  by_cases h1 : F.rnd (a.max i - b.min i) < 0
  · rw [if_pos h1, if_neg (by linarith), if_pos (by linarith), neg_mul_neg]
  · rw [if_neg h1]
    by_cases h2 : F.rnd (a.min i - b.max i) > 0
    · rw [if_pos h2, if_pos (by linarith), neg_mul_neg]
    · rw [if_neg h2, if_neg (by linarith), if_neg (by linarith)]

theorem far_symm (a b : Box ℚ) (i : Fin 3) : far F a b i = far F b a i := by
  have e1 : F.rnd (b.max i - a.min i) = -F.rnd (a.min i - b.max i) := by rw [← F.neg]; congr 1; ring
  have e2 : F.rnd (b.min i - a.max i) = -F.rnd (a.max i - b.min i) := by rw [← F.neg]; congr 1; ring
  unfold far
  rw [e1, e2, show -F.rnd (a.max i - b.min i) + -F.rnd (a.min i - b.max i) =
    -(F.rnd (a.min i - b.max i) + F.rnd (a.max i - b.min i)) by ring, F.neg, neg_mul_neg]

theorem distance_anti {a a' b b' : Box ℚ} (ha : a'.Le a) (hb : b'.Le b) (hva : a'.Valid) (hvb : b'.Valid) :
    (a.distance F b).mindist ≤ (a'.distance F b').mindist := by
  rw [mindist_eq, mindist_eq]
  exact sum3_mono F (fun i => gap_anti F i (ha i).1 (ha i).2 (hb i).1 (hb i).2 (hva i) (hvb i))

end Arith

end TDP.Boxes
