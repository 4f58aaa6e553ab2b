import Verif.Boxes.Lemmas
/-!
# C16-C20: bounding boxes, intersection, distance ranges
-/
namespace TDP.Boxes

section Order
variable {α : Type} [LinearOrder α]

/-- C16. Whatever points and boxes a default-constructed box is updated with, in whatever order: it
contains each of them (by the library's own `contains`), and every box that contains them all contains it. -/
theorem C16_bounding_box [BoundedOrder α] (us : List (Upd α)) :
    let b := us.foldl Box.upd emptyBox
    (∀ p, Upd.pt p ∈ us → b.containsPt p = true) ∧
    (∀ c, Upd.box c ∈ us → b.containsBox c = true) ∧
    ∀ c : Box α, (∀ p, Upd.pt p ∈ us → c.containsPt p = true) → (∀ d, Upd.box d ∈ us → c.containsBox d = true) →
      c.containsBox b = true := by
  intro b
  refine ⟨fun p hp => ?_, fun c hc => ?_, fun c hp hc => ?_⟩
  · rw [containsPt_iff]; exact foldl_in emptyBox us _ hp
  · rw [containsBox_iff]; exact foldl_in emptyBox us _ hc
  · rw [containsBox_iff]
    refine foldl_least emptyBox c us (fun i => ⟨le_top, bot_le⟩) (fun u hu => ?_)
    cases u with
    | pt p => exact (containsPt_iff c p).mp (hp p hu)
    | box d => exact (containsBox_iff c d).mp (hc d hu)

/-- C16, order independence: the box depends only on the set of points and boxes added. -/
theorem C16_order_independent [BoundedOrder α] (us vs : List (Upd α)) (h : ∀ u, u ∈ us ↔ u ∈ vs) :
    us.foldl Box.upd emptyBox = vs.foldl Box.upd emptyBox := by
  have key : ∀ us vs : List (Upd α), (∀ u, u ∈ us → u ∈ vs) →
      (us.foldl Box.upd emptyBox).Le (vs.foldl Box.upd emptyBox) := by
    intro us vs h
    exact foldl_least _ _ us (fun i => ⟨le_top, bot_le⟩) (fun u hu => foldl_in _ vs u (h u hu))
  have h1 := key us vs (fun u => (h u).mp)
  have h2 := key vs us (fun u => (h u).mpr)
  have e : ∀ a b : Box α, a.Le b → b.Le a → a = b := by
    rintro ⟨a1, a2⟩ ⟨b1, b2⟩ k1 k2
    congr 1
    · funext i; exact le_antisymm (k2 i).1 (k1 i).1
    · funext i; exact le_antisymm (k1 i).2 (k2 i).2
  exact e _ _ h1 h2

example : (emptyBox : Box (WithBot (WithTop ℚ))).min 0 = ⊤ := rfl
example : ([Upd.pt (fun _ => (1 : Fin 5)), .pt (pt3 0 2 1), .box ⟨fun _ => 1, (pt3 1 1 3)⟩].foldl Box.upd emptyBox).max =
    (pt3 1 2 3) := by funext i; fin_cases i <;> decide

/-- C17. `intersect` says that the intervals overlap in more than an end point on each axis. -/
theorem C17_intersect_iff (a b : Box α) :
    a.intersect b = true ↔ ∀ i, a.min i < b.max i ∧ b.min i < a.max i := intersect_iff a b

/-- C17. The answer does not depend on the order of the arguments. -/
theorem C17_symmetric (a b : Box α) : a.intersect b = b.intersect a := by
  apply Bool.eq_iff_iff.mpr
  rw [intersect_iff, intersect_iff]
  constructor <;> intro h i <;> exact ⟨(h i).2, (h i).1⟩

/-- C17. For boxes of positive extent (over a dense order, such as the reals) the answer is yes exactly
when some point is strictly inside both. -/
theorem C17_common_interior_point [DenselyOrdered α] (a b : Box α) (ha : a.Solid) (hb : b.Solid) :
    a.intersect b = true ↔
      ∃ p : Pt α, ∀ i, (a.min i < p i ∧ p i < a.max i) ∧ (b.min i < p i ∧ p i < b.max i) := by
  rw [intersect_iff]
  constructor
  · intro h
    have : ∀ i, ∃ x, max (a.min i) (b.min i) < x ∧ x < min (a.max i) (b.max i) := by
      intro i
      apply exists_between
      rw [max_lt_iff, lt_min_iff, lt_min_iff]
      exact ⟨⟨ha i, (h i).1⟩, ⟨(h i).2, hb i⟩⟩
    choose p hp using this
    refine ⟨p, fun i => ?_⟩
    have h1 := max_lt_iff.mp (hp i).1
    have h2 := lt_min_iff.mp (hp i).2
    exact ⟨⟨h1.1, h2.1⟩, ⟨h1.2, h2.2⟩⟩
  · rintro ⟨p, hp⟩ i
    exact ⟨lt_trans (hp i).1.1 (hp i).2.2, lt_trans (hp i).2.1 (hp i).1.2⟩

/-- C17, outside its range: a box that is flat on some axis does not intersect itself, although it does
intersect boxes it passes through. -/
theorem C17_flat_box_misses_itself (a : Box α) (i : Fin 3) (h : a.min i = a.max i) : a.intersect a = false := by
  rw [← Bool.not_eq_true, intersect_iff]
  intro hc
  have := (hc i).1
  rw [h] at this
  exact lt_irrefl _ this

example : (⟨fun _ => 0, fun _ => 2⟩ : Box ℚ).Solid := fun _ => by norm_num
example : (⟨fun _ => 0, fun _ => 2⟩ : Box ℚ).intersect ⟨fun _ => 1, fun _ => 3⟩ = true := by decide +kernel
example : (⟨fun _ => 0, fun _ => 2⟩ : Box ℚ).intersect ⟨fun _ => 2, fun _ => 3⟩ = false := by decide +kernel

end Order

/-- C18. For every rounding behaviour of the elementary operations, `mindist` is at most the computed
distance of any two points of the boxes, by either of the library's two point-distance functions. -/
theorem C18_mindist_lower_bound (F : Fp) (a b : Box ℚ) (p q : Pt ℚ)
    (hp : a.containsPt p = true) (hq : b.containsPt q = true) :
    (a.distance F b).mindist ≤ ptDist F p q ∧ (a.distance F b).mindist ≤ vdist2 F p q := by
  rw [containsPt_iff] at hp hq
  rw [vdist2_eq, and_self]
  have h := distance_anti F (a := a) (a' := ⟨p, p⟩) (b := b) (b' := ⟨q, q⟩) (fun i => hp i) (fun i => hq i)
    (fun _ => le_rfl) (fun _ => le_rfl)
  refine le_trans h (le_of_eq ?_)
  rw [mindist_eq, ptDist_eq]
  congr 1
  funext i
  exact gap_pt F p q i

theorem gap_exact (a b : Box ℚ) (i : Fin 3) : gap Fp.exact a b i =
    if a.max i - b.min i < 0 then (a.max i - b.min i) * (a.max i - b.min i)
    else if a.min i - b.max i > 0 then (a.min i - b.max i) * (a.min i - b.max i) else 0 := rfl

/-- C18, exact arithmetic: `mindist` is the smallest squared distance of points of the two boxes. -/
theorem C18_mindist_exact (a b : Box ℚ) (ha : a.Valid) (hb : b.Valid) :
    (∀ p q, a.Mem p → b.Mem q → (a.distance Fp.exact b).mindist ≤ dist2 p q) ∧
    ∃ p q, a.Mem p ∧ b.Mem q ∧ (a.distance Fp.exact b).mindist = dist2 p q := by
  have hd : ∀ p q, ptDist Fp.exact p q = dist2 p q := by
    intro p q
    rw [ptDist_eq]
    simp only [sum3, Fp.exact, id_eq, dist2]
    ring
  constructor
  · intro p q hp hq
    have := (C18_mindist_lower_bound Fp.exact a b p q ((containsPt_iff a p).mpr hp) ((containsPt_iff b q).mpr hq)).1
    rwa [hd] at this
  · have key : ∀ i, ∃ x y : ℚ, (a.min i ≤ x ∧ x ≤ a.max i) ∧ (b.min i ≤ y ∧ y ≤ b.max i) ∧
        gap Fp.exact a b i = (x - y) ^ 2 := by
      intro i
      rw [gap_exact]
      by_cases h2 : a.max i - b.min i < 0
      · exact ⟨a.max i, b.min i, ⟨ha i, le_rfl⟩, ⟨le_rfl, hb i⟩, by rw [if_pos h2]; ring⟩
      · by_cases h1 : a.min i - b.max i > 0
        · exact ⟨a.min i, b.max i, ⟨le_rfl, ha i⟩, ⟨hb i, le_rfl⟩, by rw [if_neg h2, if_pos h1]; ring⟩
        · refine ⟨max (a.min i) (b.min i), max (a.min i) (b.min i), ⟨le_max_left _ _, max_le (ha i) (by linarith)⟩,
            ⟨le_max_right _ _, max_le (by linarith) (hb i)⟩, by rw [if_neg h2, if_neg h1]; ring⟩
    choose p q hp hq hg using key
    refine ⟨p, q, hp, hq, ?_⟩
    rw [mindist_eq]
    simp only [sum3, Fp.exact, id_eq, dist2] at hg ⊢
    rw [hg 0, hg 1, hg 2]

example : (⟨(pt3 0 0 0), (pt3 1 1 1)⟩ : Box ℚ).containsPt (pt3 1 0 1) = true ∧
    ((⟨(pt3 0 0 0), (pt3 1 1 1)⟩ : Box ℚ).distance Fp.exact ⟨(pt3 3 0 0), (pt3 4 1 1)⟩) = ⟨4, 9⟩ := by decide +kernel

/-- C19. `mindist ≤ maxdist` for valid boxes, for any rounding that commutes with doubling (floating point
without underflow), in particular in exact arithmetic. -/
theorem C19_mindist_le_maxdist (F : Fp) (hF : ∀ x, F.rnd (2 * x) = 2 * F.rnd x) (a b : Box ℚ) (ha : a.Valid)
    (hb : b.Valid) : (a.distance F b).mindist ≤ (a.distance F b).maxdist := by
  rw [mindist_eq, maxdist_eq]
  apply sum3_mono
  intro i
  have m12 : F.rnd (a.min i - b.max i) ≤ F.rnd (a.max i - b.min i) := F.mono (by linarith [ha i, hb i])
  have key : ∀ x : ℚ, F.rnd x = x → F.rnd (F.rnd (F.rnd (2 * x) * F.rnd (2 * x)) / 4) = F.rnd (x * x) := by
    intro x hx
    rw [hF, hx, show 2 * x * (2 * x) = 2 * (2 * (x * x)) by ring, hF, hF,
      show 2 * (2 * F.rnd (x * x)) / 4 = F.rnd (x * x) by ring, F.idem]
  have four : ∀ {x y : ℚ}, x ≤ y → F.rnd (x / 4) ≤ F.rnd (y / 4) := fun h => F.mono (by linarith)
  unfold gap
  split
  · rename_i h
    rw [← key _ (F.idem _)]
    unfold far
    apply four
    apply sq_anti F
    · exact F.nonpos (by linarith)
    · exact F.mono (by linarith)
  · split
    · rename_i h1 h2
      rw [← key _ (F.idem _)]
      unfold far
      apply four
      apply sq_mono F
      · exact F.nonneg (by linarith)
      · exact F.mono (by linarith)
    · exact far_nonneg F a b i

theorem C19_mindist_le_maxdist_exact (a b : Box ℚ) (ha : a.Valid) (hb : b.Valid) :
    (a.distance Fp.exact b).mindist ≤ (a.distance Fp.exact b).maxdist :=
  C19_mindist_le_maxdist Fp.exact (fun _ => rfl) a b ha hb

/-- C19. In exact arithmetic `mindist` is 0 exactly when the closed boxes share a point. -/
theorem C19_mindist_zero_iff (a b : Box ℚ) (ha : a.Valid) (hb : b.Valid) :
    (a.distance Fp.exact b).mindist = 0 ↔ ∃ p, a.Mem p ∧ b.Mem p := by
  constructor
  · intro h
    obtain ⟨p, q, hp, hq, e⟩ := (C18_mindist_exact a b ha hb).2
    rw [h] at e
    unfold dist2 at e
    have h0 : p 0 = q 0 := by nlinarith [sq_nonneg (p 0 - q 0), sq_nonneg (p 1 - q 1), sq_nonneg (p 2 - q 2)]
    have h1 : p 1 = q 1 := by nlinarith [sq_nonneg (p 0 - q 0), sq_nonneg (p 1 - q 1), sq_nonneg (p 2 - q 2)]
    have h2 : p 2 = q 2 := by nlinarith [sq_nonneg (p 0 - q 0), sq_nonneg (p 1 - q 1), sq_nonneg (p 2 - q 2)]
    have : p = q := by funext i; fin_cases i <;> assumption
    exact ⟨p, hp, this ▸ hq⟩
  · rintro ⟨p, hp, hq⟩
    have h1 := (C18_mindist_exact a b ha hb).1 p p hp hq
    have h2 : 0 ≤ (a.distance Fp.exact b).mindist := by
      rw [mindist_eq]
      simp only [sum3, Fp.exact, id_eq]
      have := fun i => gap_nonneg Fp.exact a b i
      simp only [Fp.exact] at this
      linarith [this 0, this 1, this 2]
    have h3 : dist2 p p = 0 := by unfold dist2; ring
    linarith

/-- C19. The range does not depend on the order of the two boxes, with rounding. -/
theorem C19_symmetric (F : Fp) (a b : Box ℚ) (ha : a.Valid) (hb : b.Valid) : a.distance F b = b.distance F a := by
  have h1 : (a.distance F b).mindist = (b.distance F a).mindist := by
    rw [mindist_eq, mindist_eq]; congr 1; funext i; exact gap_symm F a b i (ha i) (hb i)
  have h2 : (a.distance F b).maxdist = (b.distance F a).maxdist := by
    rw [maxdist_eq, maxdist_eq]; congr 1; funext i; exact far_symm F a b i
  generalize a.distance F b = x at *
  generalize b.distance F a = y at *
  cases x; cases y; simp_all

/-- C19. Two ranges with `mindist ≤ maxdist` are in exactly one of the relations `<`, `==`, `>`. -/
theorem C19_trichotomy (r d : Range) (hr : r.mindist ≤ r.maxdist) (hd : d.mindist ≤ d.maxdist) :
    (r.lt d = true ∧ r.eq d = false ∧ r.gt d = false) ∨
    (r.lt d = false ∧ r.eq d = true ∧ r.gt d = false) ∨
    (r.lt d = false ∧ r.eq d = false ∧ r.gt d = true) := by
  unfold Range.lt Range.eq Range.gt
  by_cases h1 : r.mindist > d.maxdist <;> by_cases h2 : r.maxdist < d.mindist
  · linarith
  · simp [h1, h2]
  · simp [h1, h2]
  · simp [h1, h2]

/-- C19. What the comparisons promise about any two values inside the ranges. -/
theorem C19_comparison_sound (r d : Range) (x y : ℚ) (hx : r.mindist ≤ x ∧ x ≤ r.maxdist)
    (hy : d.mindist ≤ y ∧ y ≤ d.maxdist) : (r.lt d = true → x < y) ∧ (r.gt d = true → y < x) := by
  unfold Range.lt Range.gt
  rw [decide_eq_true_iff, decide_eq_true_iff]
  constructor <;> intro h <;> linarith [hx.1, hx.2, hy.1, hy.2]

example : (⟨fun _ => 0, fun _ => 1⟩ : Box ℚ).Valid := fun _ => by norm_num
example : (Range.lt ⟨1, 2⟩ ⟨3, 4⟩, Range.eq ⟨1, 3⟩ ⟨3, 4⟩, Range.gt ⟨5, 6⟩ ⟨3, 4⟩) = (true, true, true) := by decide +kernel

/-- C20, what holds: if each object contains the centre of its box then some two points of the objects are
at most `maxdist` apart (exact arithmetic). Missing for the full property: objects that avoid the centre,
for which it is false (next theorem). -/
theorem C20_maxdist_upper_bound_partial (a b : Box ℚ) (A B : Pt ℚ → Prop)
    (hA : A (fun i => (a.min i + a.max i) / 2)) (hB : B (fun i => (b.min i + b.max i) / 2)) :
    ∃ p q, A p ∧ B q ∧ dist2 p q ≤ (a.distance Fp.exact b).maxdist := by
  refine ⟨_, _, hA, hB, le_of_eq ?_⟩
  rw [maxdist_eq]
  simp only [sum3, far, Fp.exact, id_eq, dist2]
  ring

/-- An L-shaped path from (0,0,0) over (4,0,0) to (4,4,0). -/
def ell : Pt ℚ → Prop := fun p => p 2 = 0 ∧ ((0 ≤ p 0 ∧ p 0 ≤ 4 ∧ p 1 = 0) ∨ (p 0 = 4 ∧ 0 ≤ p 1 ∧ p 1 ≤ 4))

/-- C20 is false of the code: an L-shaped object and a point at the centre of its bounding box. Both boxes
are tight, `maxdist` is 0, but every point of the L is at squared distance at least 4 from the point. -/
theorem C20_maxdist_counterexample :
    ∃ (A B : Pt ℚ → Prop) (a b : Box ℚ), BoundedBy A a ∧ BoundedBy B b ∧
      ∀ p q, A p → B q → (a.distance Fp.exact b).maxdist + 4 ≤ dist2 p q := by
  refine ⟨ell, fun p => p = (pt3 2 2 0), ⟨(pt3 0 0 0), (pt3 4 4 0)⟩, ⟨(pt3 2 2 0), (pt3 2 2 0)⟩, ⟨?_, ?_, ?_⟩, ⟨?_, ?_, ?_⟩, ?_⟩
  · rintro p ⟨h2, h⟩
    refine forall3.mpr ⟨?_, ?_, ?_⟩
    · rcases h with h | h
      · exact ⟨h.1, h.2.1⟩
      · exact ⟨by rw [h.1]; simp [pt3], by rw [h.1]; simp [pt3]⟩
    · rcases h with h | h
      · exact ⟨by rw [h.2.2]; simp [pt3], by rw [h.2.2]; simp [pt3]⟩
      · exact ⟨h.2.1, h.2.2⟩
    · exact ⟨by rw [h2]; simp [pt3], by rw [h2]; simp [pt3]⟩
  · refine forall3.mpr ⟨⟨(pt3 0 0 0), ?_, rfl⟩, ⟨(pt3 0 0 0), ?_, rfl⟩, ⟨(pt3 0 0 0), ?_, rfl⟩⟩ <;>
      exact ⟨rfl, Or.inl ⟨by simp [pt3], by simp [pt3], rfl⟩⟩
  · refine forall3.mpr ⟨⟨(pt3 4 4 0), ?_, rfl⟩, ⟨(pt3 4 4 0), ?_, rfl⟩, ⟨(pt3 4 4 0), ?_, rfl⟩⟩ <;>
      exact ⟨rfl, Or.inr ⟨rfl, by simp [pt3], by simp [pt3]⟩⟩
  · rintro p rfl i; exact ⟨le_rfl, le_rfl⟩
  · intro i; exact ⟨_, rfl, rfl⟩
  · intro i; exact ⟨_, rfl, rfl⟩
  · rintro p q ⟨h2, h⟩ rfl
    have e : ((⟨(pt3 0 0 0), (pt3 4 4 0)⟩ : Box ℚ).distance Fp.exact ⟨(pt3 2 2 0), (pt3 2 2 0)⟩).maxdist = 0 := by
      decide +kernel
    rw [e, zero_add]
    unfold dist2
    have q0 : (pt3 2 2 0 : Pt ℚ) 0 = 2 := rfl
    have q1 : (pt3 2 2 0 : Pt ℚ) 1 = 2 := rfl
    have q2 : (pt3 2 2 0 : Pt ℚ) 2 = 0 := rfl
    rw [q0, q1, q2]
    rcases h with h | h
    · rw [h.2.2]; nlinarith [sq_nonneg (p 0 - 2), sq_nonneg (p 2)]
    · rw [h.1]; nlinarith [sq_nonneg (p 1 - 2), sq_nonneg (p 2)]

end TDP.Boxes
