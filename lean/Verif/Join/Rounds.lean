import Verif.Join.Lemmas
/-! Lemmas about nearest-neighbour rounds: the running index of the rounds is aligned with the flattened pairs, and refinement
keeps the ranges right, for any array of distances. -/
namespace TDP.Join
open TDP.Boxes TDP.Octree

theorem distancesOf_aligned (r : Round) (es : List Entry) (k : Nat) (p : VPair) (h : (flatPairs es)[k]? = some p) :
    distancesOf r es k = r.kernel p.v1 p.v2 := by
  unfold distancesOf
  rw [h]

/-! ## Refinement is right -/

variable {P U : Voxel → Voxel → Prop} {m : ℚ}

/-- What is asked of the distances of the pairs `ps`, which start at position `i`. -/
def Reads (P U : Voxel → Voxel → Prop) (m : ℚ) (top : Bool) (sized : VPair → Bool) (dist : Nat → ℚ) (i : Nat)
    (ps : List VPair) : Prop :=
  ∀ (k : Nat) p, ps[k]? = some p → U p.v1 p.v2 → sized p = true →
    m ≤ dist (i + k) ∧ (top = true → P p.v1 p.v2 → dist (i + k) ≤ m)

theorem reads_left {top : Bool} {sized : VPair → Bool} {dist : Nat → ℚ} {i : Nat} {ps qs : List VPair}
    (h : Reads P U m top sized dist i (ps ++ qs)) : Reads P U m top sized dist i ps := by
  intro k p hp
  refine h k p ?_
  rw [List.getElem?_append_left (List.getElem?_eq_some_iff.1 hp).1]; exact hp

theorem reads_right {top : Bool} {sized : VPair → Bool} {dist : Nat → ℚ} {i : Nat} {ps qs : List VPair}
    (h : Reads P U m top sized dist i (ps ++ qs)) : Reads P U m top sized dist (i + ps.length) qs := by
  intro k p hp
  rw [Nat.add_assoc]
  refine h _ p ?_
  rw [List.getElem?_append_right (by omega), Nat.add_sub_cancel_left]; exact hp

/-- A pair with a new range. -/
def SameV (x x' : VPair) : Prop := x'.v1 = x.v1 ∧ x'.v2 = x.v2
/-- A candidate with new ranges of its pairs. -/
def SameC (c c' : Cand) : Prop := c'.mesh = c.mesh ∧ c'.distance = c.distance ∧ List.Forall₂ SameV c.pairs c'.pairs

theorem nnPairs_index (top : Bool) (sized : VPair → Bool) (dist : Nat → ℚ) : ∀ (ps : List VPair) (i : Nat) (mc : RangeT),
    (nnPairs top sized dist (i, mc) ps).1.1 = i + ps.length ∧
    List.Forall₂ SameV ps (nnPairs top sized dist (i, mc) ps).2
  | [], i, mc => ⟨rfl, .nil⟩
  | x :: xs, i, mc => by
      unfold nnPairs
      by_cases hz : sized x = true
      · rw [if_pos hz]
        obtain ⟨a, b⟩ := nnPairs_index top sized dist xs (i + 1)
          (if mc.maxdist > ((refine top x.dist (dist i)).maxdist : WithTop ℚ) then ofRange (refine top x.dist (dist i)) else mc)
        refine ⟨?_, .cons ⟨rfl, rfl⟩ b⟩
        simp only [List.length_cons]
        rw [a]; omega
      · rw [if_neg hz]
        obtain ⟨a, b⟩ := nnPairs_index top sized dist xs (i + 1) mc
        refine ⟨?_, .cons ⟨rfl, rfl⟩ b⟩
        simp only [List.length_cons]
        rw [a]; omega

theorem refine_good {top : Bool} {x : VPair} {d : ℚ} (h : GoodPair P U m x) (hd : m ≤ d ∧ (top = true → P x.v1 x.v2 → d ≤ m)) :
    GoodPair P U m { x with dist := refine top x.dist d } := by
  obtain ⟨a, b, c⟩ := h
  cases top with
  | true => exact ⟨a, fun hP => hd.2 rfl hP, hd.1⟩
  | false => exact ⟨a, b, le_min c hd.1⟩

theorem nnPairs_good (top : Bool) (sized : VPair → Bool) (dist : Nat → ℚ) : ∀ (ps : List VPair) (i : Nat) (mc : RangeT),
    Reads P U m top sized dist i ps → (∀ x ∈ ps, GoodPair P U m x) → (m : WithTop ℚ) ≤ mc.maxdist →
    (m : WithTop ℚ) ≤ (nnPairs top sized dist (i, mc) ps).1.2.maxdist ∧
    (∀ x ∈ (nnPairs top sized dist (i, mc) ps).2, GoodPair P U m x)
  | [], i, mc, _, _, h => ⟨h, by simp [nnPairs]⟩
  | x :: xs, i, mc, hr, hg, h => by
      have hr' : Reads P U m top sized dist (i + 1) xs := reads_right (ps := [x]) hr
      have hg' : ∀ y ∈ xs, GoodPair P U m y := fun y hy => hg y (List.mem_cons_of_mem _ hy)
      have hx := hg x (List.mem_cons_self ..)
      unfold nnPairs
      by_cases hz : sized x = true
      · rw [if_pos hz]
        have hd := hr 0 x rfl hx.1 hz
        have hx' := refine_good (top := top) hx hd
        obtain ⟨a, b⟩ := nnPairs_good top sized dist xs (i + 1)
          (if mc.maxdist > ((refine top x.dist (dist i)).maxdist : WithTop ℚ) then ofRange (refine top x.dist (dist i)) else mc)
          hr' hg' (by
            split
            · exact WithTop.coe_le_coe.2 hx'.2.2
            · exact h)
        refine ⟨a, ?_⟩
        intro y hy
        rcases List.mem_cons.1 hy with rfl | hy
        · exact hx'
        · exact b y hy
      · rw [if_neg hz]
        obtain ⟨a, b⟩ := nnPairs_good top sized dist xs (i + 1) mc hr' hg' h
        refine ⟨a, ?_⟩
        intro y hy
        rcases List.mem_cons.1 hy with rfl | hy
        · exact hx
        · exact b y hy

theorem nnCands_index (top : Bool) (sized : VPair → Bool) (dist : Nat → ℚ) : ∀ (cs : List Cand) (st : Nat × RangeT),
    (nnCands top sized dist st cs).1.1 = st.1 + (cs.flatMap (·.pairs)).length ∧
    List.Forall₂ SameC cs (nnCands top sized dist st cs).2
  | [], st => ⟨rfl, .nil⟩
  | c :: cs, st => by
      obtain ⟨a, b⟩ := nnPairs_index top sized dist c.pairs st.1 st.2
      obtain ⟨a', b'⟩ := nnCands_index top sized dist cs (nnPairs top sized dist st c.pairs).1
      unfold nnCands
      refine ⟨?_, .cons ⟨rfl, rfl, b⟩ b'⟩
      simp only [List.flatMap_cons, List.length_append]
      rw [a', a]; omega

theorem forall₂_mem {A B : Type} {R : A → B → Prop} {l : List A} {l' : List B} (h : List.Forall₂ R l l') :
    (∀ b ∈ l', ∃ a ∈ l, R a b) ∧ (∀ a ∈ l, ∃ b ∈ l', R a b) := by
  induction h with
  | nil => simp
  | cons hab _ ih =>
    refine ⟨?_, ?_⟩
    · intro b hb
      rcases List.mem_cons.1 hb with rfl | hb
      · exact ⟨_, List.mem_cons_self .., hab⟩
      · obtain ⟨a, ha, h⟩ := ih.1 b hb
        exact ⟨a, List.mem_cons_of_mem _ ha, h⟩
    · intro a ha
      rcases List.mem_cons.1 ha with rfl | ha
      · exact ⟨_, List.mem_cons_self .., hab⟩
      · obtain ⟨b, hb, h⟩ := ih.2 a ha
        exact ⟨b, List.mem_cons_of_mem _ hb, h⟩

theorem nnCands_good (top : Bool) (sized : VPair → Bool) (dist : Nat → ℚ) : ∀ (cs : List Cand) (st : Nat × RangeT),
    Reads P U m top sized dist st.1 (cs.flatMap (·.pairs)) → (∀ c ∈ cs, GoodCand P U m c) → (m : WithTop ℚ) ≤ st.2.maxdist →
    (m : WithTop ℚ) ≤ (nnCands top sized dist st cs).1.2.maxdist ∧
    (∀ c ∈ (nnCands top sized dist st cs).2, GoodCand P U m c)
  | [], st, _, _, h => ⟨h, by simp [nnCands]⟩
  | c :: cs, st, hr, hg, h => by
      rw [List.flatMap_cons] at hr
      have hc := hg c (List.mem_cons_self ..)
      obtain ⟨a, b⟩ := nnPairs_good top sized dist c.pairs st.1 st.2 (reads_left hr) (fun x hx => (hc.1 x hx).1) h
      obtain ⟨i1, i2⟩ := nnPairs_index top sized dist c.pairs st.1 st.2
      obtain ⟨a', b'⟩ := nnCands_good top sized dist cs (nnPairs top sized dist st c.pairs).1
        (by rw [show (nnPairs top sized dist st c.pairs).1.1 = st.1 + c.pairs.length from i1]; exact reads_right hr)
        (fun y hy => hg y (List.mem_cons_of_mem _ hy)) a
      unfold nnCands
      refine ⟨a', ?_⟩
      intro y hy
      rcases List.mem_cons.1 hy with rfl | hy
      · refine ⟨?_, hc.2⟩
        intro x hx
        refine ⟨b x hx, ?_⟩
        obtain ⟨x0, hx0, e1, e2⟩ := (forall₂_mem i2).1 x hx
        rw [e1, e2]
        exact (hc.1 x0 hx0).2
      · exact b' y hy

/-- One entry after a round, when its pairs start at position `i`. -/
def entryRound (top : Bool) (sized : VPair → Bool) (dist : Nat → ℚ) (i : Nat) (e : Entry) : Entry :=
  { e with cands := (updCands (nnCands top sized dist (i, ⟨0, ⊤⟩) e.cands).1.2 (nnCands top sized dist (i, ⟨0, ⊤⟩) e.cands).2).2 }

/-- `min_candidate.maxdist` of one entry. -/
def entryMin (top : Bool) (sized : VPair → Bool) (dist : Nat → ℚ) (i : Nat) (e : Entry) : WithTop ℚ :=
  (nnCands top sized dist (i, ⟨0, ⊤⟩) e.cands).1.2.maxdist

/-- Every entry is treated with the distances at the positions of its own pairs. -/
theorem nnEntries_mem (top : Bool) (sized : VPair → Bool) (dist : Nat → ℚ) : ∀ (es : List Entry) (i : Nat) (mn : WithTop ℚ),
    mn ≤ (nnEntries top sized dist i mn es).2 ∧
    ∀ (pre : List Entry) (e : Entry) (post : List Entry), es = pre ++ e :: post →
      entryRound top sized dist (i + (flatPairs pre).length) e ∈ (nnEntries top sized dist i mn es).1 ∧
      entryMin top sized dist (i + (flatPairs pre).length) e ≤ (nnEntries top sized dist i mn es).2
  | [], i, mn => ⟨le_refl _, fun pre e post h => by simp at h⟩
  | e :: es, i, mn => by
      obtain ⟨a, _⟩ := nnCands_index top sized dist e.cands (i, ⟨0, ⊤⟩)
      obtain ⟨h1, h2⟩ := nnEntries_mem top sized dist es (i + (e.cands.flatMap (·.pairs)).length)
        (if entryMin top sized dist i e > mn then entryMin top sized dist i e else mn)
      have hle : mn ≤ (if entryMin top sized dist i e > mn then entryMin top sized dist i e else mn) ∧
          entryMin top sized dist i e ≤ (if entryMin top sized dist i e > mn then entryMin top sized dist i e else mn) := by
        split
        · next h => exact ⟨le_of_lt h, le_refl _⟩
        · next h => exact ⟨le_refl _, not_lt.1 h⟩
      have hun : nnEntries top sized dist i mn (e :: es) =
          (entryRound top sized dist i e :: (nnEntries top sized dist (i + (e.cands.flatMap (·.pairs)).length)
            (if entryMin top sized dist i e > mn then entryMin top sized dist i e else mn) es).1,
           (nnEntries top sized dist (i + (e.cands.flatMap (·.pairs)).length)
            (if entryMin top sized dist i e > mn then entryMin top sized dist i e else mn) es).2) := by
        conv_lhs => unfold nnEntries
        simp only
        rw [a]
        rfl
      rw [hun]
      refine ⟨le_trans hle.1 h1, ?_⟩
      intro pre e' post he
      cases pre with
      | nil =>
        simp only [List.nil_append, List.cons.injEq] at he
        obtain ⟨rfl, rfl⟩ := he
        exact ⟨List.mem_cons_self .., le_trans hle.2 h1⟩
      | cons p pre =>
        simp only [List.cons_append, List.cons.injEq] at he
        obtain ⟨rfl, he⟩ := he
        obtain ⟨g1, g2⟩ := h2 pre e' post he
        have hi : i + (flatPairs (e :: pre)).length = i + (e.cands.flatMap (·.pairs)).length + (flatPairs pre).length := by
          unfold flatPairs
          rw [List.flatMap_cons, List.length_append]; omega
        rw [hi]
        exact ⟨List.mem_cons_of_mem _ g1, g2⟩

theorem entryMin_ge {top : Bool} {sized : VPair → Bool} {dist : Nat → ℚ} {i : Nat} {e : Entry}
    (hr : Reads P U m top sized dist i (e.cands.flatMap (·.pairs))) (h : ∀ c ∈ e.cands, GoodCand P U m c) :
    (m : WithTop ℚ) ≤ entryMin top sized dist i e := (nnCands_good top sized dist e.cands (i, ⟨0, ⊤⟩) hr h le_top).1

theorem entryRound_good {top : Bool} {sized : VPair → Bool} {dist : Nat → ℚ} {i : Nat} {e : Entry}
    (hr : Reads P U m top sized dist i (e.cands.flatMap (·.pairs))) (h : ∀ c ∈ e.cands, GoodCand P U m c) :
    (∀ c ∈ (entryRound top sized dist i e).cands, GoodCand P U m c) ∧
    (∀ w a b, P a b → Has e.cands w a b → Has (entryRound top sized dist i e).cands w a b) := by
  obtain ⟨g1, g2⟩ := nnCands_good top sized dist e.cands (i, ⟨0, ⊤⟩) hr h le_top
  obtain ⟨_, i2⟩ := nnCands_index top sized dist e.cands (i, ⟨0, ⊤⟩)
  refine ⟨updCands_good _ _ g2, fun w a b ht hh => updCands_keeps g1 w a b ht _ g2 ?_⟩
  obtain ⟨c, hc, hw, x, hx, e1, e2⟩ := hh
  obtain ⟨c', hc', s1, _, s3⟩ := (forall₂_mem i2).2 c hc
  obtain ⟨x', hx', v1, v2⟩ := (forall₂_mem s3).2 x hx
  exact ⟨c', hc', s1.trans hw, x', hx', v1.trans e1, v2.trans e2⟩

/-- The invariant of `nearest_neighbor` for one object and one optimal pair. -/
structure Tracked (P U : Voxel → Voxel → Prop) (m : ℚ) (w1 w : Wrapper) (a b : Voxel)
    (s : NNState) : Prop where
  there : ∃ e ∈ s.opened ++ s.decided, e.mesh = w1 ∧ (∀ c ∈ e.cands, GoodCand P U m c) ∧ Has e.cands w a b
  single : ∀ e ∈ s.decided, e.cands.length ≤ 1

theorem tracked_drop {w1 w : Wrapper} {a b : Voxel} {s : NNState} (h : Tracked P U m w1 w a b s) :
    Tracked P U m w1 w a b (dropDecided s) := by
  obtain ⟨⟨e, he, h1⟩, h2⟩ := h
  refine ⟨⟨e, ?_, h1⟩, ?_⟩
  · unfold dropDecided
    simp only [List.mem_append, List.mem_filter, decide_eq_true_eq]
    rcases List.mem_append.1 he with he | he
    · by_cases hl : e.cands.length ≤ 1
      · exact Or.inr (Or.inr ⟨he, hl⟩)
      · exact Or.inl ⟨he, hl⟩
    · exact Or.inr (Or.inl he)
  · intro e' he'
    unfold dropDecided at he'
    simp only [List.mem_append, List.mem_filter, decide_eq_true_eq] at he'
    rcases he' with he' | he'
    · exact h2 e' he'
    · exact he'.2

/-- One level with any array of distances that is right about the pairs of the tracked kind. -/
theorem tracked_step {top : Bool} {r : Round} {dist : Nat → ℚ} {w1 w : Wrapper} {a b : Voxel} (ht : P a b) {s : NNState}
    (hr : Reads P U m top r.sized dist 0 (flatPairs s.opened))
    (h : Tracked P U m w1 w a b s) : Tracked P U m w1 w a b (nnStep top r dist s) := by
  unfold nnStep
  by_cases h1 : (flatPairs s.opened).length = 0
  · rw [if_pos h1]; exact h
  · rw [if_neg h1]
    by_cases h2 : segmentPairs r s.opened = 0
    · rw [if_pos h2]; exact h
    · rw [if_neg h2]
      simp only
      apply tracked_drop
      obtain ⟨⟨e, he, e1, e2, e3⟩, h4⟩ := h
      refine ⟨?_, h4⟩
      rcases List.mem_append.1 he with he | he
      · obtain ⟨pre, post, hs⟩ := List.append_of_mem he
        obtain ⟨g1, _⟩ := (nnEntries_mem top r.sized dist s.opened 0 s.maxNear).2 pre e post hs
        have hr' : Reads P U m top r.sized dist (0 + (flatPairs pre).length) (e.cands.flatMap (·.pairs)) := by
          rw [hs] at hr
          unfold flatPairs at hr ⊢
          rw [List.flatMap_append, List.flatMap_cons] at hr
          exact reads_left (reads_right hr)
        obtain ⟨q1, q2⟩ := entryRound_good hr' e2
        exact ⟨_, List.mem_append_left _ g1, e1, q1, q2 w a b ht e3⟩
      · exact ⟨e, List.mem_append_right _ he, e1, e2, e3⟩

/-- What is asked of a round's kernel. -/
def GoodRound (P U : Voxel → Voxel → Prop) (m : ℚ) (top : Bool) (r : Round) : Prop :=
  ∀ a b, U a b → r.size a > 0 → r.size b > 0 → m ≤ r.kernel a b ∧ (top = true → P a b → r.kernel a b ≤ m)

theorem reads_kernel {top : Bool} {r : Round} (h : GoodRound P U m top r) (es : List Entry) :
    Reads P U m top r.sized (distancesOf r es) 0 (flatPairs es) := by
  intro k p hp hU hz
  rw [Nat.zero_add, distancesOf_aligned r es k p hp]
  simp only [Round.sized, Bool.and_eq_true, decide_eq_true_eq] at hz
  exact h _ _ hU hz.1 hz.2

theorem tracked_fold (topOf : Int → Bool) (rounds : Int → Round)
    {w1 w : Wrapper} {a b : Voxel} (ht : P a b) : ∀ (lods : List Int) (s : NNState),
    (∀ lod ∈ lods, GoodRound P U m (topOf lod) (rounds lod)) → Tracked P U m w1 w a b s →
    Tracked P U m w1 w a b (lods.foldl (fun s lod => nnRound (topOf lod) (rounds lod) s) s)
  | [], s, _, h => h
  | lod :: lods, s, hg, h => by
      simp only [List.foldl_cons]
      exact tracked_fold topOf rounds ht lods _ (fun l hl => hg l (List.mem_cons_of_mem _ hl))
        (tracked_step ht (reads_kernel (hg lod (List.mem_cons_self ..)) s.opened) h)

end TDP.Join
