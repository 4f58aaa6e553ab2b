import Verif.Join.Model
import Mathlib.Tactic.Linarith
import Mathlib.Data.List.Basic
/-! Lemmas about the join. -/
namespace TDP.Join
open TDP.Boxes TDP.Octree

/-! ## skipDup -/

theorem skipDup_sublist {A : Type} (key : A → Int) : ∀ (l : List A) (f : Int), (skipDup key f l).Sublist l
  | [], _ => List.Sublist.refl _
  | a :: as, f => by
      unfold skipDup
      split
      · exact (skipDup_sublist key as f).cons a
      · exact (skipDup_sublist key as _).cons_cons a

theorem skipDup_spec {A : Type} (key : A → Int) : ∀ (l : List A) (f : Int),
    l.Pairwise (fun a b => key a ≤ key b) → (∀ a ∈ l, f ≤ key a) →
    (skipDup key f l).Pairwise (fun a b => key a < key b) ∧ (∀ a ∈ skipDup key f l, f < key a) ∧
    ∀ a ∈ l, key a = f ∨ ∃ b ∈ skipDup key f l, key b = key a
  | [], _, _, _ => by simp [skipDup]
  | a :: as, f, hp, hf => by
      obtain ⟨h1, h2⟩ := List.pairwise_cons.1 hp
      unfold skipDup
      split
      · next he =>
        obtain ⟨i1, i2, i3⟩ := skipDup_spec key as f h2 (fun b hb => hf b (List.mem_cons_of_mem _ hb))
        refine ⟨i1, i2, ?_⟩
        intro b hb
        rcases List.mem_cons.1 hb with rfl | hb
        · exact Or.inl he
        · exact i3 b hb
      · next he =>
        obtain ⟨i1, i2, i3⟩ := skipDup_spec key as (key a) h2 h1
        have hlt : f < key a := lt_of_le_of_ne (hf a (List.mem_cons_self ..)) (fun h => he h.symm)
        refine ⟨List.pairwise_cons.2 ⟨i2, i1⟩, ?_, ?_⟩
        · intro b hb
          rcases List.mem_cons.1 hb with rfl | hb
          · exact hlt
          · exact lt_trans hlt (i2 b hb)
        · intro b hb
          right
          rcases List.mem_cons.1 hb with rfl | hb
          · exact ⟨b, List.mem_cons_self .., rfl⟩
          · rcases i3 b hb with h | ⟨c, hc, h⟩
            · exact ⟨a, List.mem_cons_self .., h.symm⟩
            · exact ⟨c, List.mem_cons_of_mem _ hc, h⟩

/-! ## Pruning -/

variable {P U : Voxel → Voxel → Prop} {m : ℚ}

/-- `m` is a distance that no range may undercut, `P` says which pairs must survive. The range of a pair is right. -/
def GoodPair (P U : Voxel → Voxel → Prop) (m : ℚ) (x : VPair) : Prop :=
  U x.v1 x.v2 ∧ (P x.v1 x.v2 → x.dist.mindist ≤ m) ∧ m ≤ x.dist.maxdist

/-- The range of a candidate is right. -/
def GoodCand (P U : Voxel → Voxel → Prop) (m : ℚ) (c : Cand) : Prop :=
  (∀ x ∈ c.pairs, GoodPair P U m x ∧ (P x.v1 x.v2 → c.distance.mindist ≤ m)) ∧ m ≤ c.distance.maxdist

/-- The pair `(v1, v2)` is still listed under object `w`. -/
def Has (cs : List Cand) (w : Wrapper) (v1 v2 : Voxel) : Prop :=
  ∃ c ∈ cs, c.mesh = w ∧ ∃ x ∈ c.pairs, x.v1 = v1 ∧ x.v2 = v2

theorem updPairs_sublist (d : RangeT) : ∀ l, (updPairs d l).2.Sublist l
  | [] => List.Sublist.refl _
  | x :: xs => by
      unfold updPairs
      split
      · exact List.Sublist.refl _
      · split
        · exact (updPairs_sublist d xs).cons x
        · exact (updPairs_sublist d xs).cons_cons x

theorem updPairs_keeps {d : RangeT} (hd : (m : WithTop ℚ) ≤ d.maxdist) :
    ∀ l, (∀ x ∈ l, GoodPair P U m x) → ∀ x ∈ l, P x.v1 x.v2 → x ∈ (updPairs d l).2
  | [], _, _, hx, _ => by simp at hx
  | y :: ys, hg, x, hx, ht => by
      unfold updPairs
      split
      · exact hx
      · split
        · next h =>
          rcases List.mem_cons.1 hx with rfl | hx
          · simp only [RangeT.lt, decide_eq_true_eq] at h
            have h1 := (hg x (List.mem_cons_self ..)).2.1 ht
            have h2 := lt_of_le_of_lt hd h
            rw [WithTop.coe_lt_coe] at h2
            linarith
          · exact updPairs_keeps hd ys (fun z hz => hg z (List.mem_cons_of_mem _ hz)) x hx ht
        · rcases List.mem_cons.1 hx with rfl | hx
          · exact List.mem_cons_self ..
          · exact List.mem_cons_of_mem _ (updPairs_keeps hd ys (fun z hz => hg z (List.mem_cons_of_mem _ hz)) x hx ht)

theorem updPairs_accepts {d : RangeT} (hd : d.mindist ≤ m) :
    ∀ l, (∀ x ∈ l, GoodPair P U m x) → (updPairs d l).1 = true
  | [], _ => rfl
  | y :: ys, hg => by
      have ih := updPairs_accepts hd ys (fun z hz => hg z (List.mem_cons_of_mem _ hz))
      obtain ⟨h1, h2, h3⟩ := hg y (List.mem_cons_self ..)
      unfold updPairs
      split
      · next h =>
        simp only [RangeT.gt, decide_eq_true_eq] at h
        linarith
      · split
        · exact ih
        · exact ih

theorem goodCand_sub {c : Cand} (h : GoodCand P U m c) {ps : List VPair} (hs : ps.Sublist c.pairs) :
    GoodCand P U m { c with pairs := ps } :=
  ⟨fun x hx => h.1 x (hs.subset hx), h.2⟩

theorem updCands_good (d : RangeT) : ∀ l, (∀ c ∈ l, GoodCand P U m c) → ∀ c ∈ (updCands d l).2, GoodCand P U m c
  | [], _, _, hx => by simp [updCands] at hx
  | y :: ys, hg, c, hx => by
      have ih := updCands_good d ys (fun z hz => hg z (List.mem_cons_of_mem _ hz))
      have hy := hg y (List.mem_cons_self ..)
      have hsub := goodCand_sub hy (updPairs_sublist d y.pairs)
      unfold updCands at hx
      by_cases h1 : d.gt y.distance = true
      · rw [if_pos h1] at hx; exact hg c hx
      · rw [if_neg h1] at hx
        by_cases h2 : d.lt y.distance = true
        · rw [if_pos h2] at hx; exact ih c hx
        · rw [if_neg h2] at hx
          simp only at hx
          by_cases h3 : (updPairs d y.pairs).1 = false
          · rw [if_pos h3] at hx
            rcases List.mem_cons.1 hx with rfl | hx
            · exact hsub
            · exact hg c (List.mem_cons_of_mem _ hx)
          · rw [if_neg h3] at hx
            by_cases h4 : (updPairs d y.pairs).2.length = 0
            · rw [if_pos h4] at hx; exact ih c hx
            · rw [if_neg h4] at hx
              rcases List.mem_cons.1 hx with rfl | hx
              · exact hsub
              · exact ih c hx

theorem updCands_keeps {d : RangeT} (hd : (m : WithTop ℚ) ≤ d.maxdist) (w : Wrapper) (v1 v2 : Voxel) (ht : P v1 v2) :
    ∀ l, (∀ c ∈ l, GoodCand P U m c) → Has l w v1 v2 → Has (updCands d l).2 w v1 v2
  | [], _, h => by obtain ⟨c, hc, _⟩ := h; simp at hc
  | y :: ys, hg, hh => by
      have hy := hg y (List.mem_cons_self ..)
      have ih : Has ys w v1 v2 → Has (updCands d ys).2 w v1 v2 :=
        updCands_keeps hd w v1 v2 ht ys (fun z hz => hg z (List.mem_cons_of_mem _ hz))
      have up : ∀ z zs, Has zs w v1 v2 → Has (z :: zs) w v1 v2 := by
        rintro z zs ⟨c, hc, h⟩
        exact ⟨c, List.mem_cons_of_mem _ hc, h⟩
      have hcase : (y.mesh = w ∧ ∃ x ∈ y.pairs, x.v1 = v1 ∧ x.v2 = v2) ∨ Has ys w v1 v2 := by
        obtain ⟨c, hc, h⟩ := hh
        rcases List.mem_cons.1 hc with rfl | hc
        · exact Or.inl h
        · exact Or.inr ⟨c, hc, h⟩
      have hkeep : (y.mesh = w ∧ ∃ x ∈ y.pairs, x.v1 = v1 ∧ x.v2 = v2) →
          ∃ x ∈ (updPairs d y.pairs).2, x.v1 = v1 ∧ x.v2 = v2 := by
        rintro ⟨_, x, hx, rfl, rfl⟩
        exact ⟨x, updPairs_keeps (P := P) (U := U) hd _ (fun z hz => (hy.1 z hz).1) x hx ht, rfl, rfl⟩
      unfold updCands
      by_cases h1 : d.gt y.distance = true
      · rw [if_pos h1]; exact hh
      · rw [if_neg h1]
        by_cases h2 : d.lt y.distance = true
        · rw [if_pos h2]
          rcases hcase with ⟨_, x, hx, rfl, rfl⟩ | h
          · exfalso
            simp only [RangeT.lt, decide_eq_true_eq] at h2
            have h3 := lt_of_le_of_lt hd h2
            rw [WithTop.coe_lt_coe] at h3
            have h4 := (hy.1 x hx).2 ht
            linarith
          · exact ih h
        · rw [if_neg h2]
          simp only
          by_cases h3 : (updPairs d y.pairs).1 = false
          · rw [if_pos h3]
            rcases hcase with h | h
            · exact ⟨_, List.mem_cons_self .., h.1, hkeep h⟩
            · exact up _ _ h
          · rw [if_neg h3]
            by_cases h4 : (updPairs d y.pairs).2.length = 0
            · rw [if_pos h4]
              rcases hcase with h | h
              · obtain ⟨x, hx, _⟩ := hkeep h
                rw [List.length_eq_zero_iff] at h4
                rw [h4] at hx; simp at hx
              · exact ih h
            · rw [if_neg h4]
              rcases hcase with h | h
              · exact ⟨_, List.mem_cons_self .., h.1, hkeep h⟩
              · exact up _ _ (ih h)

theorem updCands_accepts {d : RangeT} (hd : d.mindist ≤ m) :
    ∀ l, (∀ c ∈ l, GoodCand P U m c) → (updCands d l).1 = true
  | [], _ => rfl
  | y :: ys, hg => by
      have ih := updCands_accepts hd ys (fun z hz => hg z (List.mem_cons_of_mem _ hz))
      have hy := hg y (List.mem_cons_self ..)
      unfold updCands
      rw [if_neg (by
        simp only [RangeT.gt, decide_eq_true_eq]
        have := hy.2
        exact not_lt.2 (le_trans hd this))]
      by_cases h2 : d.lt y.distance = true
      · rw [if_pos h2]; exact ih
      · rw [if_neg h2]
        have := updPairs_accepts hd y.pairs (fun z hz => (hy.1 z hz).1)
        simp only [this]
        by_cases h4 : (updPairs d y.pairs).2.length = 0
        · simp [h4, ih]
        · simp [h4, ih]

/-- Nothing of the candidates' identity changes and no new pair appears. -/
def Sub (l' l : List Cand) : Prop := ∀ c ∈ l', ∃ c0 ∈ l, c.mesh = c0.mesh ∧ ∀ x ∈ c.pairs, x ∈ c0.pairs

theorem updCands_nonempty (d : RangeT) : ∀ l : List Cand, (∀ c ∈ l, c.pairs ≠ []) → ∀ c ∈ (updCands d l).2, c.pairs = [] →
    (updCands d l).1 = false
  | [], _, _, hx, _ => by simp [updCands] at hx
  | y :: ys, hg, c, hx, he => by
      have ih := updCands_nonempty d ys (fun z hz => hg z (List.mem_cons_of_mem _ hz))
      unfold updCands at hx ⊢
      by_cases h1 : d.gt y.distance = true
      · rw [if_pos h1]
      · rw [if_neg h1] at hx ⊢
        by_cases h2 : d.lt y.distance = true
        · rw [if_pos h2] at hx ⊢; exact ih c hx he
        · rw [if_neg h2] at hx ⊢
          simp only at hx ⊢
          by_cases h3 : (updPairs d y.pairs).1 = false
          · rw [if_pos h3]
          · rw [if_neg h3] at hx ⊢
            by_cases h4 : (updPairs d y.pairs).2.length = 0
            · rw [if_pos h4] at hx ⊢; exact ih c hx he
            · rw [if_neg h4] at hx ⊢
              rcases List.mem_cons.1 hx with rfl | hx
              · exact absurd (by simpa using he) (by simpa using h4)
              · exact ih c hx he

/-! ## mbb_nn -/

theorem hullDist_le : ∀ l : List VPair, ∀ x ∈ l, (hullDist l).mindist ≤ x.dist.mindist := by
  have key : ∀ (l : List VPair) (r : Range),
      (l.foldl (fun r p => r.update p.dist) r).mindist ≤ r.mindist ∧
      ∀ x ∈ l, (l.foldl (fun r p => r.update p.dist) r).mindist ≤ x.dist.mindist := by
    intro l
    induction l with
    | nil => intro r; simp
    | cons y ys ih =>
      intro r
      obtain ⟨a, b⟩ := ih (r.update y.dist)
      simp only [List.foldl_cons]
      refine ⟨le_trans a (min_le_left _ _), ?_⟩
      intro x hx
      rcases List.mem_cons.1 hx with rfl | hx
      · exact le_trans a (min_le_right _ _)
      · exact b x hx
  intro l x hx
  cases l with
  | nil => simp at hx
  | cons y ys => exact (key (y :: ys) y.dist).2 x hx

theorem hullDist_max {m : ℚ} : ∀ l : List VPair, l ≠ [] → (∀ x ∈ l, m ≤ x.dist.maxdist) → m ≤ (hullDist l).maxdist := by
  have key : ∀ (l : List VPair) (r : Range), m ≤ r.maxdist → (∀ x ∈ l, m ≤ x.dist.maxdist) →
      m ≤ (l.foldl (fun r p => r.update p.dist) r).maxdist := by
    intro l
    induction l with
    | nil => intro r h _; simpa
    | cons y ys ih =>
      intro r h1 h2
      simp only [List.foldl_cons]
      exact ih _ (le_min h1 (h2 y (List.mem_cons_self ..))) (fun x hx => h2 x (List.mem_cons_of_mem _ hx))
  intro l hl h
  cases l with
  | nil => exact absurd rfl hl
  | cons y ys => exact key (y :: ys) y.dist (h y (List.mem_cons_self ..)) h

/-- What holds while one candidate is under construction. -/
structure VInv (P U : Voxel → Voxel → Prop) (m : ℚ) (st : List Cand × List VPair) : Prop where
  cands : ∀ c ∈ st.1, GoodCand P U m c
  pairs : ∀ x ∈ st.2, GoodPair P U m x

theorem nnVoxel_step {F : Fp} 
    (hb : ∀ a b, U a b → (P a b → (a.box.distance F b.box).mindist ≤ m) ∧ m ≤ (a.box.distance F b.box).maxdist)
    (st : List Cand × List VPair) (p : Voxel × Voxel) (hp : U p.1 p.2) (h : VInv P U m st) :
    VInv P U m (nnVoxel F st p) ∧
    (∀ w a b, P a b → Has st.1 w a b → Has (nnVoxel F st p).1 w a b) ∧
    (∀ x ∈ st.2, P x.v1 x.v2 → x ∈ (nnVoxel F st p).2) ∧
    (P p.1 p.2 → ∃ x ∈ (nnVoxel F st p).2, x.v1 = p.1 ∧ x.v2 = p.2) ∧
    (∀ x ∈ (nnVoxel F st p).2, x ∈ st.2 ∨ (x.v1 = p.1 ∧ x.v2 = p.2)) := by
  obtain ⟨hb1, hb2⟩ := hb _ _ hp
  have hmd : (m : WithTop ℚ) ≤ (ofRange (p.1.box.distance F p.2.box)).maxdist := by
    show (m : WithTop ℚ) ≤ ((p.1.box.distance F p.2.box).maxdist : ℚ)
    rw [WithTop.coe_le_coe]
    exact hb2
  set d := ofRange (p.1.box.distance F p.2.box) with hd
  have hsub := updPairs_sublist d st.2
  have hgood : ∀ x ∈ (updPairs d st.2).2, GoodPair P U m x := fun x hx => h.pairs x (hsub.subset hx)
  have hnew : GoodPair P U m ⟨p.1, p.2, p.1.box.distance F p.2.box, false⟩ := ⟨hp, hb1, hb2⟩
  unfold nnVoxel
  simp only [← hd]
  by_cases h1 : (updPairs d st.2).1 = true
  · rw [if_pos h1]
    by_cases h2 : (updCands d st.1).1 = true
    · rw [if_pos h2]
      refine ⟨⟨updCands_good d _ h.cands, ?_⟩, ?_, ?_, ?_, ?_⟩
      · intro x hx
        rcases List.mem_append.1 hx with hx | hx
        · exact hgood x hx
        · rw [List.mem_singleton] at hx; subst hx; exact hnew
      · intro w a b ht hh
        exact updCands_keeps hmd w a b ht _ h.cands hh
      · intro x hx ht
        exact List.mem_append_left _ (updPairs_keeps hmd _ h.pairs x hx ht)
      · intro _
        exact ⟨_, List.mem_append_right _ (List.mem_singleton.2 rfl), rfl, rfl⟩
      · intro x hx
        rcases List.mem_append.1 hx with hx | hx
        · exact Or.inl (hsub.subset hx)
        · rw [List.mem_singleton] at hx; subst hx; exact Or.inr ⟨rfl, rfl⟩
    · rw [if_neg h2]
      refine ⟨⟨updCands_good d _ h.cands, hgood⟩, ?_, ?_, ?_, ?_⟩
      · intro w a b ht hh
        exact updCands_keeps hmd w a b ht _ h.cands hh
      · intro x hx ht
        exact updPairs_keeps hmd _ h.pairs x hx ht
      · intro ht
        exact absurd (updCands_accepts (hb1 ht) _ h.cands) h2
      · intro x hx
        exact Or.inl (hsub.subset hx)
  · rw [if_neg h1]
    refine ⟨⟨h.cands, hgood⟩, ?_, ?_, ?_, ?_⟩
    · intro w a b _ hh
      exact hh
    · intro x hx ht
      exact updPairs_keeps hmd _ h.pairs x hx ht
    · intro ht
      exact absurd (updPairs_accepts (hb1 ht) _ h.pairs) h1
    · intro x hx
      exact Or.inl (hsub.subset hx)

theorem nnVoxel_fold {F : Fp} 
    (hb : ∀ a b, U a b → (P a b → (a.box.distance F b.box).mindist ≤ m) ∧ m ≤ (a.box.distance F b.box).maxdist) :
    ∀ (ps : List (Voxel × Voxel)) (st : List Cand × List VPair), (∀ p ∈ ps, U p.1 p.2) → VInv P U m st →
    VInv P U m (ps.foldl (nnVoxel F) st) ∧
    (∀ w a b, P a b → Has st.1 w a b → Has (ps.foldl (nnVoxel F) st).1 w a b) ∧
    (∀ x ∈ st.2, P x.v1 x.v2 → x ∈ (ps.foldl (nnVoxel F) st).2) ∧
    (∀ p ∈ ps, P p.1 p.2 → ∃ x ∈ (ps.foldl (nnVoxel F) st).2, x.v1 = p.1 ∧ x.v2 = p.2) ∧
    (∀ x ∈ (ps.foldl (nnVoxel F) st).2, x ∈ st.2 ∨ (x.v1, x.v2) ∈ ps)
  | [], st, _, h => ⟨h, fun _ _ _ _ h => h, fun _ h _ => h, by simp, fun x hx => Or.inl hx⟩
  | p :: ps, st, hU, h => by
      obtain ⟨a1, a2, a3, a4, a5⟩ := nnVoxel_step hb st p (hU p (List.mem_cons_self ..)) h
      obtain ⟨b1, b2, b3, b4, b5⟩ := nnVoxel_fold hb ps _ (fun q hq => hU q (List.mem_cons_of_mem _ hq)) a1
      simp only [List.foldl_cons]
      refine ⟨b1, fun w a b ht hh => b2 w a b ht (a2 w a b ht hh), fun x hx ht => b3 x (a3 x hx ht) ht, ?_, ?_⟩
      · intro q hq ht
        rcases List.mem_cons.1 hq with rfl | hq
        · obtain ⟨x, hx, e1, e2⟩ := a4 ht
          exact ⟨x, b3 x hx (by rw [e1, e2]; exact ht), e1, e2⟩
        · exact b4 q hq ht
      · intro x hx
        rcases b5 x hx with h | h
        · rcases a5 x h with h | ⟨e1, e2⟩
          · exact Or.inl h
          · exact Or.inr (by rw [e1, e2]; exact List.mem_cons_self ..)
        · exact Or.inr (List.mem_cons_of_mem _ h)

theorem nnCand_step {F : Fp} {tile2 : Int → Wrapper} {w1 : Wrapper} 
    (hb : ∀ a b, U a b → (P a b → (a.box.distance F b.box).mindist ≤ m) ∧ m ≤ (a.box.distance F b.box).maxdist)
    (cands : List Cand) (p : Int × Range) (hU : ∀ q ∈ voxelPairs w1 (tile2 p.1), U q.1 q.2)
    (hr : (∀ q ∈ voxelPairs w1 (tile2 p.1), P q.1 q.2 → p.2.mindist ≤ m) ∧ m ≤ p.2.maxdist)
    (h : ∀ c ∈ cands, GoodCand P U m c) :
    (∀ c ∈ nnCand F tile2 w1 cands p, GoodCand P U m c) ∧
    (∀ w a b, P a b → Has cands w a b → Has (nnCand F tile2 w1 cands p) w a b) ∧
    (∀ q ∈ voxelPairs w1 (tile2 p.1), P q.1 q.2 → Has (nnCand F tile2 w1 cands p) (tile2 p.1) q.1 q.2) := by
  have hmd : (m : WithTop ℚ) ≤ (ofRange p.2).maxdist := WithTop.coe_le_coe.2 hr.2
  unfold nnCand
  set d := ofRange p.2 with hd
  have hg := updCands_good (P := P) (U := U) (m := m) d _ h
  obtain ⟨b1, b2, b3, b4, b5⟩ := nnVoxel_fold hb (voxelPairs w1 (tile2 p.1)) ((updCands d cands).2, []) hU
    ⟨hg, by simp⟩
  simp only
  by_cases h1 : (updCands d cands).1 = true
  · rw [if_pos h1]
    generalize (voxelPairs w1 (tile2 p.1)).foldl (nnVoxel F) ((updCands d cands).2, []) = st at *
    by_cases h2 : st.2.length > 0
    · rw [if_pos h2]
      have hne : st.2 ≠ [] := by intro e; rw [e] at h2; simp at h2
      refine ⟨?_, ?_, ?_⟩
      · intro c hc
        rcases List.mem_append.1 hc with hc | hc
        · exact b1.cands c hc
        · rw [List.mem_singleton] at hc
          subst hc
          refine ⟨fun x hx => ⟨b1.pairs x hx, fun hP => le_trans (hullDist_le _ x hx) ((b1.pairs x hx).2.1 hP)⟩, ?_⟩
          refine hullDist_max _ hne (fun x hx => ?_)
          exact (b1.pairs x hx).2.2
      · intro w a b ht hh
        obtain ⟨c, hc, hrest⟩ := b2 w a b ht (updCands_keeps hmd w a b ht _ h hh)
        exact ⟨c, List.mem_append_left _ hc, hrest⟩
      · intro q hq ht
        obtain ⟨x, hx, e⟩ := b4 q hq ht
        exact ⟨_, List.mem_append_right _ (List.mem_singleton.2 rfl), rfl, x, hx, e⟩
    · rw [if_neg h2]
      refine ⟨b1.cands, ?_, ?_⟩
      · intro w a b ht hh
        exact b2 w a b ht (updCands_keeps hmd w a b ht _ h hh)
      · intro q hq ht
        obtain ⟨x, hx, _⟩ := b4 q hq ht
        have : st.2 = [] := by
          cases hst : st.2 with
          | nil => rfl
          | cons y ys => rw [hst] at h2; simp at h2
        rw [this] at hx; simp at hx
  · rw [if_neg h1]
    refine ⟨hg, fun w a b ht hh => updCands_keeps hmd w a b ht _ h hh, ?_⟩
    intro q hq ht
    exact absurd (updCands_accepts (hr.1 q hq ht) _ h) h1

theorem nnCand_fold {F : Fp} {tile2 : Int → Wrapper} {w1 : Wrapper} 
    (hb : ∀ a b, U a b → (P a b → (a.box.distance F b.box).mindist ≤ m) ∧ m ≤ (a.box.distance F b.box).maxdist) :
    ∀ (ids : List (Int × Range)) (cands : List Cand),
    (∀ p ∈ ids, (∀ q ∈ voxelPairs w1 (tile2 p.1), U q.1 q.2) ∧
      (∀ q ∈ voxelPairs w1 (tile2 p.1), P q.1 q.2 → p.2.mindist ≤ m) ∧ m ≤ p.2.maxdist) →
    (∀ c ∈ cands, GoodCand P U m c) →
    (∀ c ∈ ids.foldl (nnCand F tile2 w1) cands, GoodCand P U m c) ∧
    (∀ w a b, P a b → Has cands w a b → Has (ids.foldl (nnCand F tile2 w1) cands) w a b) ∧
    (∀ p ∈ ids, ∀ q ∈ voxelPairs w1 (tile2 p.1), P q.1 q.2 →
      Has (ids.foldl (nnCand F tile2 w1) cands) (tile2 p.1) q.1 q.2)
  | [], cands, _, h => ⟨h, fun _ _ _ _ h => h, by simp⟩
  | p :: ids, cands, hids, h => by
      obtain ⟨hU, hr⟩ := hids p (List.mem_cons_self ..)
      obtain ⟨a1, a2, a3⟩ := nnCand_step hb cands p hU hr h
      obtain ⟨b1, b2, b3⟩ := nnCand_fold hb ids _ (fun q hq => hids q (List.mem_cons_of_mem _ hq)) a1
      simp only [List.foldl_cons]
      refine ⟨b1, fun w a b ht hh => b2 w a b ht (a2 w a b ht hh), ?_⟩
      intro q hq x hx ht
      rcases List.mem_cons.1 hq with rfl | hq
      · exact b2 _ _ _ ht (a3 x hx ht)
      · exact b3 q hq x hx ht

end TDP.Join
