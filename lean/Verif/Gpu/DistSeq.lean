import Verif.Gpu.Dist
/-!
# C58: schedules of the distance kernel that exist
-/
namespace TDP.Gpu
open TDP.Boxes TDP.Kernels TDP.Conc

variable {I : Input} {L : Launch}

instance (b t : Nat) : Decidable (I.active L b t) := by unfold Input.active; infer_instance

/-- What a thread does when nothing comes between its read and its write. -/
def atom (I : Input) (L : Launch) (a : Nat → WithTop ℚ) (p : Nat × Nat) : Nat → WithTop ℚ :=
  if I.active L p.1 p.2 then
    if (L.off1 = 0 ∧ p.2 + L.off2 = 0) ∨ a p.1 > I.dd p.1 L.off1 (p.2 + L.off2) then put a p.1 (I.dd p.1 L.off1 (p.2 + L.off2)) else a
  else a

theorem go_go (pc : Nat → Nat → PC) (b t : Nat) (x y : PC) : go (go pc b t x) b t y = go pc b t y := by
  funext i j; unfold go; split <;> rfl

theorem atom_reach (s : GS) (p : Nat × Nat) (hb : p.1 < I.pairs) (ht : p.2 < L.dim) (hs : s.pc p.1 p.2 = .start) :
    Reach (KStep I L) s ⟨atom I L s.dist p, go s.pc p.1 p.2 .done⟩ := by
  unfold atom
  by_cases hact : I.active L p.1 p.2
  · rw [if_pos hact]
    by_cases hf : L.off1 = 0 ∧ p.2 + L.off2 = 0
    · rw [if_pos (Or.inl hf)]
      exact Reach.single (KStep.first s p.1 p.2 hb ht hs hact hf)
    · have s1 := KStep.load s p.1 p.2 hb ht hs hact hf
      by_cases hv : s.dist p.1 > I.dd p.1 L.off1 (p.2 + L.off2)
      · rw [if_pos (Or.inr hv)]
        have s2 := KStep.store { s with pc := go s.pc p.1 p.2 (.loaded (s.dist p.1)) } p.1 p.2 _ hb ht (go_same ..) hv
        rw [go_go] at s2
        exact (Reach.single s1).trans (Reach.single s2)
      · rw [if_neg (by rintro (h | h); exacts [hf h, hv h])]
        have s2 := KStep.skip { s with pc := go s.pc p.1 p.2 (.loaded (s.dist p.1)) } p.1 p.2 _ hb ht (go_same ..) hv
        rw [go_go] at s2
        exact (Reach.single s1).trans (Reach.single s2)
  · rw [if_neg hact]
    exact Reach.single (KStep.exit s p.1 p.2 hb ht hs hact)

theorem atoms_reach : ∀ (ps : List (Nat × Nat)) (s : GS), ps.Nodup → (∀ p ∈ ps, p.1 < I.pairs ∧ p.2 < L.dim ∧ s.pc p.1 p.2 = .start) →
    ∃ pc, Reach (KStep I L) s ⟨ps.foldl (atom I L) s.dist, pc⟩ ∧ (∀ p ∈ ps, pc p.1 p.2 = .done) ∧
      ∀ i j, (i, j) ∉ ps → pc i j = s.pc i j
  | [], s, _, _ => ⟨s.pc, Reach.init, by simp, fun _ _ _ => rfl⟩
  | p :: ps, s, hn, h => by
      obtain ⟨hp, hn⟩ := List.nodup_cons.1 hn
      obtain ⟨h1, h2, h3⟩ := h p (List.mem_cons_self ..)
      have r1 := atom_reach (I := I) (L := L) s p h1 h2 h3
      obtain ⟨pc, r2, d, e⟩ := atoms_reach ps ⟨atom I L s.dist p, go s.pc p.1 p.2 .done⟩ hn (by
        intro q hq
        obtain ⟨g1, g2, g3⟩ := h q (List.mem_cons_of_mem _ hq)
        refine ⟨g1, g2, ?_⟩
        show go s.pc p.1 p.2 .done q.1 q.2 = _
        rw [go_ne _ _ ?_]
        · exact g3
        · rintro ⟨e1, e2⟩
          exact hp (by rwa [← Prod.ext e1 e2]))
      refine ⟨pc, r1.trans r2, ?_, ?_⟩
      · intro q hq
        rcases List.mem_cons.1 hq with rfl | hq
        · rw [e _ _ hp]; exact go_same ..
        · exact d q hq
      · intro i j hij
        rw [e i j (fun h => hij (List.mem_cons_of_mem _ h))]
        refine go_ne _ _ ?_
        rintro ⟨rfl, rfl⟩
        exact hij (List.mem_cons_self ..)

/-- Block after block, thread after thread. -/
def inOrder (pairs dim : Nat) : List (Nat × Nat) := (List.range pairs).flatMap (fun b => (List.range dim).map (fun t => (b, t)))

theorem inOrder_mem (pairs dim : Nat) (p : Nat × Nat) : p ∈ inOrder pairs dim ↔ p.1 < pairs ∧ p.2 < dim := by
  unfold inOrder
  simp only [List.mem_flatMap, List.mem_map, List.mem_range]
  constructor
  · rintro ⟨b, hb, t, ht, rfl⟩; exact ⟨hb, ht⟩
  · rintro ⟨h1, h2⟩; exact ⟨_, h1, _, h2, rfl⟩

theorem inOrder_nodup (pairs dim : Nat) : (inOrder pairs dim).Nodup := by
  unfold inOrder
  rw [List.nodup_flatMap]
  refine ⟨fun b _ => List.Nodup.map (fun _ _ h => (Prod.mk.inj h).2) List.nodup_range, ?_⟩
  refine List.Pairwise.imp ?_ List.pairwise_lt_range
  intro a b hab
  simp only [Function.onFun, List.disjoint_left, List.mem_map]
  rintro p ⟨t, _, rfl⟩ ⟨t', _, e⟩
  have := (Prod.mk.inj e).1
  omega

/-- Any order of the threads, each running undisturbed, is a possible execution of a launch. -/
theorem launched_atoms (a : Nat → WithTop ℚ) (ps : List (Nat × Nat)) (hp : ps.Perm (inOrder I.pairs L.dim)) :
    Launched I L a (ps.foldl (atom I L) a) := by
  obtain ⟨pc, r, d, _⟩ := atoms_reach (I := I) (L := L) ps ⟨a, fun _ _ => .start⟩ (hp.nodup_iff.2 (inOrder_nodup _ _))
    (fun p h => by
      have := (inOrder_mem _ _ p).1 (hp.mem_iff.1 h)
      exact ⟨this.1, this.2, rfl⟩)
  exact ⟨_, r, fun b hb t ht => d (b, t) (hp.mem_iff.2 ((inOrder_mem _ _ _).2 ⟨hb, ht⟩)), rfl⟩

theorem atom_other (a : Nat → WithTop ℚ) (p : Nat × Nat) (b : Nat) (h : p.1 ≠ b) : atom I L a p b = a b := by
  unfold atom
  split
  · split
    · exact put_ne _ _ (Ne.symm h)
    · rfl
  · rfl

theorem foldl_other (a : Nat → WithTop ℚ) (ps : List (Nat × Nat)) (b : Nat) (h : ∀ p ∈ ps, p.1 ≠ b) : ps.foldl (atom I L) a b = a b := by
  induction ps generalizing a with
  | nil => rfl
  | cons p ps ih =>
    rw [List.foldl_cons, ih _ (fun q hq => h q (List.mem_cons_of_mem _ hq)), atom_other _ _ _ (h p (List.mem_cons_self ..))]

/-- Threads of one block, in order, not of the first launch: the entry only goes down, to at most each distance. -/
theorem block_later (hn : ¬ (L.off1 = 0 ∧ L.off2 = 0)) (b : Nat) : ∀ (ts : List Nat) (a : Nat → WithTop ℚ),
    let r := (ts.map (fun t => (b, t))).foldl (atom I L) a b
    r ≤ a b ∧ (∀ t ∈ ts, I.active L b t → r ≤ I.dd b L.off1 (t + L.off2))
  | [], a => ⟨le_refl _, by simp⟩
  | t :: ts, a => by
      obtain ⟨h1, h2⟩ := block_later hn b ts (atom I L a (b, t))
      have h3 : atom I L a (b, t) b ≤ a b ∧ (I.active L b t → atom I L a (b, t) b ≤ I.dd b L.off1 (t + L.off2)) := by
        unfold atom
        simp only
        by_cases ha : I.active L b t
        · rw [if_pos ha]
          by_cases hv : a b > I.dd b L.off1 (t + L.off2)
          · rw [if_pos (Or.inr hv), put_same]
            exact ⟨le_of_lt hv, fun _ => le_refl _⟩
          · rw [if_neg (by rintro (h | h); exacts [hn ⟨h.1, by have := h.2; omega⟩, hv h])]
            exact ⟨le_refl _, fun _ => not_lt.1 hv⟩
        · rw [if_neg ha]
          exact ⟨le_refl _, fun h => absurd h ha⟩
      simp only [List.map_cons, List.foldl_cons]
      refine ⟨le_trans h1 h3.1, ?_⟩
      intro t' ht' ha
      rcases List.mem_cons.1 ht' with rfl | ht'
      · exact le_trans h1 (h3.2 ha)
      · exact h2 t' ht' ha

theorem block_first (hn : L.off1 = 0 ∧ L.off2 = 0) (b : Nat) : ∀ (ts : List Nat) (a : Nat → WithTop ℚ), (∀ t ∈ ts, t ≠ 0) →
    let r := (ts.map (fun t => (b, t))).foldl (atom I L) a b
    r ≤ a b ∧ (∀ t ∈ ts, I.active L b t → r ≤ I.dd b L.off1 (t + L.off2))
  | [], a, _ => ⟨le_refl _, by simp⟩
  | t :: ts, a, h0 => by
      obtain ⟨h1, h2⟩ := block_first hn b ts (atom I L a (b, t)) (fun x hx => h0 x (List.mem_cons_of_mem _ hx))
      have ht0 := h0 t (List.mem_cons_self ..)
      have h3 : atom I L a (b, t) b ≤ a b ∧ (I.active L b t → atom I L a (b, t) b ≤ I.dd b L.off1 (t + L.off2)) := by
        unfold atom
        simp only
        by_cases ha : I.active L b t
        · rw [if_pos ha]
          by_cases hv : a b > I.dd b L.off1 (t + L.off2)
          · rw [if_pos (Or.inr hv), put_same]
            exact ⟨le_of_lt hv, fun _ => le_refl _⟩
          · rw [if_neg (by rintro (h | h); exacts [ht0 (by have := h.2; omega), hv h])]
            exact ⟨le_refl _, fun _ => not_lt.1 hv⟩
        · rw [if_neg ha]
          exact ⟨le_refl _, fun h => absurd h ha⟩
      simp only [List.map_cons, List.foldl_cons]
      refine ⟨le_trans h1 h3.1, ?_⟩
      intro t' ht' ha
      rcases List.mem_cons.1 ht' with rfl | ht'
      · exact le_trans h1 (h3.2 ha)
      · exact h2 t' ht' ha

theorem inOrder_block (a : Nat → WithTop ℚ) (pairs dim b : Nat) (hb : b < pairs) :
    (inOrder pairs dim).foldl (atom I L) a b = ((List.range dim).map (fun t => (b, t))).foldl (atom I L)
      ((inOrder b dim).foldl (atom I L) a) b ∧ (inOrder b dim).foldl (atom I L) a b = a b := by
  have hsplit : inOrder pairs dim = inOrder b dim ++ ((List.range dim).map (fun t => (b, t)) ++
      ((List.range' (b + 1) (pairs - b - 1)).flatMap (fun b => (List.range dim).map (fun t => (b, t))))) := by
    unfold inOrder
    have : List.range pairs = List.range b ++ (b :: List.range' (b + 1) (pairs - b - 1)) := by
      have e := List.range'_append_1 (s := 0) (m := b) (n := pairs - b - 1 + 1)
      rw [Nat.zero_add] at e
      rw [List.range_eq_range', List.range_eq_range', ← List.range'_succ, e]
      congr 1; omega
    rw [this, List.flatMap_append, List.flatMap_cons]
  constructor
  · rw [hsplit, List.foldl_append, List.foldl_append]
    refine foldl_other _ _ b ?_
    intro p hp
    obtain ⟨c, hc, hp⟩ := List.mem_flatMap.1 hp
    obtain ⟨t, _, rfl⟩ := List.mem_map.1 hp
    have := (List.mem_range'_1.1 hc).1
    simp only; omega
  · refine foldl_other _ _ b ?_
    intro p hp
    have := ((inOrder_mem _ _ p).1 hp).1
    omega

/-- The launches in order, each thread undisturbed. -/
def seqRun (I : Input) (Ls : List Launch) (a : Nat → WithTop ℚ) : Nat → WithTop ℚ :=
  Ls.foldl (fun a L => (inOrder I.pairs L.dim).foldl (atom I L) a) a

theorem seqRun_launches (Ls : List Launch) : ∀ a, Launches I Ls a (seqRun I Ls a) := by
  induction Ls with
  | nil => intro a; exact Launches.nil a
  | cons L Ls ih => intro a; exact Launches.cons (launched_atoms a _ (List.Perm.refl _)) (ih _)

theorem seqRun_later (b : Nat) (hb : b < I.pairs) : ∀ (Ls : List Launch) (a : Nat → WithTop ℚ),
    (∀ L ∈ Ls, ¬ (L.off1 = 0 ∧ L.off2 = 0)) → seqRun I Ls a b ≤ a b ∧
    ∀ L ∈ Ls, ∀ t < L.dim, I.active L b t → seqRun I Ls a b ≤ I.dd b L.off1 (t + L.off2)
  | [], a, _ => ⟨le_refl _, by simp⟩
  | L :: Ls, a, hn => by
      obtain ⟨h1, h2⟩ := seqRun_later b hb Ls ((inOrder I.pairs L.dim).foldl (atom I L) a) (fun L hL => hn L (List.mem_cons_of_mem _ hL))
      obtain ⟨e1, e2⟩ := inOrder_block (I := I) (L := L) a I.pairs L.dim b hb
      obtain ⟨g1, g2⟩ := block_later (I := I) (hn L (List.mem_cons_self ..)) b (List.range L.dim) ((inOrder b L.dim).foldl (atom I L) a)
      rw [← e1] at g1 g2
      rw [e2] at g1
      refine ⟨le_trans h1 g1, ?_⟩
      intro L' hL' t ht ha
      rcases List.mem_cons.1 hL' with rfl | hL'
      · exact le_trans h1 (g2 t (List.mem_range.2 ht) ha)
      · exact h2 L' hL' t ht ha

/-- C58. There is a schedule (thread after thread) on which the GPU's results are the CPU's, for every batch and
whatever the device memory held before. -/
theorem C58_some_schedule_exact {data : Nat → ℚ} {os : Nat → Nat} {pairs segments : Nat} (hin : InData os pairs segments)
    (vec0 : Nat → ℚ) (dist0 : Nat → WithTop ℚ) :
    ∃ result, SegDistBatch data os pairs segments vec0 dist0 result ∧
      ∀ b < pairs, 0 < os (4 * b + 1) → 0 < os (4 * b + 3) → os (4 * b + 1) ≤ 10000 → os (4 * b + 3) ≤ 10000 →
        result b = cpuDist data os b := by
  refine ⟨_, ⟨_, interleaving_sequential _, seqRun_launches _ _⟩, ?_⟩
  intro b hb h1 h2 h3 h4
  have hx := seqRun_launches (I := ⟨data, runWrites vec0 (vectorUnits data segments).flatten, os, pairs⟩)
    (launches (maxSize (fun i => os (i * 4 + 1)) pairs) (maxSize (fun i => os (i * 4 + 3)) pairs)) dist0
  apply le_antisymm _ (C58_not_below_partial hin ⟨_, interleaving_sequential _, hx⟩ b hb h1 h2 h3 h4)
  have m1 := maxSize_spec (fun i => os (i * 4 + 1)) pairs b hb
  have m2 := maxSize_spec (fun i => os (i * 4 + 3)) pairs b hb
  simp only [Nat.mul_comm b 4] at m1 m2
  set M1 := maxSize (fun i => os (i * 4 + 1)) pairs
  set M2 := maxSize (fun i => os (i * 4 + 3)) pairs
  rcases (C37_minimum (fun k => data (os (4 * b) * 6 + k)) (fun k => data (os (4 * b + 2) * 6 + k)) _ _ h3 h4).2.1 with
    e | ⟨i, hi, j, hj, e⟩
  · unfold cpuDist; rw [e]; exact le_top
  · unfold cpuDist; rw [e]
    change _ ≤ pairDist data os b i j
    rw [← dd_eq hin (interleaving_sequential _) vec0 hb hi hj]
    set I : Input := ⟨data, runWrites vec0 (vectorUnits data segments).flatten, os, pairs⟩ with hI
    have hact : ∀ (L : Launch) t, I.active L b t ↔ L.off1 < os (4 * b + 1) ∧ t + L.off2 < os (4 * b + 3) := by
      intro L t; unfold Input.active; simp only [hI, Nat.mul_comm b 4]; omega
    obtain ⟨rest, hrest, hnot⟩ := launches_first M1 M2 (by omega) (by omega)
    have hmem := (launches_mem M1 M2 ⟨i, j / 1024 * 1024, min (M2 - j / 1024 * 1024) 1024⟩).2 ⟨j / 1024, i, by omega, by omega, rfl⟩
    rw [hrest] at hmem ⊢
    have hjt : j % 1024 + j / 1024 * 1024 = j := by omega
    have hact' := (hact ⟨i, j / 1024 * 1024, min (M2 - j / 1024 * 1024) 1024⟩ (j % 1024)).2 ⟨hi, by simp only; omega⟩
    set L0 : Launch := ⟨0, 0, min M2 1024⟩ with hL0
    have hrun : seqRun I (L0 :: rest) dist0 = seqRun I rest ((inOrder I.pairs L0.dim).foldl (atom I L0) dist0) := rfl
    rw [hrun]
    obtain ⟨x, y⟩ := seqRun_later (I := I) b hb rest ((inOrder I.pairs L0.dim).foldl (atom I L0) dist0) hnot
    rcases List.mem_cons.1 hmem with e0 | hm
    · refine le_trans x ?_
      have hi0 : i = 0 := congrArg Launch.off1 e0
      have hj0 : j / 1024 * 1024 = 0 := congrArg Launch.off2 e0
      have hjd : j < L0.dim := by simp only [hL0]; omega
      obtain ⟨e1, e2⟩ := inOrder_block (I := I) (L := L0) dist0 I.pairs L0.dim b hb
      rw [e1]
      generalize (inOrder b L0.dim).foldl (atom I L0) dist0 = a
      obtain ⟨d, hd⟩ : ∃ d, L0.dim = d + 1 := ⟨L0.dim - 1, by omega⟩
      rw [hd, List.range_succ_eq_map, List.map_cons, List.foldl_cons]
      have ha0 : I.active L0 b 0 := (hact _ _).2 ⟨h1, h2⟩
      obtain ⟨g1, g2⟩ := block_first (I := I) (L := L0) ⟨rfl, rfl⟩ b ((List.range d).map Nat.succ) (atom I L0 a (b, 0))
        (by intro t ht; obtain ⟨t', _, rfl⟩ := List.mem_map.1 ht; omega)
      by_cases hjz : j = 0
      · have : atom I L0 a (b, 0) b = I.dd b i j := by
          unfold atom
          rw [if_pos ha0, if_pos (Or.inl ⟨rfl, rfl⟩), put_same, hi0, hjz]
          rfl
        rw [← this]; exact g1
      · have hja : I.active L0 b j := (hact _ _).2 ⟨h1, by simpa [hL0] using hj⟩
        have := g2 j (List.mem_map.2 ⟨j - 1, List.mem_range.2 (by omega), by omega⟩) hja
        rw [hi0]; exact this
    · have := y _ hm (j % 1024) (by simp only; omega) hact'
      simp only [hjt] at this
      exact this

/-! ## The race -/

/-- One pair: the segment (0,0,0)-(1,0,0) against (0,2,0)-(1,2,0) and (0,1,0)-(1,1,0). -/
def raceData : Nat → ℚ := fun k => [0,0,0,1,0,0, 0,2,0,1,2,0, 0,1,0,1,1,0].getD k 0
def raceOs : Nat → Nat := fun k => [0, 1, 1, 2].getD k 0

/-- C58 counterexample. Whatever the device memory held before, there is a schedule of the single launch on which the
result is 4 although the smallest distance, which the CPU returns, is 1: thread 1 finishes before thread 0, whose
first write is unconditional. -/
theorem C58_lost_minimum (vec0 : Nat → ℚ) (dist0 : Nat → WithTop ℚ) :
    InData raceOs 1 3 ∧ cpuDist raceData raceOs 0 = ((1 : ℚ) : WithTop ℚ) ∧
    ∃ result, SegDistBatch raceData raceOs 1 3 vec0 dist0 result ∧ result 0 = ((4 : ℚ) : WithTop ℚ) := by
  have hin : InData raceOs 1 3 := by
    intro b hb
    have : b = 0 := by omega
    subst this
    decide
  refine ⟨hin, by decide +kernel, ?_⟩
  have hls : launches (maxSize (fun i => raceOs (i * 4 + 1)) 1) (maxSize (fun i => raceOs (i * 4 + 3)) 1) = [⟨0, 0, 2⟩] := by
    decide +kernel
  have hw := interleaving_sequential (vectorUnits raceData 3)
  set I : Input := ⟨raceData, runWrites vec0 (vectorUnits raceData 3).flatten, raceOs, 1⟩ with hI
  have hl := launched_atoms (I := I) (L := ⟨0, 0, 2⟩) dist0 [(0, 1), (0, 0)] (List.Perm.swap (0, 0) (0, 1) [])
  refine ⟨[(0, 1), (0, 0)].foldl (atom I ⟨0, 0, 2⟩) dist0, ⟨_, hw, ?_⟩, ?_⟩
  · rw [hls]
    exact Launches.cons hl (Launches.nil _)
  · have hd := dd_eq hin hw vec0 (b := 0) (i := 0) (j := 0) (by norm_num) (by decide) (by decide)
    have e4 : pairDist raceData raceOs 0 0 0 = ((4 : ℚ) : WithTop ℚ) := by decide +kernel
    rw [e4] at hd
    have ha : I.active ⟨0, 0, 2⟩ 0 0 := by unfold Input.active; simp only [hI]; decide
    rw [List.foldl_cons, List.foldl_cons, List.foldl_nil]
    generalize atom I ⟨0, 0, 2⟩ dist0 (0, 1) = a
    unfold atom
    rw [if_pos ha, if_pos (Or.inl ⟨rfl, rfl⟩), put_same]
    exact hd

/-- The hypotheses of the theorems above are met by this batch (and by many pairs with many segments). -/
example (vec0 dist0) : ∃ result, SegDistBatch raceData raceOs 1 3 vec0 dist0 result ∧ result 0 = ((1 : ℚ) : WithTop ℚ) := by
  obtain ⟨hin, h1, _⟩ := C58_lost_minimum vec0 dist0
  obtain ⟨r, h, e⟩ := C58_some_schedule_exact hin vec0 dist0
  exact ⟨r, h, by rw [e 0 (by norm_num) (by decide) (by decide) (by decide) (by decide), h1]⟩

end TDP.Gpu
