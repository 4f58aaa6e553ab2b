import Verif.Gpu.Model
import Verif.Kernels.Props
import Verif.Conc.Tokens
/-!
# C59: intersections on the GPU; C60: the device memory
-/
namespace TDP.Gpu
open TDP.Boxes TDP.Kernels TDP.Conc

/-- In an interleaving in which only unit `u` (at one position) writes entry `i`, the writes to it come in `u`'s order. -/
theorem interleaving_filter {R : Type} {us : List (List (Nat × R))} {ws : List (Nat × R)} (h : Interleaving us ws) (i : Nat) :
    ∀ (pre post : List (List (Nat × R))) (u : List (Nat × R)), us = pre ++ u :: post →
      (∀ x ∈ pre ++ post, ∀ w ∈ x, w.1 ≠ i) → ws.filter (fun w => w.1 = i) = u.filter (fun w => w.1 = i) := by
  induction h with
  | done us hu =>
    intro pre post u e _
    have : u = [] := hu u (by rw [e]; simp)
    rw [this]
  | step pre' post' w u' ws _ ih =>
    intro pre post u e hne
    rcases List.append_eq_append_iff.1 e with ⟨m, e1, e2⟩ | ⟨m, e1, e2⟩
    · cases m with
      | nil =>
        simp only [List.append_nil, List.nil_append] at e1 e2
        obtain ⟨ea, eb⟩ := List.cons.inj e2
        have := ih pre' post' u' rfl (by rw [← e1, eb]; exact hne)
        rw [← ea]
        rw [List.filter_cons, List.filter_cons, this]
      | cons y m =>
        obtain ⟨ea, eb⟩ := List.cons.inj (e2.trans (List.cons_append ..))
        have hy := hne y (by rw [e1]; simp)
        rw [← ea] at hy
        rw [e1] at hne
        have := ih (pre' ++ u' :: m) post u (by rw [eb]; simp) (by
          intro x hx v hv
          simp only [List.mem_append, List.mem_cons, or_assoc] at hx
          rcases hx with hx | rfl | hx
          · exact hne x (by simp [hx]) v hv
          · exact hy v (List.mem_cons_of_mem _ hv)
          · exact hne x (by rcases hx with hx | hx <;> simp [hx]) v hv)
        rw [List.filter_cons, if_neg (by simpa using hy w (List.mem_cons_self ..)), this]
    · cases m with
      | nil =>
        simp only [List.append_nil, List.nil_append] at e1 e2
        obtain ⟨ea, eb⟩ := List.cons.inj e2
        have := ih pre' post' u' rfl (by rw [e1, ← eb]; exact hne)
        rw [ea]
        rw [List.filter_cons, List.filter_cons, this]
      | cons y m =>
        obtain ⟨ea, eb⟩ := List.cons.inj (e2.trans (List.cons_append ..))
        have hy := hne (w :: u') (by rw [eb]; simp)
        rw [eb] at hne
        have := ih pre (m ++ u' :: post') u (by rw [e1, ea]; simp) (by
          intro x hx v hv
          simp only [List.mem_append, List.mem_cons] at hx
          rcases hx with hx | hx | rfl | hx
          · exact hne x (by simp [hx]) v hv
          · exact hne x (by simp [hx]) v hv
          · exact hy v (List.mem_cons_of_mem _ hv)
          · exact hne x (by simp [hx]) v hv)
        rw [List.filter_cons, if_neg (by simpa using hy w (List.mem_cons_self ..)), this]

/-- Only the writes to an entry matter for it. -/
theorem runWrites_filter {R : Type} (i : Nat) : ∀ (ws : List (Nat × R)) (a : Arr R),
    runWrites a ws i = runWrites a (ws.filter (fun w => w.1 = i)) i
  | [], _ => rfl
  | w :: ws, a => by
      have e : runWrites a (w :: ws) = runWrites (a.set w) ws := rfl
      rw [e, List.filter_cons]
      by_cases h : w.1 = i
      · rw [if_pos (by simpa using h)]
        exact runWrites_filter i ws (a.set w)
      · rw [if_neg (by simpa using h), runWrites_filter i ws (a.set w)]
        have key : ∀ (l : List (Nat × R)) (a b : Arr R), a i = b i → runWrites a l i = runWrites b l i := by
          intro l
          induction l with
          | nil => intro a b h; exact h
          | cons v l ih =>
            intro a b hab
            refine ih _ _ ?_
            unfold Arr.set
            split
            · rfl
            · exact hab
        refine key _ _ _ ?_
        unfold Arr.set
        rw [if_neg (fun e => h e.symm)]

/-- What the CPU computes for pair `b` (`TriInt_unit`, geometry_computer.cpp:161-166). -/
def cpuInt (data : Nat → ℚ) (os : Nat → Nat) (b : Nat) : Bool :=
  triIntSingle (fun k => data (os (4 * b) * 9 + k)) (fun k => data (os (4 * b + 2) * 9 + k)) (os (4 * b + 1)) (os (4 * b + 3))

theorem triFound_eq (data : Nat → ℚ) (os : Nat → Nat) (b : Nat) : triFound data os b = cpuInt data os b := by
  have sh : ∀ (a p q : Nat), q = a + p → ptAt (fun k => data (a + k)) p = ptAt data q := by
    intro a p q h; subst h; rfl
  unfold triFound cpuInt triIntSingle triPair
  simp only [Nat.mul_comm b 4]
  congr 1
  funext i
  congr 1
  funext j
  rw [sh (os (4 * b) * 9) (9 * i) (9 * (os (4 * b) + i)) (by omega),
    sh (os (4 * b) * 9) (9 * i + 3) (9 * (os (4 * b) + i) + 3) (by omega),
    sh (os (4 * b) * 9) (9 * i + 6) (9 * (os (4 * b) + i) + 6) (by omega),
    sh (os (4 * b + 2) * 9) (9 * j) (9 * (os (4 * b + 2) + j)) (by omega),
    sh (os (4 * b + 2) * 9) (9 * j + 3) (9 * (os (4 * b + 2) + j) + 3) (by omega),
    sh (os (4 * b + 2) * 9) (9 * j + 6) (9 * (os (4 * b + 2) + j) + 6) (by omega)]

theorem triUnit_idx (data : Nat → ℚ) (os : Nat → Nat) (pairs blk t : Nat) :
    ∀ w ∈ triUnit data os pairs blk t, w.1 = blk * 1024 + t ∧ w.1 < pairs := by
  intro w hw
  unfold triUnit at hw
  simp only at hw
  split at hw
  · simp at hw
  · rcases List.mem_cons.1 hw with rfl | hw
    · exact ⟨rfl, by simp only; omega⟩
    · split at hw
      · rw [List.mem_singleton] at hw; subst hw; exact ⟨rfl, by simp only; omega⟩
      · simp at hw

/-- The units, numbered by thread. -/
theorem triUnits_split (data : Nat → ℚ) (os : Nat → Nat) (pairs i : Nat) (hi : i < pairs) :
    ∃ pre post, triUnits data os pairs = pre ++ triUnit data os pairs (i / 1024) (i % 1024) :: post ∧
      ∀ x ∈ pre ++ post, ∀ w ∈ x, w.1 ≠ i := by
  have s1 : List.range (pairs / 1024 + 1) = List.range (i / 1024) ++ i / 1024 :: List.range' (i / 1024 + 1) (pairs / 1024 - i / 1024) := by
    have e := List.range'_append_1 (s := 0) (m := i / 1024) (n := pairs / 1024 - i / 1024 + 1)
    rw [Nat.zero_add] at e
    rw [List.range_eq_range', List.range_eq_range', ← List.range'_succ, e]
    congr 1
    have := Nat.div_le_div_right (c := 1024) (le_of_lt hi)
    omega
  have s2 : List.range 1024 = List.range (i % 1024) ++ i % 1024 :: List.range' (i % 1024 + 1) (1024 - i % 1024 - 1) := by
    have e := List.range'_append_1 (s := 0) (m := i % 1024) (n := 1024 - i % 1024 - 1 + 1)
    rw [Nat.zero_add] at e
    rw [List.range_eq_range', List.range_eq_range', ← List.range'_succ, e]
    congr 1
    have := Nat.mod_lt i (show 0 < 1024 by norm_num)
    omega
  generalize hU : triUnit data os pairs = U
  have hidx : ∀ blk t, ∀ w ∈ U blk t, w.1 = blk * 1024 + t := by
    intro blk t w hw; rw [← hU] at hw; exact (triUnit_idx data os pairs blk t w hw).1
  have hex : triUnits data os pairs = (List.range (pairs / 1024 + 1)).flatMap (fun blk => (List.range 1024).map (fun t => U blk t)) := by
    rw [← hU]; rfl
  rw [hex, s1, List.flatMap_append, List.flatMap_cons]
  have hm : ((List.range 1024).map (fun t => U (i / 1024) t)) =
      (List.range (i % 1024)).map (fun t => U (i / 1024) t) ++ (U (i / 1024) (i % 1024) ::
        (List.range' (i % 1024 + 1) (1024 - i % 1024 - 1)).map (fun t => U (i / 1024) t)) := by
    rw [s2, List.map_append, List.map_cons]
  rw [hm]
  refine ⟨(List.range (i / 1024)).flatMap (fun blk => (List.range 1024).map (fun t => U blk t)) ++
      (List.range (i % 1024)).map (fun t => U (i / 1024) t),
    (List.range' (i % 1024 + 1) (1024 - i % 1024 - 1)).map (fun t => U (i / 1024) t) ++
      (List.range' (i / 1024 + 1) (pairs / 1024 - i / 1024)).flatMap (fun blk => (List.range 1024).map (fun t => U blk t)), by simp, ?_⟩
  intro x hx w hw
  simp only [List.mem_append, List.mem_flatMap, List.mem_map, List.mem_range, List.mem_range'_1] at hx
  rcases hx with (⟨blk, hb, t, ht, rfl⟩ | ⟨t, ht, rfl⟩) | ⟨t, ht, rfl⟩ | ⟨blk, hb, t, ht, rfl⟩ <;>
    · rw [hidx _ _ w hw]; omega

/-- C59. For every batch, whatever the schedule of the threads and the previous contents of the device memory, every
pair's entry is 1 if the CPU's test says that the two slices intersect, and 0 otherwise; other entries are unchanged.
Unlike on the CPU (C35) no pair is left out. -/
theorem C59_gpu_intersect (data : Nat → ℚ) (os : Nat → Nat) (pairs : Nat) (ws : List (Nat × Nat))
    (h : Interleaving (triUnits data os pairs) ws) (a : Nat → Nat) :
    (∀ b < pairs, runWrites a ws b = if cpuInt data os b then 1 else 0) ∧ ∀ b, pairs ≤ b → runWrites a ws b = a b := by
  constructor
  · intro b hb
    obtain ⟨pre, post, e, hne⟩ := triUnits_split data os pairs b hb
    rw [runWrites_filter, interleaving_filter h b pre post _ e hne]
    have hidx : b / 1024 * 1024 + b % 1024 = b := by omega
    unfold triUnit
    simp only [hidx]
    rw [if_neg (by omega), triFound_eq]
    cases hc : cpuInt data os b
    · simp [runWrites, Arr.set]
    · simp [runWrites, Arr.set]
  · intro b hb
    rw [runWrites_filter]
    have : ws.filter (fun w => w.1 = b) = [] := by
      rw [List.filter_eq_nil_iff]
      intro w hw
      obtain ⟨u, hu, hwu⟩ := (mem_of_interleaving h w).1 hw
      unfold triUnits at hu
      simp only [List.mem_flatMap, List.mem_map, List.mem_range] at hu
      obtain ⟨blk, _, t, _, rfl⟩ := hu
      have := (triUnit_idx data os pairs blk t w hwu).2
      simp only [decide_eq_true_eq]
      omega
    rw [this]; rfl

/-- Two crossing triangles and two far apart, as a batch of two pairs: the statuses are 1 and 0, on the
schedule that runs the threads one by one (which exists for every batch). -/
example : let data : Nat → ℚ := fun k => [0,0,0, 4,0,0, 0,4,0,  1,1,-1, 0,0,2, 1,0,2,  50,50,50, 1,0,0, 0,1,0].getD k 0
    let os : Nat → Nat := fun k => [0,1,1,1, 0,1,2,1].getD k 0
    cpuInt data os 0 = true ∧ cpuInt data os 1 = false ∧
    Interleaving (triUnits data os 2) (triUnits data os 2).flatten := by
  refine ⟨by decide +kernel, by decide +kernel, interleaving_sequential _⟩

/-! ## C60 -/

/-- C60 (partial). At any point of any history of requests and releases by any number of threads, a device in use for a
distance batch has room for all the arrays of that batch, provided the vectors, results and offsets need at most
1 MB. Missing: the size asked for does not include them, see `C60_distance_overflow`. -/
theorem C60_distance_fits_partial {k n : Nat} (mem : Fin k → Nat) (s : Tokens.GSt k n)
    (h : Reach (Tokens.GStep (fun d => (mem d : Int))) (Tokens.gstart k n) s) (t : Fin n) (d : Fin k) (segments pairs : Nat)
    (hu : s.pc t = .use (distRequest segments) d) (hs : segments * 6 < 2^32) (hx : 12 * segments + 20 * pairs ≤ 1024 * 1024) :
    distLayout segments pairs ≤ deviceBytes (mem d) := by
  have hm := Tokens.C44_memory _ s h t d _ hu
  unfold distRequest at hm
  unfold distLayout deviceBytes
  rw [Nat.mod_eq_of_lt hs] at hm
  omega

/-- C60 (partial). For an intersection batch: if results and offsets need at most 1 MB (52428 pairs). -/
theorem C60_intersect_fits_partial {k n : Nat} (mem : Fin k → Nat) (s : Tokens.GSt k n)
    (h : Reach (Tokens.GStep (fun d => (mem d : Int))) (Tokens.gstart k n) s) (t : Fin n) (d : Fin k) (triangles pairs : Nat)
    (hu : s.pc t = .use (intRequest triangles) d) (hs : triangles * 9 < 2^32) (hx : pairs ≤ 52428) :
    intLayout triangles pairs ≤ deviceBytes (mem d) := by
  have hm := Tokens.C44_memory _ s h t d _ hu
  unfold intRequest at hm
  unfold intLayout deviceBytes
  rw [Nat.mod_eq_of_lt hs] at hm
  omega

/-- C60 counterexample: on a device with 8 GB, of which 2 GB are used, a batch of 65 million segments and a single pair is
accepted, and its arrays end more than 100 MB behind the allocated memory. -/
theorem C60_distance_overflow : ∃ s : Tokens.GSt 1 1,
    Reach (Tokens.GStep (fun _ => (memSize (8 * 1024 * 1024 * 1024) : Int))) (Tokens.gstart 1 1) s ∧
    s.pc 0 = .use (distRequest 65000000) 0 ∧
    deviceBytes (memSize (8 * 1024 * 1024 * 1024)) + 100 * 1024 * 1024 < distLayout 65000000 1 := by
  obtain ⟨s, hr, hs⟩ := Tokens.C44_available (k := 1) (n := 1) (fun _ => (memSize (8 * 1024 * 1024 * 1024) : Int)) _ Reach.init
    (fun _ => rfl) 0 0 (distRequest 65000000) true (by decide) (by decide)
  exact ⟨s, hr, hs, by decide⟩

/-- C60 counterexample: an intersection batch of 59.5 million triangles with 2 million pairs. -/
theorem C60_intersect_overflow : ∃ s : Tokens.GSt 1 1,
    Reach (Tokens.GStep (fun _ => (memSize (8 * 1024 * 1024 * 1024) : Int))) (Tokens.gstart 1 1) s ∧
    s.pc 0 = .use (intRequest 59500000) 0 ∧
    deviceBytes (memSize (8 * 1024 * 1024 * 1024)) < intLayout 59500000 2000000 := by
  obtain ⟨s, hr, hs⟩ := Tokens.C44_available (k := 1) (n := 1) (fun _ => (memSize (8 * 1024 * 1024 * 1024) : Int)) _ Reach.init
    (fun _ => rfl) 0 0 (intRequest 59500000) true (by decide) (by decide)
  exact ⟨s, hr, hs, by decide⟩

/-- The hypotheses are met by 80000 segments in 1000 pairs on a device with 16 MB. -/
example : ∃ s : Tokens.GSt 1 2, Reach (Tokens.GStep (fun _ => ((memSize (16 * 1024 * 1024) : Nat) : Int))) (Tokens.gstart 1 2) s ∧
    s.pc 1 = .use (distRequest 80000) 0 ∧ 12 * 80000 + 20 * 1000 ≤ 1024 * 1024 := by
  obtain ⟨s, hr, hs⟩ := Tokens.C44_available (k := 1) (n := 2) (fun _ => ((memSize (16 * 1024 * 1024) : Nat) : Int)) _ Reach.init
    (fun _ => rfl) 1 0 (distRequest 80000) true (by decide) (by decide)
  exact ⟨s, hr, hs, by decide⟩

end TDP.Gpu
