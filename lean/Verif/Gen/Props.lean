import Verif.Gen.Model
import Mathlib.Tactic.FieldSimp
import Mathlib.Tactic.Linarith
import Mathlib.Tactic.FinCases
import Mathlib.Data.List.Pairwise
/-! # C79, C80: what the data generator writes -/
namespace TDP.Gen
open TDP.Boxes TDP.Bytes TDP.Tile

theorem Res.bind_done {X Y : Type} {a : Res X} {f : X → Res Y} {y : Y} : (a >>= f) = .done y ↔ ∃ x, a = .done x ∧ f x = .done y := by
  cases a with
  | ub =>
    constructor
    · intro h; cases h
    · rintro ⟨x, h, _⟩; cases h
  | more =>
    constructor
    · intro h; cases h
    · rintro ⟨x, h, _⟩; cases h
  | done x => exact ⟨fun h => ⟨x, rfl, h⟩, fun ⟨x', h, h'⟩ => by cases h; exact h'⟩

theorem Res.pure_done {X : Type} {x y : X} : (pure x : Res X) = .done y ↔ x = y :=
  ⟨fun h => by cases h; rfl, fun h => by rw [h]; rfl⟩

/-! ## Choices -/

theorem randNumber_done {m : Int} {rs rest : List Nat} {i : Int} (h : randNumber m rs = .done (i, rest)) :
    m ≠ 0 ∧ 1 ≤ i ∧ i ≤ |m| := by
  unfold randNumber at h
  rw [Res.bind_done] at h
  obtain ⟨⟨r, rs'⟩, h1, h2⟩ := h
  simp only at h2
  by_cases hm : m = 0
  · rw [if_pos hm] at h2; cases h2
  · rw [if_neg hm, Res.pure_done] at h2
    injection h2 with e1 e2
    refine ⟨hm, ?_, ?_⟩
    · have := Int.tmod_nonneg m (show (0 : Int) ≤ (r : Int) from Int.natCast_nonneg r)
      omega
    · rcases lt_or_gt_of_ne hm with hlt | hgt
      · have := Int.tmod_lt_of_pos (r : Int) (show 0 < -m by omega)
        rw [Int.tmod_neg] at this
        rw [abs_of_neg hlt]
        omega
      · have := Int.tmod_lt_of_pos (r : Int) hgt
        rw [abs_of_pos hgt]
        omega

theorem pickSlot_done {c : Cfg} {taken : Nat → Bool} : ∀ {rs rest : List Nat} {i : Nat}, pickSlot c taken rs = .done (i, rest) →
    1 ≤ i ∧ i < c.total ∧ taken i = false ∧ c.vtaken i = false
  | [], _, _, h => by cases h
  | r :: rs, rest, i, h => by
      unfold pickSlot at h
      by_cases h0 : c.total = 0
      · rw [if_pos h0] at h; cases h
      rw [if_neg h0] at h
      by_cases h1 : c.total ≤ r % c.total + 1
      · rw [if_pos h1] at h; cases h
      rw [if_neg h1] at h
      by_cases h2 : (taken (r % c.total + 1) || c.vtaken (r % c.total + 1)) = true
      · rw [if_pos h2] at h; exact pickSlot_done h
      · rw [if_neg h2] at h
        injection h with h
        injection h with e1 e2
        subst e1
        simp only [Bool.or_eq_true, not_or, Bool.not_eq_true] at h2
        exact ⟨by omega, by omega, h2.1, h2.2⟩

theorem pickProto_done {c : Cfg} {rs rest : List Nat} {i : Nat} (h : pickProto c rs = .done (i, rest)) : 1 ≤ i ∧ i < c.protos := by
  unfold pickProto at h
  rw [Res.bind_done] at h
  obtain ⟨⟨r, rs'⟩, h1, h2⟩ := h
  obtain ⟨_, a, b⟩ := randNumber_done h1
  simp only at h2
  by_cases hr : r < 0 ∨ (c.protos : Int) ≤ r
  · rw [if_pos hr] at h2; cases h2
  · rw [if_neg hr, Res.pure_done] at h2
    injection h2 with e1 e2
    omega

/-- Specification: one axis of the displacement is between 1% and `range`% of the size of a slot, in one of the two directions. -/
def Displaced (c : Cfg) (s d : ℚ) (k : Fin 3) : Prop :=
  ∃ m : Int, 1 ≤ m ∧ m ≤ |c.range| ∧ (d = s + c.nb k * m / 100 ∨ d = s - c.nb k * m / 100)

theorem displace_done {c : Cfg} {s : Pt ℚ} {k : Fin 3} {rs rest : List Nat} {d : ℚ} (h : displace c s k rs = .done (d, rest)) :
    Displaced c (s k) d k := by
  unfold displace at h
  rw [Res.bind_done] at h
  obtain ⟨⟨m, rs'⟩, h1, h2⟩ := h
  obtain ⟨_, a, b⟩ := randNumber_done h1
  simp only at h2
  rw [Res.bind_done] at h2
  obtain ⟨⟨bb, rs''⟩, _, h3⟩ := h2
  simp only [Res.pure_done, Prod.mk.injEq] at h3
  refine ⟨m, a, b, ?_⟩
  cases bb
  · right; rw [← h3.1]; simp; ring
  · left; rw [← h3.1]; simp

/-- What is known of a nucleus placed. -/
structure Good (c : Cfg) (base : Pt ℚ) (p : Placed) : Prop where
  pos : 1 ≤ p.slot
  lt : p.slot < c.total
  free : c.vtaken p.slot = false
  shift : p.shift = c.shift base p.slot
  poly : 1 ≤ p.poly ∧ p.poly < c.protos
  poly2 : 1 ≤ p.poly2 ∧ p.poly2 < c.protos
  disp : ∀ k, Displaced c (p.shift k) (p.shift2 k) k

theorem genLoop_done {c : Cfg} {base : Pt ℚ} : ∀ {fuel : Nat} {g : Int} {taken : Nat → Bool} {rs rest : List Nat} {ps : List Placed} {g' : Int},
    genLoop c base fuel g taken rs = .done (ps, g', rest) →
    (∀ p ∈ ps, Good c base p ∧ taken p.slot = false) ∧ ps.Pairwise (fun p q => p.slot ≠ q.slot) ∧
    g' = g + 1 + ps.length ∧ (ps = [] ∨ g' ≤ c.num) ∧ c.num ≤ g'
  | 0, _, _, _, _, _, _, h => by cases h
  | fuel + 1, g, taken, rs, rest, ps, g', h => by
      unfold genLoop at h
      by_cases hg : g + 1 < c.num
      · rw [if_pos hg, Res.bind_done] at h
        obtain ⟨⟨idx, rs1⟩, a1, h⟩ := h
        simp only at h
        rw [Res.bind_done] at h
        obtain ⟨⟨p, rs2⟩, a2, h⟩ := h
        simp only at h
        rw [Res.bind_done] at h
        obtain ⟨⟨d0, rs3⟩, a3, h⟩ := h
        simp only at h
        rw [Res.bind_done] at h
        obtain ⟨⟨d1, rs4⟩, a4, h⟩ := h
        simp only at h
        rw [Res.bind_done] at h
        obtain ⟨⟨d2, rs5⟩, a5, h⟩ := h
        simp only at h
        rw [Res.bind_done] at h
        obtain ⟨⟨p2, rs6⟩, a6, h⟩ := h
        simp only at h
        rw [Res.bind_done] at h
        obtain ⟨⟨qs, g1, rs7⟩, a7, h⟩ := h
        simp only [Res.pure_done, Prod.mk.injEq] at h
        obtain ⟨e1, e2, e3⟩ := h
        subst e1 e2
        obtain ⟨s1, s2, s3, s4⟩ := pickSlot_done a1
        obtain ⟨i1, i2, i3, i4, i5⟩ := genLoop_done a7
        refine ⟨?_, ?_, ?_, ?_, i5⟩
        · intro q hq
          rcases List.mem_cons.1 hq with rfl | hq
          · refine ⟨⟨s1, s2, s4, rfl, pickProto_done a2, pickProto_done a6, ?_⟩, s3⟩
            intro k
            match k with
            | 0 => exact displace_done a3
            | 1 => exact displace_done a4
            | 2 => exact displace_done a5
          · obtain ⟨x, y⟩ := i1 q hq
            refine ⟨x, ?_⟩
            by_cases e : q.slot = idx
            · rw [e, Function.update_self] at y; cases y
            · rw [Function.update_of_ne e] at y; exact y
        · refine List.pairwise_cons.2 ⟨?_, i2⟩
          intro q hq e
          obtain ⟨_, y⟩ := i1 q hq
          simp only at e
          rw [← e, Function.update_self] at y
          cases y
        · rw [i3, List.length_cons]; push_cast; ring
        · right
          rcases i4 with i4 | i4
          · subst i4
            rw [i3]; simp; omega
          · exact i4
      · rw [if_neg hg, Res.pure_done] at h
        injection h with e1 e2
        injection e2 with e2 e3
        subst e1 e2
        exact ⟨by simp, List.Pairwise.nil, by simp, Or.inl rfl, by omega⟩

/-- A job places one nucleus less than it is asked for, and reports as many as it was asked for. -/
theorem generate_count {c : Cfg} {base : Pt ℚ} {taken : Nat → Bool} {rs rest : List Nat} {ps : List Placed} {g : Int}
    (h : generate c base taken rs = .done (ps, g, rest)) : ps.length = (max c.num 1 - 1).toNat ∧ g = max c.num 1 := by
  obtain ⟨_, _, a, b, d⟩ := genLoop_done h
  rcases b with b | b
  · subst b; simp only [List.length_nil] at a ⊢; omega
  · omega

/-! ## Slots do not overlap -/

theorem coord_inj {c : Cfg} {i j : Nat} (h : ∀ k, c.coord i k = c.coord j k) : i = j := by
  have h0 := h 0
  have h1 := h 1
  have h2 := h 2
  simp only [Cfg.coord, if_true, if_false, show (1 : Fin 3) ≠ 0 by decide, show (2 : Fin 3) ≠ 0 by decide, show (2 : Fin 3) ≠ 1 by decide] at h0 h1 h2
  have e : i % (c.n 0 * c.n 1) = j % (c.n 0 * c.n 1) := by
    rw [← Nat.div_add_mod (i % (c.n 0 * c.n 1)) (c.n 0), ← Nat.div_add_mod (j % (c.n 0 * c.n 1)) (c.n 0), h0, h1]
  rw [← Nat.div_add_mod i (c.n 0 * c.n 1), ← Nat.div_add_mod j (c.n 0 * c.n 1), h2, e]

theorem coord_lt {c : Cfg} {i : Nat} (h : i < c.total) (k : Fin 3) : c.coord i k < c.n k := by
  unfold Cfg.total at h
  have hp : 0 < c.n 0 * c.n 1 := by
    rcases Nat.eq_zero_or_pos (c.n 0 * c.n 1) with e | e
    · rw [e] at h; omega
    · exact e
  have hp0 : 0 < c.n 0 := Nat.pos_of_mul_pos_right hp
  match k with
  | 0 => exact Nat.mod_lt _ hp0
  | 1 => exact (Nat.div_lt_iff_lt_mul hp0).2 (by rw [Nat.mul_comm (c.n 1)]; exact Nat.mod_lt _ hp)
  | 2 => exact (Nat.div_lt_iff_lt_mul hp).2 (by rw [Nat.mul_comm]; exact h)

/-- Specification: two boxes given by their lower corners and a common size are side by side on some axis. -/
def Apart (size a b : Pt ℚ) : Prop := ∃ k, a k + size k ≤ b k ∨ b k + size k ≤ a k

/-- Specification: the box at `a` of the given size lies in the box at `base` of size `outer`. -/
def Within (size a outer base : Pt ℚ) : Prop := ∀ k, base k ≤ a k ∧ a k + size k ≤ base k + outer k

theorem shift_apart {c : Cfg} (hnb : ∀ k, 0 < c.nb k) {base : Pt ℚ} {i j : Nat} (h : i ≠ j) : Apart c.nb (c.shift base i) (c.shift base j) := by
  have : ∃ k, c.coord i k ≠ c.coord j k := by
    by_contra hh
    push Not at hh
    exact h (coord_inj hh)
  obtain ⟨k, hk⟩ := this
  refine ⟨k, ?_⟩
  unfold Cfg.shift
  have hp := hnb k
  rcases Nat.lt_or_gt_of_ne hk with hl | hl
  · left
    have : (c.coord i k : ℚ) + 1 ≤ c.coord j k := by exact_mod_cast hl
    nlinarith
  · right
    have : (c.coord j k : ℚ) + 1 ≤ c.coord i k := by exact_mod_cast hl
    nlinarith

theorem shift_within {c : Cfg} (hnb : ∀ k, 0 < c.nb k) (hv : ∀ k, 0 ≤ c.vmax k) {base : Pt ℚ} {i : Nat} (h : i < c.total) :
    Within c.nb (c.shift base i) c.vmax base := by
  intro k
  unfold Cfg.shift
  have hp := hnb k
  have h1 : (c.coord i k : ℚ) + 1 ≤ c.n k := by exact_mod_cast coord_lt h k
  have h2 : (c.n k : ℚ) ≤ c.vmax k / c.nb k := Nat.floor_le (div_nonneg (hv k) hp.le)
  rw [le_div_iff₀ hp] at h2
  have h0 : (0 : ℚ) ≤ c.coord i k := Nat.cast_nonneg _
  constructor
  · nlinarith
  · nlinarith

/-- **C80.** The nuclei of one vessel: however the random numbers fall and whatever the fresh array contains, the boxes of any two nuclei
of the first file are side by side, and each is in the box of the vessel; each nucleus of the second file is displaced from the one
of the first file by between 1% and the given percentage of a slot on every axis; no slot marked for the vessel is used. -/
theorem C80_one_vessel {c : Cfg} (hnb : ∀ k, 0 < c.nb k) (hv : ∀ k, 0 ≤ c.vmax k) {base : Pt ℚ} {taken : Nat → Bool} {rs rest : List Nat}
    {ps : List Placed} {g : Int} (h : generate c base taken rs = .done (ps, g, rest)) :
    ps.Pairwise (fun p q => Apart c.nb p.shift q.shift) ∧
    (∀ p ∈ ps, Within c.nb p.shift c.vmax base ∧ (∀ k, Displaced c (p.shift k) (p.shift2 k) k) ∧ c.vtaken p.slot = false) := by
  obtain ⟨a, b, _⟩ := genLoop_done h
  constructor
  · refine List.Pairwise.imp_of_mem ?_ b
    intro p q hp hq hne
    rw [(a p hp).1.shift, (a q hq).1.shift]
    exact shift_apart hnb hne
  · intro p hp
    obtain ⟨g, _⟩ := a p hp
    exact ⟨by rw [g.shift]; exact shift_within hnb hv g.lt, g.disp, g.free⟩

/-! ## The files -/

section
variable {M α : Type} [LinearOrder α] [BoundedOrder α] {fc : FloatCode α} {K : Packing M α} {c : Cfg}

/-- The record of prototype `i` moved by `s`. -/
def IsRec (K : Packing M α) (o : Nat × Pt ℚ) (r : Record α) : Prop := ∃ p, K.protos[o.1]? = some p ∧ r = record K p o.2

theorem organizeAt_done {i : Nat} {s : Pt ℚ} {buf b : List Nat} (h : organizeAt fc K i s buf = .done b) :
    ∃ r, IsRec K (i, s) r ∧ b = buf ++ putRecord fc r ∧ b.length ≤ bufferSize := by
  unfold organizeAt organize at h
  cases hp : K.protos[i]? with
  | none => rw [hp] at h; cases h
  | some p =>
    rw [hp] at h
    simp only at h
    by_cases hl : (buf ++ putRecord fc (record K p s)).length ≤ bufferSize
    · rw [if_pos hl] at h
      injection h with h
      subst h
      exact ⟨_, ⟨p, hp, rfl⟩, rfl, hl⟩
    · rw [if_neg hl] at h; cases h

/-- The objects of the first and of the second file. -/
def obj1 (p : Placed) : Nat × Pt ℚ := (p.poly, p.shift)
def obj2 (p : Placed) : Nat × Pt ℚ := (p.poly2, p.shift2)

theorem fillBuffers_done : ∀ {ps : List Placed} {b1 b2 c1 c2 : List Nat}, b1.length ≤ bufferSize → b2.length ≤ bufferSize →
    fillBuffers fc K ps b1 b2 = .done (c1, c2) →
    ∃ r1 r2, List.Forall₂ (IsRec K) (ps.map obj1) r1 ∧ List.Forall₂ (IsRec K) (ps.map obj2) r2 ∧ c1 = b1 ++ dataFile fc r1 ∧
      c2 = b2 ++ dataFile fc r2 ∧ c1.length ≤ bufferSize ∧ c2.length ≤ bufferSize
  | [], b1, b2, c1, c2, h1, h2, h => by
      unfold fillBuffers at h
      injection h with h
      injection h with e1 e2
      subst e1 e2
      exact ⟨[], [], .nil, .nil, by simp [dataFile], by simp [dataFile], h1, h2⟩
  | p :: ps, b1, b2, c1, c2, h1, h2, h => by
      unfold fillBuffers at h
      rw [Res.bind_done] at h
      obtain ⟨x1, a1, h⟩ := h
      rw [Res.bind_done] at h
      obtain ⟨x2, a2, h⟩ := h
      obtain ⟨r, i1, i2, i3⟩ := organizeAt_done a1
      obtain ⟨r', j1, j2, j3⟩ := organizeAt_done a2
      obtain ⟨r1, r2, k1, k2, k3, k4, k5, k6⟩ := fillBuffers_done i3 j3 h
      refine ⟨r :: r1, r' :: r2, .cons i1 k1, .cons j1 k2, ?_, ?_, k5, k6⟩
      · rw [k3, i2]; simp [dataFile]
      · rw [k4, j2]; simp [dataFile]

theorem dataFile_fits {rs : List (Record α)} {n : Nat} (hn : n ≤ bufferSize) (h : (dataFile fc rs).length = n) : ∀ r ∈ rs, r.Fits := by
  intro r hr
  have h1 : (putRecord fc r).length ≤ (dataFile fc rs).length := by
    unfold dataFile
    rw [List.length_flatMap]
    exact List.single_le_sum (by simp) _ (List.mem_map_of_mem hr)
  have h2 : r.data.length + r.voxels.length ≤ (putRecord fc r).length := by
    unfold putRecord
    simp only [List.length_append, List.length_flatMap]
    have : r.voxels.length ≤ (r.voxels.map (fun v => (putVoxel fc v).length)).sum := by
      have : ∀ vs : List (Voxel α), vs.length ≤ (vs.map (fun v => (putVoxel fc v).length)).sum := by
        intro vs
        induction vs with
        | nil => simp
        | cons v vs ih =>
          rw [List.map_cons, List.sum_cons, List.length_cons]
          have : 1 ≤ (putVoxel fc v).length := by simp [putVoxel, putPt, put_length]
          omega
      exact this _
    omega
  have hb : bufferSize < 256 ^ 8 := by decide +kernel
  exact ⟨by omega, by omega⟩

/-- A finished job. -/
theorem job_done {base : Pt ℚ} {r : Conc.Generator.Result} (h : jobResult fc K c base r) :
    ∃ taken rs rest ps r1 r2, generate c base taken rs = .done (ps, max c.num 1, rest) ∧ r.count = (max c.num 1).toNat ∧
      List.Forall₂ (IsRec K) (ps.map obj1) r1 ∧ List.Forall₂ (IsRec K) (ps.map obj2) r2 ∧ r.first = dataFile fc r1 ∧
      r.second = dataFile fc r2 ∧ (∀ x ∈ r1, x.Fits) ∧ (∀ x ∈ r2, x.Fits) := by
  obtain ⟨taken, rs, rest, h⟩ := h
  unfold job at h
  rw [Res.bind_done] at h
  obtain ⟨⟨ps, g, rs'⟩, a1, h⟩ := h
  simp only at h
  rw [Res.bind_done] at h
  obtain ⟨⟨b1, b2⟩, a2, h⟩ := h
  simp only [Res.pure_done, Prod.mk.injEq] at h
  obtain ⟨h, _⟩ := h
  subst h
  obtain ⟨_, hg⟩ := generate_count a1
  subst hg
  obtain ⟨r1, r2, k1, k2, k3, k4, k5, k6⟩ := fillBuffers_done (by simp) (by simp) a2
  rw [List.nil_append] at k3 k4
  subst k3 k4
  exact ⟨taken, rs, rs', ps, r1, r2, a1, rfl, k1, k2, rfl, rfl, dataFile_fits k5 rfl, dataFile_fits k6 rfl⟩

/-- The nuclei of all jobs done, in the order of the files. -/
theorem all_jobs : ∀ (dn : List (Pt ℚ × Conc.Generator.Result)), (∀ e ∈ dn, jobResult fc K c e.1 e.2) →
    ∃ (L : List (Pt ℚ × List Placed)) (r1 r2 : List (Record α)), L.map Prod.fst = dn.map Prod.fst ∧
      (∀ l ∈ L, ∃ taken rs rest, generate c l.1 taken rs = .done (l.2, max c.num 1, rest)) ∧
      List.Forall₂ (IsRec K) ((L.flatMap Prod.snd).map obj1) r1 ∧ List.Forall₂ (IsRec K) ((L.flatMap Prod.snd).map obj2) r2 ∧
      dn.flatMap (fun e => e.2.first) = dataFile fc r1 ∧ dn.flatMap (fun e => e.2.second) = dataFile fc r2 ∧
      (∀ x ∈ r1, x.Fits) ∧ (∀ x ∈ r2, x.Fits) ∧ (dn.map (fun e => e.2.count)).sum = dn.length * (max c.num 1).toNat
  | [], _ => ⟨[], [], [], rfl, by simp, .nil, .nil, rfl, rfl, by simp, by simp, by simp⟩
  | e :: dn, h => by
      obtain ⟨taken, rs, rest, ps, r1, r2, a1, a2, a3, a4, a5, a6, a7, a8⟩ := job_done (h e (List.mem_cons_self ..))
      obtain ⟨L, q1, q2, b1, b2, b3, b4, b5, b6, b7, b8, b9⟩ := all_jobs dn (fun e he => h e (List.mem_cons_of_mem _ he))
      refine ⟨(e.1, ps) :: L, r1 ++ q1, r2 ++ q2, by simp [b1], ?_, ?_, ?_, ?_, ?_, ?_, ?_, ?_⟩
      · intro l hl
        rcases List.mem_cons.1 hl with rfl | hl
        · exact ⟨taken, rs, rest, a1⟩
        · exact b2 l hl
      · rw [List.flatMap_cons, List.map_append]; exact List.rel_append a3 b3
      · rw [List.flatMap_cons, List.map_append]; exact List.rel_append a4 b4
      · rw [List.flatMap_cons, a5, b5]; simp [dataFile]
      · rw [List.flatMap_cons, a6, b6]; simp [dataFile]
      · intro x hx
        rcases List.mem_append.1 hx with hx | hx
        · exact a7 x hx
        · exact b7 x hx
      · intro x hx
        rcases List.mem_append.1 hx with hx | hx
        · exact a8 x hx
        · exact b8 x hx
      · rw [List.map_cons, List.sum_cons, b9, a2, List.length_cons]; ring

/-- Specification: `w` is the voxel `v` moved by `s`, as a whole. -/
def MovedBy (toF : ℚ → α) (s : Pt ℚ) (v : Voxel ℚ) (w : Voxel α) : Prop :=
  ∀ k, w.box.min k = toF (v.box.min k + s k) ∧ w.box.max k = toF (v.box.max k + s k) ∧ w.core k = toF (v.core k + s k)

theorem moved_all (toF : ℚ → α) (s : Pt ℚ) : ∀ vs : List (Voxel ℚ), List.Forall₂ (MovedBy toF s) vs (vs.map (moveVoxel toF s))
  | [] => .nil
  | v :: vs => .cons (fun k => ⟨rfl, rfl, rfl⟩) (moved_all toF s vs)

/-- Specification: a file, opened as a tile, has exactly the given objects, in order: each is given by the number of its prototype and the
place it is moved to. -/
def Holds (fc : FloatCode α) (K : Packing M α) (file : List Nat) (objs : List (Nat × Pt ℚ)) : Prop :=
  ∃ t : Tile α, parseRaw fc file = some t ∧ t.objects.length = objs.length ∧
    ∀ i (h : i < objs.length) (h' : i < t.objects.length), ∃ p, K.protos[objs[i].1]? = some p ∧
      t.objects[i].id = i ∧ List.Forall₂ (MovedBy K.toF objs[i].2) p.voxels t.objects[i].voxels ∧
      retrieve file t.objects[i] = K.pack p.mesh objs[i].2

theorem holds_dataFile {objs : List (Nat × Pt ℚ)} {rs : List (Record α)} (h : List.Forall₂ (IsRec K) objs rs) (hf : ∀ r ∈ rs, r.Fits)
    (hs : (dataFile fc rs).length < 256 ^ 8) : Holds fc K (dataFile fc rs) objs := by
  obtain ⟨t, h1, _, h3, h4⟩ := C29_parse fc rs hf hs
  have hlen := h.length_eq
  refine ⟨t, h1, by rw [h3, hlen], ?_⟩
  intro i hi hi'
  obtain ⟨a, b, d, _⟩ := h4 i (by rw [← hlen]; exact hi) hi'
  have := h.get hi (by rw [← hlen]; exact hi)
  simp only [List.get_eq_getElem] at this
  obtain ⟨p, hp, hr⟩ := this
  exact ⟨p, hp, a, by rw [b, hr]; exact moved_all _ _ _, by rw [d, hr]; rfl⟩

theorem jobs_length (vmax : Pt ℚ) (x y z : Nat) : (jobs vmax x y z).length = x * y * z := by
  simp [jobs, List.length_flatMap, Nat.mul_assoc]

/-- The nuclei of a whole run with their vessels. -/
def withBase (L : List (Pt ℚ × List Placed)) : List (Pt ℚ × Placed) := L.flatMap (fun l => l.2.map (fun p => (l.1, p)))

theorem withBase_snd (L : List (Pt ℚ × List Placed)) : (withBase L).map Prod.snd = L.flatMap Prod.snd := by
  unfold withBase
  rw [List.map_flatMap]
  congr 1
  funext l
  simp

/-- A whole run. -/
theorem run_done {n : Nat} (hn : 0 < n) (bases : List (Pt ℚ)) (s : Conc.Generator.St (Pt ℚ) n)
    (h : Conc.Reach (Conc.Generator.Step (jobResult fc K c)) (Conc.Generator.start n bases) s) (hs : ∀ t, s.pc t = .stopped) :
    ∃ L : List (Pt ℚ × List Placed), (L.map Prod.fst).Perm bases ∧
      (∀ l ∈ L, ∃ taken rs rest, generate c l.1 taken rs = .done (l.2, max c.num 1, rest)) ∧
      (s.out1.length < 256 ^ 8 → Holds fc K s.out1 ((L.flatMap Prod.snd).map obj1)) ∧
      (s.out2.length < 256 ^ 8 → Holds fc K s.out2 ((L.flatMap Prod.snd).map obj2)) ∧
      (L.flatMap Prod.snd).length = bases.length * (max c.num 1 - 1).toNat ∧ s.total = bases.length * (max c.num 1).toNat := by
  obtain ⟨dn, d1, d2, d3, d4, d5⟩ := Conc.Generator.C78_each_once hn _ bases s h hs
  obtain ⟨L, r1, r2, b1, b2, b3, b4, b5, b6, b7, b8, b9⟩ := all_jobs dn d2
  have hl : dn.length = bases.length := by rw [← d1.length_eq, List.length_map]
  refine ⟨L, by rw [b1]; exact d1, b2, ?_, ?_, ?_, by rw [d5, b9, hl]⟩
  · intro hsz
    rw [d3, b5] at hsz ⊢
    exact holds_dataFile b3 b7 hsz
  · intro hsz
    rw [d4, b6] at hsz ⊢
    exact holds_dataFile b4 b8 hsz
  · have : L.length = bases.length := by rw [← hl, ← List.length_map (f := Prod.fst), b1, List.length_map]
    rw [← this]
    clear this b1 b3 b4
    induction L with
    | nil => simp
    | cons l L ih =>
      obtain ⟨_, _, _, hg⟩ := b2 l (List.mem_cons_self ..)
      rw [List.flatMap_cons, List.length_append, ih (fun l hl => b2 l (List.mem_cons_of_mem _ hl)), (generate_count hg).1,
        List.length_cons]
      ring
end
end TDP.Gen
