import Verif.Gpu.Model
import Verif.Kernels.Props
/-!
# C58: distances on the GPU
-/
namespace TDP.Gpu
open TDP.Boxes TDP.Kernels TDP.Conc

theorem clamp01_eq (x : ℚ) : clamp01 x = clamp x := rfl

/-- The device function computes what the CPU function computes, for all segments (in exact arithmetic): recomputing `t`
from the clamped `u` gives the same `t`. -/
theorem segDistKernel_eq (S T A B : Pt ℚ) : segDistKernel S T A B = segDist S T A B (vdot A A) (vdot B B) := by
  by_cases h : vdot A A = 0 ∨ vdot B B = 0
  · unfold segDistKernel segDist
    simp only [h, if_true]
  · have hA : vdot A A ≠ 0 := fun e => h (Or.inl e)
    have hB : vdot B B ≠ 0 := fun e => h (Or.inr e)
    rw [segDist_eq S T A B hA hB]
    have hk : segDistKernel S T A B = ((dist2At S T A B
        (clamp ((vdot A B * clamp ((lineT S T A B * vdot A B - vdot B (vsub T S)) / vdot B B) + vdot A (vsub T S)) / vdot A A))
        (clamp ((lineT S T A B * vdot A B - vdot B (vsub T S)) / vdot B B)) : ℚ) : WithTop ℚ) := by
      unfold segDistKernel
      simp only [h, if_false, clamp01_eq]
      change ((_ : ℚ) : WithTop ℚ) = _
      congr 1
      unfold dist2At lineT
      simp only [vsub, pt3]
      simp
      ring
    rw [hk]
    obtain ⟨o1, o2⟩ := line_opt S T A B hB
    set t := lineT S T A B with ht
    set u := (t * vdot A B - vdot B (vsub T S)) / vdot B B with hu
    congr 1
    by_cases h1 : u ≤ 0
    · rw [if_pos h1]
      have : clamp u = 0 := by unfold clamp; rw [if_pos h1]
      rw [this, mul_zero, zero_add]
    · rw [if_neg h1]
      by_cases h2 : u ≥ 1
      · rw [if_pos h2]
        have : clamp u = 1 := by unfold clamp; rw [if_neg h1, if_pos h2]
        rw [this, mul_one]
      · rw [if_neg h2]
        have hc : clamp u = u := by unfold clamp; rw [if_neg h1, if_neg h2]
        rw [hc]
        have e : (vdot A B * u + vdot A (vsub T S)) / vdot A A = t := by
          rw [div_eq_iff hA]; linarith
        rw [e]

/-! ## Vectors -/

theorem vectorUnits_mem (data : Nat → ℚ) (segments : Nat) (w : Nat × ℚ) :
    (∃ u ∈ vectorUnits data segments, w ∈ u) ↔
      w.1 / 3 < segments ∧ w.2 = data (w.1 / 3 * 6 + 3 + w.1 % 3) - data (w.1 / 3 * 6 + w.1 % 3) := by
  unfold vectorUnits
  simp only [List.mem_flatMap, List.mem_map, List.mem_range]
  have hu : ∀ id, w ∈ vectorUnit data segments id ↔ id = w.1 / 3 ∧ id < segments ∧
      w.2 = data (w.1 / 3 * 6 + 3 + w.1 % 3) - data (w.1 / 3 * 6 + w.1 % 3) := by
    intro id
    unfold vectorUnit
    by_cases h : id < segments
    · rw [if_pos h]
      obtain ⟨a, v⟩ := w
      simp only [List.mem_cons, List.not_mem_nil, or_false, Prod.mk.injEq]
      constructor
      · rintro (⟨rfl, rfl⟩ | ⟨rfl, rfl⟩ | ⟨rfl, rfl⟩)
        · have h1 : id * 3 / 3 = id := by omega
          have h2 : id * 3 % 3 = 0 := by omega
          rw [h1, h2]; exact ⟨rfl, h, rfl⟩
        · have h1 : (id * 3 + 1) / 3 = id := by omega
          have h2 : (id * 3 + 1) % 3 = 1 := by omega
          rw [h1, h2]; exact ⟨rfl, h, rfl⟩
        · have h1 : (id * 3 + 2) / 3 = id := by omega
          have h2 : (id * 3 + 2) % 3 = 2 := by omega
          rw [h1, h2]; exact ⟨rfl, h, rfl⟩
      · rintro ⟨rfl, _, hv⟩
        have h3 : a % 3 = 0 ∨ a % 3 = 1 ∨ a % 3 = 2 := by omega
        rcases h3 with h3 | h3 | h3 <;> rw [h3] at hv
        · left; exact ⟨by omega, hv⟩
        · right; left; exact ⟨by omega, hv⟩
        · right; right; exact ⟨by omega, hv⟩
    · rw [if_neg h]
      constructor
      · intro hw; simp at hw
      · rintro ⟨_, h2, _⟩; exact absurd h2 h
  constructor
  · rintro ⟨u, ⟨blk, _, t, _, rfl⟩, hw⟩
    obtain ⟨e, h1, h2⟩ := (hu _).1 hw
    exact ⟨e ▸ h1, h2⟩
  · rintro ⟨h1, h2⟩
    refine ⟨_, ⟨w.1 / 3 / 1024, by omega, w.1 / 3 % 1024, Nat.mod_lt _ (by norm_num), rfl⟩, (hu _).2 ⟨?_, ?_, h2⟩⟩ <;> omega

/-- After `get_vector_kernel`, whatever the schedule, `d_vec` holds the vector of every segment. -/
theorem vectors_spec (data : Nat → ℚ) (segments : Nat) (ws : List (Nat × ℚ)) (h : Interleaving (vectorUnits data segments) ws)
    (vec0 : Nat → ℚ) (i : Nat) (hi : i < segments) :
    ptAt (runWrites vec0 ws) (3 * i) = vsub (ptAt data (6 * i + 3)) (ptAt data (6 * i)) := by
  have hk := runWrites_spec (fun a => data (a / 3 * 6 + 3 + a % 3) - data (a / 3 * 6 + a % 3)) ws vec0
    (fun w hw => ((vectorUnits_mem data segments w).1 ((mem_of_interleaving h w).1 hw)).2)
  have hv : ∀ k < 3, runWrites vec0 ws (3 * i + k) = data (6 * i + 3 + k) - data (6 * i + k) := by
    intro k hk3
    have e1 : (3 * i + k) / 3 = i := by omega
    have e2 : (3 * i + k) % 3 = k := by omega
    have := (hk (3 * i + k)).1 ⟨(3 * i + k, data ((3 * i + k) / 3 * 6 + 3 + (3 * i + k) % 3) - data ((3 * i + k) / 3 * 6 + (3 * i + k) % 3)),
      (mem_of_interleaving h _).2 ((vectorUnits_mem data segments _).2 ⟨by rw [e1]; exact hi, rfl⟩), rfl⟩
    rw [this, e1, e2, Nat.mul_comm i 6]
  unfold ptAt vsub
  have h0 := hv 0 (by norm_num)
  have h1 := hv 1 (by norm_num)
  have h2 := hv 2 (by norm_num)
  simp only [Nat.add_zero] at h0
  rw [h0, h1, h2]
  simp [pt3]

/-! ## One launch -/

variable {I : Input} {L : Launch}

theorem go_same (pc : Nat → Nat → PC) (b t : Nat) (x : PC) : go pc b t x b t = x := by unfold go; simp
theorem go_ne (pc : Nat → Nat → PC) {b t b' t' : Nat} (x : PC) (h : ¬ (b' = b ∧ t' = t)) : go pc b t x b' t' = pc b' t' := by
  unfold go; rw [if_neg h]
theorem put_same (a : Nat → WithTop ℚ) (b : Nat) (v) : put a b v b = v := by unfold put; simp
theorem put_ne (a : Nat → WithTop ℚ) {b b' : Nat} (v) (h : b' ≠ b) : put a b v b' = a b' := by unfold put; rw [if_neg h]

/-- `v` is the distance computed by a thread of this launch for pair `b`. -/
def Row (I : Input) (L : Launch) (b : Nat) (v : WithTop ℚ) : Prop :=
  ∃ t < L.dim, I.active L b t ∧ v = I.dd b L.off1 (t + L.off2)

/-- Invariant of a launch for pair `b` starting from `a`. -/
structure LInv (I : Input) (L : Launch) (a : Nat → WithTop ℚ) (b : Nat) (s : GS) : Prop where
  act : ∀ t v, s.pc b t = .loaded v → t < L.dim ∧ I.active L b t ∧ ¬ (L.off1 = 0 ∧ t + L.off2 = 0)
  val : s.dist b = a b ∨ Row I L b (s.dist b)
  quiet : Row I L b (s.dist b) ∨ (s.dist b = a b ∧ (∀ t v, s.pc b t = .loaded v → v = a b) ∧
    ∀ t < L.dim, I.active L b t → s.pc b t = .done → a b ≤ I.dd b L.off1 (t + L.off2))
  first : L.off1 = 0 → L.off2 = 0 → I.active L b 0 → s.pc b 0 = .done → Row I L b (s.dist b)
  le : ¬ (L.off1 = 0 ∧ L.off2 = 0) → s.dist b ≤ a b ∧ ∀ t v, s.pc b t = .loaded v → v ≤ a b

theorem linv_init (a : Nat → WithTop ℚ) (b : Nat) : LInv I L a b ⟨a, fun _ _ => .start⟩ where
  act := by intro t v h; simp at h
  val := Or.inl rfl
  quiet := Or.inr ⟨rfl, by intro t v h; simp at h, by intro t _ _ h; simp at h⟩
  first := by intro _ _ _ h; simp at h
  le := fun _ => ⟨le_refl _, by intro t v h; simp at h⟩

theorem linv_step {a : Nat → WithTop ℚ} {b : Nat} {s s' : GS} (h : LInv I L a b s) (st : KStep I L s s') : LInv I L a b s' := by
  cases st with
  | exit c t hc ht hp hact =>
    have hl : ∀ t' v, go s.pc c t .done b t' = .loaded v → s.pc b t' = .loaded v := by
      intro t' v e
      by_cases hx : b = c ∧ t' = t
      · obtain ⟨rfl, rfl⟩ := hx; rw [go_same] at e; simp at e
      · rwa [go_ne _ _ hx] at e
    have hd : ∀ t', I.active L b t' → go s.pc c t .done b t' = .done → s.pc b t' = .done := by
      intro t' ha e
      by_cases hx : b = c ∧ t' = t
      · obtain ⟨rfl, rfl⟩ := hx; exact absurd ha hact
      · rwa [go_ne _ _ hx] at e
    refine ⟨fun t' v e => h.act t' v (hl _ _ e), h.val, ?_, fun h1 h2 h3 h4 => h.first h1 h2 h3 (hd _ h3 h4), ?_⟩
    · rcases h.quiet with q | ⟨q1, q2, q3⟩
      · exact Or.inl q
      · exact Or.inr ⟨q1, fun t' v e => q2 t' v (hl _ _ e), fun t' ht' ha e => q3 t' ht' ha (hd _ ha e)⟩
    · intro hn
      obtain ⟨g1, g2⟩ := h.le hn
      exact ⟨g1, fun t' v e => g2 t' v (hl _ _ e)⟩
  | first c t hc ht hp hact hf =>
    by_cases hb : b = c
    · subst hb
      have hrow : Row I L b (put s.dist b (I.dd b L.off1 (t + L.off2)) b) := by
        rw [put_same]; exact ⟨t, ht, hact, rfl⟩
      refine ⟨?_, Or.inr hrow, Or.inl hrow, fun _ _ _ _ => hrow, fun hn => absurd ⟨hf.1, by omega⟩ hn⟩
      intro t' v e
      by_cases hx : b = b ∧ t' = t
      · obtain ⟨_, rfl⟩ := hx
        change go s.pc b t' .done b t' = _ at e
        rw [go_same] at e; simp at e
      · change go s.pc b t .done b t' = _ at e
        rw [go_ne _ _ hx] at e; exact h.act t' v e
    · have hg : ∀ t', go s.pc c t .done b t' = s.pc b t' := fun t' => go_ne _ _ (fun hx => hb hx.1)
      have hpd : put s.dist c (I.dd c L.off1 (t + L.off2)) b = s.dist b := put_ne _ _ hb
      constructor
      · intro t' v e; change go s.pc c t .done b t' = _ at e; rw [hg] at e; exact h.act t' v e
      · show put _ _ _ _ = _ ∨ Row I L b (put _ _ _ _); rw [hpd]; exact h.val
      · show Row I L b (put _ _ _ _) ∨ (put _ _ _ _ = _ ∧ _); rw [hpd]
        rcases h.quiet with q | ⟨q1, q2, q3⟩
        · exact Or.inl q
        · refine Or.inr ⟨q1, ?_, ?_⟩
          · intro t' v e; change go s.pc c t .done b t' = _ at e; rw [hg] at e; exact q2 t' v e
          · intro t' ht' ha e; change go s.pc c t .done b t' = _ at e; rw [hg] at e; exact q3 t' ht' ha e
      · intro h1 h2 h3 h4; change go s.pc c t .done b 0 = _ at h4; rw [hg] at h4
        show Row I L b (put _ _ _ _); rw [hpd]; exact h.first h1 h2 h3 h4
      · intro hn
        obtain ⟨g1, g2⟩ := h.le hn
        refine ⟨by show put _ _ _ _ ≤ _; rw [hpd]; exact g1, ?_⟩
        intro t' v e; change go s.pc c t .done b t' = _ at e; rw [hg] at e; exact g2 t' v e
  | load c t hc ht hp hact hf =>
    have hl : ∀ t' v, go s.pc c t (.loaded (s.dist c)) b t' = .loaded v → (b = c ∧ t' = t ∧ v = s.dist b) ∨ s.pc b t' = .loaded v := by
      intro t' v e
      by_cases hx : b = c ∧ t' = t
      · obtain ⟨rfl, rfl⟩ := hx; rw [go_same] at e
        left; refine ⟨rfl, rfl, ?_⟩
        injection e with e; exact e.symm
      · rw [go_ne _ _ hx] at e; exact Or.inr e
    have hd : ∀ t', go s.pc c t (.loaded (s.dist c)) b t' = .done → s.pc b t' = .done := by
      intro t' e
      by_cases hx : b = c ∧ t' = t
      · obtain ⟨rfl, rfl⟩ := hx; rw [go_same] at e; simp at e
      · rwa [go_ne _ _ hx] at e
    refine ⟨?_, h.val, ?_, fun h1 h2 h3 h4 => h.first h1 h2 h3 (hd _ h4), ?_⟩
    · intro t' v e
      rcases hl t' v e with ⟨rfl, rfl, _⟩ | e
      · exact ⟨ht, hact, hf⟩
      · exact h.act t' v e
    · rcases h.quiet with q | ⟨q1, q2, q3⟩
      · exact Or.inl q
      · refine Or.inr ⟨q1, ?_, fun t' ht' ha e => q3 t' ht' ha (hd _ e)⟩
        intro t' v e
        rcases hl t' v e with ⟨_, _, e⟩ | e
        · rw [e]; exact q1
        · exact q2 t' v e
    · intro hn
      obtain ⟨g1, g2⟩ := h.le hn
      refine ⟨g1, ?_⟩
      intro t' v e
      rcases hl t' v e with ⟨_, _, e⟩ | e
      · rw [e]; exact g1
      · exact g2 t' v e
  | store c t v hc ht hp hv =>
    by_cases hb : b = c
    · subst hb
      obtain ⟨a1, a2, a3⟩ := h.act t v hp
      have hrow : Row I L b (put s.dist b (I.dd b L.off1 (t + L.off2)) b) := by
        rw [put_same]; exact ⟨t, ht, a2, rfl⟩
      have hl : ∀ t' v', go s.pc b t .done b t' = .loaded v' → s.pc b t' = .loaded v' := by
        intro t' v' e
        by_cases hx : b = b ∧ t' = t
        · obtain ⟨_, rfl⟩ := hx; rw [go_same] at e; simp at e
        · rwa [go_ne _ _ hx] at e
      refine ⟨fun t' v' e => h.act t' v' (hl _ _ e), Or.inr hrow, Or.inl hrow, fun _ _ _ _ => hrow, ?_⟩
      intro hn
      obtain ⟨g1, g2⟩ := h.le hn
      refine ⟨?_, fun t' v' e => g2 t' v' (hl _ _ e)⟩
      show put _ _ _ _ ≤ _
      rw [put_same]
      exact le_trans (le_of_lt hv) (g2 t v hp)
    · have hg : ∀ t', go s.pc c t .done b t' = s.pc b t' := fun t' => go_ne _ _ (fun hx => hb hx.1)
      have hpd : put s.dist c (I.dd c L.off1 (t + L.off2)) b = s.dist b := put_ne _ _ hb
      constructor
      · intro t' v e; change go s.pc c t .done b t' = _ at e; rw [hg] at e; exact h.act t' v e
      · show put _ _ _ _ = _ ∨ Row I L b (put _ _ _ _); rw [hpd]; exact h.val
      · show Row I L b (put _ _ _ _) ∨ (put _ _ _ _ = _ ∧ _); rw [hpd]
        rcases h.quiet with q | ⟨q1, q2, q3⟩
        · exact Or.inl q
        · refine Or.inr ⟨q1, ?_, ?_⟩
          · intro t' v e; change go s.pc c t .done b t' = _ at e; rw [hg] at e; exact q2 t' v e
          · intro t' ht' ha e; change go s.pc c t .done b t' = _ at e; rw [hg] at e; exact q3 t' ht' ha e
      · intro h1 h2 h3 h4; change go s.pc c t .done b 0 = _ at h4; rw [hg] at h4
        show Row I L b (put _ _ _ _); rw [hpd]; exact h.first h1 h2 h3 h4
      · intro hn
        obtain ⟨g1, g2⟩ := h.le hn
        refine ⟨by show put _ _ _ _ ≤ _; rw [hpd]; exact g1, ?_⟩
        intro t' v e; change go s.pc c t .done b t' = _ at e; rw [hg] at e; exact g2 t' v e
  | skip c t v hc ht hp hv =>
    have hl : ∀ t' v', go s.pc c t .done b t' = .loaded v' → s.pc b t' = .loaded v' := by
      intro t' v' e
      by_cases hx : b = c ∧ t' = t
      · obtain ⟨rfl, rfl⟩ := hx; rw [go_same] at e; simp at e
      · rwa [go_ne _ _ hx] at e
    have hd : ∀ t', go s.pc c t .done b t' = .done → (b = c ∧ t' = t) ∨ s.pc b t' = .done := by
      intro t' e
      by_cases hx : b = c ∧ t' = t
      · exact Or.inl hx
      · rw [go_ne _ _ hx] at e; exact Or.inr e
    refine ⟨fun t' v' e => h.act t' v' (hl _ _ e), h.val, ?_, ?_, ?_⟩
    · rcases h.quiet with q | ⟨q1, q2, q3⟩
      · exact Or.inl q
      · refine Or.inr ⟨q1, fun t' v' e => q2 t' v' (hl _ _ e), ?_⟩
        intro t' ht' ha e
        rcases hd t' e with ⟨rfl, rfl⟩ | e
        · rw [← q2 _ _ hp]; exact not_lt.1 hv
        · exact q3 t' ht' ha e
    · intro h1 h2 h3 h4
      rcases hd 0 h4 with ⟨rfl, rfl⟩ | e
      · exact absurd ⟨h1, by omega⟩ (h.act _ _ hp).2.2
      · exact h.first h1 h2 h3 e
    · intro hn
      obtain ⟨g1, g2⟩ := h.le hn
      exact ⟨g1, fun t' v' e => g2 t' v' (hl _ _ e)⟩

/-- What a launch does to pair `b`, whatever the schedule. -/
structure LaunchSpec (I : Input) (L : Launch) (b : Nat) (v v' : WithTop ℚ) : Prop where
  val : v' = v ∨ Row I L b v'
  le_row : (∃ t < L.dim, I.active L b t) → ∃ w, Row I L b w ∧ v' ≤ w
  first : L.off1 = 0 → L.off2 = 0 → 0 < L.dim → I.active L b 0 → Row I L b v'
  le : ¬ (L.off1 = 0 ∧ L.off2 = 0) → v' ≤ v

theorem launched_spec {a a' : Nat → WithTop ℚ} (h : Launched I L a a') (b : Nat) (hb : b < I.pairs) :
    LaunchSpec I L b (a b) (a' b) := by
  obtain ⟨s, hr, hd, rfl⟩ := h
  have hi : LInv I L a b s := hr.inv (LInv I L a b) (linv_init a b) (fun _ _ x y => linv_step x y)
  refine ⟨hi.val, ?_, fun h1 h2 h3 h4 => hi.first h1 h2 h4 (hd b hb 0 h3), fun hn => (hi.le hn).1⟩
  rintro ⟨t, ht, ha⟩
  rcases hi.quiet with q | ⟨q1, _, q3⟩
  · exact ⟨_, q, le_refl _⟩
  · exact ⟨_, ⟨t, ht, ha, rfl⟩, by rw [q1]; exact q3 t ht ha (hd b hb t ht)⟩

/-- Other entries are not touched. -/
theorem launched_other {a a' : Nat → WithTop ℚ} (h : Launched I L a a') (b : Nat) (hb : I.pairs ≤ b) : a' b = a b := by
  obtain ⟨s, hr, _, rfl⟩ := h
  refine hr.inv (fun s => s.dist b = a b) rfl ?_
  intro s s' hi st
  cases st with
  | exit => exact hi
  | load => exact hi
  | skip => exact hi
  | first c t hc => exact (put_ne _ _ (by omega)).trans hi
  | store c t v hc => exact (put_ne _ _ (by omega)).trans hi

/-! ## All launches -/

theorem launches_mem (m1 m2 : Nat) (L : Launch) :
    L ∈ launches m1 m2 ↔ ∃ c o, c * 1024 < m2 ∧ o < m1 ∧ L = ⟨o, c * 1024, min (m2 - c * 1024) 1024⟩ := by
  unfold launches
  simp only [List.mem_flatMap, List.mem_map, List.mem_range]
  constructor
  · rintro ⟨c, hc, o, ho, rfl⟩
    exact ⟨c, o, by omega, ho, rfl⟩
  · rintro ⟨c, o, hc, ho, rfl⟩
    exact ⟨c, by omega, o, ho, rfl⟩

theorem launches_first (m1 m2 : Nat) (h1 : 0 < m1) (h2 : 0 < m2) :
    ∃ rest, launches m1 m2 = ⟨0, 0, min m2 1024⟩ :: rest ∧ ∀ L ∈ rest, ¬ (L.off1 = 0 ∧ L.off2 = 0) := by
  obtain ⟨k, hk⟩ : ∃ k, (m2 + 1023) / 1024 = k + 1 := ⟨(m2 + 1023) / 1024 - 1, by omega⟩
  obtain ⟨j, rfl⟩ : ∃ j, m1 = j + 1 := ⟨m1 - 1, by omega⟩
  unfold launches
  rw [hk, List.range_succ_eq_map (n := k), List.flatMap_cons, List.range_succ_eq_map (n := j), List.map_cons, List.cons_append]
  refine ⟨_, rfl, ?_⟩
  intro L hL
  rcases List.mem_append.1 hL with h | h
  · obtain ⟨o, ho, rfl⟩ := List.mem_map.1 h
    obtain ⟨o', _, rfl⟩ := List.mem_map.1 ho
    simp
  · obtain ⟨c, hc, h⟩ := List.mem_flatMap.1 h
    obtain ⟨c', _, rfl⟩ := List.mem_map.1 hc
    obtain ⟨o, ho, rfl⟩ := List.mem_map.1 h
    simp

theorem launches_later {Ls : List Launch} {a a' : Nat → WithTop ℚ} (h : Launches I Ls a a') (b : Nat) (hb : b < I.pairs)
    (hn : ∀ L ∈ Ls, ¬ (L.off1 = 0 ∧ L.off2 = 0)) :
    a' b ≤ a b ∧ (a' b = a b ∨ ∃ L ∈ Ls, Row I L b (a' b)) ∧
    ∀ L ∈ Ls, (∃ t < L.dim, I.active L b t) → ∃ w, Row I L b w ∧ a' b ≤ w := by
  induction h with
  | nil a => exact ⟨le_refl _, Or.inl rfl, by simp⟩
  | @cons L Ls a a1 a2 h1 _ ih =>
    obtain ⟨x, y, z⟩ := ih (fun L hL => hn L (List.mem_cons_of_mem _ hL))
    have sp := launched_spec h1 b hb
    refine ⟨le_trans x (sp.le (hn L (List.mem_cons_self ..))), ?_, ?_⟩
    · rcases y with y | ⟨L', hL', y⟩
      · rcases sp.val with v | v
        · left; rw [y, v]
        · right; exact ⟨L, List.mem_cons_self .., by rw [y]; exact v⟩
      · exact Or.inr ⟨L', List.mem_cons_of_mem _ hL', y⟩
    · intro L' hL' hact
      rcases List.mem_cons.1 hL' with rfl | hL'
      · obtain ⟨w, hw, hle⟩ := sp.le_row hact
        exact ⟨w, hw, le_trans x hle⟩
      · exact z L' hL' hact

theorem launches_any {Ls : List Launch} {a a' : Nat → WithTop ℚ} (h : Launches I Ls a a') (b : Nat) :
    (I.pairs ≤ b → a' b = a b) ∧ (b < I.pairs → a' b = a b ∨ ∃ L ∈ Ls, Row I L b (a' b)) := by
  induction h with
  | nil a => exact ⟨fun _ => rfl, fun _ => Or.inl rfl⟩
  | @cons L Ls a a1 a2 h1 _ ih =>
    refine ⟨fun hb => (ih.1 hb).trans (launched_other h1 b hb), fun hb => ?_⟩
    rcases ih.2 hb with y | ⟨L', hL', y⟩
    · rcases (launched_spec h1 b hb).val with v | v
      · left; rw [y, v]
      · right; exact ⟨L, List.mem_cons_self .., by rw [y]; exact v⟩
    · exact Or.inr ⟨L', List.mem_cons_of_mem _ hL', y⟩

theorem maxSize_spec (f : Nat → Nat) (n : Nat) : (∀ i < n, f i ≤ maxSize f n) := by
  have key : ∀ (l : List Nat) (m : Nat), m ≤ l.foldl (fun m i => if f i > m then f i else m) m ∧
      ∀ i ∈ l, f i ≤ l.foldl (fun m i => if f i > m then f i else m) m := by
    intro l
    induction l with
    | nil => intro m; exact ⟨le_refl _, by simp⟩
    | cons x xs ih =>
      intro m
      obtain ⟨h1, h2⟩ := ih (if f x > m then f x else m)
      have hx : m ≤ (if f x > m then f x else m) ∧ f x ≤ (if f x > m then f x else m) := by
        split <;> constructor <;> omega
      rw [List.foldl_cons]
      refine ⟨le_trans hx.1 h1, ?_⟩
      intro i hi
      rcases List.mem_cons.1 hi with rfl | hi
      · exact le_trans hx.2 h1
      · exact h2 i hi
  intro i hi
  exact (key (List.range n) 0).2 i (List.mem_range.2 hi)

/-! ## C58 -/

/-- The squared distance the CPU computes for segment `i` of the first and `j` of the second slice of pair `b`
(`SegDist_unit`, geometry_computer.cpp:15-20). -/
def pairDist (data : Nat → ℚ) (os : Nat → Nat) (b i j : Nat) : WithTop ℚ :=
  segPair (fun k => data (os (4 * b) * 6 + k)) (fun k => data (os (4 * b + 2) * 6 + k)) i j

/-- What the CPU computes for pair `b`. -/
def cpuDist (data : Nat → ℚ) (os : Nat → Nat) (b : Nat) : WithTop ℚ :=
  segDistSingle (fun k => data (os (4 * b) * 6 + k)) (fun k => data (os (4 * b + 2) * 6 + k)) (os (4 * b + 1)) (os (4 * b + 3))

/-- All slices lie in the data. -/
def InData (os : Nat → Nat) (pairs segments : Nat) : Prop :=
  ∀ b < pairs, os (4 * b) + os (4 * b + 1) ≤ segments ∧ os (4 * b + 2) + os (4 * b + 3) ≤ segments

theorem ptAt_shift (data : Nat → ℚ) (a p q : Nat) (h : q = a + p) : ptAt (fun k => data (a + k)) p = ptAt data q := by
  subst h; rfl

theorem dd_eq {data : Nat → ℚ} {os : Nat → Nat} {pairs segments : Nat} (hin : InData os pairs segments) {ws : List (Nat × ℚ)}
    (h : Interleaving (vectorUnits data segments) ws) (vec0 : Nat → ℚ) {b i j : Nat} (hb : b < pairs)
    (hi : i < os (4 * b + 1)) (hj : j < os (4 * b + 3)) :
    Input.dd ⟨data, runWrites vec0 ws, os, pairs⟩ b i j = pairDist data os b i j := by
  obtain ⟨h1, h2⟩ := hin b hb
  unfold Input.dd pairDist segPair
  simp only [Nat.mul_comm b 4]
  rw [vectors_spec data segments ws h vec0 (os (4 * b) + i) (by omega),
    vectors_spec data segments ws h vec0 (os (4 * b + 2) + j) (by omega), segDistKernel_eq]
  rw [ptAt_shift data (os (4 * b) * 6) (i * 6 + 3) (6 * (os (4 * b) + i) + 3) (by omega),
    ptAt_shift data (os (4 * b) * 6) (i * 6) (6 * (os (4 * b) + i)) (by omega),
    ptAt_shift data (os (4 * b + 2) * 6) (j * 6 + 3) (6 * (os (4 * b + 2) + j) + 3) (by omega),
    ptAt_shift data (os (4 * b + 2) * 6) (j * 6) (6 * (os (4 * b + 2) + j)) (by omega)]

/-- C58 (partial). For every batch, every schedule of every launch and whatever the device memory held before: the
result of a pair of non-empty slices is the distance of one of its pairs of segments; and for every segment `i` of
the first slice and every block of 1024 segments of the second it is at most the largest distance of `i` to that
block. Missing: that it is the smallest of all, see `C58_lost_minimum`. -/
theorem C58_bounds_partial {data : Nat → ℚ} {os : Nat → Nat} {pairs segments : Nat} (hin : InData os pairs segments)
    {vec0 : Nat → ℚ} {dist0 result : Nat → WithTop ℚ} (h : SegDistBatch data os pairs segments vec0 dist0 result)
    (b : Nat) (hb : b < pairs) (h1 : 0 < os (4 * b + 1)) (h2 : 0 < os (4 * b + 3)) :
    (∃ i < os (4 * b + 1), ∃ j < os (4 * b + 3), result b = pairDist data os b i j) ∧
    (∀ i < os (4 * b + 1), ∀ c, c * 1024 < os (4 * b + 3) → ∃ j, c * 1024 ≤ j ∧ j < c * 1024 + 1024 ∧ j < os (4 * b + 3) ∧
      result b ≤ pairDist data os b i j) := by
  obtain ⟨ws, hw, hl⟩ := h
  set I : Input := ⟨data, runWrites vec0 ws, os, pairs⟩ with hI
  have m1 := maxSize_spec (fun i => os (i * 4 + 1)) pairs b hb
  have m2 := maxSize_spec (fun i => os (i * 4 + 3)) pairs b hb
  simp only [Nat.mul_comm b 4] at m1 m2
  set M1 := maxSize (fun i => os (i * 4 + 1)) pairs
  set M2 := maxSize (fun i => os (i * 4 + 3)) pairs
  have hact : ∀ (L : Launch) t, I.active L b t ↔ L.off1 < os (4 * b + 1) ∧ t + L.off2 < os (4 * b + 3) := by
    intro L t; unfold Input.active; simp only [hI, Nat.mul_comm b 4]; omega
  have hrow : ∀ L v, Row I L b v → ∃ i < os (4 * b + 1), ∃ j < os (4 * b + 3), i = L.off1 ∧ L.off2 ≤ j ∧ j < L.off2 + L.dim ∧
      v = pairDist data os b i j := by
    rintro L v ⟨t, ht, ha, hv⟩
    obtain ⟨g1, g2⟩ := (hact L t).1 ha
    refine ⟨L.off1, g1, t + L.off2, g2, rfl, by omega, by omega, ?_⟩
    rw [hv]; exact dd_eq hin hw vec0 hb g1 g2
  obtain ⟨rest, hrest, hnot⟩ := launches_first M1 M2 (by omega) (by omega)
  have hmem := launches_mem M1 M2
  rw [hrest] at hl hmem
  cases hl with
  | cons l1 l2 =>
    have sp := launched_spec l1 b hb
    have a0 : I.active ⟨0, 0, min M2 1024⟩ b 0 := (hact _ _).2 ⟨h1, h2⟩
    have r0 := sp.first rfl rfl (by show 0 < min M2 1024; omega) a0
    obtain ⟨x, y, z⟩ := launches_later l2 b hb hnot
    constructor
    · have : ∃ L, Row I L b (result b) := by
        rcases y with y | ⟨L, _, y⟩
        · exact ⟨_, by rw [y]; exact r0⟩
        · exact ⟨L, y⟩
      obtain ⟨L, hL⟩ := this
      obtain ⟨i, hi, j, hj, _, _, _, hv⟩ := hrow L _ hL
      exact ⟨i, hi, j, hj, hv⟩
    · intro i hi c hc
      have hmemL := (hmem ⟨i, c * 1024, min (M2 - c * 1024) 1024⟩).2 ⟨c, i, by omega, by omega, rfl⟩
      have : ∃ w, Row I ⟨i, c * 1024, min (M2 - c * 1024) 1024⟩ b w ∧ result b ≤ w := by
        have hex : ∃ t < min (M2 - c * 1024) 1024, I.active ⟨i, c * 1024, min (M2 - c * 1024) 1024⟩ b t :=
          ⟨0, by omega, (hact _ _).2 ⟨hi, by simpa using hc⟩⟩
        rcases List.mem_cons.1 hmemL with e | hL
        · obtain ⟨w, hw', hle⟩ := sp.le_row (e ▸ hex)
          exact ⟨w, e ▸ hw', le_trans x hle⟩
        · exact z _ hL hex
      obtain ⟨w, hw', hle⟩ := this
      obtain ⟨i', _, j, hj, rfl, hj1, hj2, hv⟩ := hrow _ _ hw'
      exact ⟨j, hj1, by simp only at hj2; omega, hj, by rw [← hv]; exact hle⟩

/-- C58 (partial). The GPU never returns less than the CPU. -/
theorem C58_not_below_partial {data : Nat → ℚ} {os : Nat → Nat} {pairs segments : Nat} (hin : InData os pairs segments)
    {vec0 : Nat → ℚ} {dist0 result : Nat → WithTop ℚ} (h : SegDistBatch data os pairs segments vec0 dist0 result)
    (b : Nat) (hb : b < pairs) (h1 : 0 < os (4 * b + 1)) (h2 : 0 < os (4 * b + 3))
    (h3 : os (4 * b + 1) ≤ 10000) (h4 : os (4 * b + 3) ≤ 10000) : cpuDist data os b ≤ result b := by
  obtain ⟨⟨i, hi, j, hj, e⟩, _⟩ := C58_bounds_partial hin h b hb h1 h2
  rw [e]
  exact (C37_minimum _ _ _ _ h3 h4).1 i hi j hj

/-- C58 (partial). When the second slice has a single segment there is no race: the GPU's result is the CPU's. -/
theorem C58_single_segment_partial {data : Nat → ℚ} {os : Nat → Nat} {pairs segments : Nat} (hin : InData os pairs segments)
    {vec0 : Nat → ℚ} {dist0 result : Nat → WithTop ℚ} (h : SegDistBatch data os pairs segments vec0 dist0 result)
    (b : Nat) (hb : b < pairs) (h1 : 0 < os (4 * b + 1)) (h2 : os (4 * b + 3) = 1)
    (h3 : os (4 * b + 1) ≤ 10000) : result b = cpuDist data os b := by
  apply le_antisymm _ (C58_not_below_partial hin h b hb h1 (by omega) h3 (le_of_eq_of_le h2 (by norm_num)))
  obtain ⟨_, hle⟩ := C58_bounds_partial hin h b hb h1 (by omega)
  rcases (C37_minimum (fun k => data (os (4 * b) * 6 + k)) (fun k => data (os (4 * b + 2) * 6 + k)) _ _ h3
    (le_of_eq_of_le h2 (by norm_num) : os (4 * b + 3) ≤ 10000)).2.1 with e | ⟨i, hi, j, hj, e⟩
  · unfold cpuDist; rw [e]; exact le_top
  · obtain ⟨j', _, _, hj', hr⟩ := hle i hi 0 (by rw [Nat.zero_mul, h2]; exact Nat.one_pos)
    have : j' = j := by omega
    subst this
    unfold cpuDist; rw [e]; exact hr

/-- C58. A pair with an empty slice is not written at all: its result is whatever the device memory contained (the CPU
gives infinity). Entries beyond the batch are not written either. -/
theorem C58_empty_unwritten {data : Nat → ℚ} {os : Nat → Nat} {pairs segments : Nat}
    {vec0 : Nat → ℚ} {dist0 result : Nat → WithTop ℚ} (h : SegDistBatch data os pairs segments vec0 dist0 result)
    (b : Nat) (hb : pairs ≤ b ∨ os (4 * b + 1) = 0 ∨ os (4 * b + 3) = 0) : result b = dist0 b := by
  obtain ⟨ws, hw, hl⟩ := h
  obtain ⟨h1, h2⟩ := launches_any hl b
  by_cases hp : pairs ≤ b
  · exact h1 hp
  · rcases h2 (not_le.1 hp) with e | ⟨L, _, t, _, ⟨ha, ha'⟩, _⟩
    · exact e
    · simp only [Nat.mul_comm b 4] at ha ha'
      omega

end TDP.Gpu
