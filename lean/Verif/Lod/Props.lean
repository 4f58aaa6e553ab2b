import Verif.Lod.Model
import Mathlib.Tactic.Linarith
import Mathlib.Tactic.FieldSimp
import Mathlib.Tactic.NormNum
/-! # C13: levels of detail -/
namespace TDP.Lod

/-- The number of levels `k` out of `n` is the smallest whose (rounded) percentage reaches `p`. -/
def IsLevel (F : Fp) (n : Nat) (p : Nat) (k : Nat) : Prop :=
  (p : ℚ) ≤ F.rnd (F.rnd ((k : ℚ) / n) * 100) ∧
    ∀ j, j < k → F.rnd (F.rnd ((j : ℚ) / n) * 100) < p

theorem level_unique (F : Fp) (n : Nat) (p : Nat) (k k' : Nat) (h : IsLevel F n p k) (h' : IsLevel F n p k') :
    k = k' := by
  rcases lt_trichotomy k k' with hl | he | hl
  · have := h'.2 k hl; have := h.1; linarith
  · exact he
  · have := h.2 k' hl; have := h'.1; linarith

theorem reached_iff (F : Fp) (n k : Nat) (p : Nat) (hn : 1 ≤ n) :
    reached F n k p = true ↔ (p : ℚ) ≤ F.rnd (F.rnd ((k : ℚ) / n) * 100) := by
  unfold reached
  rw [if_neg (by omega)]
  simp

theorem full (F : Fp) (n : Nat) (hn : 1 ≤ n) : F.rnd (F.rnd ((n : ℚ) / n) * 100) = 100 := by
  have h0 : (n : ℚ) ≠ 0 := by
    have : n ≠ 0 := by omega
    exact_mod_cast this
  rw [div_self h0, F.one, one_mul]
  have := F.int 100 (by decide)
  simpa using this

theorem pct_mono (F : Fp) (n j k : Nat) (h : j ≤ k) :
    F.rnd (F.rnd ((j : ℚ) / n) * 100) ≤ F.rnd (F.rnd ((k : ℚ) / n) * 100) := by
  apply F.mono
  have : (j : ℚ) / n ≤ (k : ℚ) / n := by
    apply div_le_div_of_nonneg_right _ (by positivity)
    exact_mod_cast h
  have := F.mono this
  linarith

theorem complete_spec (F : Fp) (n : Nat) (hn : 1 ≤ n) (s : St) (hk : s.curOp ≤ n) (hp : s.pct ≤ 100)
    (hb : ∀ j, j < s.curOp → F.rnd (F.rnd ((j : ℚ) / n) * 100) < s.pct) :
    ∃ k, complete F n s = some ⟨k, s.pct⟩ ∧ s.curOp ≤ k ∧ k ≤ n ∧ IsLevel F n s.pct k := by
  unfold complete
  split
  · rename_i hr
    exact ⟨s.curOp, rfl, le_refl _, hk, (reached_iff F n _ _ hn).mp hr, hb⟩
  · rename_i hr
    rw [reached_iff F n _ _ hn, not_le] at hr
    have hlt : s.curOp < n := by
      rcases Nat.lt_or_ge s.curOp n with h | h
      · exact h
      · have he : s.curOp = n := by omega
        rw [he, full F n hn] at hr
        have : (s.pct : ℚ) ≤ 100 := by exact_mod_cast hp
        linarith
    rw [if_pos hlt]
    obtain ⟨k, h1, h2, h3, h4⟩ := complete_spec F n hn { s with curOp := s.curOp + 1 } hlt hp
      (fun j hj => by
        rcases Nat.lt_succ_iff_lt_or_eq.mp hj with h | h
        · exact hb j h
        · rw [h]; exact hr)
    exact ⟨k, h1, by simp only at h2; omega, h3, h4⟩
termination_by n - s.curOp

theorem advance_spec (F : Fp) (n : Nat) (hn : 1 ≤ n) (s : St) (p : Nat) (hp : p ≤ 100)
    (hs : s.curOp ≤ n) (hl : IsLevel F n s.pct s.curOp) :
    ∃ k, advanceTo F n (p : Int) s = some ⟨k, max s.pct p⟩ ∧ s.curOp ≤ k ∧ k ≤ n ∧ IsLevel F n (max s.pct p) k := by
  unfold advanceTo
  have hu : toUnsigned (p : Int) = p := by unfold toUnsigned; omega
  rw [hu]
  split
  · rename_i h
    rw [max_eq_left h]
    exact ⟨s.curOp, rfl, le_refl _, hs, hl⟩
  · rename_i h
    have h : s.pct < p := not_le.mp h
    rw [max_eq_right h.le]
    exact complete_spec F n hn { s with pct := p } hs hp (fun j hj => by
      have := hl.2 j hj
      have h2 : (s.pct : ℚ) < p := by exact_mod_cast h
      simp only
      linarith)

theorem run_spec (F : Fp) (n : Nat) (hn : 1 ≤ n) (ps : List Nat) (s : St) (hp : ∀ p ∈ ps, p ≤ 100)
    (hs : s.curOp ≤ n) (hl : IsLevel F n s.pct s.curOp) :
    ∃ k, run F n (ps.map (↑)) s = some ⟨k, ps.foldl max s.pct⟩ ∧ s.curOp ≤ k ∧ k ≤ n ∧
      IsLevel F n (ps.foldl max s.pct) k := by
  induction ps generalizing s with
  | nil => exact ⟨s.curOp, rfl, le_refl _, hs, hl⟩
  | cons p ps ih =>
    obtain ⟨k, h1, h2, h3, h4⟩ := advance_spec F n hn s p (hp p List.mem_cons_self) hs hl
    obtain ⟨k', g1, g2, g3, g4⟩ := ih ⟨k, max s.pct p⟩ (fun q hq => hp q (List.mem_cons_of_mem _ hq)) h3 h4
    refine ⟨k', ?_, by simp only at g2; omega, g3, g4⟩
    simp only [List.map_cons, run, h1, Option.bind_eq_bind, Option.bind_some, g1, List.foldl_cons]

theorem fresh_level (F : Fp) (n : Nat) : IsLevel F n fresh.pct fresh.curOp := by
  refine ⟨?_, fun j hj => absurd hj (Nat.not_lt_zero j)⟩
  simp [fresh, F.zero]

/-- **C13 (history).** Any sequence of requests (each at most 100) on a fresh object with `n ≥ 1` levels
succeeds without reading past the data and ends with exactly the smallest number of levels whose
percentage reaches the largest request (0 if none); whatever the order and number of requests, and for
every rounding of the float computation. -/
theorem C13_history (F : Fp) (n : Nat) (hn : 1 ≤ n) (ps : List Nat) (hp : ∀ p ∈ ps, p ≤ 100) :
    ∃ k, run F n (ps.map (↑)) fresh = some ⟨k, ps.foldl max 0⟩ ∧ k ≤ n ∧ IsLevel F n (ps.foldl max 0) k := by
  obtain ⟨k, h1, _, h3, h4⟩ := run_spec F n hn ps fresh hp (by simp [fresh]) (fresh_level F n)
  exact ⟨k, h1, h3, h4⟩

/-- **C13 (path independence).** Two histories with the same largest request end in the same state. -/
theorem C13_path_independent (F : Fp) (n : Nat) (hn : 1 ≤ n) (ps qs : List Nat)
    (hp : ∀ p ∈ ps, p ≤ 100) (hq : ∀ q ∈ qs, q ≤ 100) (h : ps.foldl max 0 = qs.foldl max 0) :
    run F n (ps.map (↑)) fresh = run F n (qs.map (↑)) fresh := by
  obtain ⟨k, h1, _, h3⟩ := C13_history F n hn ps hp
  obtain ⟨k', g1, _, g3⟩ := C13_history F n hn qs hq
  rw [h] at h3 h1
  rw [h1, g1, level_unique F n _ k k' h3 g3]

/-- **C13 (idempotence).** After any history, a request that is not larger than an earlier one changes
nothing; in particular repeating a request does nothing. -/
theorem C13_idempotent (F : Fp) (n : Nat) (hn : 1 ≤ n) (ps : List Nat) (hp : ∀ p ∈ ps, p ≤ 100) (p : Nat)
    (h : p ≤ ps.foldl max 0) : run F n ((ps ++ [p]).map (↑)) fresh = run F n (ps.map (↑)) fresh := by
  apply C13_path_independent F n hn
  · intro q hq
    rw [List.mem_append, List.mem_singleton] at hq
    rcases hq with hq | rfl
    · exact hp q hq
    · obtain ⟨k, _, _, h3⟩ := C13_history F n hn ps hp
      have hm : ∀ (l : List Nat) (a : Nat), a ≤ 100 → (∀ x ∈ l, x ≤ 100) → l.foldl max a ≤ 100 := by
        intro l
        induction l with
        | nil => intro a ha _; exact ha
        | cons x l ih =>
          intro a ha hx
          exact ih _ (max_le ha (hx x List.mem_cons_self)) (fun y hy => hx y (List.mem_cons_of_mem _ hy))
      exact le_trans h (hm ps 0 (by decide) hp)
  · exact hp
  · rw [List.foldl_append, List.foldl_cons, List.foldl_nil, max_eq_left h]

/-- **C13 (monotone).** More requests never lose levels. -/
theorem C13_monotone (F : Fp) (n : Nat) (hn : 1 ≤ n) (ps qs : List Nat) (hp : ∀ p ∈ ps ++ qs, p ≤ 100) :
    ∃ s t, run F n (ps.map (↑)) fresh = some s ∧ run F n ((ps ++ qs).map (↑)) fresh = some t ∧ s.curOp ≤ t.curOp := by
  obtain ⟨k, h1, _, h3, h4⟩ := run_spec F n hn ps fresh (fun p h => hp p (List.mem_append_left _ h))
    (by simp [fresh]) (fresh_level F n)
  obtain ⟨k', g1, g2, _, _⟩ := run_spec F n hn qs ⟨k, ps.foldl max fresh.pct⟩
    (fun p h => hp p (List.mem_append_right _ h)) h3 h4
  refine ⟨⟨k, ps.foldl max fresh.pct⟩, ⟨k', qs.foldl max (ps.foldl max fresh.pct)⟩, h1, ?_, g2⟩
  have happ : ∀ (l : List Nat) (s : St), run F n ((l ++ qs).map (↑)) s = (run F n (l.map (↑)) s).bind (run F n (qs.map (↑))) := by
    intro l
    induction l with
    | nil => intro s; rfl
    | cons x l ih =>
      intro s
      simp only [List.cons_append, List.map_cons, run, Option.bind_eq_bind]
      cases advanceTo F n (x : Int) s with
      | none => rfl
      | some t => simp only [Option.bind_some, ih]
  rw [happ, h1, Option.bind_some]; exact g1

/-- Below all of fewer than 64 levels (the header's limit) the percentage rounds below 100. -/
theorem pct_lt (F : Fp) (n : Nat) (hn : 1 ≤ n) (h64 : n < 64) : F.rnd (F.rnd (((n - 1 : ℕ) : ℚ) / n) * 100) < 100 := by
  have hn0 : (0 : ℚ) < n := by exact_mod_cast hn
  have h1 : ((n - 1 : ℕ) : ℚ) / n ≤ ((63 : ℤ) : ℚ) / 2 ^ 6 := by
    rw [div_le_iff₀ hn0, Nat.cast_sub hn]
    have : (n : ℚ) ≤ 63 := by exact_mod_cast (by omega : n ≤ 63)
    push_cast
    linarith
  have h2 := F.mono h1
  rw [F.dyad 63 6 (by decide) (by omega)] at h2
  have h3 : F.rnd (((n - 1 : ℕ) : ℚ) / n) * 100 ≤ ((99 : ℤ) : ℚ) := by
    push_cast at h2 ⊢
    linarith
  have h4 := F.mono h3
  rw [F.int 99 (by decide)] at h4
  push_cast at h4
  linarith

/-- **C13 (100 %).** Requesting 100 decodes all levels, of which there are fewer than 64 (the header's limit). -/
theorem C13_full (F : Fp) (n : Nat) (hn : 1 ≤ n) (h64 : n < 64) : run F n [100] fresh = some ⟨n, 100⟩ := by
  have hF := pct_lt F n hn h64
  obtain ⟨k, h1, h2, h3⟩ := C13_history F n hn [100] (by simp)
  have : k = n := by
    rcases Nat.lt_or_ge k n with h | h
    · have h4 := h3.1
      have h5 := pct_mono F n k (n - 1) (by omega)
      simp only [List.foldl_cons, List.foldl_nil] at h4
      norm_num at h4
      linarith
    · omega
  have h5 : run F n [100] fresh = _ := h1
  rw [h5, this]; rfl

/-- **C13 (exact arithmetic).** Without rounding, requesting `p` percent decodes `⌈p·n/100⌉` levels. -/
theorem C13_exact (n : Nat) (hn : 1 ≤ n) (p : Nat) (hp : p ≤ 100) :
    run Fp.exact n [(p : Int)] fresh = some ⟨(p * n + 99) / 100, p⟩ := by
  obtain ⟨k, h1, h2, h3⟩ := C13_history Fp.exact n hn [p] (by simpa using hp)
  have hmax : [p].foldl max 0 = p := by simp
  rw [hmax] at h1 h3
  have hn0 : (0 : ℚ) < n := by exact_mod_cast hn
  have hlev : IsLevel Fp.exact n p ((p * n + 99) / 100) := by
    have key : ∀ k : Nat, (p : ℚ) ≤ (k : ℚ) / n * 100 ↔ p * n ≤ k * 100 := by
      intro k
      rw [div_mul_eq_mul_div, le_div_iff₀ hn0]
      constructor
      · intro h; exact_mod_cast h
      · intro h; exact_mod_cast h
    refine ⟨?_, fun j hj => ?_⟩
    · change (p : ℚ) ≤ ((((p * n + 99) / 100 : ℕ)) : ℚ) / n * 100
      rw [key]; omega
    · change (j : ℚ) / n * 100 < (p : ℚ)
      rw [← not_le, key]; omega
  have h5 : run Fp.exact n [(p : Int)] fresh = _ := h1
  rw [h5, level_unique _ _ _ _ _ h3 hlev]

/-- **Defect.** An object without any level (a mesh from which no vertex could be removed: the level
counter wraps around and 0 levels are stored) makes every positive request read past the data: the
percentage is `0/0`. -/
theorem C13_zero_levels_defect (F : Fp) (p : Int) (hp : 0 < p) (hp2 : p ≤ 100) :
    advanceTo F 0 p fresh = none := by
  unfold advanceTo
  have : ¬ (fresh.pct ≥ toUnsigned p) := by simp only [fresh, toUnsigned]; omega
  rw [if_neg this]
  unfold complete
  simp [reached, fresh]

theorem not_reached (n : Nat) (s : St) (hs : s.curOp ≤ n) (hp : 4294967196 ≤ s.pct) :
    ¬ (reached Fp.exact n s.curOp s.pct = true) := by
  rcases Nat.eq_zero_or_pos n with h0 | h0
  · simp [reached, h0]
  · rw [reached_iff _ _ _ _ h0, not_le]
    have h1 := pct_mono Fp.exact n s.curOp n hs
    rw [full Fp.exact n h0] at h1
    have h2 : (4294967196 : ℚ) ≤ s.pct := by exact_mod_cast hp
    linarith

/-- **Defect.** A negative request is compared as an unsigned number, so instead of doing nothing it asks
for more than everything and reads past the data, whatever the number of levels. -/
theorem C13_negative_request_defect (n : Nat) (p : Int) (h1 : -100 ≤ p) (h2 : p < 0) :
    advanceTo Fp.exact n p fresh = none := by
  have hu : 4294967196 ≤ toUnsigned p := by unfold toUnsigned; omega
  unfold advanceTo
  have : ¬ (fresh.pct ≥ toUnsigned p) := by simp only [fresh]; omega
  rw [if_neg this]
  have key : ∀ d (s : St), n - s.curOp = d → s.curOp ≤ n → 4294967196 ≤ s.pct →
      complete Fp.exact n s = none := by
    intro d
    induction d with
    | zero =>
      intro s hd hs hp
      unfold complete
      have hr : ¬ (reached Fp.exact n s.curOp s.pct = true) := not_reached n s hs hp
      rw [if_neg hr, if_neg (by omega)]
    | succ d ih =>
      intro s hd hs hp
      unfold complete
      have hr : ¬ (reached Fp.exact n s.curOp s.pct = true) := not_reached n s hs hp
      rw [if_neg hr, if_pos (by omega)]
      exact ih _ (by simp only; omega) (by simp only; omega) hp
  exact key _ ⟨0, toUnsigned p⟩ rfl (Nat.zero_le n) hu

/-! Non-vacuity: an object with 9 levels asked for 20, 20, 10, 55, 100 percent in exact arithmetic. -/
example : run Fp.exact 9 [20] fresh = some ⟨2, 20⟩ := C13_exact 9 (by decide) 20 (by decide)
example : run Fp.exact 9 [20, 20, 10, 55] fresh = some ⟨5, 55⟩ := by
  refine (C13_path_independent Fp.exact 9 (by decide) [20, 20, 10, 55] [55] (by decide) (by decide)
    (by decide)).trans ?_
  exact C13_exact 9 (by decide) 55 (by decide)
example : run Fp.exact 9 [100] fresh = some ⟨9, 100⟩ :=
  C13_full Fp.exact 9 (by decide) (by decide)

end TDP.Lod
