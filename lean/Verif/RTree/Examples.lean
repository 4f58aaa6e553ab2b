import Verif.RTree.Props
import Mathlib.Tactic.NormNum
import Mathlib.Tactic.IntervalCases
/-! Concrete cases for C69 - C72, and what goes wrong outside their hypotheses. -/
namespace TDP.RTree

/-- One-dimensional boxes. -/
def box1 (a b : ℚ) : Rect 1 ℚ := ⟨fun _ => a, fun _ => b⟩

/-- Square root and power of the integer part; monotone and not negative. -/
def floorLib : Lib where
  sqrt x := (Nat.sqrt ⌊x⌋.toNat : ℕ)
  pow m x := if m = 1 then (⌊x⌋.toNat : ℕ) else 0
  sqrt_mono := by
    intro x y _ h
    exact_mod_cast Nat.sqrt_le_sqrt (Int.toNat_le_toNat (Int.floor_le_floor h))
  sqrt_nonneg := by intro x _; exact_mod_cast Nat.zero_le _
  pow_mono := by
    intro m x y _ h
    by_cases hm : m = 1
    · simp only [hm, if_true]
      exact_mod_cast Int.toNat_le_toNat (Int.floor_le_floor h)
    · simp [hm]
  pow_nonneg := by
    intro m x _
    by_cases hm : m = 1
    · simp only [hm, if_true]; exact_mod_cast Nat.zero_le _
    · simp [hm]

/-- Default node sizes, one dimension. -/
def p1 : Params 1 ℚ := floatParams 1 8 4 Fp.exact floorLib 2

def ins (i : Nat) : Op 1 ℚ Nat := .insert (box1 (4 * i) (4 * i + 6)) i
def rem (i : Nat) : Op 1 ℚ Nat := .remove (box1 (4 * i) (4 * i + 6)) i

/-- Twelve insertions, which split a node, and three removals. -/
def hist : List (Op 1 ℚ Nat) := (List.range 12).map ins ++ [rem 3, rem 7, rem 0]

/-- The hypotheses of `rtree_search`, `rtree_shape`, `rtree_iterate` and `rtree_save_load` hold for `hist`, and its configuration is the default one. -/
theorem p1_config : Config p1 := float_config (by norm_num) (by norm_num) (by norm_num)

/-- The calls of `hist` are valid. -/
theorem hist_ok : ∀ op ∈ hist, OpOk op := by
  intro op hop
  unfold hist at hop
  rcases List.mem_append.1 hop with hop | hop
  · obtain ⟨i, _, rfl⟩ := List.mem_map.1 hop
    intro _
    simp only [box1]
    linarith
  · simp only [List.mem_cons, List.not_mem_nil, or_false] at hop
    rcases hop with rfl | rfl | rfl <;> · intro _; simp only [box1]; norm_num

/-- The callback collects ids and never stops. -/
def collect : List Nat → Nat → List Nat × Bool := fun l d => (l ++ [d], true)

/-- The callback stops at the second id. -/
def two : List Nat → Nat → List Nat × Bool := fun l d => (l ++ [d], decide (l.length < 1))

example : (run p1 hist empty).bind (search collect (box1 6 26) []) = some ([5, 6, 4, 1, 2], 5) := by decide +kernel
example : (run p1 hist empty).bind (search two (box1 6 26) []) = some ([5, 6], 2) := by decide +kernel
example : (run p1 hist empty).bind count = some 9 := by decide +kernel
example : ((run p1 hist empty).bind (iterate 33 10)).map (fun l => l.map Prod.snd) = some [11, 8, 9, 10, 5, 6, 4, 1, 2] := by decide +kernel

/-- The history is disciplined, so `contents_expected` determines what is stored. -/
theorem hist_disciplined : Disciplined hist := by
  have key : ∀ k < 15, ∀ op, hist[k]? = some op → match op with
      | .remove r d => (r = box1 (4 * d) (4 * d + 6)) ∧ ∀ e ∈ expected (hist.take k), e.2 = d → e.1 = r
      | _ => True := by
    intro k hk
    interval_cases k <;> intro op hop <;> injection hop with hop <;> subst hop
    all_goals first
      | exact trivial
      | exact ⟨rfl, by decide +kernel⟩
  intro h r d h' e
  have hlen : h.length < 15 := by
    have := congrArg List.length e
    simp [hist] at this
    omega
  have h1 := key h.length hlen (.remove r d) (by rw [e]; simp)
  rw [show hist.take h.length = h by rw [e]; simp] at h1
  refine ⟨?_, h1.2⟩
  rw [h1.1]
  intro _
  simp only [box1]
  linarith

/-! ## A file -/

/-- One byte per value. -/
def byteCodec : Codec (Fin 256) where
  size := 1
  enc x := [x.1]
  dec l := Fin.ofNat 256 (l.headD 0)
  len := by intro _; rfl
  rt := by intro x; simp

/-- Boxes with coordinates of one byte; the volume is exact. -/
def byteP : Params 1 (Fin 256) := ⟨8, 4, fun r => ((r.max 0).1 : ℚ) - ((r.min 0).1 : ℚ), Fp.exact⟩

theorem byteP_config : Config byteP where
  min := by decide
  max := by decide
  vol := {
    comb := fun a _ ha _ i => le_trans (min_le_left _ _) (le_trans (ha i) (le_max_left _ _))
    mono := by
      intro a b _ _ h
      have h1 : (((b.min 0).1 : ℕ) : ℚ) ≤ ((a.min 0).1 : ℕ) := by exact_mod_cast (h 0).1
      have h2 : (((a.max 0).1 : ℕ) : ℚ) ≤ ((b.max 0).1 : ℕ) := by exact_mod_cast (h 0).2
      simp only [byteP]
      linarith
    rep := fun _ _ => rfl }

/-- The file of a tree with two entries. -/
example : save 8 4 byteCodec byteCodec (.leaf [(⟨fun _ => 3, fun _ => 5⟩, 7), (⟨fun _ => 4, fun _ => 9⟩, 8)] : Node 1 (Fin 256) (Fin 256)) =
    [82, 84, 82, 69] ++ [1, 0, 0, 0] ++ [1, 0, 0, 0] ++ [1, 0, 0, 0] ++ [8, 0, 0, 0] ++ [4, 0, 0, 0] ++
    [0, 0, 0, 0] ++ [2, 0, 0, 0] ++ [3, 5, 7] ++ [4, 9, 8] := by decide +kernel

/-! ## Outside the hypotheses -/

def pins (i : Nat) : Op 1 ℚ Nat := .insert (box1 (4 * i) (4 * i)) i
def prem (i : Nat) : Op 1 ℚ Nat := .remove (box1 (4 * i) (4 * i)) i

/-- With `MINNODES = 1`, which is the default for `MAXNODES` 2 and 3, removing every entry can leave an inner root without children;
the next `Insert` reads a branch that does not exist. -/
theorem min1_insert_breaks :
    (run (floatParams 1 2 1 Fp.exact floorLib 2) ((List.range 8).map pins ++ [4, 5, 6, 0, 1, 2, 3, 7].map prem) empty).isSome = true ∧
    run (floatParams 1 2 1 Fp.exact floorLib 2) ((List.range 8).map pins ++ [4, 5, 6, 0, 1, 2, 3, 7].map prem ++ [pins 8]) empty = none := by
  refine ⟨by decide +kernel, ?_⟩
  rw [← Option.isNone_iff_eq_none]
  decide +kernel

/-- A rounding with 24 significant bits: above 2^24 only multiples of 4 are representable. -/
def coarse (x : ℚ) : ℚ := if x > 16777216 then 4 * ⌊x / 4⌋ else if x < -16777216 then -(4 * ⌊-x / 4⌋) else x

theorem coarse_pos {x : ℚ} (h : x > 16777216) : coarse x = 4 * ⌊x / 4⌋ := by unfold coarse; rw [if_pos h]
theorem coarse_neg {x : ℚ} (h : x < -16777216) : coarse x = -(4 * ⌊-x / 4⌋) := by
  unfold coarse; rw [if_neg (by linarith), if_pos h]
theorem coarse_mid {x : ℚ} (h : x ≤ 16777216) (h' : -16777216 ≤ x) : coarse x = x := by
  unfold coarse; rw [if_neg (by linarith), if_neg (by linarith)]

theorem coarse_ge {x : ℚ} (h : x > 16777216) : (16777216 : ℚ) ≤ coarse x ∧ coarse x ≤ x := by
  rw [coarse_pos h]
  have h1 : (4194304 : ℤ) ≤ ⌊x / 4⌋ := Int.le_floor.2 (by push_cast; linarith)
  have h2 : ((⌊x / 4⌋ : ℤ) : ℚ) ≤ x / 4 := Int.floor_le _
  have h3 : (4194304 : ℚ) ≤ (⌊x / 4⌋ : ℤ) := by exact_mod_cast h1
  constructor <;> linarith

theorem coarse_negate (x : ℚ) : coarse (-x) = -coarse x := by
  by_cases h1 : x > 16777216
  · rw [coarse_pos h1, coarse_neg (by linarith), neg_neg]
  · by_cases h2 : x < -16777216
    · rw [coarse_neg h2, coarse_pos (by linarith), neg_neg]
    · rw [coarse_mid (by linarith) (by linarith), coarse_mid (by linarith) (by linarith)]

/-- It satisfies all laws assumed of floating-point rounding. -/
def coarseFp : Fp where
  rnd := coarse
  mono := by
    have key : ∀ {x y : ℚ}, -16777216 ≤ x → x ≤ y → coarse x ≤ coarse y := by
      intro x y hx h
      by_cases hy : y > 16777216
      · by_cases hx' : x > 16777216
        · rw [coarse_pos hx', coarse_pos hy]
          have : ((⌊x / 4⌋ : ℤ) : ℚ) ≤ (⌊y / 4⌋ : ℤ) := by exact_mod_cast Int.floor_le_floor (by linarith)
          linarith
        · rw [coarse_mid (by linarith) hx]
          exact le_trans (by linarith) (coarse_ge hy).1
      · rw [coarse_mid (by linarith) hx, coarse_mid (by linarith) (by linarith)]; exact h
    intro x y h
    by_cases hx : -16777216 ≤ x
    · exact key hx h
    · by_cases hy : y ≤ 16777216
      · have := key (x := -y) (y := -x) (by linarith) (by linarith)
        rw [coarse_negate, coarse_negate] at this
        linarith
      · have h1 := (coarse_ge (x := y) (by linarith)).1
        have h2 := (coarse_ge (x := -x) (by linarith)).1
        rw [coarse_negate] at h2
        linarith
  neg := coarse_negate
  idem := by
    have key : ∀ {x : ℚ}, x > 16777216 → coarse (coarse x) = coarse x := by
      intro x h
      obtain ⟨a, _⟩ := coarse_ge h
      rcases lt_or_eq_of_le a with a | a
      · rw [coarse_pos a]
        conv_lhs => rw [coarse_pos h]
        rw [coarse_pos h, show (4 * ((⌊x / 4⌋ : ℤ) : ℚ)) / 4 = (⌊x / 4⌋ : ℤ) by ring, Int.floor_intCast]
      · rw [← a]; exact coarse_mid (by norm_num) (by norm_num)
    intro x
    by_cases h1 : x > 16777216
    · exact key h1
    · by_cases h2 : x < -16777216
      · have := key (x := -x) (by linarith)
        rw [coarse_negate, coarse_negate] at this
        linarith
      · rw [coarse_mid (x := x) (by linarith) (by linarith), coarse_mid (by linarith) (by linarith)]
  dyad := by
    intro n k hn _
    rw [abs_le] at hn
    have h2 : (1 : ℚ) ≤ 2 ^ k := one_le_pow₀ (by norm_num)
    have h3 : (n : ℚ) ≤ 16777216 := by exact_mod_cast hn.2
    have h4 : (-16777216 : ℚ) ≤ n := by exact_mod_cast hn.1
    refine coarse_mid ((div_le_iff₀ (by positivity)).2 (by nlinarith)) ((le_div_iff₀ (by positivity)).2 (by nlinarith))

/-- Nine equal large boxes: no pair of seeds is chosen, because one is lost when `worst` is rounded, and the first branch is put into
both groups. With the default node sizes the split is still right; with `MINNODES = 1` a branch is left without a group. -/
theorem no_seeds_large_boxes :
    (pickSeeds (floatParams 1 8 4 coarseFp floorLib 2) (List.replicate 9 (box1 0 67108864)) 67108864 (initVars 9 (box1 0 0))).part =
      some true :: List.replicate 8 none := by decide +kernel
theorem large_boxes_ok :
    (run (floatParams 1 8 4 coarseFp floorLib 2) (List.replicate 9 (Op.insert (box1 0 67108864) 0)) empty).bind count = some 9 := by
  decide +kernel
theorem min1_large_boxes_break :
    run (floatParams 1 2 1 coarseFp floorLib 2) (List.replicate 3 (Op.insert (box1 0 67108864) 0)) empty = none := by
  rw [← Option.isNone_iff_eq_none]; decide +kernel

/-- As long as all entries fit in one node, `Remove` does not look at the box. -/
theorem remove_ignores_box : ((run p1 [ins 0, .remove (box1 1000 1001) 0] empty).bind count) = some 0 := by decide +kernel

end TDP.RTree
