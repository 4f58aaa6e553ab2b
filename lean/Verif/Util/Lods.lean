import Mathlib.Data.List.Basic
import Mathlib.Tactic.Ring
import Mathlib.Tactic.Linarith
import Mathlib.Data.List.Chain
/-! C48: the levels of detail used by the join tool (test/joiner.cpp, join/SpatialJoin.h). -/
namespace TDP.Util

/-- `INT_MAX`. -/
def intMax : Int := 2147483647
def intMin : Int := -2147483648

/-- `for(int l=base_lod;l<=top_lod;l+=lod_gap) lods.push_back(l)` (joiner.cpp:91-93), for at most `fuel` rounds. `none`
when `l+=lod_gap` overflows (undefined behaviour) or the fuel is used up. -/
def lodLoop (gap top : Int) : Nat → Int → List Int → Option (List Int)
  | 0, _, _ => none
  | fuel + 1, l, acc =>
    if l ≤ top then
      if intMin ≤ l + gap ∧ l + gap ≤ intMax then lodLoop gap top fuel (l + gap) (acc ++ [l]) else none
    else some acc

/-- The levels without `--lod` (joiner.cpp:90-97), with `fuel` rounds of the loop; `none` also when `lods[lods.size()-1]` is
read from an empty vector (94). -/
def lodsFuel (base gap top : Int) (fuel : Nat) : Option (List Int) :=
  match lodLoop gap top fuel base [] with
  | none => none
  | some r => match r.getLast? with
    | none => none
    | some z => some (if z < top then r ++ [top] else r)

/-- The tool gets a list of levels: the loop ends and nothing undefined happens. -/
def Lods (base gap top : Int) (r : List Int) : Prop := ∃ fuel, lodsFuel base gap top fuel = some r

/-- `query_context::highest_lod` (SpatialJoin.h:45-51). -/
def highestLod (lods : List Int) : Int := match lods.getLast? with
  | none => 0
  | some z => z

/-! ## Lemmas -/

theorem lodLoop_mono {gap top : Int} {f : Nat} {l : Int} {acc r : List Int} (h : lodLoop gap top f l acc = some r) :
    ∀ d, lodLoop gap top (f + d) l acc = some r := by
  induction f generalizing l acc with
  | zero => simp [lodLoop] at h
  | succ f ih =>
    intro d
    rw [show f + 1 + d = (f + d) + 1 by omega]
    simp only [lodLoop] at h ⊢
    by_cases h1 : l ≤ top
    · rw [if_pos h1] at h ⊢
      by_cases h2 : intMin ≤ l + gap ∧ l + gap ≤ intMax
      · rw [if_pos h2] at h ⊢; exact ih h d
      · rw [if_neg h2] at h; exact absurd h (by simp)
    · rw [if_neg h1] at h ⊢; exact h

theorem Lods.unique {base gap top : Int} {r r' : List Int} (h : Lods base gap top r) (h' : Lods base gap top r') : r = r' := by
  obtain ⟨f, h⟩ := h
  obtain ⟨f', h'⟩ := h'
  unfold lodsFuel at h h'
  cases e : lodLoop gap top f base [] with
  | none => simp [e] at h
  | some a =>
    cases e' : lodLoop gap top f' base [] with
    | none => simp [e'] at h'
    | some a' =>
      have m := lodLoop_mono e f'
      have m' := lodLoop_mono e' f
      rw [Nat.add_comm] at m'
      rw [m] at m'
      have : a = a' := Option.some.inj m'
      subst this
      rw [e] at h; rw [e'] at h'
      rw [h] at h'
      exact Option.some.inj h'

/-- The arithmetic progression `l, l+gap, …` of `k` terms. -/
def prog (gap : Int) (l : Int) (k : Nat) : List Int := (List.range k).map (fun i : Nat => l + i * gap)

theorem prog_succ (gap l : Int) (k : Nat) : prog gap l (k + 1) = l :: prog gap (l + gap) k := by
  unfold prog
  rw [List.range_succ_eq_map, List.map_cons, List.map_map]
  simp only [Nat.cast_zero, Int.zero_mul, Int.add_zero]
  congr 1
  apply List.map_congr_left
  intro i _
  simp only [Function.comp, Nat.cast_succ]
  ring

theorem lodLoop_eq {gap top : Int} (hg : 0 < gap) (hg' : -gap ≤ -intMin) (hm : top + gap ≤ intMax) : ∀ (k : Nat) (l : Int) (acc : List Int), intMin ≤ l →
    top < l + k * gap → (∀ j : Nat, j < k → l + j * gap ≤ top) → lodLoop gap top (k + 1) l acc = some (acc ++ prog gap l k) := by
  intro k
  induction k with
  | zero =>
    intro l acc _ h _
    simp only [Nat.cast_zero, Int.zero_mul, Int.add_zero] at h
    simp [lodLoop, not_le.2 h, prog]
  | succ k ih =>
    intro l acc hl h hj
    have h0 := hj 0 (by omega)
    simp only [Nat.cast_zero, Int.zero_mul, Int.add_zero] at h0
    rw [lodLoop, if_pos h0, if_pos ⟨by omega, by omega⟩, ih (l + gap) (acc ++ [l]) (by omega) (by push_cast at h; linarith), prog_succ]
    · simp
    · intro j hjk
      have := hj (j + 1) (by omega)
      push_cast at this
      linarith

theorem prog_last (gap l : Int) (k : Nat) : (prog gap l (k + 1)).getLast? = some (l + k * gap) := by
  unfold prog
  rw [List.range_succ, List.map_append]
  simp

/-- Everything about the levels at once. -/
theorem lods_eq {base gap top : Int} (hb : intMin ≤ base) (h : base ≤ top) (hg : 0 < gap) (hm : top + gap ≤ intMax) :
    Lods base gap top (prog gap base (((top - base) / gap).toNat + 1) ++ (if gap ∣ top - base then [] else [top])) := by
  obtain ⟨q, hq⟩ : ∃ q : Nat, (top - base) / gap = q := ⟨((top - base) / gap).toNat, by rw [Int.toNat_of_nonneg (Int.ediv_nonneg (by omega) (by omega))]⟩
  have e1 := Int.emod_add_mul_ediv (top - base) gap
  have e2 := Int.emod_lt_of_pos (top - base) hg
  have e3 := Int.emod_nonneg (top - base) (b := gap) (by omega)
  rw [hq] at e1
  rw [hq, Int.toNat_natCast]
  have hx : gap * (q : Int) = q * gap := by ring
  rw [hx] at e1
  refine ⟨q + 2, ?_⟩
  unfold lodsFuel
  have hL := lodLoop_eq (top := top) hg (by simp only [intMin]; omega) hm (q + 1) base [] hb (by push_cast; linarith) (by
    intro j hj
    have : (j : Int) * gap ≤ q * gap := mul_le_mul_of_nonneg_right (by omega) (by omega)
    omega)
  rw [hL, List.nil_append]
  simp only [prog_last]
  by_cases hd : gap ∣ top - base
  · have : (top - base) % gap = 0 := Int.emod_eq_zero_of_dvd hd
    rw [if_pos hd, if_neg (by omega), List.append_nil]
  · have : (top - base) % gap ≠ 0 := fun hh => hd (Int.dvd_of_emod_eq_zero hh)
    rw [if_neg hd, if_pos (by omega)]

/-! ## C48 -/

/-- C48. With `base ≤ top`, a positive gap and no overflow, the tool gets exactly one list of levels. It is strictly
increasing, begins with the base level, ends with the top level (which `highest_lod` returns), and holds exactly the top
level and the levels `base + i·gap` up to it (so no step is longer than the gap). -/
theorem C48_levels {base gap top : Int} (hb : intMin ≤ base) (h : base ≤ top) (hg : 0 < gap) (hm : top + gap ≤ intMax) :
    ∃ r, Lods base gap top r ∧ (∀ r', Lods base gap top r' → r' = r) ∧
      r.Pairwise (· < ·) ∧ r.head? = some base ∧ r.getLast? = some top ∧ highestLod r = top ∧
      (∀ x, x ∈ r ↔ x = top ∨ (base ≤ x ∧ x ≤ top ∧ gap ∣ x - base)) := by
  have H := lods_eq hb h hg hm
  obtain ⟨q, hq⟩ : ∃ q : Nat, (top - base) / gap = q := ⟨((top - base) / gap).toNat, by rw [Int.toNat_of_nonneg (Int.ediv_nonneg (by omega) (by omega))]⟩
  have e1 := Int.emod_add_mul_ediv (top - base) gap
  have e2 := Int.emod_lt_of_pos (top - base) hg
  have e3 := Int.emod_nonneg (top - base) (b := gap) (by omega)
  rw [hq] at e1
  rw [hq, Int.toNat_natCast] at H
  have hx : gap * (q : Int) = q * gap := by ring
  rw [hx] at e1
  have hsort : (prog gap base (q + 1)).Pairwise (· < ·) := by
    unfold prog
    rw [List.pairwise_map]
    refine List.Pairwise.imp ?_ (List.pairwise_lt_range)
    intro a b hab
    have : (a : Int) * gap < b * gap := mul_lt_mul_of_pos_right (by omega) hg
    omega
  have hmem : ∀ x, x ∈ prog gap base (q + 1) ↔ base ≤ x ∧ x ≤ top ∧ gap ∣ x - base := by
    intro x
    unfold prog
    rw [List.mem_map]
    constructor
    · rintro ⟨i, hi, rfl⟩
      rw [List.mem_range] at hi
      have h1 : (i : Int) * gap ≤ q * gap := mul_le_mul_of_nonneg_right (by omega) (by omega)
      have h2 : 0 ≤ (i : Int) * gap := mul_nonneg (by omega) (by omega)
      exact ⟨by omega, by omega, ⟨i, by ring⟩⟩
    · rintro ⟨h1, h2, k, hk⟩
      have hk0 : 0 ≤ k := by
        by_contra hh
        have : gap * k < 0 := mul_neg_of_pos_of_neg hg (by omega)
        omega
      refine ⟨k.toNat, ?_, ?_⟩
      · rw [List.mem_range]
        by_contra hh
        have : gap * (q + 1) ≤ gap * k := mul_le_mul_of_nonneg_left (by omega) (by omega)
        have h5 : gap * ((q : Int) + 1) = q * gap + gap := by ring
        omega
      · rw [Int.toNat_of_nonneg hk0]
        have : k * gap = gap * k := by ring
        omega
  have hlast : (prog gap base (q + 1) ++ (if gap ∣ top - base then [] else [top])).getLast? = some top := by
    by_cases hd : gap ∣ top - base
    · rw [if_pos hd, List.append_nil, prog_last]
      have : (top - base) % gap = 0 := Int.emod_eq_zero_of_dvd hd
      congr 1; omega
    · rw [if_neg hd]; simp
  refine ⟨_, H, fun r' hr => hr.unique H, ?_, ?_, hlast, by unfold highestLod; rw [hlast], ?_⟩
  · rw [List.pairwise_append]
    refine ⟨hsort, by split <;> simp, ?_⟩
    intro a ha b hb'
    by_cases hd : gap ∣ top - base
    · rw [if_pos hd] at hb'; exact absurd hb' (by simp)
    · rw [if_neg hd, List.mem_singleton] at hb'
      subst hb'
      have := (hmem a).1 ha
      rcases this.2.1.lt_or_eq with hh | hh
      · exact hh
      · exact absurd (hh ▸ this.2.2) hd
  · rw [prog_succ]; simp
  · intro x
    rw [List.mem_append, hmem]
    by_cases hd : gap ∣ top - base
    · rw [if_pos hd]
      constructor
      · rintro (hh | hh)
        · exact Or.inr hh
        · exact absurd hh (by simp)
      · rintro (rfl | hh)
        · exact Or.inl ⟨h, le_refl _, hd⟩
        · exact Or.inl hh
    · rw [if_neg hd, List.mem_singleton]
      exact or_comm

/-- The usual case: levels 0, 50, 100; and a top level off the grid. -/
example : Lods 0 50 100 [0, 50, 100] := ⟨4, by decide⟩
example : Lods 0 40 100 [0, 40, 80, 100] := ⟨5, by decide⟩
example : intMin ≤ 0 ∧ (0 : Int) ≤ 100 ∧ (0 : Int) < 40 ∧ 100 + 40 ≤ intMax := by decide

/-- Outside those preconditions the tool has no levels: it reads from an empty vector (`base > top`), never leaves the
loop (gap 0) or overflows (negative gap). -/
theorem C48_preconditions {base gap top : Int} (hbad : top < base ∨ gap ≤ 0) : ¬ ∃ r, Lods base gap top r := by
  rintro ⟨r, f, hf⟩
  unfold lodsFuel at hf
  rcases hbad with h | h
  · cases f with
    | zero => simp [lodLoop] at hf
    | succ f => simp [lodLoop, not_le.2 h] at hf
  · by_cases hb : base ≤ top
    · have : ∀ (f : Nat) (l : Int) (acc : List Int), l ≤ top → lodLoop gap top f l acc = none := by
        intro f
        induction f with
        | zero => intro l acc _; rfl
        | succ f ih =>
          intro l acc hl
          rw [lodLoop, if_pos hl]
          by_cases h2 : intMin ≤ l + gap ∧ l + gap ≤ intMax
          · rw [if_pos h2]; exact ih _ _ (by omega)
          · rw [if_neg h2]
      rw [this f base [] hb] at hf
      exact absurd hf (by simp)
    · cases f with
      | zero => simp [lodLoop] at hf
      | succ f => simp [lodLoop, hb] at hf

/-- `highest_lod` is the last level given, not the largest: with `--lod 100 50` it is 50. -/
theorem C48_highest_is_last : highestLod [100, 50] = 50 := by decide

end TDP.Util
