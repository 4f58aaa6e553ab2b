import Mathlib.Algebra.Order.Floor.Defs
import Mathlib.Algebra.Order.Round
import Mathlib.Data.Rat.Floor
import Mathlib.Tactic.Linarith
import Mathlib.Tactic.FieldSimp
import Mathlib.Tactic.Ring
import Mathlib.Tactic.Positivity
/-!
# C106: the tool that moves and shrinks a polyhedron (src/test/adjust_polyhedron.cpp)

Coordinates are rationals without rounding or overflow; each axis is treated alike (src/test/adjust_polyhedron.cpp:26-34, 45-49), so points are functions on `Fin 3`. The
connectivity is not touched (only `vi->point()` is assigned).
-/
namespace TDP.Adjust

abbrev Pt := Fin 3 → ℚ

/-- Conversion of a number to `int`: towards zero. -/
def toInt (x : ℚ) : Int := if 0 ≤ x then ⌊x⌋ else ⌈x⌉

/-- `min_co[i]` (src/test/adjust_polyhedron.cpp:20, 27-29); `none` is the initial `DBL_MAX`. -/
def minLoop (i : Fin 3) : List Pt → Option ℚ → Option ℚ
  | [], m => m
  | p :: ps, none => minLoop i ps (some (p i))
  | p :: ps, some m => minLoop i ps (some (if m > p i then p i else m))

/-- `mean_co[i] += p[i]` (src/test/adjust_polyhedron.cpp:33): the sum is converted to `int` each time. -/
def sumLoop (i : Fin 3) : List Pt → Int → Int
  | [], s => s
  | p :: ps, s => sumLoop i ps (toInt ((s : ℚ) + p i))

/-- `mean_co[i] /= counter` (src/test/adjust_polyhedron.cpp:38-40). -/
def mean (ps : List Pt) (i : Fin 3) : Int := (sumLoop i ps 0).tdiv ps.length

/-- The new place of a vertex (src/test/adjust_polyhedron.cpp:43-50), given `min_co`. -/
def place (shift : Int) (shrink : ℚ) (mn : Pt) (mean : Fin 3 → Int) (p : Pt) : Pt :=
  if shrink > 1 then fun i => (p i + shift - mn i) / shrink + mean i else fun i => (p i + shift) / shrink

/-- `adjust_polyhedron` (src/test/adjust_polyhedron.cpp:13-53) with the same shift on every axis (line 61). A mesh without vertices divides by zero (line 39), and so does a
shrink of 0 (line 49; also what `atoi` makes of a word that is no number): `none`. -/
def adjust (shift : Int) (shrink : ℚ) (ps : List Pt) : Option (List Pt) :=
  match minLoop 0 ps none, minLoop 1 ps none, minLoop 2 ps none with
  | some a, some b, some c =>
      if shrink = 0 then none
      else some (ps.map (place shift shrink (fun i => if i = 0 then a else if i = 1 then b else c) (mean ps)))
  | _, _, _ => none

theorem minLoop_spec (i : Fin 3) (ps : List Pt) : ∀ m : ℚ, ∃ r, minLoop i ps (some m) = some r ∧ r ≤ m ∧ (∀ p ∈ ps, r ≤ p i) ∧
    (r = m ∨ ∃ p ∈ ps, r = p i) := by
  induction ps with
  | nil => intro m; exact ⟨m, rfl, le_refl _, by simp, .inl rfl⟩
  | cons p ps ih =>
    intro m
    obtain ⟨r, h1, h2, h3, h4⟩ := ih (if m > p i then p i else m)
    have ha : (if m > p i then p i else m) ≤ m := by split <;> linarith
    have hb : (if m > p i then p i else m) ≤ p i := by split <;> linarith
    refine ⟨r, h1, le_trans h2 ha, ?_, ?_⟩
    · intro q hq
      rcases List.mem_cons.1 hq with e | hq
      · rw [e]; exact le_trans h2 hb
      · exact h3 q hq
    · rcases h4 with h4 | ⟨q, hq, h4⟩
      · by_cases hc : m > p i
        · rw [if_pos hc] at h4; exact .inr ⟨p, List.mem_cons_self, h4⟩
        · rw [if_neg hc] at h4; exact .inl h4
      · exact .inr ⟨q, List.mem_cons_of_mem _ hq, h4⟩

theorem min_spec (i : Fin 3) (ps : List Pt) (h : ps ≠ []) :
    ∃ r, minLoop i ps none = some r ∧ (∀ p ∈ ps, r ≤ p i) ∧ ∃ p ∈ ps, r = p i := by
  cases ps with
  | nil => exact absurd rfl h
  | cons p ps =>
    obtain ⟨r, h1, h2, h3, h4⟩ := minLoop_spec i ps (p i)
    refine ⟨r, h1, ?_, ?_⟩
    · intro q hq
      rcases List.mem_cons.1 hq with e | hq
      · rw [e]; exact h2
      · exact h3 q hq
    · rcases h4 with h4 | ⟨q, hq, h4⟩
      · exact ⟨p, List.mem_cons_self, h4⟩
      · exact ⟨q, List.mem_cons_of_mem _ hq, h4⟩

/-- What the tool does, with the lower corner of the box. -/
theorem adjust_eq (shift : Int) (shrink : ℚ) (hs : shrink ≠ 0) (ps : List Pt) (h : ps ≠ []) :
    ∃ mn : Pt, adjust shift shrink ps = some (ps.map (place shift shrink mn (mean ps))) ∧ ∀ i, (∀ p ∈ ps, mn i ≤ p i) ∧ ∃ p ∈ ps, mn i = p i := by
  obtain ⟨a, a1, a2⟩ := min_spec 0 ps h
  obtain ⟨b, b1, b2⟩ := min_spec 1 ps h
  obtain ⟨c, c1, c2⟩ := min_spec 2 ps h
  refine ⟨fun i => if i = 0 then a else if i = 1 then b else c, ?_, ?_⟩
  · unfold adjust; rw [a1, b1, c1]; exact if_neg hs
  · intro i
    rcases i with ⟨i, hi⟩
    rcases (by omega : i = 0 ∨ i = 1 ∨ i = 2) with e | e | e <;> subst e
    · exact a2
    · exact b2
    · exact c2

/-- **C106 (shape).** For every shift and every shrink but 0 the tool succeeds on every mesh with a vertex, keeps the number and order of the vertices,
and the difference of any two vertices is divided by the shrink: the result is the input scaled by `1/shrink`, somewhere. -/
theorem C106_shape (shift : Int) (shrink : ℚ) (hs : shrink ≠ 0) (ps : List Pt) (h : ps ≠ []) :
    ∃ qs, adjust shift shrink ps = some qs ∧ qs.length = ps.length ∧
      ∀ (j k : Nat) (hj : j < ps.length) (hk : k < ps.length) (hj' : j < qs.length) (hk' : k < qs.length) (i : Fin 3),
        qs[j] i - qs[k] i = (ps[j] i - ps[k] i) / shrink := by
  obtain ⟨mn, e, -⟩ := adjust_eq shift shrink hs ps h
  refine ⟨_, e, by simp, ?_⟩
  intro j k hj hk hj' hk' i
  simp only [List.getElem_map, place]
  by_cases hc : shrink > 1
  · simp only [if_pos hc]; ring
  · simp only [if_neg hc]; ring

/-- **C106 (shrink 1).** The mesh is moved by the shift. -/
theorem C106_moved (shift : Int) (ps : List Pt) (h : ps ≠ []) : adjust shift 1 ps = some (ps.map fun (p : Pt) (i : Fin 3) => p i + (shift : ℚ)) := by
  obtain ⟨mn, e, -⟩ := adjust_eq shift 1 one_ne_zero ps h
  rw [e]
  congr 1
  apply List.map_congr_left
  intro p _
  unfold place
  rw [if_neg (lt_irrefl _)]
  funext i
  exact div_one _

theorem toInt_near (x : ℚ) : |(toInt x : ℚ) - x| < 1 := by
  unfold toInt
  by_cases h : 0 ≤ x
  · rw [if_pos h, abs_lt]
    have h1 := Int.floor_le x
    have h2 := Int.lt_floor_add_one x
    constructor <;> linarith
  · rw [if_neg h, abs_lt]
    have h1 := Int.le_ceil x
    have h2 := Int.ceil_lt_add_one x
    constructor <;> linarith

theorem sumLoop_near (i : Fin 3) (ps : List Pt) : ∀ s : Int,
    |(sumLoop i ps s : ℚ) - (s + (ps.map (· i)).sum)| ≤ ps.length := by
  induction ps with
  | nil => intro s; simp [sumLoop]
  | cons p ps ih =>
    intro s
    have h1 := abs_le.1 (ih (toInt ((s : ℚ) + p i)))
    have h2 := abs_lt.1 (toInt_near ((s : ℚ) + p i))
    simp only [sumLoop, List.map_cons, List.sum_cons, List.length_cons]
    push_cast
    rw [abs_le]
    constructor <;> linarith [h1.1, h1.2, h2.1, h2.2]

theorem tdiv_near (a : Int) (n : Nat) (hn : 0 < n) : |((a.tdiv n : Int) : ℚ) - (a : ℚ) / n| < 1 := by
  have hn' : (0 : ℚ) < n := by exact_mod_cast hn
  have h1 : (n : Int) * a.tdiv n + a.tmod n = a := Int.mul_tdiv_add_tmod a n
  have h2 : |a.tmod n| < n := by
    have := Int.tmod_lt_of_pos a (by exact_mod_cast hn : (0 : Int) < n)
    have := Int.lt_tmod_of_pos a (by exact_mod_cast hn : (0 : Int) < n)
    rw [abs_lt]; constructor <;> omega
  have h3 : ((n : ℚ)) * (a.tdiv n : Int) + (a.tmod n : Int) = a := by exact_mod_cast h1
  have h4 : |((a.tmod n : Int) : ℚ)| < n := by exact_mod_cast h2
  have h5 : ((a.tdiv n : Int) : ℚ) - (a : ℚ) / n = -((a.tmod n : Int) : ℚ) / n := by
    rw [← h3]; field_simp; ring
  rw [h5, abs_div, abs_neg, abs_of_pos hn', div_lt_one hn']
  exact h4

theorem mean_near (ps : List Pt) (h : ps ≠ []) (i : Fin 3) : |(mean ps i : ℚ) - (ps.map (· i)).sum / ps.length| < 2 := by
  have hn : 0 < ps.length := List.length_pos_iff.2 h
  have hn' : (0 : ℚ) < ps.length := by exact_mod_cast hn
  have h1 := sumLoop_near i ps 0
  have h2 := tdiv_near (sumLoop i ps 0) ps.length hn
  unfold mean
  have h3 : |(sumLoop i ps 0 : ℚ) / ps.length - (ps.map (· i)).sum / ps.length| ≤ 1 := by
    rw [← sub_div, abs_div, abs_of_pos hn', div_le_one hn']
    simpa using h1
  have := abs_sub_le (((sumLoop i ps 0).tdiv ps.length : Int) : ℚ) ((sumLoop i ps 0 : ℚ) / ps.length) ((ps.map (· i)).sum / ps.length)
  linarith

/-- **C106 (shrink above 1).** On every axis the lowest vertex of the result lies at `m + shift / shrink`, where `m` is a whole number less than 2 away
from the mean of the input: also the shift is divided by the shrink, and not the middle but the lower corner is put near the mean. -/
theorem C106_shrunk_place (shift : Int) (shrink : ℚ) (hs : 1 < shrink) (ps : List Pt) (h : ps ≠ []) :
    ∃ (qs : List Pt) (m : Fin 3 → Int), adjust shift shrink ps = some qs ∧
      ∀ i, |(m i : ℚ) - (ps.map (· i)).sum / ps.length| < 2 ∧ (∀ q ∈ qs, m i + shift / shrink ≤ q i) ∧ ∃ q ∈ qs, q i = m i + shift / shrink := by
  have hp : 0 < shrink := by linarith
  obtain ⟨mn, e, hm⟩ := adjust_eq shift shrink (ne_of_gt hp) ps h
  refine ⟨_, mean ps, e, fun i => ⟨mean_near ps h i, ?_, ?_⟩⟩
  · intro q hq
    obtain ⟨p, hp1, rfl⟩ := List.mem_map.1 hq
    unfold place
    rw [if_pos hs]
    have := (hm i).1 p hp1
    have : (shift : ℚ) / shrink ≤ (p i + shift - mn i) / shrink := div_le_div_of_nonneg_right (by linarith) (le_of_lt hp)
    linarith
  · obtain ⟨p, hp1, hp2⟩ := (hm i).2
    refine ⟨_, List.mem_map.2 ⟨p, hp1, rfl⟩, ?_⟩
    unfold place
    rw [if_pos hs, hp2]
    ring

/-- **C106 fails** for a shrink of 0, and for words that are no number. -/
theorem C106_zero_defect (shift : Int) (ps : List Pt) : adjust shift 0 ps = none := by
  unfold adjust
  split
  · exact if_pos rfl
  · rfl

/-- A segment from (1,1,1) to (7,7,7), shift 6, shrink 2: the mean is 4, the result goes from 4+3 to 4+3+3. -/
example : adjust 6 2 [fun _ => 1, fun _ => 7] = some [fun _ => 7, fun _ => 10] := by
  have h : adjust 6 2 [fun _ => 1, fun _ => 7] = some ([fun _ => 1, fun _ => 7].map (place 6 2 (fun _ => 1) (fun _ => 4))) := by
    obtain ⟨mn, e, hm⟩ := adjust_eq 6 2 (by norm_num) [fun _ => 1, fun _ => 7] (by simp)
    have h1 : mn = fun _ => 1 := by
      funext i
      obtain ⟨a, p, hp, hq⟩ := hm i
      have := a (fun _ => 1) (by simp)
      simp only [List.mem_cons, List.not_mem_nil, or_false] at hp
      rcases hp with rfl | rfl
      · exact hq
      · norm_num at this hq; linarith
    have h2 : mean [fun _ => 1, fun _ => 7] = fun _ => 4 := by
      funext i; revert i; decide +kernel
    rw [e, h1, h2]
  rw [h]
  simp only [List.map_cons, List.map_nil, place]
  norm_num

end TDP.Adjust
