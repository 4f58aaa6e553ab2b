import Verif.Conc.Compress
import Mathlib.Tactic.Linarith
/-!
# C113: starting the compression tool, and what it says about its progress (src/test/compress.cpp:33-37, 102-172)
-/
namespace TDP.Conc.Compress
open TDP.Conc

/-- `MAX_THREAD_NUM` (compress.cpp:33): the length of `processing_line` and `is_working` (36-37). -/
def maxThreads : Nat := 100

/-- `processing_line` and `is_working` (36-37) as the program finds them; any content. -/
abbrev Slots (L : Type) := List (Option L × Bool)

/-- The loop 120-124. A store behind the arrays is undefined (`none`). -/
def clearSlots {L : Type} : Nat → Nat → Slots L → Option (Slots L)
  | 0, _, a => some a
  | k + 1, i, a => if i < a.length then clearSlots k (i + 1) (a.set i (none, false)) else none

/-- What a start comes to. -/
inductive Boot (L : Type)
  | usage
  | undefined
  | runs (threads : Nat) (max : Int) (slots : Slots L)

/-- The fourth argument (compress.cpp:110-113). -/
def threadsOf {A : Type} (hw : Nat) (atoi : A → Int) : List A → Int
  | _ :: t :: _ => atoi t
  | _ => hw

/-- The third argument (compress.cpp:114-117). -/
def maxOf {A : Type} (longMax : Int) (atoi : A → Int) : List A → Int
  | m :: _ => atoi m
  | [] => longMax

/-- `main` up to the creation of the workers (compress.cpp:102-126) with the arguments after the program's name, on a machine with `hw` hardware
threads (`get_num_threads`, util.h:164-166). With one argument `argv[2]` is NULL and is printed and opened (108-109, 126); with a negative
number of threads the arrays 118-119 have a negative length. `longMax` is `LONG_MAX`. -/
def boot {L A : Type} (hw : Nat) (longMax : Int) (atoi : A → Int) (slots : Slots L) : List A → Boot L
  | [] => .usage
  | [_] => .undefined
  | _ :: _ :: rest =>
    if threadsOf hw atoi rest < 0 then .undefined
    else match clearSlots (threadsOf hw atoi rest).toNat 0 slots with
      | some a => .runs (threadsOf hw atoi rest).toNat (maxOf longMax atoi rest) a
      | none => .undefined

theorem clearSlots_some {L : Type} (k : Nat) : ∀ (i : Nat) (a : Slots L), i + k ≤ a.length → ∃ b, clearSlots k i a = some b ∧
    ∀ j, (i ≤ j → j < i + k → b[j]? = some (none, false)) ∧ ((j < i ∨ i + k ≤ j) → b[j]? = a[j]?) := by
  induction k with
  | zero => exact fun i a hi => ⟨a, rfl, fun j => ⟨fun h1 h2 => by omega, fun _ => rfl⟩⟩
  | succ k ih =>
    intro i a hi
    obtain ⟨b, h1, h2⟩ := ih (i + 1) (a.set i (none, false)) (by rw [List.length_set]; omega)
    refine ⟨b, ?_, fun j => ⟨fun h3 h4 => ?_, fun h3 => ?_⟩⟩
    · exact (if_pos (by omega : i < a.length)).trans h1
    · by_cases hj : j = i
      · subst hj
        rw [(h2 j).2 (.inl (by omega)), List.getElem?_set_self (by omega)]
      · exact (h2 j).1 (by omega) (by omega)
    · rw [(h2 j).2 (by omega), List.getElem?_set_ne (by omega)]

theorem clearSlots_none {L : Type} (k : Nat) : ∀ (i : Nat) (a : Slots L), i ≤ a.length → a.length < i + k → clearSlots k i a = none := by
  induction k with
  | zero => exact fun i a h1 h2 => by omega
  | succ k ih =>
    intro i a h1 h2
    by_cases hlt : i < a.length
    · exact (if_pos hlt).trans (ih (i + 1) (a.set i (none, false)) (by rw [List.length_set]; omega) (by rw [List.length_set]; omega))
    · exact if_neg hlt

/-- **C113, partial.** Started with an input path, an output path, and possibly a limit and a number of threads, the tool gets to its workers exactly if
the number of threads (that of the machine, if none is given) is at most 100 and not negative; then every worker finds its slot free and empty, as
`start` has it. -/
theorem C113_start_partial {L A : Type} (hw : Nat) (longMax : Int) (atoi : A → Int) (slots : Slots L) (hs : slots.length = 100) (i o : A) (rest : List A) :
    (∀ m t rest', rest = m :: t :: rest' → 0 ≤ atoi t → atoi t ≤ 100 → ∃ a, boot hw longMax atoi slots (i :: o :: rest) = .runs (atoi t).toNat (atoi m) a ∧
      ∀ j : Nat, (j : Int) < atoi t → a[j]? = some (none, false)) ∧
    (∀ m, rest = [m] → hw ≤ 100 → ∃ a, boot hw longMax atoi slots (i :: o :: rest) = .runs hw (atoi m) a ∧ ∀ j < hw, a[j]? = some (none, false)) ∧
    (rest = [] → hw ≤ 100 → ∃ a, boot hw longMax atoi slots (i :: o :: rest) = .runs hw longMax a ∧ ∀ j < hw, a[j]? = some (none, false)) := by
  have key : ∀ n : Nat, n ≤ 100 → ∃ a, clearSlots n 0 slots = some a ∧ ∀ j < n, a[j]? = some (none, false) := by
    intro n hn
    obtain ⟨b, h1, h2⟩ := clearSlots_some n 0 slots (by omega)
    exact ⟨b, h1, fun j hj => (h2 j).1 (by omega) (by omega)⟩
  refine ⟨?_, ?_, ?_⟩
  · rintro m t rest' rfl h0 h1
    obtain ⟨a, ha, hb⟩ := key (atoi t).toNat (by omega)
    refine ⟨a, ?_, fun j hj => hb j (by omega)⟩
    simp only [boot, threadsOf, maxOf, ha]
    rw [if_neg (by omega)]
  · rintro m rfl h1
    obtain ⟨a, ha, hb⟩ := key hw h1
    refine ⟨a, ?_, hb⟩
    simp only [boot, threadsOf, maxOf, Int.toNat_natCast, ha]
    rw [if_neg (by omega)]
  · rintro rfl h1
    obtain ⟨a, ha, hb⟩ := key hw h1
    refine ⟨a, ?_, hb⟩
    simp only [boot, threadsOf, maxOf, Int.toNat_natCast, ha]
    rw [if_neg (by omega)]

/-- **C113 is false of the code.** On a machine with more than 100 hardware threads the tool called with two or three arguments stores behind its
arrays before any worker starts; so it does anywhere when more than 100 threads are asked for. With the input path alone it uses a null pointer. -/
theorem C113_counterexample_threads {L A : Type} (hw : Nat) (longMax : Int) (atoi : A → Int) (slots : Slots L) (hs : slots.length = 100) (i o m t : A) :
    (100 < hw → boot hw longMax atoi slots [i, o] = .undefined ∧ boot hw longMax atoi slots [i, o, m] = .undefined) ∧
    (100 < atoi t → boot hw longMax atoi slots [i, o, m, t] = .undefined) ∧ boot hw longMax atoi slots [i] = .undefined := by
  have key : ∀ n : Nat, 100 < n → clearSlots n 0 slots = none := fun n hn => clearSlots_none n 0 slots (by omega) (by omega)
  refine ⟨fun h => ⟨?_, ?_⟩, fun h => ?_, rfl⟩
  · simp only [boot, threadsOf, Int.toNat_natCast, key hw h]
    rw [if_neg (by omega)]
  · simp only [boot, threadsOf, Int.toNat_natCast, key hw h]
    rw [if_neg (by omega)]
  · simp only [boot, threadsOf, key (atoi t).toNat (by omega)]
    rw [if_neg (by omega)]

/-- **C113 is false for no threads.** With 0 threads (asked for, or because the machine does not tell how many it has) the tool starts, and as soon as
the input has a line it searches for a free worker for ever. -/
theorem C113_counterexample_zero {L C : Type} (rec : L → List C → Prop) (max : Int) (l : L) (input : List L) (s : St L C 0)
    (h : Reach (Step rec max) (start 0 (l :: input)) s) : s.mpc ≠ .done ∧ s.file = [] := by
  have inv : ((s.mpc = .get 0 ∧ s.todo = l :: input) ∨ s.mpc = .scan 0 l 0) ∧ s.file = [] := by
    induction h with
    | init => exact ⟨.inl ⟨rfl, rfl⟩, rfl⟩
    | step _ hst ih =>
      obtain ⟨hm, hf⟩ := ih
      cases hst
      case get s k l' r h1 h2 =>
        rcases hm with ⟨h3, h4⟩ | h3
        · rw [h1] at h3
          injection h3 with h3
          rw [h2] at h4
          injection h4 with h4 h5
          subst h3; subst h4
          exact ⟨.inr rfl, hf⟩
        · rw [h1] at h3; cases h3
      case eof s k h1 h2 =>
        rcases hm with ⟨h3, h4⟩ | h3
        · rw [h2] at h4; cases h4
        · rw [h1] at h3; cases h3
      case scanAgain s k l' h1 =>
        rcases hm with ⟨h3, h4⟩ | h3
        · rw [h1] at h3; cases h3
        · rw [h1] at h3
          injection h3 with h3 h4 h5
          subst h3; subst h4
          exact ⟨.inr rfl, hf⟩
      all_goals first
        | (rename_i h1 _; rcases hm with ⟨h3, _⟩ | h3 <;> (rw [h1] at h3; cases h3))
        | (rename_i h1; rcases hm with ⟨h3, _⟩ | h3 <;> (rw [h1] at h3; cases h3))
        | exact Fin.elim0 (by assumption)
  refine ⟨fun hd => ?_, inv.2⟩
  rcases inv.1 with ⟨h1, _⟩ | h1 <;> (rw [hd] at h1; cases h1)

/-! ### Progress -/

/-- The messages about progress (compress.cpp:139-165): for the lengths of the lines still to come, the bytes and objects processed and
`next_report`. `total` is the size of the input file. (`long` arithmetic does not overflow below 2^56 bytes.) -/
def reports (total : Nat) : List Nat → Nat → Nat → Nat → List (Nat × Nat)
  | [], _, _, _ => []
  | l :: ls, size, objects, next =>
    if (size + (l + 1)) * 100 / total = next then (objects + 1, next) :: reports total ls (size + (l + 1)) (objects + 1) (next + 1)
    else reports total ls (size + (l + 1)) (objects + 1) next

/-- Specification: the percentage of the file in the first `k` lines, each with its end of line. -/
def percent (total : Nat) (lines : List Nat) (k : Nat) : Nat := ((lines.take k).map (· + 1)).sum * 100 / total

theorem reports_spec (total : Nat) (ls : List Nat) : ∀ size objects next,
    ((reports total ls size objects next).map Prod.snd = (List.range (reports total ls size objects next).length).map (· + next)) ∧
    ∀ r ∈ reports total ls size objects next, ∃ k, 1 ≤ k ∧ k ≤ ls.length ∧ r.1 = objects + k ∧
      r.2 = (size + ((ls.take k).map (· + 1)).sum) * 100 / total := by
  induction ls with
  | nil => exact fun _ _ _ => ⟨rfl, fun r hr => by cases hr⟩
  | cons l ls ih =>
    intro size objects next
    unfold reports
    by_cases h : (size + (l + 1)) * 100 / total = next
    · rw [if_pos h]
      obtain ⟨h1, h2⟩ := ih (size + (l + 1)) (objects + 1) (next + 1)
      refine ⟨?_, fun r hr => ?_⟩
      · rw [List.map_cons, List.length_cons, List.range_succ_eq_map, List.map_cons, h1, List.map_map]
        congr 1
        · show next = 0 + next; omega
        · apply List.map_congr_left
          intro x _
          show x + (next + 1) = x + 1 + next
          omega
      · rcases List.mem_cons.1 hr with rfl | hr
        · refine ⟨1, le_refl _, by simp, rfl, ?_⟩
          rw [← h]
          simp
        · obtain ⟨k, a, b, c, d⟩ := h2 r hr
          refine ⟨k + 1, by omega, by simp only [List.length_cons]; omega, by omega, ?_⟩
          rw [d, List.take_succ_cons, List.map_cons, List.sum_cons]
          congr 2
          omega
    · rw [if_neg h]
      obtain ⟨h1, h2⟩ := ih (size + (l + 1)) (objects + 1) next
      refine ⟨h1, fun r hr => ?_⟩
      obtain ⟨k, a, b, c, d⟩ := h2 r hr
      refine ⟨k + 1, by omega, by simp only [List.length_cons]; omega, by omega, ?_⟩
      rw [d, List.take_succ_cons, List.map_cons, List.sum_cons]
      congr 2
      omega

theorem div_mono {a b t : Nat} (h : a ≤ b) : a * 100 / t ≤ b * 100 / t := Nat.div_le_div_right (Nat.mul_le_mul_right _ h)

theorem step_one {size l total : Nat} (hl : (l + 1) * 100 < total) : (size + (l + 1)) * 100 / total ≤ size * 100 / total + 1 := by
  have hp : 0 < total := by omega
  rw [← Nat.add_div_right _ hp, Nat.add_mul]
  exact Nat.div_le_div_right (by omega)

theorem reports_silent (total : Nat) (ls : List Nat) : ∀ size objects next, next < (size * 100) / total → reports total ls size objects next = [] := by
  induction ls with
  | nil => exact fun _ _ _ _ => rfl
  | cons l ls ih =>
    intro size objects next h
    have : next < (size + (l + 1)) * 100 / total := lt_of_lt_of_le h (div_mono (by omega))
    unfold reports
    rw [if_neg (by omega)]
    exact ih _ _ _ this

theorem reports_fine (total : Nat) (ls : List Nat) (hl : ∀ l ∈ ls, (l + 1) * 100 < total) : ∀ size objects,
    (reports total ls size objects (size * 100 / total + 1)).length = (size + (ls.map (· + 1)).sum) * 100 / total - size * 100 / total := by
  induction ls with
  | nil => intro size objects; simp [reports]
  | cons l ls ih =>
    intro size objects
    have h1 := step_one (size := size) (hl l (List.mem_cons_self ..))
    have h2 : size * 100 / total ≤ (size + (l + 1)) * 100 / total := div_mono (by omega)
    have ih := ih (fun x hx => hl x (List.mem_cons_of_mem _ hx)) (size + (l + 1)) (objects + 1)
    have e : size + (l + 1 + (ls.map (· + 1)).sum) = size + (l + 1) + (ls.map (· + 1)).sum := by omega
    have h3 : (size + (l + 1)) * 100 / total ≤ (size + (l + 1) + (ls.map (· + 1)).sum) * 100 / total := div_mono (by omega)
    unfold reports
    rw [List.map_cons, List.sum_cons, e]
    by_cases h : (size + (l + 1)) * 100 / total = size * 100 / total + 1
    · rw [if_pos h, List.length_cons, ← h, ih]
      omega
    · rw [if_neg h]
      have : (size + (l + 1)) * 100 / total = size * 100 / total := by omega
      rw [this] at ih
      rw [ih]

/-- **C113, partial.** Whatever is reported is right: the percentages are 0, 1, 2, .. without gaps, each with the number of objects processed when
that part of the file had been reached. If every line is shorter than a hundredth of the file, all percentages up to the last are reported. -/
theorem C113_progress_partial (total : Nat) (lines : List Nat) :
    ((reports total lines 0 0 0).map Prod.snd = List.range (reports total lines 0 0 0).length) ∧
    (∀ r ∈ reports total lines 0 0 0, 1 ≤ r.1 ∧ r.1 ≤ lines.length ∧ r.2 = percent total lines r.1) ∧
    (lines ≠ [] → (∀ l ∈ lines, (l + 1) * 100 < total) →
      (reports total lines 0 0 0).map Prod.snd = List.range (percent total lines lines.length + 1)) := by
  obtain ⟨h1, h2⟩ := reports_spec total lines 0 0 0
  have h1' : (reports total lines 0 0 0).map Prod.snd = List.range (reports total lines 0 0 0).length := by
    rw [h1]; simp
  refine ⟨h1', fun r hr => ?_, fun hne hl => ?_⟩
  · obtain ⟨k, a, b, c, d⟩ := h2 r hr
    have : r.1 = k := by omega
    rw [this]
    refine ⟨a, b, ?_⟩
    rw [d, Nat.zero_add]
    rfl
  · rw [h1']
    congr 1
    unfold percent
    rw [List.take_length]
    match lines, hne, hl with
    | l :: ls, _, hl =>
      have hl0 := hl l (List.mem_cons_self ..)
      have h0 : (0 + (l + 1)) * 100 / total = 0 := Nat.div_eq_of_lt (by omega)
      have hf := reports_fine total ls (fun x hx => hl x (List.mem_cons_of_mem _ hx)) (0 + (l + 1)) 1
      rw [h0] at hf
      unfold reports
      rw [if_pos h0, List.length_cons]
      show (reports total ls (0 + (l + 1)) 1 (0 + 1)).length + 1 = _
      rw [hf, List.map_cons, List.sum_cons]
      simp only [Nat.zero_add, Nat.sub_zero]

/-- **C113 is false of the code.** If the first line is at least a hundredth of the file, nothing is ever reported; in general nothing is reported any more
once a line takes the percentage past the next one. -/
theorem C113_counterexample_progress (total l : Nat) (ls : List Nat) (ht : 0 < total) (h : total ≤ (l + 1) * 100) : reports total (l :: ls) 0 0 0 = [] := by
  have : 0 < (0 + (l + 1)) * 100 / total := Nat.div_pos (by omega) ht
  unfold reports
  rw [if_neg (by omega)]
  exact reports_silent _ _ _ _ _ this

/-- 300 lines of 9 characters: 100 reports, and the last one at 300 objects; four lines: none. -/
example : (reports 3000 (List.replicate 300 9) 0 0 0).length = 101 ∧ reports 40 [9, 9, 9, 9] 0 0 0 = [] := by
  constructor
  · decide +kernel
  · exact C113_counterexample_progress 40 9 [9, 9, 9] (by omega) (by omega)

/-- A start with 4 of 8 threads, and one on a machine with 128. -/
example : (∃ a : Slots Nat, boot 8 (2 ^ 63 - 1) id (List.replicate 100 (none, true)) ([0, 0, 5, 4] : List Int) = .runs 4 5 a) ∧
    boot 128 (2 ^ 63 - 1) id (List.replicate 100 ((none, true) : Option Nat × Bool)) ([0, 0] : List Int) = .undefined := by
  constructor
  · obtain ⟨a, h, _⟩ := (C113_start_partial 8 (2 ^ 63 - 1) id (List.replicate 100 ((none, true) : Option Nat × Bool)) (List.length_replicate) (0 : Int) 0 [5, 4]).1
      5 4 [] rfl (by decide) (by decide)
    exact ⟨a, h⟩
  · exact ((C113_counterexample_threads 128 (2 ^ 63 - 1) id (List.replicate 100 ((none, true) : Option Nat × Bool)) (List.length_replicate) (0 : Int) 0 0 0).1 (by omega)).1

end TDP.Conc.Compress
