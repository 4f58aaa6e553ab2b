import Verif.Traversal.Lemmas
import Mathlib.Tactic.Linarith
/-! Big-step form of the edge traversal. -/
namespace TDP.Traversal
open Function

variable {D F : Type} [DecidableEq D] [DecidableEq F]

/-- Rotation around the source vertex: `h->opposite()->next()`. -/
def rot (m : HMesh D F) (d : D) : D := m.next (m.opp d)

section
variable {m : HMesh D F} (hm : m.WF)
include hm

theorem rot_mem : ∀ d ∈ m.darts, rot m d ∈ m.darts := fun d hd => hm.next_mem _ (hm.opp_mem d hd)

theorem opp_inj {d e : D} (hd : d ∈ m.darts) (he : e ∈ m.darts) (h : m.opp d = m.opp e) : d = e := by
  rw [← hm.opp_opp d hd, ← hm.opp_opp e he, h]

theorem rot_inj : ∀ d ∈ m.darts, ∀ e ∈ m.darts, rot m d = rot m e → d = e := by
  intro d hd e he h
  exact opp_inj hm hd he (hm.next_inj _ (hm.opp_mem d hd) _ (hm.opp_mem e he) h)

theorem circ_eq {h : D} (hh : h ∈ m.darts) (k j : Nat) (hj : 0 < j) (hjp : j ≤ minimalPeriod (rot m) (m.opp h))
    (hk : minimalPeriod (rot m) (m.opp h) ≤ k + j) :
    circ m h k ((rot m)^[j] (m.opp h)) =
      (List.range (minimalPeriod (rot m) (m.opp h) - j)).map (fun i => (rot m)^[j + i] (m.opp h)) := by
  have ho := hm.opp_mem h hh
  induction k generalizing j with
  | zero =>
    rw [show minimalPeriod (rot m) (m.opp h) - j = 0 by omega]; rfl
  | succ k ih =>
    rw [circ]
    have hd := iterate_mem (rot_mem hm) ho j
    have hiff : m.opp ((rot m)^[j] (m.opp h)) = h ↔ (rot m)^[j] (m.opp h) = m.opp h := by
      constructor
      · intro e; have := congrArg m.opp e; rwa [hm.opp_opp _ hd] at this
      · intro e; rw [e, hm.opp_opp h hh]
    by_cases hlt : j = minimalPeriod (rot m) (m.opp h)
    · rw [if_pos, show minimalPeriod (rot m) (m.opp h) - j = 0 by omega]
      · rfl
      · rw [hiff]; rw [hlt]; exact iterate_minimalPeriod
    · rw [if_neg]
      · have : m.next (m.opp ((rot m)^[j] (m.opp h))) = (rot m)^[j + 1] (m.opp h) := by
          rw [iterate_succ_apply']; rfl
        rw [this, ih (j + 1) (by omega) (by omega) (by omega)]
        rw [show minimalPeriod (rot m) (m.opp h) - j = (minimalPeriod (rot m) (m.opp h) - (j + 1)) + 1 by omega,
          List.range_succ_eq_map, List.map_cons, List.map_map, Nat.add_zero]
        congr 1
        apply List.map_congr_left
        intro i _
        simp only [Function.comp_apply]
        congr 1; omega
      · rw [hiff]
        intro he
        exact (not_isPeriodicPt_of_pos_of_lt_minimalPeriod (by omega : j ≠ 0) (by omega)) he

theorem leaving_eq {h : D} (hh : h ∈ m.darts) :
    leaving m h = (List.range (minimalPeriod (rot m) (m.opp h) - 1)).map (fun i => (rot m)^[1 + i] (m.opp h)) := by
  obtain ⟨h1, h2⟩ := period_spec (rot_mem hm) (rot_inj hm) (hm.opp_mem h hh)
  have := circ_eq hm hh m.darts.card 1 (by omega) h1 (by omega)
  rw [← this]
  unfold leaving
  rw [iterate_one, rot, hm.opp_opp h hh]

theorem leaving_length {h : D} (hh : h ∈ m.darts) : (leaving m h).length < m.darts.card := by
  obtain ⟨h1, h2⟩ := period_spec (rot_mem hm) (rot_inj hm) (hm.opp_mem h hh)
  rw [leaving_eq hm hh, List.length_map, List.length_range]
  omega

/-- Every halfedge leaving the target of `h` is `opp h` or met by the loop. -/
theorem rot_orbit {h : D} (hh : h ∈ m.darts) (i : Nat) :
    (rot m)^[i] (m.opp h) = m.opp h ∨ (rot m)^[i] (m.opp h) ∈ leaving m h := by
  obtain ⟨h1, _⟩ := period_spec (rot_mem hm) (rot_inj hm) (hm.opp_mem h hh)
  have e : (rot m)^[i % minimalPeriod (rot m) (m.opp h)] (m.opp h) = (rot m)^[i] (m.opp h) :=
    iterate_mod_minimalPeriod_eq
  rw [← e]
  have hlt := Nat.mod_lt i h1
  by_cases hz : i % minimalPeriod (rot m) (m.opp h) = 0
  · rw [hz]; exact Or.inl rfl
  · right
    rw [leaving_eq hm hh, List.mem_map]
    exact ⟨i % minimalPeriod (rot m) (m.opp h) - 1, List.mem_range.mpr (by omega), by congr 1; omega⟩

theorem leaving_orbit {h : D} (hh : h ∈ m.darts) {d : D} (hd : d ∈ leaving m h) :
    d ∈ m.darts ∧ ∃ i, (rot m)^[i] (m.opp h) = d := by
  rw [leaving_eq hm hh, List.mem_map] at hd
  obtain ⟨i, _, rfl⟩ := hd
  exact ⟨iterate_mem (rot_mem hm) (hm.opp_mem h hh) _, _, rfl⟩

end

/-- Big-step form of the edge traversal. -/
inductive EVisits (m : HMesh D F) : List D → (D → Bool) → List D → Prop
  | nil (proc) : EVisits m [] proc []
  | skip (h q proc gs) : proc h = true → EVisits m q proc gs → EVisits m (h :: q) proc gs
  | visit (h q proc gs) : proc h = false →
      EVisits m (q ++ (leaving m h).filter (fun d => !(set (set proc h true) (m.opp h) true) d))
        (set (set proc h true) (m.opp h) true) gs → EVisits m (h :: q) proc (h :: gs)

/-- Number of unprocessed halfedges. -/
def eunproc (m : HMesh D F) (proc : D → Bool) : Nat := (m.darts.filter (fun d => proc d = false)).card

theorem set2_true {m : HMesh D F} {proc : D → Bool} {h d : D} :
    (set (set proc h true) (m.opp h) true) d = true ↔ proc d = true ∨ d = h ∨ d = m.opp h := by
  unfold set
  by_cases h1 : d = m.opp h
  · simp [h1]
  · by_cases h2 : d = h
    · simp [h2]
    · simp [h1, h2]

theorem eunproc_visit {m : HMesh D F} (proc : D → Bool) {h : D} (hh : h ∈ m.darts) (hp : proc h = false) :
    eunproc m (set (set proc h true) (m.opp h) true) < eunproc m proc := by
  unfold eunproc
  apply Finset.card_lt_card
  rw [Finset.ssubset_iff_of_subset]
  · refine ⟨h, by rw [Finset.mem_filter]; exact ⟨hh, hp⟩, ?_⟩
    rw [Finset.mem_filter]
    rintro ⟨_, h2⟩
    have : (set (set proc h true) (m.opp h) true) h = true := set2_true.mpr (Or.inr (Or.inl rfl))
    rw [this] at h2; cases h2
  · intro d hd
    rw [Finset.mem_filter] at hd ⊢
    refine ⟨hd.1, ?_⟩
    by_contra hc
    have : (set (set proc h true) (m.opp h) true) d = true := set2_true.mpr (Or.inl (by simpa using hc))
    rw [this] at hd; exact absurd hd.2 (by simp)

theorem epushed_mem {m : HMesh D F} (hm : m.WF) {h : D} (hh : h ∈ m.darts) {p : D → Bool} {q : List D}
    (hq : ∀ d ∈ q, d ∈ m.darts) : ∀ d ∈ q ++ (leaving m h).filter p, d ∈ m.darts := by
  intro d hd
  rcases List.mem_append.mp hd with hd | hd
  · exact hq d hd
  · exact (leaving_orbit hm hh (List.mem_filter.mp hd).1).1

/-- What bounds the number of turns of the loop. -/
def emeasure (m : HMesh D F) (q : List D) (proc : D → Bool) : Nat := q.length + m.darts.card * eunproc m proc

theorem emeasure_visit {m : HMesh D F} (hm : m.WF) {h : D} (hh : h ∈ m.darts) {proc : D → Bool}
    (hp : proc h = false) (q : List D) (p : D → Bool) :
    emeasure m (q ++ (leaving m h).filter p) (set (set proc h true) (m.opp h) true) < emeasure m (h :: q) proc := by
  unfold emeasure
  have h1 := eunproc_visit (m := m) proc hh hp
  have h2 := List.length_filter_le p (leaving m h)
  have h3 := leaving_length hm hh
  rw [List.length_append, List.length_cons]
  have : m.darts.card * (eunproc m (set (set proc h true) (m.opp h) true) + 1) ≤ m.darts.card * eunproc m proc :=
    Nat.mul_le_mul_left _ h1
  rw [Nat.mul_add] at this
  omega

theorem evisits_exists {m : HMesh D F} (hm : m.WF) (n : Nat) (q : List D) (proc : D → Bool)
    (hq : ∀ d ∈ q, d ∈ m.darts) (hn : emeasure m q proc ≤ n) : ∃ gs, EVisits m q proc gs := by
  induction n generalizing q proc with
  | zero =>
    have : q = [] := List.length_eq_zero_iff.mp (by unfold emeasure at hn; omega)
    subst this
    exact ⟨[], .nil _⟩
  | succ n ih =>
    cases q with
    | nil => exact ⟨[], .nil _⟩
    | cons h q =>
      have hh := hq h List.mem_cons_self
      have hq' : ∀ d ∈ q, d ∈ m.darts := fun d hd => hq d (List.mem_cons_of_mem _ hd)
      cases hp : proc h with
      | true =>
        obtain ⟨gs, hg⟩ := ih q proc hq' (by unfold emeasure at hn ⊢; rw [List.length_cons] at hn; omega)
        exact ⟨gs, .skip _ _ _ _ hp hg⟩
      | false =>
        obtain ⟨gs, hg⟩ := ih (q ++ (leaving m h).filter (fun d => !(set (set proc h true) (m.opp h) true) d))
          (set (set proc h true) (m.opp h) true) (epushed_mem hm hh hq')
          (by have := emeasure_visit hm hh hp q (fun d => !(set (set proc h true) (m.opp h) true) d); omega)
        exact ⟨h :: gs, .visit _ _ _ _ hp hg⟩

/-- Is a symbol written for this edge? -/
def coded (m : HMesh D F) (flag : F → Flag) (h : D) : Bool :=
  !(flag (m.face h) == .unsplittable && flag (m.face (m.opp h)) == .unsplittable)

theorem codeEdges_of_visits {m : HMesh D F} (hm : m.WF) (flag : F → Flag) (added : D → Bool)
    (n : Nat) (q : List D) (proc : D → Bool) (gs : List D)
    (hq : ∀ d ∈ q, d ∈ m.darts) (hn : emeasure m q proc < n) (hv : EVisits m q proc gs) :
    codeEdges m flag added n q proc = some (gs, (gs.filter (coded m flag)).map added) := by
  induction n generalizing q proc gs with
  | zero => omega
  | succ n ih =>
    cases hv with
    | nil => rfl
    | skip h q _ _ hp hv =>
      rw [codeEdges, if_pos hp]
      exact ih q proc gs (fun d hd => hq d (List.mem_cons_of_mem _ hd))
        (by unfold emeasure at hn ⊢; rw [List.length_cons] at hn; omega) hv
    | visit h q _ gs hp hv =>
      have hh := hq h List.mem_cons_self
      rw [codeEdges, if_neg (by simp [hp])]
      simp only
      rw [ih _ _ gs (epushed_mem hm hh (fun d hd => hq d (List.mem_cons_of_mem _ hd)))
        (by have := emeasure_visit hm hh hp q (fun d => !(set (set proc h true) (m.opp h) true) d); omega) hv]
      simp only [Option.map_some, Option.some.injEq, Prod.mk.injEq, true_and]
      rw [List.filter_cons]
      by_cases hc : coded m flag h = true
      · rw [if_pos hc]; unfold coded at hc; rw [if_pos hc]; rfl
      · rw [if_neg hc]; unfold coded at hc; rw [if_neg hc]

/-- The halfedges marked by the decoder. -/
def markAll (marked : D → Bool) (l : List D) : D → Bool := fun d => marked d || l.contains d

theorem decodeEdges_of_visits {m : HMesh D F} (hm : m.WF) (flag : F → Flag) (added : D → Bool)
    (hf : ∀ d ∈ m.darts, flag (m.face d) ≠ .unknown)
    (n : Nat) (q : List D) (proc : D → Bool) (gs : List D) (marked : D → Bool)
    (hq : ∀ d ∈ q, d ∈ m.darts) (hn : emeasure m q proc < n) (hv : EVisits m q proc gs) (rest : List Bool) :
    decodeEdges m flag (fun _ => false) n q proc marked ((gs.filter (coded m flag)).map added ++ rest) =
      some (gs, markAll marked ((gs.filter (coded m flag)).filter added), rest) := by
  induction n generalizing q proc gs marked with
  | zero => omega
  | succ n ih =>
    cases hv with
    | nil =>
      rw [decodeEdges.eq_def]
      have : markAll marked ((([] : List D).filter (coded m flag)).filter added) = marked := by
        funext d; simp [markAll]
      rw [this]; rfl
    | skip h q _ _ hp hv =>
      rw [decodeEdges.eq_def]
      simp only [if_pos hp]
      exact ih q proc gs marked (fun d hd => hq d (List.mem_cons_of_mem _ hd))
        (by unfold emeasure at hn ⊢; rw [List.length_cons] at hn; omega) hv
    | visit h q _ gs hp hv =>
      have hh := hq h List.mem_cons_self
      have hrec := fun mk => ih _ _ gs mk (epushed_mem hm hh (fun d hd => hq d (List.mem_cons_of_mem _ hd)))
        (by have := emeasure_visit hm hh hp q (fun d => !(set (set proc h true) (m.opp h) true) d); omega) hv
      rw [decodeEdges.eq_def]
      simp only [hp, Bool.false_eq_true, if_false, Bool.not_false, Bool.and_true]
      have hcoded : (flag (m.face h) == .splittable || flag (m.face (m.opp h)) == .splittable) = coded m flag h := by
        unfold coded
        have h1 := hf h hh
        have h2 := hf (m.opp h) (hm.opp_mem h hh)
        generalize flag (m.face h) = a at *
        generalize flag (m.face (m.opp h)) = b at *
        cases a <;> cases b <;> first | rfl | exact absurd rfl h1 | exact absurd rfl h2
      rw [hcoded, List.filter_cons]
      by_cases hc : coded m flag h = true
      · simp only [if_pos hc, List.map_cons, List.cons_append]
        rw [hrec]
        simp only [Option.map_some, Option.some.injEq, Prod.mk.injEq, true_and, and_true]
        funext d
        rw [List.filter_cons]
        unfold markAll set
        by_cases ha : added h = true
        · simp only [if_pos ha, List.contains_cons]
          by_cases hd : d = h
          · simp [hd]
          · have : (d == h) = false := by simpa using hd
            simp [hd, this]
        · simp only [if_neg ha]
      · simp only [if_neg hc]
        rw [hrec]
        rfl

/-- What is visited. -/
theorem EVisits.spec {m : HMesh D F} (hm : m.WF) {q : List D} {proc : D → Bool} {gs : List D}
    (hv : EVisits m q proc gs) (hq : ∀ d ∈ q, d ∈ m.darts) (hpo : ∀ d ∈ m.darts, proc (m.opp d) = proc d) :
    (∀ g ∈ gs, g ∈ m.darts ∧ proc g = false) ∧ gs.Nodup ∧ (∀ g ∈ gs, m.opp g ∉ gs) ∧
    (∀ d ∈ q, proc d = true ∨ d ∈ gs ∨ m.opp d ∈ gs) ∧
    (∀ g ∈ gs, ∀ d ∈ leaving m g, proc d = true ∨ d ∈ gs ∨ m.opp d ∈ gs) ∧
    (∀ g ∈ gs, g ∈ q ∨ ∃ g' ∈ gs, g ∈ leaving m g') := by
  induction hv with
  | nil proc => exact ⟨by simp, by simp, by simp, by simp, by simp, by simp⟩
  | skip h q proc gs hp hv ih =>
    obtain ⟨a1, a2, a3, a4, a5, a6⟩ := ih (fun d hd => hq d (List.mem_cons_of_mem _ hd)) hpo
    refine ⟨a1, a2, a3, ?_, a5, ?_⟩
    · intro d hd
      rcases List.mem_cons.mp hd with rfl | hd
      · exact Or.inl hp
      · exact a4 d hd
    · intro g hg
      rcases a6 g hg with h1 | h1
      · exact Or.inl (List.mem_cons_of_mem _ h1)
      · exact Or.inr h1
  | visit h q proc gs hp hv ih =>
    have hh := hq h List.mem_cons_self
    have hpo' : ∀ d ∈ m.darts, (set (set proc h true) (m.opp h) true) (m.opp d) =
        (set (set proc h true) (m.opp h) true) d := by
      intro d hd
      apply Bool.eq_iff_iff.mpr
      rw [set2_true, set2_true, hpo d hd]
      constructor
      · rintro (h1 | h1 | h1)
        · exact Or.inl h1
        · exact Or.inr (Or.inr (by rw [← h1, hm.opp_opp d hd]))
        · exact Or.inr (Or.inl (opp_inj hm hd hh h1))
      · rintro (h1 | h1 | h1)
        · exact Or.inl h1
        · exact Or.inr (Or.inr (by rw [h1]))
        · exact Or.inr (Or.inl (by rw [h1, hm.opp_opp h hh]))
    obtain ⟨a1, a2, a3, a4, a5, a6⟩ :=
      ih (epushed_mem hm hh (fun d hd => hq d (List.mem_cons_of_mem _ hd))) hpo'
    have hnot : ∀ g ∈ gs, proc g = false ∧ g ≠ h ∧ g ≠ m.opp h := by
      intro g hg
      have := (a1 g hg).2
      have hn : ¬ (proc g = true ∨ g = h ∨ g = m.opp h) := by
        rw [← set2_true (m := m), this]; simp
      push Not at hn
      exact ⟨by simpa using hn.1, hn.2⟩
    have lift : ∀ d ∈ m.darts, (set (set proc h true) (m.opp h) true) d = true ∨ d ∈ gs ∨ m.opp d ∈ gs →
        proc d = true ∨ d ∈ h :: gs ∨ m.opp d ∈ h :: gs := by
      rintro d hd (hf | hf | hf)
      · rw [set2_true] at hf
        rcases hf with hf | hf | hf
        · exact Or.inl hf
        · exact Or.inr (Or.inl (by rw [hf]; exact List.mem_cons_self))
        · exact Or.inr (Or.inr (by rw [hf, hm.opp_opp h hh]; exact List.mem_cons_self))
      · exact Or.inr (Or.inl (List.mem_cons_of_mem _ hf))
      · exact Or.inr (Or.inr (List.mem_cons_of_mem _ hf))
    refine ⟨?_, ?_, ?_, ?_, ?_, ?_⟩
    · intro g hg
      rcases List.mem_cons.mp hg with rfl | hg
      · exact ⟨hh, hp⟩
      · exact ⟨(a1 g hg).1, (hnot g hg).1⟩
    · rw [List.nodup_cons]
      exact ⟨fun hin => (hnot h hin).2.1 rfl, a2⟩
    · intro g hg
      rcases List.mem_cons.mp hg with rfl | hg
      · rw [List.mem_cons, not_or]
        exact ⟨hm.opp_ne g hh, fun hin => (hnot _ hin).2.2 rfl⟩
      · rw [List.mem_cons, not_or]
        refine ⟨fun he => (hnot g hg).2.2 (by rw [← he, hm.opp_opp g (a1 g hg).1]), a3 g hg⟩
    · intro d hd
      rcases List.mem_cons.mp hd with rfl | hd'
      · exact Or.inr (Or.inl List.mem_cons_self)
      · exact lift _ (hq d hd) (a4 d (List.mem_append_left _ hd'))
    · intro g hg d hd
      rcases List.mem_cons.mp hg with rfl | hg
      · have hdm := (leaving_orbit hm hh hd).1
        by_cases hs : (set (set proc g true) (m.opp g) true) d = true
        · exact lift d hdm (Or.inl hs)
        · apply lift d hdm
          apply a4
          apply List.mem_append_right
          rw [List.mem_filter]
          exact ⟨hd, by simpa using hs⟩
      · exact lift d (leaving_orbit hm (a1 g hg).1 hd).1 (a5 g hg d hd)
    · intro g hg
      rcases List.mem_cons.mp hg with rfl | hg
      · exact Or.inl List.mem_cons_self
      · rcases a6 g hg with h1 | ⟨g', h1, h2⟩
        · rcases List.mem_append.mp h1 with h1 | h1
          · exact Or.inl (List.mem_cons_of_mem _ h1)
          · exact Or.inr ⟨h, List.mem_cons_self, (List.mem_filter.mp h1).1⟩
        · exact Or.inr ⟨g', List.mem_cons_of_mem _ h1, h2⟩

/-- Every edge of the component is visited, if the starting edge has different faces on its two sides. -/
theorem EVisits.covers {m : HMesh D F} (hm : m.WF) {h0 : D} (h0m : h0 ∈ m.darts) {gs : List D}
    (hv : EVisits m [h0] (fun _ => false) gs) (hface : m.face (m.opp h0) ≠ m.face h0) :
    ∀ d, Reach m h0 d → d ∈ gs ∨ m.opp d ∈ gs := by
  obtain ⟨a1, _, _, a4, a5, a6⟩ := hv.spec hm (by simpa using h0m) (fun _ _ => rfl)
  simp only [Bool.false_eq_true, false_or] at a4 a5
  have h0P := a4 h0 (by simp)
  -- halfedges leaving the target of a gate
  let T : D → Prop := fun d => ∃ g ∈ gs, ∃ i, (rot m)^[i] (m.opp g) = d
  have hTm : ∀ d, T d → d ∈ m.darts := by
    rintro d ⟨g, hg, i, rfl⟩
    exact iterate_mem (rot_mem hm) (hm.opp_mem g (a1 g hg).1) _
  have hTP : ∀ d, T d → d ∈ gs ∨ m.opp d ∈ gs := by
    rintro d ⟨g, hg, i, rfl⟩
    rcases rot_orbit hm (a1 g hg).1 i with he | he
    · rw [he, hm.opp_opp g (a1 g hg).1]; exact Or.inr hg
    · exact a5 g hg _ he
  have hTrot : ∀ d, T d → T (rot m d) := by
    rintro d ⟨g, hg, i, rfl⟩
    exact ⟨g, hg, i + 1, by rw [iterate_succ_apply']⟩
  have hgT : ∀ g ∈ gs, g = h0 ∨ T g := by
    intro g hg
    rcases a6 g hg with h1 | ⟨g', h1, h2⟩
    · left; simpa using h1
    · right
      obtain ⟨_, i, hi⟩ := leaving_orbit hm (a1 g' h1).1 h2
      exact ⟨g', h1, i, hi⟩
  have hnextg : ∀ g ∈ gs, T (m.next g) := by
    intro g hg
    refine ⟨g, hg, 1, ?_⟩
    rw [iterate_one, rot, hm.opp_opp g (a1 g hg).1]
  have h0gs : h0 ∈ gs := by
    cases hv with
    | skip _ _ _ _ hp _ => cases hp
    | visit => exact List.mem_cons_self
  -- around the face of h0
  have hround : ∀ i, T (m.next^[i + 1] h0) := by
    intro i
    induction i with
    | zero => exact hnextg h0 h0gs
    | succ i ih =>
      rw [iterate_succ_apply']
      generalize hx : m.next^[i + 1] h0 = x at ih
      have hxm := hTm x ih
      rcases hTP x ih with h1 | h1
      · exact hnextg x h1
      · rcases hgT _ h1 with h2 | h2
        · exfalso
          apply hface
          rw [← h2, hm.opp_opp x hxm]
          refine ((hm.face_iff (m.opp x) (hm.opp_mem x hxm) x hxm).mpr ⟨i + 1, ?_⟩).symm
          rw [h2]; exact hx
        · have := hTrot _ h2
          rwa [rot, hm.opp_opp x hxm] at this
  have h0T : T h0 := by
    obtain ⟨p1, _⟩ := period_spec hm.next_mem hm.next_inj h0m
    have := hround (minimalPeriod m.next h0 - 1)
    rw [show minimalPeriod m.next h0 - 1 + 1 = minimalPeriod m.next h0 by omega, iterate_minimalPeriod] at this
    exact this
  have hall : ∀ g ∈ gs, T g := by
    intro g hg
    rcases hgT g hg with h1 | h1
    · rw [h1]; exact h0T
    · exact h1
  intro d hr
  have hmain : d ∈ m.darts ∧ (d ∈ gs ∨ m.opp d ∈ gs) := by
    induction hr with
    | refl => exact ⟨h0m, Or.inl h0gs⟩
    | tail _ hstep ih =>
      rename_i b c hb
      obtain ⟨hbm, hbP⟩ := ih
      rcases hstep with rfl | rfl
      · refine ⟨hm.next_mem b hbm, ?_⟩
        rcases hbP with h1 | h1
        · exact hTP _ (hnextg b h1)
        · have := hTrot _ (hall _ h1)
          rw [rot, hm.opp_opp b hbm] at this
          exact hTP _ this
      · refine ⟨hm.opp_mem b hbm, ?_⟩
        rw [hm.opp_opp b hbm]
        exact hbP.symm
  exact hmain.2

end TDP.Traversal
