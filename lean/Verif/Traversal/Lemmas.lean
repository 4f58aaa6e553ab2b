import Verif.Traversal.Model
import Mathlib.Dynamics.PeriodicPts.Lemmas
import Mathlib.Data.Fintype.Card
import Mathlib.Data.Finset.Range
import Mathlib.Logic.Relation
/-! Orbits of permutations of a finite set, and big-step forms of the traversals. -/
namespace TDP.Traversal
open Function

variable {D F : Type} [DecidableEq D] [DecidableEq F]

section Orbit
variable {S : Finset D} {f : D → D}

theorem iterate_mem (hm : ∀ x ∈ S, f x ∈ S) {x : D} (hx : x ∈ S) (n : Nat) : f^[n] x ∈ S := by
  induction n generalizing x with
  | zero => exact hx
  | succ n ih => rw [iterate_succ_apply]; exact ih (hm x hx)

theorem iterate_inj (hm : ∀ x ∈ S, f x ∈ S) (hi : ∀ x ∈ S, ∀ y ∈ S, f x = f y → x = y) (n : Nat) {x y : D}
    (hx : x ∈ S) (hy : y ∈ S) (h : f^[n] x = f^[n] y) : x = y := by
  induction n generalizing x y with
  | zero => exact h
  | succ n ih =>
    rw [iterate_succ_apply, iterate_succ_apply] at h
    exact hi x hx y hy (ih (hm x hx) (hm y hy) h)

theorem period_spec (hm : ∀ x ∈ S, f x ∈ S) (hi : ∀ x ∈ S, ∀ y ∈ S, f x = f y → x = y) {x : D} (hx : x ∈ S) :
    0 < minimalPeriod f x ∧ minimalPeriod f x ≤ S.card := by
  have hnot : ¬ Set.InjOn (fun n => f^[n] x) (Finset.range (S.card + 1) : Finset ℕ) := by
    intro hinj
    have := Finset.card_le_card_of_injOn (s := Finset.range (S.card + 1)) (t := S) (fun n => f^[n] x)
      (fun n _ => iterate_mem hm hx n) hinj
    rw [Finset.card_range] at this
    omega
  have : ∃ i j, i < j ∧ j ≤ S.card ∧ f^[i] x = f^[j] x := by
    by_contra hcon
    apply hnot
    intro a ha b hb hab
    rw [Finset.coe_range, Set.mem_Iio] at ha hb
    rcases Nat.lt_trichotomy a b with h | h | h
    · exact absurd ⟨a, b, h, by omega, hab⟩ hcon
    · exact h
    · exact absurd ⟨b, a, h, by omega, hab.symm⟩ hcon
  obtain ⟨i, j, hij, hj, he⟩ := this
  have hper : f^[j - i] x = x := by
    have e : f^[j] x = f^[i] (f^[j - i] x) := by rw [← iterate_add_apply]; congr 1; omega
    rw [e] at he
    exact (iterate_inj hm hi i hx (iterate_mem hm hx _) he).symm
  have hp : IsPeriodicPt f (j - i) x := hper
  exact ⟨hp.minimalPeriod_pos (by omega), le_trans (hp.minimalPeriod_le (by omega)) (by omega)⟩

/-- Stopping at the first return enumerates the orbit. -/
theorem loopFrom_eq (hm : ∀ x ∈ S, f x ∈ S) (hi : ∀ x ∈ S, ∀ y ∈ S, f x = f y → x = y) {h : D} (hx : h ∈ S)
    (k j : Nat) (hj : j < minimalPeriod f h) (hk : minimalPeriod f h ≤ k + j) :
    loopFrom f h k (f^[j] h) = (List.range (minimalPeriod f h - j)).map (fun i => f^[j + i] h) := by
  induction k generalizing j with
  | zero => omega
  | succ k ih =>
    rw [loopFrom, ← iterate_succ_apply' f j h]
    rcases Nat.lt_or_ge (j + 1) (minimalPeriod f h) with hlt | hge
    · rw [if_neg, ih (j + 1) hlt (by omega)]
      · rw [show minimalPeriod f h - j = (minimalPeriod f h - (j + 1)) + 1 by omega, List.range_succ_eq_map,
          List.map_cons, List.map_map, Nat.add_zero]
        congr 1
        apply List.map_congr_left
        intro i _
        simp only [Function.comp_apply]
        congr 1; omega
      · intro he
        exact (not_isPeriodicPt_of_pos_of_lt_minimalPeriod (by omega : j + 1 ≠ 0) hlt) he
    · have e : j + 1 = minimalPeriod f h := by omega
      rw [if_pos, show minimalPeriod f h - j = 1 by omega]
      · simp
      · change f^[j + 1] h = h
        rw [e]; exact iterate_minimalPeriod

end Orbit

/-- A well-formed closed halfedge structure. -/
structure HMesh.WF (m : HMesh D F) : Prop where
  next_mem : ∀ d ∈ m.darts, m.next d ∈ m.darts
  opp_mem : ∀ d ∈ m.darts, m.opp d ∈ m.darts
  next_inj : ∀ d ∈ m.darts, ∀ e ∈ m.darts, m.next d = m.next e → d = e
  opp_opp : ∀ d ∈ m.darts, m.opp (m.opp d) = d
  opp_ne : ∀ d ∈ m.darts, m.opp d ≠ d
  /-- two halfedges have the same face iff one follows the other around it -/
  face_iff : ∀ d ∈ m.darts, ∀ e ∈ m.darts, m.face d = m.face e ↔ ∃ i, m.next^[i] d = e

section Around
variable {m : HMesh D F} (hm : m.WF)
include hm

theorem around_eq {h : D} (hh : h ∈ m.darts) :
    around m h = (List.range (minimalPeriod m.next h)).map (fun i => m.next^[i] h) := by
  obtain ⟨h1, h2⟩ := period_spec hm.next_mem hm.next_inj hh
  have := loopFrom_eq hm.next_mem hm.next_inj hh m.darts.card 0 h1 (by omega)
  simpa [around] using this

theorem mem_around {h : D} (hh : h ∈ m.darts) (d : D) :
    d ∈ around m h ↔ d ∈ m.darts ∧ m.face d = m.face h := by
  obtain ⟨h1, _⟩ := period_spec hm.next_mem hm.next_inj hh
  rw [around_eq hm hh, List.mem_map]
  constructor
  · rintro ⟨i, _, rfl⟩
    have hd := iterate_mem hm.next_mem hh i
    exact ⟨hd, ((hm.face_iff h hh _ hd).mpr ⟨i, rfl⟩).symm⟩
  · rintro ⟨hd, hf⟩
    obtain ⟨i, hi⟩ := (hm.face_iff h hh d hd).mp hf.symm
    refine ⟨i % minimalPeriod m.next h, List.mem_range.mpr (Nat.mod_lt _ h1), ?_⟩
    rw [iterate_mod_minimalPeriod_eq, hi]

theorem around_nodup {h : D} (hh : h ∈ m.darts) : (around m h).Nodup := by
  rw [around_eq hm hh, List.nodup_map_iff_inj_on List.nodup_range]
  intro i hi j hj he
  exact iterate_injOn_Iio_minimalPeriod (List.mem_range.mp hi) (List.mem_range.mp hj) he

theorem around_length {h : D} (hh : h ∈ m.darts) :
    (around m h).length = (m.darts.filter (fun d => m.face d = m.face h)).card := by
  rw [← List.toFinset_card_of_nodup (around_nodup hm hh)]
  congr 1
  ext d
  rw [List.mem_toFinset, mem_around hm hh, Finset.mem_filter]

end Around

/-- Big-step form of the face traversal. -/
inductive Visits (m : HMesh D F) : List D → (F → Bool) → List D → Prop
  | nil (proc) : Visits m [] proc []
  | skip (h q proc gs) : proc (m.face h) = true → Visits m q proc gs → Visits m (h :: q) proc gs
  | visit (h q proc gs) : proc (m.face h) = false →
      Visits m (q ++ ((around m h).map m.opp).filter (fun d => !(set proc (m.face h) true) (m.face d)))
        (set proc (m.face h) true) gs → Visits m (h :: q) proc (h :: gs)

theorem Visits.skips {m : HMesh D F} {proc : F → Bool} {q gs : List D} (pre : List D)
    (hp : ∀ d ∈ pre, proc (m.face d) = true) (h : Visits m q proc gs) : Visits m (pre ++ q) proc gs := by
  induction pre with
  | nil => exact h
  | cons d pre ih =>
    exact .skip _ _ _ _ (hp d List.mem_cons_self) (ih (fun x hx => hp x (List.mem_cons_of_mem _ hx)))

theorem filter_cons_split {p : D → Bool} {l t : List D} {h : D} (e : l.filter p = h :: t) :
    ∃ pre post, l = pre ++ h :: post ∧ (∀ d ∈ pre, p d = false) ∧ p h = true ∧ post.filter p = t := by
  induction l with
  | nil => simp at e
  | cons a l ih =>
    by_cases ha : p a = true
    · rw [List.filter_cons_of_pos ha] at e
      injection e with e1 e2
      exact ⟨[], l, by rw [e1]; rfl, by simp, e1 ▸ ha, e2⟩
    · rw [List.filter_cons_of_neg ha] at e
      obtain ⟨pre, post, h1, h2, h3, h4⟩ := ih e
      refine ⟨a :: pre, post, by rw [h1]; rfl, ?_, h3, h4⟩
      intro d hd
      rcases List.mem_cons.mp hd with rfl | hd
      · simpa using ha
      · exact h2 d hd

/-- Entries whose face is already processed do not matter. -/
theorem Visits.congr {m : HMesh D F} {proc : F → Bool} {q gs : List D} (h : Visits m q proc gs) :
    ∀ q', q'.filter (fun d => !proc (m.face d)) = q.filter (fun d => !proc (m.face d)) →
      Visits m q' proc gs := by
  induction h with
  | nil proc =>
    intro q' he
    have := Visits.skips (m := m) (proc := proc) q' (fun d hd => by
      by_contra hc
      have : d ∈ q'.filter (fun d => !proc (m.face d)) := List.mem_filter.mpr ⟨hd, by simpa using hc⟩
      rw [he] at this
      simp at this) (.nil proc)
    rwa [List.append_nil] at this
  | skip h q proc gs hp hv ih =>
    intro q' he
    apply ih
    rw [he, List.filter_cons_of_neg]
    simp [hp]
  | visit h q proc gs hp hv ih =>
    intro q' he
    rw [List.filter_cons_of_pos (by simp [hp])] at he
    obtain ⟨pre, post, e1, e2, e3, e4⟩ := filter_cons_split he
    rw [e1]
    apply Visits.skips pre (fun d hd => by simpa using e2 d hd)
    apply Visits.visit _ _ _ _ hp
    apply ih
    rw [List.filter_append, List.filter_append]
    congr 1
    have key : ∀ l : List D, l.filter (fun d => !(set proc (m.face h) true) (m.face d)) =
        (l.filter (fun d => !proc (m.face d))).filter (fun d => !(set proc (m.face h) true) (m.face d)) := by
      intro l
      rw [List.filter_filter]
      apply List.filter_congr
      intro d _
      unfold set
      split <;> simp
    rw [key post, key q, e4]

/-- Number of halfedges whose face is not processed. -/
def unproc (m : HMesh D F) (proc : F → Bool) : Nat := (m.darts.filter (fun d => proc (m.face d) = false)).card

theorem unproc_visit {m : HMesh D F} (hm : m.WF) (proc : F → Bool) {h : D} (hh : h ∈ m.darts)
    (hp : proc (m.face h) = false) :
    unproc m (set proc (m.face h) true) + (around m h).length = unproc m proc := by
  rw [around_length hm hh]
  unfold unproc
  rw [← Finset.card_union_of_disjoint]
  · congr 1
    ext d
    rw [Finset.mem_union, Finset.mem_filter, Finset.mem_filter, Finset.mem_filter]
    unfold set
    constructor
    · rintro (⟨h1, h2⟩ | ⟨h1, h2⟩)
      · refine ⟨h1, ?_⟩
        split at h2
        · cases h2
        · exact h2
      · exact ⟨h1, by rw [h2]; exact hp⟩
    · rintro ⟨h1, h2⟩
      by_cases he : m.face d = m.face h
      · exact Or.inr ⟨h1, he⟩
      · exact Or.inl ⟨h1, by rw [if_neg he]; exact h2⟩
  · rw [Finset.disjoint_left]
    intro d h1 h2
    rw [Finset.mem_filter] at h1 h2
    unfold set at h1
    rw [if_pos h2.2] at h1
    exact absurd h1.2 (by simp)

theorem pushed_mem {m : HMesh D F} (hm : m.WF) {h : D} (hh : h ∈ m.darts) {p : D → Bool} {q : List D}
    (hq : ∀ d ∈ q, d ∈ m.darts) : ∀ d ∈ q ++ ((around m h).map m.opp).filter p, d ∈ m.darts := by
  intro d hd
  rcases List.mem_append.mp hd with hd | hd
  · exact hq d hd
  · obtain ⟨e, he, rfl⟩ := List.mem_map.mp (List.mem_filter.mp hd).1
    exact hm.opp_mem _ ((mem_around hm hh e).mp he).1

/-- The traversal always finishes. -/
theorem visits_exists {m : HMesh D F} (hm : m.WF) (n : Nat) (q : List D) (proc : F → Bool)
    (hq : ∀ d ∈ q, d ∈ m.darts) (hn : q.length + unproc m proc ≤ n) : ∃ gs, Visits m q proc gs := by
  induction n generalizing q proc with
  | zero =>
    have : q = [] := List.length_eq_zero_iff.mp (by omega)
    subst this
    exact ⟨[], .nil _⟩
  | succ n ih =>
    cases q with
    | nil => exact ⟨[], .nil _⟩
    | cons h q =>
      have hh := hq h List.mem_cons_self
      have hq' : ∀ d ∈ q, d ∈ m.darts := fun d hd => hq d (List.mem_cons_of_mem _ hd)
      rw [List.length_cons] at hn
      cases hp : proc (m.face h) with
      | true =>
        obtain ⟨gs, hg⟩ := ih q proc hq' (by omega)
        exact ⟨gs, .skip _ _ _ _ hp hg⟩
      | false =>
        have hu := unproc_visit hm proc hh hp
        obtain ⟨gs, hg⟩ := ih (q ++ ((around m h).map m.opp).filter
            (fun d => !(set proc (m.face h) true) (m.face d))) (set proc (m.face h) true)
          (pushed_mem hm hh hq')
          (by
            have := List.length_filter_le (fun d => !(set proc (m.face h) true) (m.face d))
              ((around m h).map m.opp)
            rw [List.length_map] at this
            rw [List.length_append]
            omega)
        exact ⟨h :: gs, .visit _ _ _ _ hp hg⟩

/-- The coder's loop computes it, given enough fuel. -/
theorem codeFaces_of_visits {m : HMesh D F} (hm : m.WF) (n : Nat) (q : List D) (proc : F → Bool) (gs : List D)
    (hq : ∀ d ∈ q, d ∈ m.darts) (hn : q.length + unproc m proc < n) (hv : Visits m q proc gs) :
    codeFaces m n q proc = some gs := by
  induction n generalizing q proc gs with
  | zero => omega
  | succ n ih =>
    cases hv with
    | nil => rfl
    | skip h q _ _ hp hv =>
      rw [List.length_cons] at hn
      rw [codeFaces, if_pos hp]
      exact ih q proc gs (fun d hd => hq d (List.mem_cons_of_mem _ hd)) (by omega) hv
    | visit h q _ gs hp hv =>
      rw [List.length_cons] at hn
      have hh := hq h List.mem_cons_self
      have hu := unproc_visit hm proc hh hp
      rw [codeFaces, if_neg (by simp [hp])]
      simp only
      rw [ih _ _ gs (pushed_mem hm hh (fun d hd => hq d (List.mem_cons_of_mem _ hd))) _ hv]
      · rfl
      · have := List.length_filter_le (fun d => !(set proc (m.face h) true) (m.face d))
          ((around m h).map m.opp)
        rw [List.length_map] at this
        rw [List.length_append]
        omega

theorem unproc_congr (m : HMesh D F) (p p' : F → Bool) (h : ∀ f, p f = p' f) : unproc m p = unproc m p' := by
  have : p = p' := funext h
  rw [this]

theorem conquered_ofSym {S : Type} (s : Option S) : (Flag.ofSym s).conquered = true := by
  cases s <;> rfl

/-- The decoder's loop computes it too, although it marks faces later. -/
theorem decodeFaces_of_visits {S : Type} {m : HMesh D F} (hm : m.WF) (sym : F → Option S)
    (n : Nat) (q : List D) (flag : F → Flag) (res : F → Option S) (gs : List D)
    (hq : ∀ d ∈ q, d ∈ m.darts) (hn : q.length + unproc m (fun f => (flag f).conquered) < n)
    (hv : Visits m q (fun f => (flag f).conquered) gs) (rest : List (Option S)) :
    ∃ flag' res', decodeFaces m n q flag res (gs.map (fun g => sym (m.face g)) ++ rest) =
        some (gs, flag', res', rest) ∧
      ∀ f, (f ∈ gs.map m.face → flag' f = Flag.ofSym (sym f) ∧ res' f = sym f) ∧
        (f ∉ gs.map m.face → flag' f = flag f ∧ res' f = res f) := by
  induction n generalizing q flag res gs with
  | zero => omega
  | succ n ih =>
    cases q with
    | nil =>
      cases hv
      exact ⟨flag, res, rfl, fun f => ⟨by simp, fun _ => ⟨rfl, rfl⟩⟩⟩
    | cons h q =>
      rw [List.length_cons] at hn
      have hh := hq h List.mem_cons_self
      have hq' : ∀ d ∈ q, d ∈ m.darts := fun d hd => hq d (List.mem_cons_of_mem _ hd)
      by_cases hp : (flag (m.face h)).conquered = true
      · rw [decodeFaces.eq_def]
        simp only [if_pos hp]
        cases hv with
        | skip _ _ _ _ _ hv => exact ih q flag res gs hq' (by omega) hv
        | visit _ _ _ _ hp' _ => exact absurd (hp.symm.trans hp') (by simp)
      · cases hv with
        | skip _ _ _ _ hp' _ => exact absurd hp' hp
        | visit _ _ _ gs hp' hv =>
          have hproc : set (fun f => (flag f).conquered) (m.face h) true =
              (fun f => ((set flag (m.face h) (Flag.ofSym (sym (m.face h)))) f).conquered) := by
            funext f
            unfold set
            split
            · exact (conquered_ofSym _).symm
            · rfl
          have hu := unproc_visit hm (fun f => (flag f).conquered) hh hp'
          rw [hproc] at hv hu
          have hv2 := hv.congr (q ++ ((around m h).map m.opp).filter
              (fun d => !(flag (m.face d)).conquered)) (by
            rw [List.filter_append, List.filter_append]
            congr 1
            rw [List.filter_filter, List.filter_filter]
            apply List.filter_congr
            intro d _
            unfold set
            by_cases he : m.face d = m.face h
            · simp [he, conquered_ofSym]
            · simp [he])
          obtain ⟨flag', res', e1, e2⟩ := ih _ (set flag (m.face h) (Flag.ofSym (sym (m.face h))))
            (set res (m.face h) (sym (m.face h))) gs (pushed_mem hm hh hq') (by
              have := List.length_filter_le (fun d => !(flag (m.face d)).conquered) ((around m h).map m.opp)
              rw [List.length_map] at this
              rw [List.length_append]
              omega) hv2
          refine ⟨flag', res', ?_, ?_⟩
          · rw [List.map_cons, List.cons_append, decodeFaces, if_neg hp]
            simp only
            rw [e1]; rfl
          · intro f
            obtain ⟨k1, k2⟩ := e2 f
            by_cases hf : f ∈ gs.map m.face
            · exact ⟨fun _ => k1 hf, fun hn => absurd (by rw [List.map_cons]; exact List.mem_cons_of_mem _ hf) hn⟩
            · obtain ⟨k3, k4⟩ := k2 hf
              unfold set at k3 k4
              constructor
              · intro hin
                rw [List.map_cons, List.mem_cons] at hin
                rcases hin with rfl | hin
                · rw [if_pos rfl] at k3 k4; exact ⟨k3, k4⟩
                · exact absurd hin hf
              · intro hn
                rw [List.map_cons, List.mem_cons, not_or] at hn
                rw [if_neg hn.1] at k3 k4
                exact ⟨k3, k4⟩

/-- What is visited. -/
theorem Visits.spec {m : HMesh D F} (hm : m.WF) {q : List D} {proc : F → Bool} {gs : List D}
    (hv : Visits m q proc gs) (hq : ∀ d ∈ q, d ∈ m.darts) :
    (∀ g ∈ gs, g ∈ m.darts ∧ proc (m.face g) = false) ∧ (gs.map m.face).Nodup ∧
    (∀ d ∈ q, proc (m.face d) = true ∨ m.face d ∈ gs.map m.face) ∧
    (∀ d ∈ m.darts, m.face d ∈ gs.map m.face →
      proc (m.face (m.opp d)) = true ∨ m.face (m.opp d) ∈ gs.map m.face) := by
  induction hv with
  | nil proc => exact ⟨by simp, by simp, by simp, by simp⟩
  | skip h q proc gs hp hv ih =>
    obtain ⟨a1, a2, a3, a4⟩ := ih (fun d hd => hq d (List.mem_cons_of_mem _ hd))
    refine ⟨a1, a2, ?_, a4⟩
    intro d hd
    rcases List.mem_cons.mp hd with rfl | hd
    · exact Or.inl hp
    · exact a3 d hd
  | visit h q proc gs hp hv ih =>
    have hh := hq h List.mem_cons_self
    obtain ⟨a1, a2, a3, a4⟩ := ih (pushed_mem hm hh (fun d hd => hq d (List.mem_cons_of_mem _ hd)))
    have hset : ∀ f, set proc (m.face h) true f = true → proc f = true ∨ f ∈ (h :: gs).map m.face := by
      intro f hf
      unfold set at hf
      split at hf
      · rename_i he; rw [he]; exact Or.inr (by simp)
      · exact Or.inl hf
    have lift : ∀ f, set proc (m.face h) true f = true ∨ f ∈ gs.map m.face →
        proc f = true ∨ f ∈ (h :: gs).map m.face := by
      rintro f (hf | hf)
      · exact hset f hf
      · exact Or.inr (by rw [List.map_cons]; exact List.mem_cons_of_mem _ hf)
    refine ⟨?_, ?_, ?_, ?_⟩
    · intro g hg
      rcases List.mem_cons.mp hg with rfl | hg
      · exact ⟨hh, hp⟩
      · obtain ⟨b1, b2⟩ := a1 g hg
        refine ⟨b1, ?_⟩
        unfold set at b2
        split at b2
        · cases b2
        · exact b2
    · rw [List.map_cons, List.nodup_cons]
      refine ⟨?_, a2⟩
      intro hin
      obtain ⟨g, hg, he⟩ := List.mem_map.mp hin
      have := (a1 g hg).2
      rw [he] at this
      simp [set] at this
    · intro d hd
      rcases List.mem_cons.mp hd with rfl | hd
      · exact Or.inr (by simp)
      · exact lift _ (a3 d (List.mem_append_left _ hd))
    · intro d hd hf
      rw [List.map_cons, List.mem_cons] at hf
      rcases hf with hf | hf
      · by_cases hs : set proc (m.face h) true (m.face (m.opp d)) = true
        · exact lift _ (Or.inl hs)
        · apply lift
          apply a3
          apply List.mem_append_right
          rw [List.mem_filter]
          exact ⟨List.mem_map.mpr ⟨d, (mem_around hm hh d).mpr ⟨hd, hf⟩, rfl⟩, by simpa using hs⟩
      · exact lift _ (a4 d hd hf)

/-- `e` can be reached from `d` by `next` and `opposite`. -/
def Reach (m : HMesh D F) : D → D → Prop :=
  Relation.ReflTransGen (fun a b => b = m.next a ∨ b = m.opp a)

theorem Reach.iterate (m : HMesh D F) (a d : D) (h : Reach m a d) (i : Nat) : Reach m a (m.next^[i] d) := by
  induction i with
  | zero => exact h
  | succ i ih =>
    rw [iterate_succ_apply']
    exact ih.tail (Or.inl rfl)

/-- Only reachable faces are visited. -/
theorem Visits.reach {m : HMesh D F} (hm : m.WF) {q : List D} {proc : F → Bool} {gs : List D}
    (hv : Visits m q proc gs) (hq : ∀ d ∈ q, d ∈ m.darts) (h0 : D) (hr : ∀ d ∈ q, Reach m h0 d) :
    ∀ g ∈ gs, Reach m h0 g := by
  induction hv with
  | nil proc => simp
  | skip h q proc gs hp hv ih =>
    exact ih (fun d hd => hq d (List.mem_cons_of_mem _ hd)) (fun d hd => hr d (List.mem_cons_of_mem _ hd))
  | visit h q proc gs hp hv ih =>
    have hh := hq h List.mem_cons_self
    intro g hg
    rcases List.mem_cons.mp hg with rfl | hg
    · exact hr g List.mem_cons_self
    · refine ih (pushed_mem hm hh (fun d hd => hq d (List.mem_cons_of_mem _ hd))) ?_ g hg
      intro d hd
      rcases List.mem_append.mp hd with hd | hd
      · exact hr d (List.mem_cons_of_mem _ hd)
      · obtain ⟨e, he, rfl⟩ := List.mem_map.mp (List.mem_filter.mp hd).1
        obtain ⟨e1, e2⟩ := (mem_around hm hh e).mp he
        obtain ⟨i, hi⟩ := (hm.face_iff h hh e e1).mp e2.symm
        have := Reach.iterate m h0 h (hr h List.mem_cons_self) i
        rw [hi] at this
        exact this.tail (Or.inr rfl)

theorem Reach.mem {m : HMesh D F} (hm : m.WF) {a d : D} (ha : a ∈ m.darts) (h : Reach m a d) : d ∈ m.darts := by
  induction h with
  | refl => exact ha
  | tail _ h ih =>
    rcases h with rfl | rfl
    · exact hm.next_mem _ ih
    · exact hm.opp_mem _ ih

end TDP.Traversal
