import Verif.Codec.Refine
/-! Removing edges by `join_facet`. -/
namespace TDP.Codec
open TDP.Traversal Function

variable {P : Type}

/-- An edge between two different facets. -/
structure Wall (m : Mesh P) (a : Nat) : Prop where
  wf : m.h.WF
  ha : a ∈ m.darts
  ne : m.face a ≠ m.face (m.opp a)
  na : m.next a ≠ a
  nb : m.next (m.opp a) ≠ m.opp a

namespace Wall
variable {m : Mesh P} {a : Nat} (w : Wall m a)
include w

theorem hb : m.opp a ∈ m.darts := w.wf.opp_mem a w.ha
theorem face_next {d : Nat} (hd : d ∈ m.darts) : m.face (m.next d) = m.face d :=
  ((w.wf.face_iff d hd _ (w.wf.next_mem d hd)).mpr ⟨1, rfl⟩).symm
theorem mem_iff (d : Nat) : d ∈ (joinFacet m a).darts ↔ d ∈ m.darts ∧ d ≠ a ∧ d ≠ m.opp a := by
  simp [joinFacet]; tauto
theorem old {d : Nat} (hd : d ∈ (joinFacet m a).darts) : d ∈ m.darts := ((w.mem_iff d).mp hd).1
theorem opp_ne : m.opp a ≠ a := w.wf.opp_ne a w.ha
theorem na_b : m.next a ≠ m.opp a := fun e => w.ne (by rw [← e, w.face_next w.ha])
theorem nb_a : m.next (m.opp a) ≠ a := fun e => w.ne (by
  have := w.face_next w.hb
  rw [e] at this; exact this)

theorem next_a {d : Nat} (h : m.next d = a) : (joinFacet m a).next d = m.next (m.opp a) := by
  simp only [joinFacet, if_pos h]
theorem next_b {d : Nat} (h : m.next d = m.opp a) : (joinFacet m a).next d = m.next a := by
  have : m.next d ≠ a := by rw [h]; exact w.opp_ne
  simp only [joinFacet, if_neg this, if_pos h]
theorem next_o {d : Nat} (h : m.next d ≠ a) (h' : m.next d ≠ m.opp a) : (joinFacet m a).next d = m.next d := by
  simp only [joinFacet, if_neg h, if_neg h']

theorem face_def (d : Nat) : (joinFacet m a).face d = if m.face d = m.face (m.opp a) then m.face a else m.face d := rfl

theorem next_mem' : ∀ d ∈ (joinFacet m a).darts, (joinFacet m a).next d ∈ (joinFacet m a).darts := by
  intro d hd
  have hk := w.old hd
  by_cases h1 : m.next d = a
  · rw [w.next_a h1, w.mem_iff]; exact ⟨w.wf.next_mem _ w.hb, w.nb_a, w.nb⟩
  · by_cases h2 : m.next d = m.opp a
    · rw [w.next_b h2, w.mem_iff]; exact ⟨w.wf.next_mem _ w.ha, w.na, w.na_b⟩
    · rw [w.next_o h1 h2, w.mem_iff]; exact ⟨w.wf.next_mem _ hk, h1, h2⟩

theorem next_inj' : ∀ d ∈ (joinFacet m a).darts, ∀ e ∈ (joinFacet m a).darts,
    (joinFacet m a).next d = (joinFacet m a).next e → d = e := by
  have key : ∀ d ∈ (joinFacet m a).darts, (m.next d = a ∧ (joinFacet m a).next d = m.next (m.opp a)) ∨
      (m.next d = m.opp a ∧ (joinFacet m a).next d = m.next a) ∨ (joinFacet m a).next d = m.next d := by
    intro d _
    by_cases h1 : m.next d = a
    · exact Or.inl ⟨h1, w.next_a h1⟩
    · by_cases h2 : m.next d = m.opp a
      · exact Or.inr (Or.inl ⟨h2, w.next_b h2⟩)
      · exact Or.inr (Or.inr (w.next_o h1 h2))
  have nx : ∀ d ∈ (joinFacet m a).darts, m.next d ≠ m.next a ∧ m.next d ≠ m.next (m.opp a) := by
    intro d hd
    obtain ⟨h0, h1, h2⟩ := (w.mem_iff d).mp hd
    exact ⟨fun e => h1 (w.wf.next_inj _ h0 _ w.ha e), fun e => h2 (w.wf.next_inj _ h0 _ w.hb e)⟩
  have ab : m.next a ≠ m.next (m.opp a) := fun e => w.opp_ne (w.wf.next_inj _ w.ha _ w.hb e).symm
  intro d hd e he h
  have hd' := w.old hd
  have he' := w.old he
  rcases key d hd with ⟨a1, a2⟩ | ⟨a1, a2⟩ | a2 <;> rcases key e he with ⟨b1, b2⟩ | ⟨b1, b2⟩ | b2 <;> rw [a2, b2] at h
  · exact w.wf.next_inj _ hd' _ he' (a1.trans b1.symm)
  · exact absurd h.symm ab
  · exact absurd h.symm (nx e he).2
  · exact absurd h ab
  · exact w.wf.next_inj _ hd' _ he' (a1.trans b1.symm)
  · exact absurd h.symm (nx e he).1
  · exact absurd h (nx d hd).2
  · exact absurd h (nx d hd).1
  · exact w.wf.next_inj _ hd' _ he' h

theorem face_const' : ∀ d ∈ (joinFacet m a).darts, (joinFacet m a).face ((joinFacet m a).next d) = (joinFacet m a).face d := by
  intro d hd
  have hk := w.old hd
  have hf := w.face_next hk
  by_cases h1 : m.next d = a
  · rw [w.next_a h1, w.face_def, w.face_def, w.face_next w.hb, if_pos rfl, ← hf, h1, if_neg w.ne]
  · by_cases h2 : m.next d = m.opp a
    · rw [w.next_b h2, w.face_def, w.face_def, w.face_next w.ha, if_neg w.ne, ← hf, h2, if_pos rfl]
    · rw [w.next_o h1 h2, w.face_def, w.face_def, hf]

/-- The old cycle of `x ∈ {a, opp a}`, without `x`. -/
theorem walk_side {x : Nat} (hx : x = a ∨ x = m.opp a) (i : Nat) (hi : i + 1 < minimalPeriod m.next x) :
    (joinFacet m a).next^[i] (m.next x) = m.next^[i + 1] x := by
  have hxm : x ∈ m.darts := by rcases hx with rfl | rfl; exacts [w.ha, w.hb]
  induction i with
  | zero => rfl
  | succ i ih =>
    rw [iterate_succ_apply', ih (by omega), iterate_succ_apply' m.next (i + 1)]
    have hmem := iterate_mem w.wf.next_mem hxm (i + 2)
    have hnx : m.next^[i + 2] x ≠ x := fun e =>
      not_isPeriodicPt_of_pos_of_lt_minimalPeriod (f := m.next) (x := x) (by omega : i + 2 ≠ 0) hi e
    have hf : m.face (m.next^[i + 2] x) = m.face x := ((w.wf.face_iff x hxm _ hmem).mpr ⟨i + 2, rfl⟩).symm
    have e2 : m.next (m.next^[i + 1] x) = m.next^[i + 2] x := (iterate_succ_apply' m.next (i + 1) x).symm
    rw [w.next_o]
    · rw [e2]
      rcases hx with rfl | rfl
      · exact hnx
      · intro e; rw [e] at hf; exact w.ne hf
    · rw [e2]
      rcases hx with rfl | rfl
      · intro e; rw [e] at hf; exact w.ne hf.symm
      · exact hnx

theorem period2 {x : Nat} (hx : x = a ∨ x = m.opp a) : 2 ≤ minimalPeriod m.next x := by
  have hxm : x ∈ m.darts := by rcases hx with rfl | rfl; exacts [w.ha, w.hb]
  obtain ⟨hp, _⟩ := period_spec w.wf.next_mem w.wf.next_inj hxm
  have hp' : 0 < minimalPeriod m.next x := hp
  have h1 : minimalPeriod m.next x ≠ 1 := by
    intro e
    have h0 : m.next^[minimalPeriod m.next x] x = x := iterate_minimalPeriod
    rw [e] at h0
    rcases hx with rfl | rfl
    · exact w.na h0
    · exact w.nb h0
  omega

/-- From `next a` one comes to `next (opp a)`. -/
theorem turn : (joinFacet m a).next^[minimalPeriod m.next a - 1] (m.next a) = m.next (m.opp a) := by
  have h2 := w.period2 (Or.inl rfl)
  obtain ⟨k, hk⟩ : ∃ k, minimalPeriod m.next a = k + 2 := ⟨minimalPeriod m.next a - 2, by omega⟩
  have e : minimalPeriod m.next a - 1 = k + 1 := by omega
  rw [e, iterate_succ_apply', w.walk_side (Or.inl rfl) k (by omega)]
  apply w.next_a
  rw [← iterate_succ_apply' m.next (k + 1) a]
  have h0 : m.next^[minimalPeriod m.next a] a = a := iterate_minimalPeriod
  rw [hk] at h0; exact h0

theorem other {d : Nat} (hd : d ∈ m.darts) (h1 : m.face d ≠ m.face a) (h2 : m.face d ≠ m.face (m.opp a)) (i : Nat) :
    (joinFacet m a).next^[i] d = m.next^[i] d := by
  induction i with
  | zero => rfl
  | succ i ih =>
    rw [iterate_succ_apply', iterate_succ_apply', ih]
    have hmem := iterate_mem w.wf.next_mem hd i
    have hf : m.face (m.next (m.next^[i] d)) = m.face d := by
      rw [w.face_next hmem]; exact ((w.wf.face_iff d hd _ hmem).mpr ⟨i, rfl⟩).symm
    apply w.next_o
    · intro e; change m.next (m.next^[i] d) = a at e; rw [e] at hf; exact h1 hf.symm
    · intro e; change m.next (m.next^[i] d) = m.opp a at e; rw [e] at hf; exact h2 hf.symm

theorem wf' : (joinFacet m a).h.WF := by
  classical
  refine ⟨w.next_mem', ?_, w.next_inj', fun d hd => w.wf.opp_opp d (w.old hd), fun d hd => w.wf.opp_ne d (w.old hd), ?_⟩
  · intro d hd
    obtain ⟨h0, h1, h2⟩ := (w.mem_iff d).mp hd
    refine (w.mem_iff _).mpr ⟨w.wf.opp_mem d h0, fun e => h2 ?_, fun e => h1 ?_⟩
    · rw [← e]; exact (w.wf.opp_opp d h0).symm
    · have := congrArg m.opp e
      change m.opp (m.opp d) = m.opp (m.opp a) at this
      have e1 : m.opp (m.opp d) = d := w.wf.opp_opp d h0
      have e2 : m.opp (m.opp a) = a := w.wf.opp_opp a w.ha
      rw [e1, e2] at this; exact this
  · let base : Nat → Nat := fun f => if f = m.face a then m.next a else
      if hx : ∃ d ∈ m.darts, m.face d = f then hx.choose else 0
    refine face_iff_of w.next_mem' w.next_inj' w.face_const' base ?_
    have hna : m.next a ∈ (joinFacet m a).darts := (w.mem_iff _).mpr ⟨w.wf.next_mem _ w.ha, w.na, w.na_b⟩
    -- the index on a side
    have idx : ∀ x ∈ m.darts, ∀ d ∈ m.darts, m.face d = m.face x → d ≠ x → ∃ i, i + 1 < minimalPeriod m.next x ∧ m.next^[i + 1] x = d := by
      intro x hx d hd hf hne
      obtain ⟨i, hi⟩ := (w.wf.face_iff x hx d hd).mp hf.symm
      obtain ⟨hp, _⟩ := period_spec w.wf.next_mem w.wf.next_inj hx
      have e : m.next^[i % minimalPeriod m.next x] x = d := by rw [iterate_mod_minimalPeriod_eq]; exact hi
      have hlt : i % minimalPeriod m.next x < minimalPeriod m.next x := Nat.mod_lt _ hp
      have hne0 : i % minimalPeriod m.next x ≠ 0 := by
        intro e0; rw [e0] at e; exact hne e.symm
      refine ⟨i % minimalPeriod m.next x - 1, by omega, ?_⟩
      rw [show i % minimalPeriod m.next x - 1 + 1 = i % minimalPeriod m.next x by omega, e]
    intro d hd
    obtain ⟨h0, h1, h2⟩ := (w.mem_iff d).mp hd
    change base ((joinFacet m a).face d) ∈ _ ∧ ∃ i, (joinFacet m a).next^[i] (base ((joinFacet m a).face d)) = d
    rw [w.face_def]
    by_cases hb : m.face d = m.face (m.opp a)
    · have hbase : base (m.face a) = m.next a := if_pos rfl
      rw [if_pos hb, hbase]
      refine ⟨hna, ?_⟩
      obtain ⟨i, hi, e⟩ := idx _ w.hb d h0 hb h2
      refine ⟨i + (minimalPeriod m.next a - 1), ?_⟩
      rw [iterate_add_apply]
      change (joinFacet m a).next^[i] ((joinFacet m a).next^[minimalPeriod m.next a - 1] (m.next a)) = d
      rw [w.turn, w.walk_side (Or.inr rfl) i hi, e]
    · rw [if_neg hb]
      by_cases ha : m.face d = m.face a
      · have hbase : base (m.face d) = m.next a := if_pos ha
        rw [hbase]
        refine ⟨hna, ?_⟩
        obtain ⟨i, hi, e⟩ := idx _ w.ha d h0 ha h1
        exact ⟨i, by rw [← e]; exact w.walk_side (Or.inl rfl) i hi⟩
      · have hx : ∃ e ∈ m.darts, m.face e = m.face d := ⟨d, h0, rfl⟩
        have hbase : base (m.face d) = hx.choose := by
          simp only [base, if_neg ha]
          exact dif_pos hx
        rw [hbase]
        obtain ⟨c1, c2⟩ := hx.choose_spec
        generalize hx.choose = e at c1 c2
        refine ⟨(w.mem_iff e).mpr ⟨c1, fun h => ha (by rw [← c2, h]), fun h => hb (by rw [← c2, h])⟩, ?_⟩
        obtain ⟨i, hi⟩ := (w.wf.face_iff e c1 d h0).mp c2
        refine ⟨i, ?_⟩
        have := w.other c1 (by rw [c2]; exact ha) (by rw [c2]; exact hb) i
        exact this.trans hi

end Wall

theorem Skip.trans' {next opp : Nat → Nat} {J J' : Nat → Prop} (hJ : ∀ x, J x → J' x) {x y z : Nat}
    (h : Skip next opp J x y) (h' : Skip next opp J' y z) : Skip next opp J' x z := by
  induction h with
  | stop x _ => exact h'
  | step x y a _ ih => exact .step _ _ (hJ x a) (ih h')

/-- Removing one more edge, all removed edges being edges of the coarse mesh next to a split facet. -/
theorem Skipped.join {R N cur : Mesh P} {S : Nat → Prop} {c : Nat → Nat} (r : Refine R N S c) (hN : N.h.WF)
    (hne : ∀ d ∈ N.darts, N.next d ≠ d) {J : Nat → Prop} (sk : Skipped cur R J) (hc : cur.h.WF)
    (hJ : ∀ d, J d → d ∈ N.darts ∧ J (N.opp d) ∧ (S (N.face d) ∨ S (N.face (N.opp d))))
    {a : Nat} (ha : a ∈ N.darts) (haJ : ¬ J a) (hS : S (N.face a) ∨ S (N.face (N.opp a))) :
    Skipped (joinFacet cur a) R (fun d => J d ∨ d = a ∨ d = N.opp a) ∧ (joinFacet cur a).h.WF := by
  have oo : ∀ d ∈ N.darts, N.opp (N.opp d) = d := hN.opp_opp
  have om : ∀ d ∈ N.darts, N.opp d ∈ N.darts := hN.opp_mem
  have hb := om a ha
  have hbJ : ¬ J (N.opp a) := fun h => haJ (by have := (hJ _ h).2.1; rwa [oo a ha] at this)
  have nJ : ∀ x, x ∉ N.darts → ¬ J x := fun x hx h => hx (hJ x h).1
  have memK : ∀ d ∈ N.darts, ¬ J d → d ∈ cur.darts := fun d hd h => (sk.mem d).mpr ⟨r.sub d hd, h⟩
  have hac := memK a ha haJ
  have hbc := memK _ hb hbJ
  have ob : cur.opp a = N.opp a := by rw [← sk.opp a hac, r.opp a ha]
  -- next of a halfedge on a split side
  have nS : ∀ t ∈ N.darts, ¬ J t → S (N.face t) → cur.next t = R.next t := by
    intro t ht htJ s
    exact (sk.next t (memK t ht htJ)).det (.stop _ (nJ _ (r.in_new t ht s)))
  have fnext : ∀ d ∈ N.darts, N.face (N.next d) = N.face d := fun d hd =>
    ((hN.face_iff d hd _ (hN.next_mem d hd)).mpr ⟨1, rfl⟩).symm
  -- next of the other side
  have nU : ∀ u ∈ N.darts, ¬ J u → cur.next u ≠ u := by
    intro u hu huJ e
    by_cases s : S (N.face u)
    · rw [nS u hu huJ s] at e
      exact r.in_new u hu s (by rw [e]; exact hu)
    · have h1 := sk.next u (memK u hu huJ)
      rw [e, r.plain u hu s] at h1
      have hn := hN.next_mem u hu
      by_cases hj : J (N.next u)
      · obtain ⟨_, hj2, hs⟩ := hJ _ hj
        have s2 : S (N.face (N.opp (N.next u))) := by
          rcases hs with hs | hs
          · exact absurd (by rw [← fnext u hu]; exact hs) s
          · exact hs
        have ho := hN.opp_mem _ hn
        have h2 : Skip R.next R.opp J (N.next u) (R.next (N.opp (N.next u))) := by
          refine .step _ _ hj ?_
          rw [r.opp _ hn]
          exact .stop _ (nJ _ (r.in_new _ ho s2))
        have := h1.det h2
        exact r.in_new _ ho s2 (by rw [← this]; exact hu)
      · have := h1.det (.stop _ hj)
        exact hne u hu this.symm
  -- the triangle on a split side
  have tri : ∀ t ∈ N.darts, ¬ J t → S (N.face t) → cur.face t ≠ cur.face (N.opp t) := by
    intro t ht htJ s hf
    have htc := memK t ht htJ
    have hoc := memK (N.opp t) (hN.opp_mem t ht) (fun h => htJ (by have := (hJ _ h).2.1; rwa [oo t ht] at this))
    obtain ⟨e, he, se, e1, e2⟩ := r.next_in hN ht s
    have sin : R.next t ∈ cur.darts := (sk.mem _).mpr ⟨r.in_mem t ht s, nJ _ (r.in_new t ht s)⟩
    have sout : R.opp (R.next e) ∈ cur.darts := (sk.mem _).mpr ⟨r.out_mem e he se, nJ _ (r.out_new e he se)⟩
    have c1 : cur.next t = R.next t := nS t ht htJ s
    have c2 : cur.next (R.next t) = R.opp (R.next e) := by
      refine (sk.next _ sin).det ?_
      rw [e2]; exact .stop _ (nJ _ (r.out_new e he se))
    have c3 : cur.next (R.opp (R.next e)) = t := by
      refine (sk.next _ sout).det ?_
      rw [r.out_next e he se, e1]; exact .stop _ htJ
    obtain ⟨i, hi⟩ := (hc.face_iff t htc _ hoc).mp hf
    have all : ∀ i, cur.next^[i] t = t ∨ cur.next^[i] t = R.next t ∨ cur.next^[i] t = R.opp (R.next e) := by
      intro i
      induction i with
      | zero => exact Or.inl rfl
      | succ i ih =>
        rw [iterate_succ_apply']
        rcases ih with h | h | h <;> rw [h]
        · exact Or.inr (Or.inl c1)
        · exact Or.inr (Or.inr c2)
        · exact Or.inl c3
    change cur.next^[i] t = _ at hi
    rcases all i with h | h | h <;> rw [h] at hi
    · exact hN.opp_ne t ht hi.symm
    · exact r.in_new t ht s (by rw [hi]; exact hN.opp_mem t ht)
    · exact r.out_new e he se (by rw [hi]; exact hN.opp_mem t ht)
  have w : Wall cur a := by
    refine ⟨hc, hac, ?_, nU a ha haJ, ?_⟩
    · rw [ob]
      rcases hS with s | s
      · exact tri a ha haJ s
      · intro e
        have := tri _ hb hbJ s
        rw [oo a ha] at this
        exact this e.symm
    · rw [ob]; exact nU _ hb hbJ
  refine ⟨⟨?_, ?_, ?_, ?_, ?_⟩, w.wf'⟩
  · intro d
    rw [w.mem_iff, sk.mem, ob]
    tauto
  · intro d hd; exact sk.opp d (w.old hd)
  · intro d hd; exact sk.vert d (w.old hd)
  · intro d hd; exact sk.pos d (w.old hd)
  · intro d hd
    have hk := w.old hd
    refine Skip.trans' (fun x hx => Or.inl hx) (sk.next d hk) ?_
    have nl : ¬ J (cur.next d) := (sk.next d hk).last
    have fin : ∀ x ∈ cur.darts, cur.next x ≠ a → cur.next x ≠ N.opp a →
        Skip R.next R.opp (fun d => J d ∨ d = a ∨ d = N.opp a) (R.next x) (cur.next x) := by
      intro x hx h1 h2
      refine Skip.trans' (fun x hx => Or.inl hx) (sk.next x hx) (.stop _ ?_)
      rintro (h3 | h3 | h3)
      · exact (sk.next x hx).last h3
      · exact h1 h3
      · exact h2 h3
    by_cases h1 : cur.next d = a
    · rw [w.next_a h1, h1]
      refine .step _ _ (Or.inr (Or.inl rfl)) ?_
      rw [r.opp a ha, ob]
      refine fin _ hbc ?_ ?_
      · rw [← ob]; exact w.nb_a
      · rw [← ob]; exact w.nb
    · by_cases h2 : cur.next d = cur.opp a
      · rw [w.next_b h2, h2]
        refine .step _ _ (Or.inr (Or.inr ob)) ?_
        rw [ob, r.opp _ hb, oo a ha]
        refine fin _ hac w.na ?_
        rw [← ob]; exact w.na_b
      · rw [w.next_o h1 h2]
        refine .stop _ ?_
        rintro (h3 | h3 | h3)
        · exact nl h3
        · exact h1 h3
        · exact h2 (by rw [ob]; exact h3)

/-- Removing a list of edges, one halfedge of each. -/
theorem Skipped.joins {R N : Mesh P} {S : Nat → Prop} {c : Nat → Nat} (r : Refine R N S c) (hN : N.h.WF)
    (hne : ∀ d ∈ N.darts, N.next d ≠ d) (l : List Nat) {cur : Mesh P} {J : Nat → Prop} (sk : Skipped cur R J) (hc : cur.h.WF)
    (hJ : ∀ d, J d → d ∈ N.darts ∧ J (N.opp d) ∧ (S (N.face d) ∨ S (N.face (N.opp d))))
    (hl : ∀ a ∈ l, a ∈ N.darts ∧ ¬ J a ∧ (S (N.face a) ∨ S (N.face (N.opp a))) ∧ N.opp a ∉ l) (hnd : l.Nodup) :
    Skipped (l.foldl joinFacet cur) R (fun d => J d ∨ d ∈ l ∨ d ∈ l.map N.opp) ∧ (l.foldl joinFacet cur).h.WF ∧
      ∀ d ∈ (l.foldl joinFacet cur).darts, (l.foldl joinFacet cur).face d ∈ cur.darts.image cur.face := by
  have oo : ∀ d ∈ N.darts, N.opp (N.opp d) = d := hN.opp_opp
  induction l generalizing cur J with
  | nil =>
    refine ⟨?_, hc, fun d hd => Finset.mem_image_of_mem _ hd⟩
    have : (fun d => J d ∨ d ∈ ([] : List Nat) ∨ d ∈ ([] : List Nat).map N.opp) = J := by funext d; simp
    rw [this]; exact sk
  | cons a l ih =>
    obtain ⟨a1, a2, a3, a4⟩ := hl a List.mem_cons_self
    rw [List.nodup_cons] at hnd
    obtain ⟨sk', hc'⟩ := sk.join r hN hne hc hJ a1 a2 a3
    have hJ' : ∀ d, (J d ∨ d = a ∨ d = N.opp a) → d ∈ N.darts ∧ (J (N.opp d) ∨ N.opp d = a ∨ N.opp d = N.opp a) ∧
        (S (N.face d) ∨ S (N.face (N.opp d))) := by
      rintro d (h | rfl | rfl)
      · obtain ⟨b1, b2, b3⟩ := hJ d h; exact ⟨b1, Or.inl b2, b3⟩
      · exact ⟨a1, Or.inr (Or.inr rfl), a3⟩
      · refine ⟨hN.opp_mem a a1, Or.inr (Or.inl (oo a a1)), ?_⟩
        rw [oo a a1]; exact a3.symm
    have hl' : ∀ x ∈ l, x ∈ N.darts ∧ ¬ (J x ∨ x = a ∨ x = N.opp a) ∧ (S (N.face x) ∨ S (N.face (N.opp x))) ∧ N.opp x ∉ l := by
      intro x hx
      obtain ⟨b1, b2, b3, b4⟩ := hl x (List.mem_cons_of_mem _ hx)
      refine ⟨b1, ?_, b3, fun h => b4 (List.mem_cons_of_mem _ h)⟩
      rintro (h | h | h)
      · exact b2 h
      · exact hnd.1 (h ▸ hx)
      · exact a4 (List.mem_cons_of_mem _ (h ▸ hx))
    obtain ⟨sk2, hc2, hf2⟩ := ih sk' hc' hJ' hl' hnd.2
    refine ⟨?_, hc2, ?_⟩
    · have : (fun d => J d ∨ d ∈ a :: l ∨ d ∈ (a :: l).map N.opp) =
          (fun d => (J d ∨ d = a ∨ d = N.opp a) ∨ d ∈ l ∨ d ∈ l.map N.opp) := by
        funext d
        rw [List.map_cons, List.mem_cons, List.mem_cons]
        apply propext; tauto
      rw [this]; exact sk2
    · intro d hd
      obtain ⟨e, he, h1⟩ := Finset.mem_image.mp (hf2 d hd)
      change (l.foldl joinFacet (joinFacet cur a)).face d ∈ _
      rw [← h1]
      have hac : a ∈ cur.darts := (sk.mem a).mpr ⟨r.sub a a1, a2⟩
      have he' : e ∈ cur.darts := by
        have : e ∈ (cur.darts.erase a).erase (cur.opp a) := he
        exact Finset.mem_of_mem_erase (Finset.mem_of_mem_erase this)
      change (if cur.face e = cur.face (cur.opp a) then cur.face a else cur.face e) ∈ _
      by_cases hx : cur.face e = cur.face (cur.opp a)
      · rw [if_pos hx]; exact Finset.mem_image_of_mem _ hac
      · rw [if_neg hx]; exact Finset.mem_image_of_mem _ he'

end TDP.Codec
