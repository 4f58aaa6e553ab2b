import Verif.Codec.CutStep
/-! Which vertices a decimation removes, and which are left when it removes none. -/
namespace TDP.Codec
open TDP.Traversal Function

variable {P : Type}

/-- `v` is a vertex of the mesh. -/
def Mesh.Has (m : Mesh P) (v : Nat) : Prop := ∃ d ∈ m.darts, m.vert d = v

/-- The positions of the neighbours of the vertex that `d` leaves, in order, beginning with the target of `d`. -/
def Mesh.link (m : Mesh P) (d : Nat) : List P := (m.ring d).map (fun e => m.pos (m.vert e))

/-- What is known of the neighbourhoods of vertices during a conquest: those of unconquered vertices are as they were. `Q`
is what is remembered of removed vertices. -/
structure StarInv (M : Mesh P) (Q : Nat → Prop) (s : St P) : Prop where
  nd : M.nd ≤ s.m.nd
  old : ∀ d ∈ s.m.darts, d ∈ M.darts → s.m.opp d = M.opp d ∧ s.m.vert d = M.vert d
  new : ∀ d ∈ s.m.darts, d ∉ M.darts → s.conq (s.m.vert d) = true
  nxt : ∀ d ∈ s.m.darts, s.conq (s.m.vert d) = false → s.m.next d = M.next d
  all : ∀ d ∈ M.darts, d ∉ s.m.darts → ¬ s.m.Has (M.vert d) ∨ ¬ s.m.Has (M.src d)
  gone : ∀ v, M.Has v → ¬ s.m.Has v → Q v ∧ ∀ d ∈ M.darts, M.src d = v → s.conq (M.vert d) = true ∧ s.m.Has (M.vert d)
  rim : ∀ v, M.Has v → ¬ s.m.Has v → ∃ r : Nat → Nat, ∀ d ∈ M.darts, M.src d = v → r d ∈ s.m.darts ∧
    (s.flag (s.m.face (r d))).conquered = true ∧ s.m.src (r d) = M.vert d ∧ s.m.next (r (M.rot d)) = r d

theorem ring_congr {m m' : Mesh P} (hm : m.WF) (hm' : m'.WF) {d : Nat} (hd : d ∈ m.darts) (hd' : d ∈ m'.darts)
    (h : ∀ e ∈ m'.darts, m'.src e = m'.src d → m.rot e = m'.rot e) : m.ring d = m'.ring d := by
  have it : ∀ i, m.rot^[i] d = m'.rot^[i] d := by
    intro i
    induction i with
    | zero => rfl
    | succ i ih =>
      rw [iterate_succ_apply', iterate_succ_apply', ih]
      exact h _ (iterate_mem (fun x hx => hm'.rot_mem hx) hd' i) (src_iterate hm' hd' i)
  have hp : minimalPeriod m.rot d = minimalPeriod m'.rot d := by
    apply Nat.dvd_antisymm
    · apply IsPeriodicPt.minimalPeriod_dvd
      change m.rot^[_] d = d
      rw [it]; exact iterate_minimalPeriod
    · apply IsPeriodicPt.minimalPeriod_dvd
      change m'.rot^[_] d = d
      rw [← it]; exact iterate_minimalPeriod
  rw [ring_eq hm hd, ring_eq hm' hd', hp]
  exact List.map_congr_left (fun i _ => it i)

theorem Mesh.WF.has_src {m : Mesh P} (hm : m.WF) {d : Nat} (hd : d ∈ m.darts) : m.Has (m.src d) := ⟨_, hm.opp_mem hd, rfl⟩

section
variable {M : Mesh P} {Q : Nat → Prop} {s : St P} (S : StarInv M Q s) (hM : M.WF) (hm : s.m.WF)
include S hM hm

/-- The halfedges leaving an unconquered vertex are those of before. -/
theorem StarInv.mem_iff {d : Nat} {v : Nat} (hc : s.conq v = false) (hv : s.m.Has v) :
    (d ∈ s.m.darts ∧ s.m.src d = v) ↔ (d ∈ M.darts ∧ M.src d = v) := by
  constructor
  · rintro ⟨h1, h2⟩
    have ho := hm.opp_mem h1
    have oM : s.m.opp d ∈ M.darts := by
      by_contra hn
      have := S.new _ ho hn
      rw [show s.m.vert (s.m.opp d) = v from h2, hc] at this
      exact absurd this (by decide)
    have e := (S.old _ ho oM)
    have hd : d ∈ M.darts := by
      have := hM.opp_mem oM
      rwa [← e.1, hm.opp_opp h1] at this
    refine ⟨hd, ?_⟩
    have e2 := (S.old d h1 hd).1
    rw [← h2]
    change M.vert (M.opp d) = s.m.vert (s.m.opp d)
    rw [e.2, e2]
  · rintro ⟨h1, h2⟩
    have hk : d ∈ s.m.darts := by
      by_contra hn
      rcases S.all d h1 hn with h | h
      · have := ((S.gone _ ⟨d, h1, rfl⟩ h).2 _ (hM.opp_mem h1) (hM.src_opp h1)).1
        rw [show M.vert (M.opp d) = v from h2, hc] at this
        exact absurd this (by decide)
      · rw [h2] at h; exact h hv
    refine ⟨hk, ?_⟩
    have e := S.old d hk h1
    change s.m.vert (s.m.opp d) = v
    rw [e.1]
    have ho : M.opp d ∈ s.m.darts := by rw [← e.1]; exact hm.opp_mem hk
    rw [(S.old _ ho (hM.opp_mem h1)).2]; exact h2

/-- So is the ring. -/
theorem StarInv.ring {d : Nat} (hd : d ∈ M.darts) (hc : s.conq (M.src d) = false) (hv : s.m.Has (M.src d)) :
    s.m.ring d = M.ring d ∧ ∀ e ∈ M.ring d, s.m.vert e = M.vert e := by
  have hk := (S.mem_iff hM hm hc hv).mpr ⟨hd, rfl⟩
  refine ⟨ring_congr hm hM hk.1 hd ?_, ?_⟩
  · intro e he hs
    have hk' := (S.mem_iff hM hm hc hv).mpr ⟨he, hs⟩
    change s.m.next (s.m.opp e) = M.next (M.opp e)
    rw [S.nxt _ (hm.opp_mem hk'.1) (by rw [show s.m.vert (s.m.opp e) = _ from hk'.2]; exact hc), (S.old e hk'.1 he).1]
  · intro e he
    obtain ⟨h1, h2⟩ := (mem_ring hM hd e).mp he
    exact (S.old e ((S.mem_iff hM hm hc hv).mpr ⟨h1, h2⟩).1 h1).2

end

theorem StarInv.init (M : Mesh P) (Q : Nat → Prop) (i : Nat) : StarInv M Q (beginConquest M i) where
  nd := le_rfl
  old := fun _ _ _ => ⟨rfl, rfl⟩
  new := fun d hd hn => absurd hd hn
  nxt := fun _ _ _ => rfl
  all := fun d hd hn => absurd hd hn
  gone := fun v hv hn => absurd hv hn
  rim := fun v hv hn => absurd hv hn

/-- Conquering more vertices. -/
theorem StarInv.mono {M : Mesh P} {Q : Nat → Prop} {s s' : St P} (S : StarInv M Q s) (hm : s'.m = s.m)
    (hc : ∀ v, s.conq v = true → s'.conq v = true)
    (hf : ∀ f, (s.flag f).conquered = true → (s'.flag f).conquered = true) : StarInv M Q s' where
  nd := by rw [hm]; exact S.nd
  old := by rw [hm]; exact S.old
  new := by rw [hm]; exact fun d hd hn => hc _ (S.new d hd hn)
  nxt := by
    rw [hm]
    intro d hd h
    refine S.nxt d hd ?_
    rw [← Bool.not_eq_true]; intro h'
    rw [hc _ h'] at h; exact absurd h (by decide)
  all := by rw [hm]; exact S.all
  gone := by
    rw [hm]
    intro v h1 h2
    obtain ⟨a, b⟩ := S.gone v h1 h2
    exact ⟨a, fun d hd hs => ⟨hc _ (b d hd hs).1, (b d hd hs).2⟩⟩
  rim := by
    rw [hm]
    intro v h1 h2
    obtain ⟨r, h⟩ := S.rim v h1 h2
    refine ⟨r, fun d hd hs => ?_⟩
    obtain ⟨a, b, c⟩ := h d hd hs
    exact ⟨a, hf _ b, c⟩

/-- Removing a vertex. -/
theorem StarInv.cut {M : Mesh P} {Q : Nat → Prop} {s : St P} (S : StarInv M Q s) (hM : M.WF) {hh : Nat}
    (H : CutHyp s hh) (hvc : ∀ d ∈ s.m.darts, (s.flag (s.m.face d)).conquered = true → s.conq (s.m.vert d) = true)
    (hc : s.conq (s.m.vert hh) = false) (hQ : Q (s.m.vert hh)) {s' : St P} (hcut : vertexCut s hh = some s') :
    StarInv M Q s' := by
  obtain ⟨s1, hN, CI, hNk, hNf, hNr, hres⟩ := H.result
  obtain ⟨st, hv, out, inn⟩ := H.star CI
  rw [hres] at hcut
  have e' := Option.some.inj hcut
  have em : s'.m = eraseCenter s1.m hh := by rw [← e']
  have ec : s'.conq = s1.conq := by rw [← e']
  have ef : s'.flag = Traversal.set s1.flag (s1.m.face hh) .splittable := by rw [← e']
  clear hcut e' hres hNr hNf hNk hN
  have wf := H.wf
  -- ring vertices are conquered
  have ringc : ∀ j, s1.conq (s.m.vert (hj s hh j)) = true := by
    intro j
    obtain ⟨i, hi, hij⟩ := ring_index wf (wf.opp_mem H.hs) (H.mem j) (by rw [H.src j, wf.src_opp H.hs])
    rw [← hij]; exact CI.conq i hi
  have ringo : ∀ d ∈ s.m.darts, s.m.src d = s.m.vert hh → s1.conq (s.m.vert d) = true := by
    intro d hd hs
    obtain ⟨i, hi, hij⟩ := ring_index wf (wf.opp_mem H.hs) hd (by rw [hs, wf.src_opp H.hs])
    rw [← hij]; exact CI.conq i hi
  have newc : ∀ d ∈ s1.m.darts, d ∉ s.m.darts → s1.conq (s1.m.vert d) = true := by
    intro d hd hn
    obtain ⟨j, hjl, p, hp, hpr, hx⟩ := CI.new d hd hn
    rcases hx with ⟨_, e, _⟩ | ⟨e, _, _⟩
    · rw [e]
      refine ringo p hp ?_
      rw [← wf.src_rot hp, hpr, H.src j]
    · rw [e]; exact CI.conq j hjl
  have has_sub : ∀ u, s'.m.Has u → s.m.Has u ∧ u ≠ s.m.vert hh := by
    rintro u ⟨d, hd, rfl⟩
    rw [em] at hd ⊢
    obtain ⟨h1, h2, _⟩ := (st.mem_iff d).mp hd
    obtain ⟨e, he, h3⟩ := CI.vset d h1
    exact ⟨⟨e, he, h3⟩, by rw [← hv]; exact h2⟩
  have has_sup : ∀ u, s.m.Has u → u ≠ s.m.vert hh → s'.m.Has u := by
    rintro u ⟨e, he, rfl⟩ hne
    rw [em]
    obtain ⟨e1, e2, e3⟩ := CI.sub e he
    by_cases hsv : s1.m.src e = s1.m.vert hh
    · refine ⟨_, st.opp_mem' _ (st.out_facts e1 hsv).1, ?_⟩
      change s1.m.src (s1.m.next e) = _
      rw [CI.wf.src_next e e1, e3]
    · exact ⟨e, (st.mem_iff e).mpr ⟨e1, by rw [hv, e3]; exact hne, hsv⟩, e3⟩
  have Hhh : s.m.Has (s.m.vert hh) := ⟨hh, H.hs, rfl⟩
  have MHhh : M.Has (s.m.vert hh) := by
    have := (S.mem_iff hM wf hc Hhh (d := s.m.opp hh)).mp ⟨wf.opp_mem H.hs, wf.src_opp H.hs⟩
    rw [← this.2]; exact hM.has_src this.1
  have fset : ∀ f, (s1.flag f).conquered = true → (s'.flag f).conquered = true := by
    intro f hf
    rw [ef]; unfold Traversal.set
    by_cases e : f = s1.m.face hh
    · rw [if_pos e]; rfl
    · rw [if_neg e]; exact hf
  -- halfedges of conquered facets stay as they are
  have stay : ∀ d ∈ s.m.darts, (s.flag (s.m.face d)).conquered = true → d ∈ s'.m.darts ∧ s'.m.src d = s.m.src d ∧
      s'.m.next d = s.m.next d ∧ (s'.flag (s'.m.face d)).conquered = true := by
    intro d hd hq
    obtain ⟨e1, e2, e3⟩ := CI.sub d hd
    have v1 : s1.m.vert d ≠ s1.m.vert hh := by
      rw [hv, e3]; intro e
      have := hvc d hd hq
      rw [e, hc] at this; exact absurd this (by decide)
    have hk : d ∈ (eraseCenter s1.m hh).darts := by
      refine (st.mem_iff d).mpr ⟨e1, v1, ?_⟩
      rw [hv]; intro e
      obtain ⟨_, e'⟩ := out d e1 e
      obtain ⟨y, hy, hy1, hy2⟩ := wf.exists_prev hd
      have := hvc y hy (by rw [hy2]; exact hq)
      rw [← wf.src_next y hy, hy1, e', hc] at this
      exact absurd this (by decide)
    have n1 := CI.cnext d hd hq
    have hr : s1.m.vert (s1.m.next d) ≠ s1.m.vert hh := by
      rw [n1, (CI.sub _ (wf.next_mem hd)).2.2, hv]
      intro e
      have := hvc _ (wf.next_mem hd) (by rw [wf.face_next hd]; exact hq)
      rw [e, hc] at this; exact absurd this (by decide)
    rw [em]
    refine ⟨hk, ?_, ?_, ?_⟩
    · change s1.m.vert (s1.m.opp d) = s.m.vert (s.m.opp d)
      rw [e2, (CI.sub _ (wf.opp_mem hd)).2.2]
    · rw [st.next_plain hr, n1]
    · rw [st.face_plain hk hr]
      apply fset
      rw [(CI.flag d hd).1]; exact hq
  refine ⟨?_, ?_, ?_, ?_, ?_, ?_, ?_⟩
  · rw [em]; exact le_trans S.nd CI.nd.1
  · intro d hd hdM
    rw [em] at hd ⊢
    have h1 := st.mem_old hd
    have hd0 : d ∈ s.m.darts := by
      by_contra hn
      have a := CI.nd.2 d h1 hn
      have b := (hM.fresh d hdM).1
      have c := S.nd
      omega
    obtain ⟨_, e2, e3⟩ := CI.sub d hd0
    obtain ⟨f1, f2⟩ := S.old d hd0 hdM
    exact ⟨e2.trans f1, e3.trans f2⟩
  · intro d hd hn
    rw [em] at hd
    rw [em, ec]
    have h1 := st.mem_old hd
    change s1.conq (s1.m.vert d) = true
    by_cases hd0 : d ∈ s.m.darts
    · rw [(CI.sub d hd0).2.2]; exact CI.conq0 _ (S.new d hd0 hn)
    · exact newc d h1 hd0
  · intro d hd hcq
    rw [em] at hd
    rw [em, ec] at hcq
    rw [em]
    change s1.conq (s1.m.vert d) = false at hcq
    have h1 := st.mem_old hd
    have hd0 : d ∈ s.m.darts := by
      by_contra hn
      rw [newc d h1 hn] at hcq; exact absurd hcq (by decide)
    obtain ⟨_, e2, e3⟩ := CI.sub d hd0
    have n1 : s1.m.next d = s.m.next d := by
      refine CI.far d hd0 (fun j hj => ?_)
      have := ringc j
      rw [hj, ← e3, hcq] at this; exact absurd this (by decide)
    have hr : s1.m.vert (s1.m.next d) ≠ s1.m.vert hh := by
      intro hr
      rw [hv] at hr
      obtain ⟨a1, a2⟩ := inn _ (CI.wf.next_mem h1) hr
      have b1 := ringo (s.m.opp (s1.m.next d)) (wf.opp_mem a1) (by rw [wf.src_opp a1]; exact a2)
      have b2 : s.m.vert (s.m.opp (s1.m.next d)) = s1.m.vert d := by
        rw [← CI.wf.src_next d h1]
        change _ = s1.m.vert (s1.m.opp (s1.m.next d))
        rw [(CI.sub _ a1).2.1, (CI.sub _ (wf.opp_mem a1)).2.2]
      rw [b2, hcq] at b1; exact absurd b1 (by decide)
    rw [st.next_plain hr, n1]
    refine S.nxt d hd0 ?_
    rw [← Bool.not_eq_true]; intro h'
    have := CI.conq0 _ h'
    rw [← e3, hcq] at this; exact absurd this (by decide)
  · intro d hdM hn
    by_cases hd0 : d ∈ s.m.darts
    · obtain ⟨e1, e2, e3⟩ := CI.sub d hd0
      have gn : ¬ s'.m.Has (s.m.vert hh) := fun h => (has_sub _ h).2 rfl
      rw [em, st.mem_iff] at hn
      by_cases h1 : s1.m.vert d = s1.m.vert hh
      · left
        rw [← (S.old d hd0 hdM).2, ← e3, h1, hv]; exact gn
      · right
        have h2 : s1.m.src d = s1.m.vert hh := by
          by_contra h2; exact hn ⟨e1, h1, h2⟩
        have ho := wf.opp_mem hd0
        have oM : s.m.opp d ∈ M.darts := by rw [(S.old d hd0 hdM).1]; exact hM.opp_mem hdM
        have : M.src d = s.m.vert hh := by
          change M.vert (M.opp d) = _
          rw [← hv, ← h2]
          change _ = s1.m.vert (s1.m.opp d)
          rw [e2, (CI.sub _ ho).2.2, (S.old _ ho oM).2, (S.old d hd0 hdM).1]
        rw [this]; exact gn
    · rcases S.all d hdM hd0 with h | h
      · exact Or.inl (fun h' => h (has_sub _ h').1)
      · exact Or.inr (fun h' => h (has_sub _ h').1)
  · intro v h1 h2
    by_cases hs : s.m.Has v
    · have ev : v = s.m.vert hh := by
        by_contra hne; exact h2 (has_sup v hs hne)
      subst ev
      refine ⟨hQ, ?_⟩
      intro d hd hsd
      have hk := (S.mem_iff hM wf hc Hhh).mpr ⟨hd, hsd⟩
      have e := (S.old d hk.1 hd).2
      rw [← e, ec]
      refine ⟨ringo d hk.1 hk.2, has_sup _ ⟨d, hk.1, rfl⟩ ?_⟩
      intro he
      exact wf.noloop d hk.1 (hk.2.trans he.symm)
    · obtain ⟨a, b⟩ := S.gone v h1 hs
      refine ⟨a, fun d hd hsd => ?_⟩
      obtain ⟨b1, b2⟩ := b d hd hsd
      refine ⟨by rw [ec]; exact CI.conq0 _ b1, has_sup _ b2 ?_⟩
      intro he
      rw [he, hc] at b1; exact absurd b1 (by decide)
  · intro v h1 h2
    by_cases hs : s.m.Has v
    · have ev : v = s.m.vert hh := by
        by_contra hne; exact h2 (has_sup v hs hne)
      subst ev
      refine ⟨s1.m.next, fun d hd hsd => ?_⟩
      have hk := (S.mem_iff hM wf hc Hhh).mpr ⟨hd, hsd⟩
      obtain ⟨d1, d2, d3⟩ := CI.sub d hk.1
      have hs1 : s1.m.src d = s1.m.vert hh := by
        rw [hv, ← hk.2]
        change s1.m.vert (s1.m.opp d) = s.m.vert (s.m.opp d)
        rw [d2, (CI.sub _ (wf.opp_mem hk.1)).2.2]
      obtain ⟨o1, o2, o3⟩ := st.out_facts d1 hs1
      have er : s1.m.rot d = M.rot d := by
        change s1.m.next (s1.m.opp d) = M.next (M.opp d)
        rw [d2, CI.rot _ (wf.opp_mem hk.1) hk.2, S.nxt _ (wf.opp_mem hk.1) (by rw [show s.m.vert (s.m.opp d) = _ from hk.2]; exact hc),
          (S.old d hk.1 hd).1]
      rw [em]
      refine ⟨o1, ?_, ?_, ?_⟩
      · rw [st.face_ring (st.mem_old o1) o2, ef]; unfold Traversal.set; rw [if_pos rfl]; rfl
      · change s1.m.src (s1.m.next d) = _
        rw [CI.wf.src_next d d1, d3, (S.old d hk.1 hd).2]
      · rw [← er]; exact st.ring_iterate d1 hs1 1
    · obtain ⟨r, h⟩ := S.rim v h1 hs
      refine ⟨r, fun d hd hsd => ?_⟩
      obtain ⟨a, b, c, _⟩ := h d hd hsd
      obtain ⟨a', b', _, e'⟩ := h _ (hM.rot_mem hd) (by rw [hM.src_rot hd]; exact hsd)
      obtain ⟨x1, x2, _, x4⟩ := stay _ a b
      obtain ⟨_, _, y3, _⟩ := stay _ a' b'
      exact ⟨x1, x4, x2.trans c, y3.trans (h d hd hsd).2.2.2⟩

/-- Along the whole conquest. `Q` may be anything the removability test of an intact vertex ensures. -/
theorem StarInv.conquest {M : Mesh P} {h0 : Nat} (hM : M.WF) (convex : Mesh P → Nat → Bool) {Q : Nat → Prop}
    (hQ : ∀ s : St P, Inv M h0 s → StarInv M Q s → ∀ hh ∈ s.m.darts, isRemovable convex (M.src h0) (M.vert h0) s hh = true →
      Q (s.m.vert hh)) (n : Nat) {s s' : St P}
    (I : Inv M h0 s) (S : StarInv M Q s) (h : conquest convex (M.src h0) (M.vert h0) n s = some s') :
    StarInv M Q s' := by
  induction n generalizing s with
  | zero => rw [Codec.conquest] at h; exact absurd h (by simp)
  | succ n ih =>
    rw [Codec.conquest] at h
    cases hq : s.queue with
    | nil => rw [hq] at h; rw [← Option.some.inj h]; exact S
    | cons g q =>
      rw [hq] at h
      have hh : g ∈ s.m.darts := (I.que g (by rw [hq]; exact List.mem_cons_self)).1
      have hnot : ¬ g ∉ s.m.darts := not_not.mpr hh
      simp only [hnot, if_false] at h
      by_cases hc : (s.flag (s.m.face g)).conquered = true
      · rw [if_pos hc] at h
        exact ih (I.pop hq hc) (S.mono rfl (fun _ h => h) (fun _ h => h)) h
      · rw [if_neg hc] at h
        have hc' : (s.flag (s.m.face g)).conquered = false := by rwa [Bool.not_eq_true] at hc
        have e : firstRemovable convex (M.src h0) (M.vert h0) { s with queue := q } g =
            (around s.m.h g).tail.find? (isRemovable convex (M.src h0) (M.vert h0) s) := rfl
        rw [e] at h
        cases hf : (around s.m.h g).tail.find? (isRemovable convex (M.src h0) (M.vert h0) s) with
        | none =>
          rw [hf] at h
          obtain ⟨I', _⟩ := I.mark hq hc' _ rfl
          exact ih I' (S.mono rfl (fun v hv => by simp [hv]) (fun f hf => by
            change (Traversal.set s.flag (s.m.face g) Flag.unsplittable f).conquered = true
            unfold Traversal.set
            by_cases e : f = s.m.face g
            · rw [if_pos e]; rfl
            · rw [if_neg e]; exact hf)) h
        | some hh' =>
          rw [hf] at h
          have hmem : hh' ∈ around s.m.h g := List.mem_of_mem_tail (List.mem_of_find?_eq_some hf)
          obtain ⟨m1, m2⟩ := (mem_around I.wf.h hh hh').mp hmem
          have hrm := List.find?_some hf
          obtain ⟨s2, r1, I', _⟩ := I.cut hq m1 m2 hrm
          simp only [r1, Option.bind_eq_bind, Option.bind_some] at h
          obtain ⟨Hs, _, _, _, hvc⟩ := removable_hyp I m1 hrm
          have H : CutHyp { s with queue := q } hh' := ⟨Hs.wf, Hs.hs, Hs.un, Hs.ring3, Hs.nadj⟩
          have S0 : StarInv M Q { s with queue := q } := S.mono rfl (fun _ h => h) (fun _ h => h)
          exact ih I' (S0.cut hM H I.vcon hvc (hQ s I S hh' m1 hrm) r1) h

end TDP.Codec
