import Verif.Codec.Conquest
/-! Removing a vertex keeps the conquest's invariant. -/
namespace TDP.Codec
open TDP.Traversal Function

variable {P : Type}

theorem Inv.cut {M : Mesh P} {h0 : Nat} {s : St P} (I : Inv M h0 s) {h : Nat} {q : List Nat} (hq : s.queue = h :: q)
    {hh : Nat} (hhm : hh ∈ s.m.darts) (hhf : s.m.face hh = s.m.face h) {convex : Mesh P → Nat → Bool}
    (hrm : isRemovable convex (M.src h0) (M.vert h0) s hh = true) :
    ∃ s', vertexCut { s with queue := q } hh = some s' ∧ Inv M h0 s' ∧
      s'.queue.length + unconq s' < s.queue.length + unconq s := by
  obtain ⟨Hs, k8, hv0, hv1, hvc⟩ := removable_hyp I hhm hrm
  have H : CutHyp { s with queue := q } hh := ⟨Hs.wf, Hs.hs, Hs.un, Hs.ring3, Hs.nadj⟩
  obtain ⟨s1, hN, CI, hNk, hNf, hNr, hres⟩ := H.result
  obtain ⟨st, hv, out, inn⟩ := H.star CI
  change s1.m.vert hh = s.m.vert hh at hv
  change ∀ d ∈ s1.m.darts, s1.m.src d = s.m.vert hh → d ∈ s.m.darts ∧ s.m.src d = s.m.vert hh at out
  change ∀ d ∈ s1.m.darts, s1.m.vert d = s.m.vert hh → d ∈ s.m.darts ∧ s.m.vert d = s.m.vert hh at inn
  have sub : ∀ d ∈ s.m.darts, d ∈ s1.m.darts ∧ s1.m.opp d = s.m.opp d ∧ s1.m.vert d = s.m.vert d := CI.sub
  have flag1 : ∀ d ∈ s.m.darts, s1.flag (s1.m.face d) = s.flag (s.m.face d) := fun d hd => (CI.flag d hd).1
  have H_mem : ∀ j, hj { s with queue := q } hh j ∈ s.m.darts := H.mem
  have H_src : ∀ j, s.m.src (hj { s with queue := q } hh j) = s.m.vert hh := H.src
  refine ⟨_, hres, ?_⟩
  -- halfedges left: on the new facet, or not
  have fl : ∀ f, Traversal.set s1.flag (s1.m.face hh) Flag.splittable f = if f = s1.m.face hh then .splittable else s1.flag f :=
    fun f => rfl
  have flF : Traversal.set s1.flag (s1.m.face hh) Flag.splittable (s1.m.face hh) = .splittable := by rw [fl, if_pos rfl]
  have kind : ∀ d ∈ (eraseCenter s1.m hh).darts, d ∈ s1.m.darts ∧
      ((s1.m.vert (s1.m.next d) = s.m.vert hh ∧ (eraseCenter s1.m hh).face d = s1.m.face hh ∧
          s1.flag (s1.m.face d) = .unknown) ∨
       (s1.m.vert (s1.m.next d) ≠ s.m.vert hh ∧ (eraseCenter s1.m hh).face d = s1.m.face d ∧ s1.m.face d ≠ s1.m.face hh ∧
          Traversal.set s1.flag (s1.m.face hh) Flag.splittable ((eraseCenter s1.m hh).face d) = s1.flag (s1.m.face d))) := by
    intro d hd
    have hk := st.mem_old hd
    refine ⟨hk, ?_⟩
    by_cases hr : s1.m.vert (s1.m.next d) = s.m.vert hh
    · refine Or.inl ⟨hr, st.face_ring hk (by rw [hv]; exact hr), ?_⟩
      obtain ⟨h1, h2⟩ := inn _ (CI.wf.next_mem hk) hr
      rw [← CI.wf.face_next hk, flag1 _ h1]
      exact H.un _ h1 h2
    · have hr' : s1.m.vert (s1.m.next d) ≠ s1.m.vert hh := by rw [hv]; exact hr
      have e1 := st.face_plain hd hr'
      have e2 := st.face_plain_ne hd hr'
      exact Or.inr ⟨hr, e1, e2, by rw [e1, fl, if_neg e2]⟩
  have oldc : ∀ d ∈ s1.m.darts, (s1.flag (s1.m.face d)).conquered = true →
      d ∈ s.m.darts ∧ s.flag (s.m.face d) = s1.flag (s1.m.face d) ∧ s1.m.face d = s.m.face d := by
    intro d hd hc
    by_cases hd0 : d ∈ s.m.darts
    · have e := flag1 d hd0
      refine ⟨hd0, e.symm, CI.flagv d hd0 ?_⟩
      change (s.flag (s.m.face d)).conquered = true
      rw [← e]; exact hc
    · rw [CI.flagn d hd hd0] at hc; exact absurd hc (by decide)
  -- a conquered halfedge of before
  have oldk : ∀ d ∈ s.m.darts, d ∈ (eraseCenter s1.m hh).darts → (s.flag (s.m.face d)).conquered = true →
      Traversal.set s1.flag (s1.m.face hh) Flag.splittable ((eraseCenter s1.m hh).face d) = s.flag (s.m.face d) := by
    intro d hd hk hc
    obtain ⟨h1, ⟨_, _, h2⟩ | ⟨_, _, _, h2⟩⟩ := kind d hk
    · rw [flag1 d hd] at h2; rw [h2] at hc; exact absurd hc (by decide)
    · rw [h2, flag1 d hd]
  have vne : ∀ d ∈ s.m.darts, (s.flag (s.m.face d)).conquered = true → d ∈ (eraseCenter s1.m hh).darts := by
    intro d hd hc
    rw [st.mem_iff, hv]
    refine ⟨(sub d hd).1, ?_, ?_⟩
    · rw [(sub d hd).2.2]
      intro e
      have := I.vcon d hd hc
      rw [e, hvc] at this; exact absurd this (by decide)
    · intro e
      obtain ⟨_, e'⟩ := out d (sub d hd).1 e
      obtain ⟨y, hy, hy1, hy2⟩ := I.wf.exists_prev hd
      have := I.vcon y hy (by rw [hy2]; exact hc)
      rw [← I.wf.src_next y hy, hy1, e', hvc] at this
      exact absurd this (by decide)
  have oppk : ∀ d ∈ (eraseCenter s1.m hh).darts, s1.m.opp d ∈ (eraseCenter s1.m hh).darts := st.opp_mem'
  -- ring halfedges by index
  have ridx : ∀ o ∈ s1.m.darts, s1.m.src o = s.m.vert hh → ∃ j < minimalPeriod s.m.rot (s.m.opp hh), hj { s with queue := q } hh j = o := by
    intro o ho hs
    obtain ⟨h1, h2⟩ := out o ho hs
    exact ring_index I.wf (I.wf.opp_mem hhm) h1 (by rw [h2, I.wf.src_opp hhm])
  have fK : ∀ a b, s1.m.face a = s1.m.face b → (eraseCenter s1.m hh).face a = (eraseCenter s1.m hh).face b := by
    intro a b e; simp only [eraseCenter, e]
  have frm : ∀ d, d ∈ ((around (eraseCenter s1.m hh).h hN).map s1.m.opp).filter
        (fun d => !(Traversal.set s1.flag (s1.m.face hh) Flag.splittable ((eraseCenter s1.m hh).face d)).conquered) ↔
      ∃ x ∈ (eraseCenter s1.m hh).darts, (eraseCenter s1.m hh).face x = s1.m.face hh ∧ d = s1.m.opp x ∧
        (Traversal.set s1.flag (s1.m.face hh) Flag.splittable ((eraseCenter s1.m hh).face d)).conquered = false := by
    intro d
    rw [List.mem_filter, List.mem_map]
    constructor
    · rintro ⟨⟨x, hx, rfl⟩, h2⟩
      obtain ⟨h3, h4⟩ := (mem_around st.wf'.h hNk x).mp hx
      exact ⟨x, h3, h4.trans hNf, rfl, by simpa using h2⟩
    · rintro ⟨x, h1, h2, rfl, h3⟩
      exact ⟨⟨x, (mem_around st.wf'.h hNk x).mpr ⟨h1, h2.trans hNf.symm⟩, rfl⟩, by simpa using h3⟩
  -- halfedges of the new facet
  have newF : ∀ x ∈ (eraseCenter s1.m hh).darts, (eraseCenter s1.m hh).face x = s1.m.face hh →
      ∃ j < minimalPeriod s.m.rot (s.m.opp hh), s1.m.next (hj { s with queue := q } hh j) = x := by
    intro x hx hf
    obtain ⟨h1, ⟨hr, _, _⟩ | ⟨_, e1, e2, _⟩⟩ := kind x hx
    · obtain ⟨o, ho, hs, e⟩ := st.ring_out h1 (by rw [hv]; exact hr)
      rw [hv] at hs
      obtain ⟨j, hjl, e2⟩ := ridx o ho hs
      exact ⟨j, hjl, by rw [e2, e]⟩
    · rw [e1] at hf; exact absurd hf e2
  have szF : ((eraseCenter s1.m hh).darts.filter (fun x => (eraseCenter s1.m hh).face x = s1.m.face hh)).card ≤
      minimalPeriod s.m.rot (s.m.opp hh) := by
    have hsub : (eraseCenter s1.m hh).darts.filter (fun x => (eraseCenter s1.m hh).face x = s1.m.face hh) ⊆
        (Finset.range (minimalPeriod s.m.rot (s.m.opp hh))).image (fun j => s1.m.next (hj { s with queue := q } hh j)) := by
      intro x hx
      obtain ⟨h1, h2⟩ := Finset.mem_filter.mp hx
      obtain ⟨j, h3, h4⟩ := newF x h1 h2
      exact Finset.mem_image.mpr ⟨j, Finset.mem_range.mpr h3, h4⟩
    refine le_trans (Finset.card_le_card hsub) (le_trans Finset.card_image_le ?_)
    rw [Finset.card_range]
  have addv : ∀ d ∈ s1.m.darts, s1.added d = true → s1.conq (s1.m.vert d) = true ∧
      s1.m.vert d ≠ s.m.vert hh := by
    intro d hd ha
    by_cases hd0 : d ∈ s.m.darts
    · have ha0 : s.added d = true := by
        rcases CI.added d hd ha with hx | hx
        · exact absurd hd0 hx
        · exact hx
      obtain ⟨a1, _⟩ := I.addc d hd0 ha0
      rw [(sub d hd0).2.2]
      refine ⟨CI.conq0 _ a1, fun e => ?_⟩
      rw [e, hvc] at a1; exact absurd a1 (by decide)
    · refine ⟨?_, fun e => hd0 (inn d hd e).1⟩
      obtain ⟨j, hjl, p, hp, hpr, hx⟩ := CI.new d hd hd0
      rcases hx with ⟨_, e, _⟩ | ⟨e, _, _⟩
      · rw [e]
        have psrc : s.m.src p = s.m.vert hh := by
          have := I.wf.src_rot hp
          rw [← this]
          have hpr' : s.m.rot p = hj { s with queue := q } hh j := hpr
          rw [hpr', H_src j]
        obtain ⟨j', hj', e2⟩ := ring_index I.wf (I.wf.opp_mem hhm) hp (by rw [psrc, I.wf.src_opp hhm])
        rw [← e2]
        exact CI.conq j' hj'
      · rw [e]; exact CI.conq j hjl
  have addo1 := CI.addo I.addo
  obtain ⟨R, c, hR, L, hrem⟩ := I.level
  obtain ⟨R', hR', L1⟩ := CI.level M R c L
  refine ⟨⟨st.wf', ?_, ?_, ?_, ?_, ?_, ?_, ?_, ?_, ?_, ?_, ?_, ?_, ?_⟩, ?_⟩
  · -- conn
    refine st.conn' (CI.conn h0 I.conn) ?_
    rw [st.mem_iff, hv]
    refine ⟨(sub h0 I.conn.1).1, ?_, ?_⟩
    · rw [(sub h0 I.conn.1).2.2]; exact hv1.symm
    · intro e; exact hv0 (out h0 (sub h0 I.conn.1).1 e).2.symm
  · -- dep
    obtain ⟨d1, d2⟩ := I.dep
    refine ⟨?_, ?_⟩
    · rw [← d1]
      change s1.m.vert (s1.m.opp h0) = s.m.vert (s.m.opp h0)
      rw [(sub h0 I.conn.1).2.1, (sub _ (I.wf.opp_mem I.conn.1)).2.2]
    · rw [← d2]; exact (sub h0 I.conn.1).2.2
  · -- vcon
    intro d hd hc
    change s1.conq (s1.m.vert d) = true
    obtain ⟨h1, ⟨hr, _, _⟩ | ⟨_, _, _, e⟩⟩ := kind d hd
    · obtain ⟨o1, o2⟩ := st.opp_in h1 (by rw [hv]; exact hr)
      rw [hv] at o2
      obtain ⟨j, hjl, e⟩ := ridx _ o1 o2
      have := CI.conq j hjl
      rw [e] at this
      have e2 : s1.m.vert (s1.m.opp (s1.m.next d)) = s1.m.vert d := CI.wf.src_next d h1
      rw [← e2, ← e, (sub _ (H_mem j)).2.2, e]
      exact this
    · change (Traversal.set s1.flag (s1.m.face hh) Flag.splittable ((eraseCenter s1.m hh).face d)).conquered = true at hc
      rw [e] at hc
      obtain ⟨a1, a2, _⟩ := oldc d h1 hc
      rw [(sub d a1).2.2]
      exact CI.conq0 _ (I.vcon d a1 (by rw [a2]; exact hc))
  · -- queue
    intro x hx
    change x ∈ q ++ _ at hx
    refine ⟨?_, Or.inl ?_⟩ <;> rcases List.mem_append.mp hx with hx | hx
    · obtain ⟨b1, b2⟩ := I.que x (by rw [hq]; exact List.mem_cons_of_mem _ hx)
      have hne : s.queue ≠ [x] := by
        rw [hq]; intro e
        have : q = [] := by injection e
        rw [this] at hx; exact absurd hx (by simp)
      have b3 := b2.resolve_right hne
      have := oppk _ (vne _ (I.wf.opp_mem b1) b3)
      rwa [(sub _ (I.wf.opp_mem b1)).2.1, I.wf.opp_opp b1] at this
    · obtain ⟨y, hy, _, rfl, _⟩ := (frm x).mp hx
      exact oppk y hy
    · obtain ⟨b1, b2⟩ := I.que x (by rw [hq]; exact List.mem_cons_of_mem _ hx)
      have hne : s.queue ≠ [x] := by
        rw [hq]; intro e
        have : q = [] := by injection e
        rw [this] at hx; exact absurd hx (by simp)
      have b3 := b2.resolve_right hne
      change (Traversal.set s1.flag (s1.m.face hh) Flag.splittable ((eraseCenter s1.m hh).face (s1.m.opp x))).conquered = true
      rw [(sub x b1).2.1, oldk _ (I.wf.opp_mem b1) (vne _ (I.wf.opp_mem b1) b3) b3]
      exact b3
    · obtain ⟨y, hy, hf, rfl, _⟩ := (frm x).mp hx
      change (Traversal.set s1.flag (s1.m.face hh) Flag.splittable ((eraseCenter s1.m hh).face (s1.m.opp (s1.m.opp y)))).conquered = true
      rw [CI.wf.opp_opp (st.mem_old hy), hf, flF]; rfl
  · -- coverage
    intro d hd hc hn
    change (Traversal.set s1.flag (s1.m.face hh) Flag.splittable ((eraseCenter s1.m hh).face d)).conquered = true at hc
    change (Traversal.set s1.flag (s1.m.face hh) Flag.splittable ((eraseCenter s1.m hh).face (s1.m.opp d))).conquered = false at hn
    change ∃ x ∈ q ++ _, (eraseCenter s1.m hh).face x = (eraseCenter s1.m hh).face (s1.m.opp d)
    obtain ⟨h1, ⟨hr, hf, _⟩ | ⟨_, _, _, e⟩⟩ := kind d hd
    · exact ⟨s1.m.opp d, List.mem_append_right _ ((frm _).mpr ⟨d, hd, hf, rfl, hn⟩), rfl⟩
    · rw [e] at hc
      obtain ⟨a1, a2, a3⟩ := oldc d h1 hc
      have od := I.wf.opp_mem a1
      have eo : s1.m.opp d = s.m.opp d := (sub d a1).2.1
      have ok := oppk d hd
      obtain ⟨g1, ⟨_, gf, _⟩ | ⟨gr, ge1, ge2, ge3⟩⟩ := kind _ ok
      · rw [gf, flF] at hn; exact absurd hn (by decide)
      rw [ge3] at hn
      have hn0 : (s.flag (s.m.face (s.m.opp d))).conquered = false := by
        rw [← flag1 _ od, ← eo]; exact hn
      obtain ⟨x, hx, hxf⟩ := I.cov d a1 (by rw [a2]; exact hc) hn0
      have xm := (I.que x hx).1
      rcases CI.cov _ g1 with ⟨b1, b2⟩ | ⟨o, ho, hs, b2⟩ | ⟨j, hjl, e', he', b1, b2⟩
      · rw [hq] at hx
        rcases List.mem_cons.mp hx with e2 | hx
        · exfalso
          apply ge2
          refine (b2 hh hhm ?_).symm
          change s.m.face hh = s.m.face (s1.m.opp d)
          rw [eo, ← hxf, e2, hhf]
        · refine ⟨x, List.mem_append_left _ hx, fK _ _ (b2 x xm ?_)⟩
          change s.m.face x = s.m.face (s1.m.opp d)
          rw [eo, hxf]
      · exfalso
        have ho1 := (sub o ho).1
        have hs1 : s1.m.src o = s1.m.vert hh := by
          rw [hv]
          change s1.m.vert (s1.m.opp o) = _
          rw [(sub o ho).2.1, (sub _ (I.wf.opp_mem ho)).2.2]; exact hs
        obtain ⟨c1, c2, c3⟩ := st.out_facts ho1 hs1
        have n1 := CI.wf.next_mem ho1
        have n2 := CI.wf.next_mem n1
        have : (s1.m.darts.filter (fun x => s1.m.vert x = s1.m.vert hh ∧ s1.m.face x = s1.m.face (s1.m.opp d))) ≠ ∅ := by
          rw [← Finset.nonempty_iff_ne_empty]
          refine ⟨_, Finset.mem_filter.mpr ⟨n2, c2, ?_⟩⟩
          rw [CI.wf.face_next n1, CI.wf.face_next ho1, b2]
        rw [st.incident_iff g1] at this
        have hk' := (st.mem_iff _).mp ok
        rcases this with t | t | t
        · exact hk'.2.1 t
        · exact hk'.2.2 t
        · exact gr (by rw [← hv]; exact t)
      · have hs1 : s1.m.src (hj { s with queue := q } hh j) = s1.m.vert hh := by
          rw [hv]
          change s1.m.vert (s1.m.opp _) = _
          rw [(sub _ (H_mem j)).2.1, (sub _ (I.wf.opp_mem (H_mem j))).2.2]; exact H_src j
        obtain ⟨c1, c2, c3⟩ := st.out_facts (sub _ (H_mem j)).1 hs1
        have e3 : e' = s1.m.opp (s1.m.next (hj { s with queue := q } hh j)) := by
          rw [← b2, CI.wf.opp_opp he']
        have e4 := fK _ _ b1
        refine ⟨e', List.mem_append_right _ ((frm e').mpr ⟨_, c1, ?_, e3, ?_⟩), e4⟩
        · exact st.face_ring (st.mem_old c1) c2
        · rw [e4, ge3]; exact hn
  · -- something is conquered
    right
    refine ⟨hN, hNk, ?_⟩
    change (Traversal.set s1.flag (s1.m.face hh) Flag.splittable ((eraseCenter s1.m hh).face hN)).conquered = true
    rw [hNf, flF]; rfl
  · -- added edges
    intro d hd ha
    have hd1 := st.mem_old hd
    refine ⟨(addv d hd1 ha).1, ?_⟩
    change Traversal.set s1.flag (s1.m.face hh) Flag.splittable ((eraseCenter s1.m hh).face d) = .splittable ∨
      Traversal.set s1.flag (s1.m.face hh) Flag.splittable ((eraseCenter s1.m hh).face (s1.m.opp d)) = .splittable
    by_cases hd0 : d ∈ s.m.darts
    · have ha0 : s.added d = true := by
        rcases CI.added d hd1 ha with hx | hx
        · exact absurd hd0 hx
        · exact hx
      rcases (I.addc d hd0 ha0).2 with e | e
      · left; rw [oldk d hd0 hd (by rw [e]; rfl), e]
      · right
        have ok := oppk d hd
        rw [(sub d hd0).2.1] at ok ⊢
        rw [oldk _ (I.wf.opp_mem hd0) ok (by rw [e]; rfl), e]
    · obtain ⟨j, hjl, p, hp, hpr, hx⟩ := CI.new d hd1 hd0
      have hs1 : s1.m.src (hj { s with queue := q } hh j) = s1.m.vert hh := by
        rw [hv]
        change s1.m.vert (s1.m.opp _) = _
        rw [(sub _ (H_mem j)).2.1, (sub _ (I.wf.opp_mem (H_mem j))).2.2]; exact H_src j
      obtain ⟨c1, c2, c3⟩ := st.out_facts (sub _ (H_mem j)).1 hs1
      have := st.face_ring (st.mem_old c1) c2
      rcases hx with ⟨_, _, e⟩ | ⟨_, _, e⟩
      · left; rw [e, this, flF]
      · right; rw [e, this, flF]
  · -- both halfedges of an added edge
    intro d hd ha
    exact addo1 d (st.mem_old hd) ha
  · -- the level
    refine ⟨R', Traversal.set c (s1.m.face hh) (s.m.vert hh), hR'.trans hR, ?_, ?_⟩
    · refine L1.erase (S' := fun f => Traversal.set s1.flag (s1.m.face hh) Flag.splittable f = .splittable) st ?_ ?_ flF ?_ ?_ ?_
      · intro d hd e
        rw [hv] at e
        obtain ⟨a1, a2⟩ := inn d hd e
        rw [flag1 d a1, show s.flag (s.m.face d) = .unknown from H.un d a1 a2]; decide
      · intro d hd ha
        rw [hv]
        exact ⟨(addv d hd ha).2, (addv _ (CI.wf.opp_mem hd) (addo1 d hd ha)).2⟩
      · intro d hd hne
        change Traversal.set s1.flag (s1.m.face hh) Flag.splittable (s1.m.face d) = _ ↔ _
        rw [fl, if_neg hne]
      · unfold Traversal.set; rw [if_pos rfl, hv]
      · intro f hne; unfold Traversal.set; rw [if_neg hne]
    · intro d hd hsp
      change Traversal.set s1.flag (s1.m.face hh) Flag.splittable ((eraseCenter s1.m hh).face d) = .splittable at hsp
      change Traversal.set s1.rem (s1.m.face hh) (some (s.m.pos (s.m.vert hh))) ((eraseCenter s1.m hh).face d) = _
      obtain ⟨h1, ⟨hr, hf, _⟩ | ⟨_, ef, ene, e⟩⟩ := kind d hd
      · rw [hf]; unfold Traversal.set; rw [if_pos rfl, if_pos rfl, I.pos]
      · rw [e] at hsp
        obtain ⟨a1, a2, a3⟩ := oldc d h1 (by rw [hsp]; rfl)
        rw [ef]
        unfold Traversal.set
        rw [if_neg ene, if_neg ene, a3, ← hrem d a1 (by rw [a2]; exact hsp)]
        have := (CI.flag d a1).2
        rw [a3] at this
        exact this
  · exact CI.pos.trans I.pos
  · -- degrees
    intro D hD hall d hd
    have hall1 := CI.degs D (by omega) (I.degs D hD hall)
    rw [deg_card st.wf' hd]
    obtain ⟨h1, ⟨hr, hf, _⟩ | ⟨_, ef, ene, e⟩⟩ := kind d hd
    · rw [hf]; exact le_trans szF (le_trans k8 hD)
    · refine le_trans ?_ (hall1 d h1)
      rw [deg_card CI.wf h1, ef]
      apply Finset.card_le_card
      intro x hx
      obtain ⟨b1, b2⟩ := Finset.mem_filter.mp hx
      refine Finset.mem_filter.mpr ⟨st.mem_old b1, ?_⟩
      obtain ⟨_, ⟨_, hf, _⟩ | ⟨_, ef', _, _⟩⟩ := kind x b1
      · rw [hf] at b2; exact absurd b2.symm ene
      · rw [← ef']; exact b2
  · -- vertices
    have hsub : (eraseCenter s1.m hh).darts.image (eraseCenter s1.m hh).vert ⊆ (s.m.darts.image s.m.vert).erase (s.m.vert hh) := by
      intro u hu
      obtain ⟨d, hd, rfl⟩ := Finset.mem_image.mp hu
      obtain ⟨h1, h2, _⟩ := (st.mem_iff d).mp hd
      rw [hv] at h2
      obtain ⟨e, he, h3⟩ := CI.vset d h1
      exact Finset.mem_erase.mpr ⟨h2, Finset.mem_image.mpr ⟨e, he, h3⟩⟩
    have hsup : (s.m.darts.image s.m.vert).erase (s.m.vert hh) ⊆ (eraseCenter s1.m hh).darts.image (eraseCenter s1.m hh).vert := by
      intro u hu
      obtain ⟨hne, hu⟩ := Finset.mem_erase.mp hu
      obtain ⟨e, he, rfl⟩ := Finset.mem_image.mp hu
      obtain ⟨e1, e2, e3⟩ := sub e he
      by_cases hsv : s1.m.src e = s1.m.vert hh
      · have ho := st.opp_mem' _ (st.out_facts e1 hsv).1
        refine Finset.mem_image.mpr ⟨_, ho, ?_⟩
        change s1.m.src (s1.m.next e) = _
        rw [CI.wf.src_next e e1, e3]
      · refine Finset.mem_image.mpr ⟨e, (st.mem_iff e).mpr ⟨e1, ?_, hsv⟩, e3⟩
        rw [hv, e3]; exact hne
    have c1 := Finset.card_le_card hsub
    have c1' := Finset.card_le_card hsup
    have c2 := Finset.card_erase_of_mem (Finset.mem_image_of_mem s.m.vert hhm)
    have c3 : 0 < (s.m.darts.image s.m.vert).card := Finset.card_pos.mpr ⟨_, Finset.mem_image_of_mem s.m.vert hhm⟩
    have c4 := I.verts
    change ((eraseCenter s1.m hh).darts.image (eraseCenter s1.m hh).vert).card + (s.nrem + 1) = _
    omega
  · intro e
    exact absurd e (by change s.nrem + 1 ≠ 0; omega)
  · -- the measure
    have fsz : (((around (eraseCenter s1.m hh).h hN).map s1.m.opp).filter
        (fun d => !(Traversal.set s1.flag (s1.m.face hh) Flag.splittable ((eraseCenter s1.m hh).face d)).conquered)).length ≤
        minimalPeriod s.m.rot (s.m.opp hh) := by
      refine le_trans (List.length_filter_le _ _) ?_
      rw [List.length_map, around_length st.wf'.h hNk]
      change ((eraseCenter s1.m hh).darts.filter (fun x => (eraseCenter s1.m hh).face x = (eraseCenter s1.m hh).face hN)).card ≤ _
      rw [hNf]; exact szF
    -- three kinds of halfedges are no longer unconquered
    let O : Finset Nat := (Finset.range (minimalPeriod s.m.rot (s.m.opp hh))).image (hj { s with queue := q } hh)
    have Oc : O.card = minimalPeriod s.m.rot (s.m.opp hh) := by
      rw [Finset.card_image_of_injOn, Finset.card_range]
      intro a ha b hb hab
      rw [Finset.coe_range] at ha hb
      exact iterate_injOn_Iio_minimalPeriod (f := s.m.rot) (x := s.m.opp hh) ha hb hab
    have Om : ∀ o ∈ O, o ∈ s1.m.darts ∧ s1.m.src o = s1.m.vert hh := by
      intro o ho
      obtain ⟨j, _, rfl⟩ := Finset.mem_image.mp ho
      refine ⟨(sub _ (H_mem j)).1, ?_⟩
      rw [hv]
      change s1.m.vert (s1.m.opp _) = _
      rw [(sub _ (H_mem j)).2.1, (sub _ (I.wf.opp_mem (H_mem j))).2.2]; exact H_src j
    let A := O.image s1.m.opp
    let B := O.image s1.m.next
    have Ac : A.card = minimalPeriod s.m.rot (s.m.opp hh) := by
      rw [← Oc]
      refine Finset.card_image_of_injOn ?_
      intro a ha b hb hab
      have := congrArg s1.m.opp hab
      rwa [CI.wf.opp_opp (Om a ha).1, CI.wf.opp_opp (Om b hb).1] at this
    have Bc : B.card = minimalPeriod s.m.rot (s.m.opp hh) := by
      rw [← Oc]
      refine Finset.card_image_of_injOn ?_
      intro a ha b hb hab
      exact CI.wf.next_inj (Om a ha).1 (Om b hb).1 hab
    let Un1 := s1.m.darts.filter (fun d => (s1.flag (s1.m.face d)).conquered = false)
    let Un2 := (eraseCenter s1.m hh).darts.filter (fun d =>
      (Traversal.set s1.flag (s1.m.face hh) Flag.splittable ((eraseCenter s1.m hh).face d)).conquered = false)
    have un0 : ∀ d ∈ s1.m.darts, s1.m.vert d = s1.m.vert hh → s1.flag (s1.m.face d) = .unknown := by
      intro d hd e
      rw [hv] at e
      obtain ⟨a1, a2⟩ := inn d hd e
      rw [flag1 d a1]; exact H.un d a1 a2
    have BK : ∀ x ∈ B, x ∈ (eraseCenter s1.m hh).darts ∧ (eraseCenter s1.m hh).face x = s1.m.face hh := by
      intro x hx
      obtain ⟨o, ho, rfl⟩ := Finset.mem_image.mp hx
      obtain ⟨c1, c2, c3⟩ := st.out_facts (Om o ho).1 (Om o ho).2
      exact ⟨c1, st.face_ring (st.mem_old c1) c2⟩
    have d1 : Disjoint O A := by
      rw [Finset.disjoint_left]
      intro x hx hx'
      obtain ⟨o, ho, rfl⟩ := Finset.mem_image.mp hx'
      have e1 := (Om _ hx).2
      rw [CI.wf.src_opp (Om o ho).1] at e1
      exact CI.wf.noloop _ (Om o ho).1 (by rw [(Om o ho).2, e1])
    have d2 : Disjoint (O ∪ A) B := by
      rw [Finset.disjoint_left]
      intro x hx hx'
      have hk := (st.mem_iff x).mp (BK x hx').1
      rcases Finset.mem_union.mp hx with hx | hx
      · exact hk.2.2 (Om x hx).2
      · obtain ⟨o, ho, rfl⟩ := Finset.mem_image.mp hx
        exact hk.2.1 (Om o ho).2
    have d3 : Disjoint (O ∪ A ∪ B) Un2 := by
      rw [Finset.disjoint_left]
      intro x hx hx'
      obtain ⟨u1, u2⟩ := Finset.mem_filter.mp hx'
      have hk := (st.mem_iff x).mp u1
      rcases Finset.mem_union.mp hx with hx | hx
      · rcases Finset.mem_union.mp hx with hx | hx
        · exact hk.2.2 (Om x hx).2
        · obtain ⟨o, ho, rfl⟩ := Finset.mem_image.mp hx
          exact hk.2.1 (Om o ho).2
      · rw [(BK x hx).2, flF] at u2; exact absurd u2 (by decide)
    have hsub : O ∪ A ∪ B ∪ Un2 ⊆ Un1 := by
      intro x hx
      refine Finset.mem_filter.mpr ?_
      rcases Finset.mem_union.mp hx with hx | hx
      · have inn' : ∀ o ∈ O, s1.flag (s1.m.face o) = .unknown := by
          intro o ho
          obtain ⟨c1, c2, c3⟩ := st.out_facts (Om o ho).1 (Om o ho).2
          have n1 := CI.wf.next_mem (Om o ho).1
          have := un0 _ (CI.wf.next_mem n1) c2
          rwa [CI.wf.face_next n1, CI.wf.face_next (Om o ho).1] at this
        rcases Finset.mem_union.mp hx with hx | hx
        · rcases Finset.mem_union.mp hx with hx | hx
          · exact ⟨(Om x hx).1, by rw [inn' x hx]; rfl⟩
          · obtain ⟨o, ho, rfl⟩ := Finset.mem_image.mp hx
            exact ⟨CI.wf.opp_mem (Om o ho).1, by rw [un0 _ (CI.wf.opp_mem (Om o ho).1) (Om o ho).2]; rfl⟩
        · obtain ⟨o, ho, rfl⟩ := Finset.mem_image.mp hx
          exact ⟨CI.wf.next_mem (Om o ho).1, by rw [CI.wf.face_next (Om o ho).1, inn' o ho]; rfl⟩
      · obtain ⟨u1, u2⟩ := Finset.mem_filter.mp hx
        obtain ⟨h1, ⟨_, hf, _⟩ | ⟨_, _, _, e⟩⟩ := kind x u1
        · rw [hf, flF] at u2; exact absurd u2 (by decide)
        · rw [e] at u2; exact ⟨h1, u2⟩
    have cc := Finset.card_le_card hsub
    rw [Finset.card_union_of_disjoint d3, Finset.card_union_of_disjoint d2, Finset.card_union_of_disjoint d1, Oc, Ac, Bc] at cc
    have c1 : Un1.card ≤ unconq s + 2 * minimalPeriod s.m.rot (s.m.opp hh) := CI.cnt
    have c0 : 0 < minimalPeriod s.m.rot (s.m.opp hh) :=
      (period_spec (fun x hx => I.wf.rot_mem hx) (fun x hx y hy => I.wf.rot_inj hx hy) (I.wf.opp_mem hhm)).1
    change (q ++ _).length + Un2.card < s.queue.length + unconq s
    rw [hq, List.length_append, List.length_cons]
    omega

/-- Dropping a gate whose facet has been conquered meanwhile. -/
theorem Inv.pop {M : Mesh P} {h0 : Nat} {s : St P} (I : Inv M h0 s) {h : Nat} {q : List Nat} (hq : s.queue = h :: q)
    (hc : (s.flag (s.m.face h)).conquered = true) : Inv M h0 { s with queue := q } := by
  have hh : h ∈ s.m.darts := (I.que h (by rw [hq]; exact List.mem_cons_self)).1
  refine { I with que := ?_, cov := ?_, any := Or.inr ⟨h, hh, hc⟩ }
  · intro x hx
    obtain ⟨h1, h2⟩ := I.que x (by rw [hq]; exact List.mem_cons_of_mem _ hx)
    refine ⟨h1, Or.inl ?_⟩
    rcases h2 with h2 | h2
    · exact h2
    · rw [hq] at h2
      have : q = [] := by injection h2
      have hx' : x ∈ q := hx
      rw [this] at hx'; exact absurd hx' (by simp)
  · intro d hd h1 h2
    obtain ⟨x, hx, hxf⟩ := I.cov d hd h1 h2
    rw [hq] at hx
    rcases List.mem_cons.mp hx with e | hx
    · rw [e] at hxf
      change (s.flag (s.m.face (s.m.opp d))).conquered = false at h2
      rw [← hxf, hc] at h2; exact absurd h2 (by decide)
    · exact ⟨x, hx, hxf⟩

/-- From any state with the invariant the conquest ends, with the invariant, and an empty queue. -/
theorem Inv.conquest {M : Mesh P} {h0 : Nat} (convex : Mesh P → Nat → Bool) (n : Nat) {s : St P} (I : Inv M h0 s)
    (hn : s.queue.length + unconq s < n) :
    ∃ s', conquest convex (M.src h0) (M.vert h0) n s = some s' ∧ Inv M h0 s' ∧ s'.queue = [] := by
  induction n generalizing s with
  | zero => omega
  | succ n ih =>
    rw [Codec.conquest]
    cases hq : s.queue with
    | nil => exact ⟨s, rfl, I, hq⟩
    | cons h q =>
      have hh : h ∈ s.m.darts := (I.que h (by rw [hq]; exact List.mem_cons_self)).1
      have hnot : ¬ h ∉ s.m.darts := not_not.mpr hh
      simp only [hnot, if_false]
      by_cases hc : (s.flag (s.m.face h)).conquered = true
      · rw [if_pos hc]
        have I' := I.pop hq hc
        refine ih I' ?_
        rw [hq, List.length_cons] at hn
        change q.length + unconq s < n
        omega
      · rw [if_neg hc]
        have hc' : (s.flag (s.m.face h)).conquered = false := by rwa [Bool.not_eq_true] at hc
        have e : firstRemovable convex (M.src h0) (M.vert h0) { s with queue := q } h =
            (around s.m.h h).tail.find? (isRemovable convex (M.src h0) (M.vert h0) s) := rfl
        rw [e]
        cases hf : (around s.m.h h).tail.find? (isRemovable convex (M.src h0) (M.vert h0) s) with
        | none =>
          obtain ⟨I', hlt⟩ := I.mark hq hc' _ rfl
          exact ih I' (by omega)
        | some hh' =>
          have hmem : hh' ∈ around s.m.h h := List.mem_of_mem_tail (List.mem_of_find?_eq_some hf)
          obtain ⟨m1, m2⟩ := (mem_around I.wf.h hh hh').mp hmem
          obtain ⟨s', r1, I', hlt⟩ := I.cut hq m1 m2 (List.find?_some hf)
          simp only [r1, Option.bind_eq_bind, Option.bind_some]
          exact ih I' (by omega)

/-- An empty queue means everything is conquered. -/
theorem Inv.all {M : Mesh P} {h0 : Nat} {s : St P} (I : Inv M h0 s) (hq : s.queue = []) :
    ∀ d ∈ s.m.darts, s.flag (s.m.face d) ≠ .unknown := by
  obtain ⟨a, ha, hac⟩ : ∃ d ∈ s.m.darts, (s.flag (s.m.face d)).conquered = true := I.any.resolve_left (fun h => h hq)
  have main : ∀ d, Reach s.m.h a d → d ∈ s.m.darts ∧ (s.flag (s.m.face d)).conquered = true := by
    intro d hr
    induction hr with
    | refl => exact ⟨ha, hac⟩
    | tail _ hstep ih =>
      obtain ⟨b1, b2⟩ := ih
      rcases hstep with rfl | rfl
      · exact ⟨I.wf.next_mem b1, by
          change (s.flag (s.m.face (s.m.next _))).conquered = true
          rw [I.wf.face_next b1]; exact b2⟩
      · refine ⟨I.wf.opp_mem b1, ?_⟩
        by_contra hn
        rw [Bool.not_eq_true] at hn
        obtain ⟨q, hq', _⟩ := I.cov _ b1 b2 hn
        rw [hq] at hq'; exact absurd hq' (by simp)
  intro d hd e
  have := (main d ((reach_symm I.wf.h I.conn.1 (I.conn.2 a ha)).trans (I.conn.2 d hd))).2
  rw [e] at this; exact absurd this (by decide)

end TDP.Codec
