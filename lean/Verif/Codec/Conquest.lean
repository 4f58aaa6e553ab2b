import Verif.Codec.Cut
/-! The decimation conquest keeps the mesh well formed, ends, and conquers every facet. -/
namespace TDP.Codec
open TDP.Traversal Function

variable {P : Type}

theorem prev_spec {m : Mesh P} (hm : m.WF) {h : Nat} (hh : h ∈ m.darts) : m.prev h ∈ m.darts ∧ m.next (m.prev h) = h := by
  have h3 := period3 hm hh
  have e : m.prev h = m.next^[minimalPeriod m.next h - 1] h := by
    unfold Mesh.prev
    rw [around_eq' hm hh]
    obtain ⟨k, hk⟩ : ∃ k, minimalPeriod m.next h = k + 1 := ⟨minimalPeriod m.next h - 1, by omega⟩
    rw [hk, List.range_succ, List.map_append, List.map_singleton, List.getLastD_concat]
    simp
  rw [e]
  refine ⟨iterate_mem hm.h.next_mem hh _, ?_⟩
  rw [← iterate_succ_apply' m.next]
  have : (minimalPeriod m.next h - 1).succ = minimalPeriod m.next h := by omega
  rw [this]; exact iterate_minimalPeriod

theorem ring_eq {m : Mesh P} (hm : m.WF) {d : Nat} (hd : d ∈ m.darts) :
    m.ring d = (List.range (minimalPeriod m.rot d)).map (fun i => m.rot^[i] d) := by
  have hm1 : ∀ x ∈ m.darts, m.rot x ∈ m.darts := fun x hx => hm.rot_mem hx
  have hi1 : ∀ x ∈ m.darts, ∀ y ∈ m.darts, m.rot x = m.rot y → x = y := fun x hx y hy => hm.rot_inj hx hy
  obtain ⟨h1, h2⟩ := period_spec hm1 hi1 hd
  have := loopFrom_eq hm1 hi1 hd m.darts.card 0 h1 (by omega)
  unfold Mesh.ring
  simpa using this

theorem ring_length {m : Mesh P} (hm : m.WF) {d : Nat} (hd : d ∈ m.darts) : (m.ring d).length = minimalPeriod m.rot d := by
  rw [ring_eq hm hd]; simp

theorem src_iterate {m : Mesh P} (hm : m.WF) {d : Nat} (hd : d ∈ m.darts) (i : Nat) : m.src (m.rot^[i] d) = m.src d := by
  induction i with
  | zero => rfl
  | succ i ih => rw [iterate_succ_apply', hm.src_rot (iterate_mem (fun x hx => hm.rot_mem hx) hd i)]; exact ih

theorem mem_ring {m : Mesh P} (hm : m.WF) {d : Nat} (hd : d ∈ m.darts) (x : Nat) :
    x ∈ m.ring d ↔ x ∈ m.darts ∧ m.src x = m.src d := by
  rw [ring_eq hm hd, List.mem_map]
  constructor
  · rintro ⟨i, _, rfl⟩
    exact ⟨iterate_mem (fun x hx => hm.rot_mem hx) hd i, src_iterate hm hd i⟩
  · rintro ⟨hx, hs⟩
    obtain ⟨i, hi⟩ := hm.one_orbit d hd x hx hs.symm
    obtain ⟨h1, _⟩ := period_spec (fun x hx => hm.rot_mem hx) (fun x hx y hy => hm.rot_inj hx hy) hd
    exact ⟨i % minimalPeriod m.rot d, List.mem_range.mpr (Nat.mod_lt _ h1), by rw [iterate_mod_minimalPeriod_eq, hi]⟩

/-- A ring halfedge by its index below the degree. -/
theorem ring_index {m : Mesh P} (hm : m.WF) {d x : Nat} (hd : d ∈ m.darts) (hx : x ∈ m.darts) (hs : m.src x = m.src d) :
    ∃ i < minimalPeriod m.rot d, m.rot^[i] d = x := by
  have := (mem_ring hm hd x).mpr ⟨hx, hs⟩
  rw [ring_eq hm hd, List.mem_map] at this
  obtain ⟨i, hi, h⟩ := this
  exact ⟨i, List.mem_range.mp hi, h⟩

theorem conquered_false {f : Flag} : f.conquered = false ↔ f = .unknown := by cases f <;> simp [Flag.conquered]

section
variable {s0 : St P} {startH : Nat} (H : CutHyp s0 startH)
include H

/-- After the loop the vertex is surrounded by triangles. -/
theorem CutHyp.star {s1 : St P} (I : CutInv s0 startH (minimalPeriod s0.m.rot (s0.m.opp startH)) s1) :
    Star s1.m startH ∧ s1.m.vert startH = s0.m.vert startH ∧
    (∀ d ∈ s1.m.darts, s1.m.src d = s0.m.vert startH → d ∈ s0.m.darts ∧ s0.m.src d = s0.m.vert startH) ∧
    (∀ d ∈ s1.m.darts, s1.m.vert d = s0.m.vert startH → d ∈ s0.m.darts ∧ s0.m.vert d = s0.m.vert startH) := by
  obtain ⟨hs1, _, hv1⟩ := I.sub startH H.hs
  have newne : ∀ d ∈ s1.m.darts, d ∉ s0.m.darts → s1.m.src d ≠ s0.m.vert startH ∧ s1.m.vert d ≠ s0.m.vert startH := by
    intro d hd hn
    obtain ⟨j, _, p, hp, hr, h⟩ := I.new d hd hn
    have a1 : s0.m.vert (hj s0 startH j) ≠ s0.m.vert startH := fun e => by
      have := H.wf.noloop _ (H.mem j); rw [H.src j, e] at this; exact this rfl
    have psrc : s0.m.src p = s0.m.vert startH := by rw [← H.wf.src_rot hp, hr, H.src j]
    have a2 : s0.m.vert p ≠ s0.m.vert startH := fun e => by
      have := H.wf.noloop _ hp; rw [psrc, e] at this; exact this rfl
    rcases h with ⟨h1, h2, _⟩ | ⟨h1, h2, _⟩
    · rw [h1, h2]; exact ⟨a1, a2⟩
    · rw [h1, h2]; exact ⟨a2, a1⟩
  have out : ∀ d ∈ s1.m.darts, s1.m.src d = s0.m.vert startH → d ∈ s0.m.darts ∧ s0.m.src d = s0.m.vert startH := by
    intro d hd hs
    have h0 : d ∈ s0.m.darts := by
      by_contra hn; exact (newne d hd hn).1 hs
    refine ⟨h0, ?_⟩
    rw [← hs]
    change s0.m.vert (s0.m.opp d) = s1.m.vert (s1.m.opp d)
    rw [(I.sub d h0).2.1, (I.sub _ (H.wf.opp_mem h0)).2.2]
  have inn : ∀ d ∈ s1.m.darts, s1.m.vert d = s0.m.vert startH → d ∈ s0.m.darts ∧ s0.m.vert d = s0.m.vert startH := by
    intro d hd hs
    have h0 : d ∈ s0.m.darts := by
      by_contra hn; exact (newne d hd hn).2 hs
    exact ⟨h0, by rw [← hs, (I.sub d h0).2.2]⟩
  have rot1 : ∀ d ∈ s0.m.darts, s0.m.src d = s0.m.vert startH → s1.m.rot d = s0.m.rot d := by
    intro d hd hs
    change s1.m.next (s1.m.opp d) = s0.m.next (s0.m.opp d)
    rw [(I.sub d hd).2.1]; exact I.rot _ (H.wf.opp_mem hd) hs
  refine ⟨⟨I.wf, hs1, ?_, ?_⟩, hv1, out, inn⟩
  · intro d hd hs
    rw [hv1] at hs
    obtain ⟨h0, h1⟩ := out d hd hs
    obtain ⟨i, hi, hx⟩ := ring_index H.wf (H.wf.opp_mem H.hs) h0 (by rw [h1, H.wf.src_opp H.hs])
    have := I.done i hi
    rw [show hj s0 startH i = d from hx] at this
    exact this
  · intro d hd hs
    rw [hv1] at hs
    obtain ⟨h0, h1⟩ := out d hd hs
    rw [rot1 d h0 h1, rot1 _ (H.wf.rot_mem h0) (by rw [H.wf.src_rot h0, h1])]
    exact H.ring3 d h0 h1

/-- The result of `vertexCut`. -/
theorem CutHyp.result : ∃ s1 hN, CutInv s0 startH (minimalPeriod s0.m.rot (s0.m.opp startH)) s1 ∧
    hN ∈ (eraseCenter s1.m startH).darts ∧ (eraseCenter s1.m startH).face hN = s1.m.face startH ∧
    s1.m.vert (s1.m.next hN) = s1.m.vert startH ∧
    vertexCut s0 startH = some
      { m := eraseCenter s1.m startH
        flag := Traversal.set s1.flag (s1.m.face startH) .splittable
        rem := Traversal.set s1.rem (s1.m.face startH) (some (s0.m.pos (s0.m.vert startH)))
        conq := s1.conq
        added := s1.added
        queue := s0.queue ++ ((around (eraseCenter s1.m startH).h hN).map s1.m.opp).filter
          (fun d => !(Traversal.set s1.flag (s1.m.face startH) .splittable ((eraseCenter s1.m startH).face d)).conquered)
        nrem := s0.nrem + 1 } := by
  obtain ⟨s1, h1, I⟩ := H.cut
  obtain ⟨st, hv, out, inn⟩ := H.star I
  obtain ⟨hp, hn⟩ := prev_spec I.wf st.hh
  have hr : s1.m.vert (s1.m.next (s1.m.prev startH)) = s1.m.vert startH := by rw [hn]
  have hk : s1.m.prev startH ∈ (eraseCenter s1.m startH).darts := by
    obtain ⟨o, ho, hs, e⟩ := st.ring_out hp hr
    rw [← e]; exact (st.out_facts ho hs).1
  have hf := st.face_ring hp hr
  refine ⟨s1, s1.m.prev startH, I, hk, hf, hr, ?_⟩
  unfold vertexCut
  rw [h1]
  simp only [Option.bind_eq_bind, Option.bind_some, hf, I.queue, I.nrem, I.pos, hv]
  rfl

end

/-- The conquest's invariant. `M` is the mesh at its start, `h0` the departure halfedge. -/
structure Inv (M : Mesh P) (h0 : Nat) (s : St P) : Prop where
  wf : s.m.WF
  conn : s.m.Conn h0
  dep : s.m.src h0 = M.src h0 ∧ s.m.vert h0 = M.vert h0
  vcon : ∀ d ∈ s.m.darts, (s.flag (s.m.face d)).conquered = true → s.conq (s.m.vert d) = true
  que : ∀ q ∈ s.queue, q ∈ s.m.darts ∧ ((s.flag (s.m.face (s.m.opp q))).conquered = true ∨ s.queue = [q])
  cov : ∀ d ∈ s.m.darts, (s.flag (s.m.face d)).conquered = true →
    (s.flag (s.m.face (s.m.opp d))).conquered = false → ∃ q ∈ s.queue, s.m.face q = s.m.face (s.m.opp d)
  any : s.queue ≠ [] ∨ ∃ d ∈ s.m.darts, (s.flag (s.m.face d)).conquered = true
  addc : ∀ d ∈ s.m.darts, s.added d = true → s.conq (s.m.vert d) = true ∧
    (s.flag (s.m.face d) = .splittable ∨ s.flag (s.m.face (s.m.opp d)) = .splittable)
  addo : ∀ d ∈ s.m.darts, s.added d = true → s.added (s.m.opp d) = true
  level : ∃ R c, R.pos = M.pos ∧ Level M R s.m (fun f => s.flag f = .splittable) c (fun d => s.added d = true) ∧
    ∀ d ∈ s.m.darts, s.flag (s.m.face d) = .splittable → s.rem (s.m.face d) = some (M.pos (c (s.m.face d)))
  pos : s.m.pos = M.pos
  degs : ∀ D, 8 ≤ D → (∀ d ∈ M.darts, M.deg d ≤ D) → ∀ d ∈ s.m.darts, s.m.deg d ≤ D
  verts : (s.m.darts.image s.m.vert).card + s.nrem = (M.darts.image M.vert).card
  same : s.nrem = 0 → s.m = M

/-- The beginning. -/
theorem Inv.init {M : Mesh P} (hM : M.WF) {h0 init : Nat} (hc : M.Conn h0) (hi : init ∈ M.darts) :
    Inv M h0 (beginConquest M init) where
  wf := hM
  conn := hc
  dep := ⟨rfl, rfl⟩
  vcon := fun d _ h => by simp [beginConquest, Flag.conquered] at h
  que := fun q hq => by
    have : q = init := by simpa [beginConquest] using hq
    exact ⟨this ▸ hi, Or.inr (by rw [this]; rfl)⟩
  cov := fun d _ h => by simp [beginConquest, Flag.conquered] at h
  any := Or.inl (by simp [beginConquest])
  addc := fun d _ h => by simp [beginConquest] at h
  addo := fun d _ h => by simp [beginConquest] at h
  level := by
    refine ⟨M, fun _ => 0, rfl, ⟨⟨fun d hd => hd, fun _ _ => rfl, fun _ _ => rfl, fun _ _ => rfl, fun _ _ _ => rfl,
      ?_, ?_, ?_, ?_, ?_, ?_, ?_, ?_, ?_, ?_, ?_, fun x hx hn => absurd hx hn⟩, ?_, fun d hd => (hM.fresh d hd).1, fun _ hd _ => hd⟩, ?_⟩
    all_goals first
      | (intro d hd hs; exact absurd hs (by simp [beginConquest]))
      | skip
    · refine ⟨fun d => ⟨fun h => ⟨h, by simp [beginConquest]⟩, fun h => h.1⟩, fun _ _ => rfl, fun _ _ => rfl, fun _ _ => rfl, ?_⟩
      intro d hd
      exact .stop _ (by simp [beginConquest])
  pos := rfl
  degs := fun _ _ h => h
  verts := by simp [beginConquest]
  same := fun _ => rfl

/-- What the removability test grants. -/
theorem removable_hyp {M : Mesh P} {h0 : Nat} {s : St P} (I : Inv M h0 s) {convex : Mesh P → Nat → Bool} {hh : Nat}
    (hd : hh ∈ s.m.darts) (hr : isRemovable convex (M.src h0) (M.vert h0) s hh = true) :
    CutHyp s hh ∧ minimalPeriod s.m.rot (s.m.opp hh) ≤ 8 ∧ s.m.vert hh ≠ s.m.src h0 ∧ s.m.vert hh ≠ s.m.vert h0 ∧
      s.conq (s.m.vert hh) = false := by
  have ho := I.wf.opp_mem hd
  unfold isRemovable at hr
  simp only [Bool.and_eq_true, Bool.not_eq_true', bne_iff_ne, ne_eq, decide_eq_true_eq] at hr
  obtain ⟨⟨⟨⟨⟨r1, r2⟩, r3⟩, r4⟩, r5⟩, r6, _⟩ := hr
  rw [ring_length I.wf ho] at r4 r5
  have per : ∀ d ∈ s.m.darts, s.m.src d = s.m.vert hh → s.m.rot (s.m.rot d) ≠ d := by
    intro d hdm hs e
    obtain ⟨i, hi⟩ := I.wf.one_orbit d hdm _ ho (by rw [hs, I.wf.src_opp hd])
    have : IsPeriodicPt s.m.rot 2 (s.m.opp hh) := by
      change s.m.rot^[2] (s.m.opp hh) = s.m.opp hh
      rw [← hi, ← iterate_add_apply, Nat.add_comm, iterate_add_apply]
      exact congrArg _ e
    have := this.minimalPeriod_le (by omega)
    omega
  refine ⟨⟨I.wf, hd, ?_, per, ?_⟩, r5, ?_, ?_, r3⟩
  · intro d hdm hv
    rw [← conquered_false, ← Bool.not_eq_true]
    intro hc
    have := I.vcon d hdm hc
    rw [hv, r3] at this
    exact absurd this (by decide)
  · intro o hom hs hnt p hp hpo x hx hxs hxv
    obtain ⟨i, hi, hio⟩ := ring_index I.wf ho hom (by rw [hs, I.wf.src_opp hd])
    have psrc : s.m.src p = s.m.vert hh := by rw [← I.wf.src_rot hp, hpo, hs]
    obtain ⟨j, hjl, hjp⟩ := ring_index I.wf ho hp (by rw [psrc, I.wf.src_opp hd])
    -- p comes just before o
    have hji : j = if i = 0 then minimalPeriod s.m.rot (s.m.opp hh) - 1 else i - 1 := by
      have e1 : s.m.rot^[j + 1] (s.m.opp hh) = s.m.rot^[i] (s.m.opp hh) := by
        rw [iterate_succ_apply', hjp, hpo, hio]
      by_cases hjlast : j + 1 = minimalPeriod s.m.rot (s.m.opp hh)
      · have e2 : s.m.rot^[0] (s.m.opp hh) = s.m.rot^[i] (s.m.opp hh) := by
          rw [← e1, hjlast, iterate_minimalPeriod]; rfl
        have := iterate_injOn_Iio_minimalPeriod (f := s.m.rot) (x := s.m.opp hh)
          (show 0 ∈ Set.Iio _ from by change 0 < _; omega) (show i ∈ Set.Iio _ from hi) e2
        rw [if_pos this.symm]; omega
      · have := iterate_injOn_Iio_minimalPeriod (f := s.m.rot) (x := s.m.opp hh)
          (show j + 1 ∈ Set.Iio _ from by change j + 1 < _; omega) (show i ∈ Set.Iio _ from hi) e1
        rw [if_neg (by omega)]; omega
    have getD : ∀ i < minimalPeriod s.m.rot (s.m.opp hh), (s.m.ring (s.m.opp hh)).getD i 0 = s.m.rot^[i] (s.m.opp hh) := by
      intro i hi
      rw [ring_eq I.wf ho]
      simp [List.getD, hi]
    have : willViolateManifold s.m (s.m.ring (s.m.opp hh)) = true := by
      unfold willViolateManifold
      simp only [ring_length I.wf ho]
      rw [List.any_eq_true]
      refine ⟨i, List.mem_range.mpr hi, ?_⟩
      rw [List.any_eq_true]
      refine ⟨s.m.vert x, ?_, ?_⟩
      · rw [getD i hi, hio]
        refine List.mem_map.mpr ⟨x, ?_, rfl⟩
        rw [mem_ring I.wf (I.wf.opp_mem hom)]
        exact ⟨hx, by rw [hxs, I.wf.src_opp hom]⟩
      · rw [List.any_eq_true]
        refine ⟨j, List.mem_range.mpr hjl, ?_⟩
        rw [getD j hjl, hjp, getD i hi, hio, Bool.and_eq_true, Bool.or_eq_true]
        refine ⟨by simpa using hxv, Or.inl ?_⟩
        rw [Bool.and_eq_true]
        refine ⟨by simpa using hji, ?_⟩
        have : s.m.deg o ≠ 3 := fun e => hnt ((deg_three_iff I.wf hom).mp e)
        simpa using this
    rw [this] at r6
    exact absurd r6 (by decide)
  · rw [I.dep.1]; exact r1
  · rw [I.dep.2]; exact r2

theorem mem_frontier {s : St P} (hm : s.m.WF) {h : Nat} (hh : h ∈ s.m.darts) (d : Nat) :
    d ∈ frontier s h ↔ ∃ x ∈ s.m.darts, s.m.face x = s.m.face h ∧ d = s.m.opp x ∧ (s.flag (s.m.face d)).conquered = false := by
  unfold frontier
  rw [List.mem_filter, List.mem_map]
  constructor
  · rintro ⟨⟨x, hx, rfl⟩, h2⟩
    obtain ⟨h3, h4⟩ := (mem_around hm.h hh x).mp hx
    exact ⟨x, h3, h4, rfl, by simpa using h2⟩
  · rintro ⟨x, h1, h2, rfl, h3⟩
    exact ⟨⟨x, (mem_around hm.h hh x).mpr ⟨h1, h2⟩, rfl⟩, by simpa using h3⟩

/-- Marking a facet that has no removable vertex. -/
theorem Inv.mark {M : Mesh P} {h0 : Nat} {s : St P} (I : Inv M h0 s) {h : Nat} {q : List Nat} (hq : s.queue = h :: q)
    (hf : (s.flag (s.m.face h)).conquered = false) (s' : St P)
    (hs : s' = { s with
      flag := Traversal.set s.flag (s.m.face h) .unsplittable
      conq := fun v => s.conq v || ((around s.m.h h).map s.m.vert).contains v
      queue := q ++ frontier { s with
        queue := q
        flag := Traversal.set s.flag (s.m.face h) .unsplittable
        conq := fun v => s.conq v || ((around s.m.h h).map s.m.vert).contains v } h }) :
    Inv M h0 s' ∧ s'.queue.length + unconq s' < s.queue.length + unconq s := by
  have hh : h ∈ s.m.darts := (I.que h (by rw [hq]; exact List.mem_cons_self)).1
  have hun := conquered_false.mp hf
  have fl : ∀ f, Traversal.set s.flag (s.m.face h) Flag.unsplittable f = if f = s.m.face h then .unsplittable else s.flag f := fun f => rfl
  have eqS : ∀ f, Traversal.set s.flag (s.m.face h) Flag.unsplittable f = .splittable ↔ s.flag f = .splittable := by
    intro f; rw [fl]
    by_cases e : f = s.m.face h
    · rw [if_pos e, e, hun]; decide
    · rw [if_neg e]
  have cq : ∀ f, (Traversal.set s.flag (s.m.face h) Flag.unsplittable f).conquered = true ↔ f = s.m.face h ∨ (s.flag f).conquered = true := by
    intro f; rw [fl]
    by_cases e : f = s.m.face h
    · rw [if_pos e]; simp [e, Flag.conquered]
    · rw [if_neg e]; simp [e]
  have mf : ∀ d, d ∈ frontier { s with
        queue := q
        flag := Traversal.set s.flag (s.m.face h) .unsplittable
        conq := fun v => s.conq v || ((around s.m.h h).map s.m.vert).contains v } h ↔
      ∃ x ∈ s.m.darts, s.m.face x = s.m.face h ∧ d = s.m.opp x ∧
        (Traversal.set s.flag (s.m.face h) Flag.unsplittable (s.m.face d)).conquered = false := fun d =>
    mem_frontier (s := { s with
        queue := q
        flag := Traversal.set s.flag (s.m.face h) .unsplittable
        conq := fun v => s.conq v || ((around s.m.h h).map s.m.vert).contains v }) I.wf hh d
  have fsz : (frontier { s with
        queue := q
        flag := Traversal.set s.flag (s.m.face h) .unsplittable
        conq := fun v => s.conq v || ((around s.m.h h).map s.m.vert).contains v } h).length ≤ (around s.m.h h).length := by
    unfold frontier
    refine le_trans (List.length_filter_le _ _) ?_
    rw [List.length_map]
  generalize hfr : frontier { s with
        queue := q
        flag := Traversal.set s.flag (s.m.face h) .unsplittable
        conq := fun v => s.conq v || ((around s.m.h h).map s.m.vert).contains v } h = fr at hs mf fsz
  subst hs
  refine ⟨?_, ?_⟩
  · refine { I with vcon := ?_, que := ?_, cov := ?_, any := ?_, addc := ?_, level := ?_ }
    · intro d hd hc
      have hc' := (cq _).mp hc
      change (s.conq (s.m.vert d) || ((around s.m.h h).map s.m.vert).contains (s.m.vert d)) = true
      rw [Bool.or_eq_true]
      rcases hc' with e | e
      · right
        rw [List.contains_iff_mem]
        exact List.mem_map.mpr ⟨d, (mem_around I.wf.h hh d).mpr ⟨hd, e⟩, rfl⟩
      · exact Or.inl (I.vcon d hd e)
    · intro x hx
      change x ∈ q ++ fr at hx
      rcases List.mem_append.mp hx with hx | hx
      · obtain ⟨h1, h2⟩ := I.que x (by rw [hq]; exact List.mem_cons_of_mem _ hx)
        refine ⟨h1, Or.inl ?_⟩
        rcases h2 with h2 | h2
        · exact (cq _).mpr (Or.inr h2)
        · rw [hq] at h2
          have : q = [] := by injection h2
          rw [this] at hx; exact absurd hx (by simp)
      · obtain ⟨y, hy, hyf, rfl, _⟩ := (mf x).mp hx
        refine ⟨I.wf.opp_mem hy, Or.inl ?_⟩
        change (Traversal.set s.flag (s.m.face h) Flag.unsplittable (s.m.face (s.m.opp (s.m.opp y)))).conquered = true
        rw [I.wf.opp_opp hy]
        exact (cq _).mpr (Or.inl hyf)
    · intro d hd hc hn
      change ∃ x ∈ q ++ fr, s.m.face x = s.m.face (s.m.opp d)
      have hn' : ¬ (Traversal.set s.flag (s.m.face h) Flag.unsplittable (s.m.face (s.m.opp d))).conquered = true := by
        rw [Bool.not_eq_true]; exact hn
      rw [cq, not_or] at hn'
      rcases (cq _).mp hc with e | e
      · exact ⟨s.m.opp d, List.mem_append_right _ ((mf _).mpr ⟨d, hd, e, rfl, hn⟩), rfl⟩
      · obtain ⟨x, hx, hxf⟩ := I.cov d hd e (by rw [← Bool.not_eq_true]; exact hn'.2)
        rw [hq] at hx
        rcases List.mem_cons.mp hx with e2 | hx
        · rw [e2] at hxf; exact absurd hxf.symm hn'.1
        · exact ⟨x, List.mem_append_left _ hx, hxf⟩
    · right
      exact ⟨h, hh, (cq _).mpr (Or.inl rfl)⟩
    · intro d hd ha
      obtain ⟨h1, h2⟩ := I.addc d hd ha
      refine ⟨?_, ?_⟩
      · change (s.conq (s.m.vert d) || _) = true
        rw [h1]; rfl
      · exact h2.imp (eqS _).mpr (eqS _).mpr
    · obtain ⟨R, c, hR, L, hrem⟩ := I.level
      refine ⟨R, c, hR, ?_, ?_⟩
      · have : (fun f => Traversal.set s.flag (s.m.face h) Flag.unsplittable f = .splittable) = (fun f => s.flag f = .splittable) :=
          funext fun f => propext (eqS f)
        change Level M R s.m (fun f => Traversal.set s.flag (s.m.face h) Flag.unsplittable f = .splittable) c (fun d => s.added d = true)
        rw [this]; exact L
      · intro d hd hsp
        exact hrem d hd ((eqS _).mp hsp)
  · change (q ++ fr).length + unconq _ < s.queue.length + unconq s
    rw [hq, List.length_append, List.length_cons]
    have key := unproc_visit I.wf.h (fun f => (s.flag f).conquered) hh hf
    have e1 : unproc s.m.h (Traversal.set (fun f => (s.flag f).conquered) (s.m.face h) true) =
        (s.m.darts.filter (fun d => (Traversal.set s.flag (s.m.face h) Flag.unsplittable (s.m.face d)).conquered = false)).card := by
      unfold unproc
      congr 1
      apply Finset.filter_congr
      intro d _
      rw [fl]
      unfold Traversal.set
      by_cases e : s.m.face d = s.m.face h
      · rw [if_pos e, if_pos e]; simp [Flag.conquered]
      · rw [if_neg e, if_neg e]
    have e2 : unproc s.m.h (fun f => (s.flag f).conquered) = unconq s := rfl
    unfold unconq
    rw [show unproc s.m.h (fun f => (s.flag f).conquered) = (s.m.darts.filter (fun d => (s.flag (s.m.face d)).conquered = false)).card from rfl] at key
    rw [e1] at key
    change _ + (s.m.darts.filter (fun d => (Traversal.set s.flag (s.m.face h) Flag.unsplittable (s.m.face d)).conquered = false)).card < _
    omega

end TDP.Codec
