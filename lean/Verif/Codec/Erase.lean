import Verif.Codec.Split
/-! `erase_center_vertex` when all incident facets are triangles. -/
namespace TDP.Codec
open TDP.Traversal Function

variable {P : Type}

/-- What is needed to erase the vertex of `h`: all facets around it are triangles and at least three edges
leave it. -/
structure Star (m : Mesh P) (h : Nat) : Prop where
  wf : m.WF
  hh : h ∈ m.darts
  tri : ∀ d ∈ m.darts, m.src d = m.vert h → m.next (m.next (m.next d)) = d
  deg : ∀ d ∈ m.darts, m.src d = m.vert h → m.rot (m.rot d) ≠ d

namespace Star
variable {m : Mesh P} {h : Nat} (s : Star m h)
include s

theorem mem_iff (d : Nat) : d ∈ (eraseCenter m h).darts ↔ d ∈ m.darts ∧ m.vert d ≠ m.vert h ∧ m.src d ≠ m.vert h := by
  simp [eraseCenter]
theorem mem_old {d : Nat} (hd : d ∈ (eraseCenter m h).darts) : d ∈ m.darts := ((s.mem_iff d).mp hd).1

/-- Halfedges leaving the vertex: the three corners of the triangle. -/
theorem out_facts {o : Nat} (ho : o ∈ m.darts) (hs : m.src o = m.vert h) :
    m.next o ∈ (eraseCenter m h).darts ∧ m.vert (m.next (m.next o)) = m.vert h ∧
      m.next (m.next (m.next o)) = o := by
  have h3 := s.tri o ho hs
  have h1 := s.wf.next_mem ho
  have h2 := s.wf.next_mem h1
  have hv : m.vert (m.next (m.next o)) = m.vert h := by
    have := s.wf.src_next _ h2
    rw [h3] at this
    rw [← this, hs]
  refine ⟨(s.mem_iff _).mpr ⟨h1, ?_, ?_⟩, hv, h3⟩
  · have := s.wf.vert_next_ne h1
    rw [hv] at this; exact this.symm
  · rw [s.wf.src_next o ho, ← hs]; exact (s.wf.noloop o ho).symm

/-- Halfedges pointing to the vertex. -/
theorem in_facts {x : Nat} (hx : x ∈ m.darts) (hv : m.vert x = m.vert h) :
    m.src (m.next x) = m.vert h ∧ m.next (m.next (m.next x)) = x ∧ m.next (m.next x) ∈ (eraseCenter m h).darts := by
  have h1 := s.wf.next_mem hx
  have hs : m.src (m.next x) = m.vert h := by rw [s.wf.src_next x hx, hv]
  have h3 := s.tri _ h1 hs
  exact ⟨hs, s.wf.next_inj (s.wf.next_mem (s.wf.next_mem h1)) hx h3, (s.out_facts h1 hs).1⟩

theorem next_ring {d : Nat} (hr : m.vert (m.next d) = m.vert h) : (eraseCenter m h).next d = m.next (m.opp (m.next d)) := by
  simp only [eraseCenter, if_pos hr]
theorem next_plain {d : Nat} (hr : m.vert (m.next d) ≠ m.vert h) : (eraseCenter m h).next d = m.next d := by
  simp only [eraseCenter, if_neg hr]

theorem opp_in {d : Nat} (hd : d ∈ m.darts) (hr : m.vert (m.next d) = m.vert h) :
    m.opp (m.next d) ∈ m.darts ∧ m.src (m.opp (m.next d)) = m.vert h :=
  ⟨s.wf.opp_mem (s.wf.next_mem hd), by rw [s.wf.src_opp (s.wf.next_mem hd), hr]⟩

theorem next_mem' : ∀ d ∈ (eraseCenter m h).darts, (eraseCenter m h).next d ∈ (eraseCenter m h).darts := by
  intro d hd
  have hd' := s.mem_old hd
  by_cases hr : m.vert (m.next d) = m.vert h
  · rw [s.next_ring hr]
    obtain ⟨h1, h2⟩ := s.opp_in hd' hr
    exact (s.out_facts h1 h2).1
  · rw [s.next_plain hr, s.mem_iff]
    refine ⟨s.wf.next_mem hd', hr, ?_⟩
    rw [s.wf.src_next d hd']; exact ((s.mem_iff d).mp hd).2.1

theorem next_inj' : ∀ d ∈ (eraseCenter m h).darts, ∀ e ∈ (eraseCenter m h).darts,
    (eraseCenter m h).next d = (eraseCenter m h).next e → d = e := by
  intro d hd e he heq
  have hd' := s.mem_old hd
  have he' := s.mem_old he
  by_cases hr : m.vert (m.next d) = m.vert h <;> by_cases hr2 : m.vert (m.next e) = m.vert h
  · rw [s.next_ring hr, s.next_ring hr2] at heq
    have h1 := s.wf.next_inj (s.opp_in hd' hr).1 (s.opp_in he' hr2).1 heq
    exact s.wf.next_inj hd' he' (opp_inj s.wf.h (s.wf.next_mem hd') (s.wf.next_mem he') h1)
  · rw [s.next_ring hr, s.next_plain hr2] at heq
    have h1 := s.wf.next_inj (s.opp_in hd' hr).1 he' heq
    have h2 := (s.opp_in hd' hr).2
    rw [h1] at h2
    exact absurd h2 ((s.mem_iff e).mp he).2.2
  · rw [s.next_plain hr, s.next_ring hr2] at heq
    have h1 := s.wf.next_inj hd' (s.opp_in he' hr2).1 heq
    have h2 := (s.opp_in he' hr2).2
    rw [← h1] at h2
    exact absurd h2 ((s.mem_iff d).mp hd).2.2
  · rw [s.next_plain hr, s.next_plain hr2] at heq
    exact s.wf.next_inj hd' he' heq

/-- The facets touching the vertex. -/
theorem incident_iff {d : Nat} (hd : d ∈ m.darts) :
    (m.darts.filter (fun x => m.vert x = m.vert h ∧ m.face x = m.face d) ≠ ∅) ↔
      (m.vert d = m.vert h ∨ m.src d = m.vert h ∨ m.vert (m.next d) = m.vert h) := by
  rw [← Finset.nonempty_iff_ne_empty]
  constructor
  · rintro ⟨x, hx⟩
    rw [Finset.mem_filter] at hx
    obtain ⟨h1, h2, h3⟩ := hx
    obtain ⟨i1, i2, i3⟩ := s.in_facts h1 h2
    obtain ⟨i, hi⟩ := (s.wf.h.face_iff x h1 d hd).mp h3
    have key : ∀ i, m.next^[i] x = x ∨ m.next^[i] x = m.next x ∨ m.next^[i] x = m.next (m.next x) := by
      intro i
      induction i with
      | zero => exact Or.inl rfl
      | succ i ih =>
        rw [iterate_succ_apply']
        rcases ih with e | e | e <;> rw [e]
        · exact Or.inr (Or.inl rfl)
        · exact Or.inr (Or.inr rfl)
        · exact Or.inl i2
    have hi' : m.next^[i] x = d := hi
    rcases key i with e | e | e <;> rw [hi'] at e
    · rw [e]; exact Or.inl h2
    · rw [e]; exact Or.inr (Or.inl i1)
    · rw [e, i2]; exact Or.inr (Or.inr h2)
  · rintro (h1 | h1 | h1)
    · exact ⟨d, Finset.mem_filter.mpr ⟨hd, h1, rfl⟩⟩
    · obtain ⟨p, hp, hp2, hp3⟩ := s.wf.exists_prev hd
      refine ⟨p, Finset.mem_filter.mpr ⟨hp, ?_, hp3⟩⟩
      have := s.wf.src_next p hp
      rw [hp2, h1] at this; exact this.symm
    · exact ⟨m.next d, Finset.mem_filter.mpr ⟨s.wf.next_mem hd, h1, s.wf.face_next hd⟩⟩

theorem face_ring {d : Nat} (hd : d ∈ m.darts) (hr : m.vert (m.next d) = m.vert h) :
    (eraseCenter m h).face d = m.face h := by
  have := (s.incident_iff hd).mpr (Or.inr (Or.inr hr))
  simp only [eraseCenter, if_pos this]
theorem face_plain {d : Nat} (hd : d ∈ (eraseCenter m h).darts) (hr : m.vert (m.next d) ≠ m.vert h) :
    (eraseCenter m h).face d = m.face d := by
  have h1 := (s.mem_iff d).mp hd
  have : ¬ (m.darts.filter (fun x => m.vert x = m.vert h ∧ m.face x = m.face d) ≠ ∅) := by
    rw [s.incident_iff h1.1]
    rintro (h2 | h2 | h2)
    · exact h1.2.1 h2
    · exact h1.2.2 h2
    · exact hr h2
  simp only [eraseCenter, if_neg this]

/-- A facet that does not touch the vertex has another label than the merged one. -/
theorem face_plain_ne {d : Nat} (hd : d ∈ (eraseCenter m h).darts) (hr : m.vert (m.next d) ≠ m.vert h) :
    m.face d ≠ m.face h := by
  have h1 := (s.mem_iff d).mp hd
  intro hf
  have : (m.darts.filter (fun x => m.vert x = m.vert h ∧ m.face x = m.face d) ≠ ∅) := by
    rw [← Finset.nonempty_iff_ne_empty]
    exact ⟨h, Finset.mem_filter.mpr ⟨s.hh, rfl, hf.symm⟩⟩
  rw [s.incident_iff h1.1] at this
  rcases this with h2 | h2 | h2
  · exact h1.2.1 h2
  · exact h1.2.2 h2
  · exact hr h2

/-- After a ring halfedge comes a ring halfedge. -/
theorem ring_next {d : Nat} (hd : d ∈ m.darts) (hr : m.vert (m.next d) = m.vert h) :
    m.vert (m.next ((eraseCenter m h).next d)) = m.vert h := by
  obtain ⟨h1, h2⟩ := s.opp_in hd hr
  rw [s.next_ring hr]
  exact (s.out_facts h1 h2).2.1

theorem plain_next {d : Nat} (hd : d ∈ (eraseCenter m h).darts) (hr : m.vert (m.next d) ≠ m.vert h) :
    m.vert (m.next (m.next d)) ≠ m.vert h := by
  have h1 := (s.mem_iff d).mp hd
  have h2 : ¬ (m.darts.filter (fun x => m.vert x = m.vert h ∧ m.face x = m.face d) ≠ ∅) := by
    rw [s.incident_iff h1.1]
    rintro (h2 | h2 | h2)
    · exact h1.2.1 h2
    · exact h1.2.2 h2
    · exact hr h2
  rw [← s.wf.face_next h1.1, s.incident_iff (s.wf.next_mem h1.1)] at h2
  exact fun hx => h2 (Or.inr (Or.inr hx))

theorem face_const' : ∀ d ∈ (eraseCenter m h).darts, (eraseCenter m h).face ((eraseCenter m h).next d) =
    (eraseCenter m h).face d := by
  intro d hd
  have hd' := s.mem_old hd
  by_cases hr : m.vert (m.next d) = m.vert h
  · rw [s.face_ring hd' hr, s.face_ring (s.mem_old (s.next_mem' d hd)) (s.ring_next hd' hr)]
  · have hn := s.next_mem' d hd
    have h2 := s.plain_next hd hr
    rw [s.next_plain hr] at hn
    rw [s.next_plain hr, s.face_plain hd hr, s.face_plain hn h2, s.wf.face_next hd']

/-- Walking along the ring is rotating backwards around the vertex. -/
theorem ring_iterate {o : Nat} (ho : o ∈ m.darts) (hs : m.src o = m.vert h) (i : Nat) :
    (eraseCenter m h).next^[i] (m.next (m.rot^[i] o)) = m.next o := by
  induction i with
  | zero => rfl
  | succ i ih =>
    rw [iterate_succ_apply, iterate_succ_apply' (f := m.rot)]
    have hmem : m.rot^[i] o ∈ m.darts := iterate_mem (fun x hx => s.wf.rot_mem hx) ho i
    have hsrc : m.src (m.rot^[i] o) = m.vert h := by
      clear ih
      induction i with
      | zero => exact hs
      | succ i ih2 =>
        have hm2 : m.rot^[i] o ∈ m.darts := iterate_mem (fun x hx => s.wf.rot_mem hx) ho i
        rw [iterate_succ_apply', s.wf.src_rot hm2]
        exact ih2 hm2
    generalize m.rot^[i] o = o' at ih hmem hsrc
    -- o2 = rot o'
    have ho2 := s.wf.rot_mem hmem
    have hs2 : m.src (m.rot o') = m.vert h := by rw [s.wf.src_rot hmem, hsrc]
    obtain ⟨a1, a2, a3⟩ := s.out_facts ho2 hs2
    rw [s.next_ring a2]
    have e : m.next (m.next (m.rot o')) = m.opp o' :=
      s.wf.next_inj (s.wf.next_mem (s.wf.next_mem ho2)) (s.wf.opp_mem hmem) a3
    rw [e, s.wf.opp_opp hmem]
    exact ih

/-- A ring halfedge comes after a halfedge leaving the vertex. -/
theorem ring_out {d : Nat} (hd : d ∈ m.darts) (hr : m.vert (m.next d) = m.vert h) :
    ∃ o ∈ m.darts, m.src o = m.vert h ∧ m.next o = d := by
  obtain ⟨i1, i2, _⟩ := s.in_facts (s.wf.next_mem hd) hr
  exact ⟨m.next (m.next d), s.wf.next_mem (s.wf.next_mem hd), i1,
    s.wf.next_inj (s.wf.next_mem (s.wf.next_mem (s.wf.next_mem hd))) hd i2⟩

theorem ring_reach {d e : Nat} (hd : d ∈ m.darts) (hr : m.vert (m.next d) = m.vert h)
    (he : e ∈ m.darts) (hr2 : m.vert (m.next e) = m.vert h) : ∃ i, (eraseCenter m h).next^[i] d = e := by
  obtain ⟨o1, a1, a2, a3⟩ := s.ring_out hd hr
  obtain ⟨o2, b1, b2, b3⟩ := s.ring_out he hr2
  obtain ⟨i, hi⟩ := s.wf.one_orbit o2 b1 o1 a1 (by rw [a2, b2])
  have := s.ring_iterate b1 b2 i
  rw [hi, a3, b3] at this
  exact ⟨i, this⟩

theorem iterate_plain {d : Nat} (hd : d ∈ (eraseCenter m h).darts) (hr : m.vert (m.next d) ≠ m.vert h) (i : Nat) :
    (eraseCenter m h).next^[i] d = m.next^[i] d := by
  induction i generalizing d with
  | zero => rfl
  | succ i ih =>
    rw [iterate_succ_apply, iterate_succ_apply, s.next_plain hr]
    have hn := s.next_mem' d hd
    rw [s.next_plain hr] at hn
    exact ih hn (s.plain_next hd hr)

theorem face_iff' : ∀ d ∈ (eraseCenter m h).darts, ∀ e ∈ (eraseCenter m h).darts,
    (eraseCenter m h).face d = (eraseCenter m h).face e ↔ ∃ i, (eraseCenter m h).next^[i] d = e := by
  intro d hd e he
  have hd' := s.mem_old hd
  have he' := s.mem_old he
  constructor
  · intro hf
    by_cases hr : m.vert (m.next d) = m.vert h <;> by_cases hr2 : m.vert (m.next e) = m.vert h
    · exact s.ring_reach hd' hr he' hr2
    · rw [s.face_ring hd' hr, s.face_plain he hr2] at hf
      exact absurd hf.symm (s.face_plain_ne he hr2)
    · rw [s.face_ring he' hr2, s.face_plain hd hr] at hf
      exact absurd hf (s.face_plain_ne hd hr)
    · rw [s.face_plain hd hr, s.face_plain he hr2] at hf
      obtain ⟨i, hi⟩ := (s.wf.h.face_iff d hd' e he').mp hf
      exact ⟨i, by rw [s.iterate_plain hd hr]; exact hi⟩
  · rintro ⟨i, rfl⟩
    clear he he'
    induction i with
    | zero => rfl
    | succ i ih => rw [iterate_succ_apply', s.face_const' _ (iterate_mem s.next_mem' hd i)]; exact ih

theorem opp_mem' : ∀ d ∈ (eraseCenter m h).darts, m.opp d ∈ (eraseCenter m h).darts := by
  intro d hd
  have h1 := (s.mem_iff d).mp hd
  refine (s.mem_iff _).mpr ⟨s.wf.opp_mem h1.1, h1.2.2, ?_⟩
  rw [s.wf.src_opp h1.1]; exact h1.2.1

theorem one_orbit' : ∀ d ∈ (eraseCenter m h).darts, ∀ e ∈ (eraseCenter m h).darts,
    (eraseCenter m h).src d = (eraseCenter m h).src e → ∃ i, (eraseCenter m h).rot^[i] d = e := by
  have key : ∀ i, ∀ d ∈ (eraseCenter m h).darts, ∀ e ∈ (eraseCenter m h).darts, m.rot^[i] d = e →
      ∃ j, (eraseCenter m h).rot^[j] d = e := by
    intro i
    induction i using Nat.strongRecOn with
    | ind i ih =>
      intro d hd e he hi
      rcases Nat.eq_zero_or_pos i with rfl | hpos
      · exact ⟨0, hi⟩
      · have hod := s.opp_mem' d hd
        have hmem := s.next_mem' _ hod
        by_cases hr : m.vert (m.next (m.opp d)) = m.vert h
        · have e2 : (eraseCenter m h).rot d = m.rot (m.rot d) := s.next_ring hr
          have hi2 : 2 ≤ i := by
            by_contra hc
            have : i = 1 := by omega
            rw [this] at hi
            have h1 : m.rot d = e := hi
            have h2 := ((s.mem_iff e).mp he).2.1
            rw [← h1] at h2
            exact h2 hr
          obtain ⟨j, hj⟩ := ih (i - 2) (by omega) _ hmem e he (by
            have : m.rot^[i - 2] (m.rot^[2] d) = e := by
              rw [← iterate_add_apply, show i - 2 + 2 = i by omega]; exact hi
            rw [← this]; exact congrArg _ e2)
          exact ⟨j + 1, by rw [iterate_succ_apply]; exact hj⟩
        · have e2 : (eraseCenter m h).rot d = m.rot d := s.next_plain hr
          obtain ⟨j, hj⟩ := ih (i - 1) (by omega) _ hmem e he (by
            have : m.rot^[i - 1] (m.rot^[1] d) = e := by
              rw [← iterate_add_apply, show i - 1 + 1 = i by omega]; exact hi
            rw [← this]; exact congrArg _ e2)
          exact ⟨j + 1, by rw [iterate_succ_apply]; exact hj⟩
  intro d hd e he hs
  obtain ⟨i, hi⟩ := s.wf.one_orbit d (s.mem_old hd) e (s.mem_old he) hs
  exact key i d hd e he hi

/-- Erasing the vertex keeps the mesh well-formed. -/
theorem wf' : (eraseCenter m h).WF where
  h := ⟨s.next_mem', s.opp_mem', s.next_inj', fun d hd => s.wf.opp_opp (s.mem_old hd),
    fun d hd => s.wf.opp_ne (s.mem_old hd), s.face_iff'⟩
  src_next := by
    intro d hd
    have hd' := s.mem_old hd
    change m.src ((eraseCenter m h).next d) = m.vert d
    by_cases hr : m.vert (m.next d) = m.vert h
    · rw [s.next_ring hr, s.wf.src_next _ (s.opp_in hd' hr).1]
      exact s.wf.src_next d hd'
    · rw [s.next_plain hr]; exact s.wf.src_next d hd'
  one_orbit := s.one_orbit'
  simple := fun d hd e he => s.wf.simple d (s.mem_old hd) e (s.mem_old he)
  noloop := fun d hd => s.wf.noloop d (s.mem_old hd)
  deg3 := by
    intro d hd
    have hd' := s.mem_old hd
    by_cases hr : m.vert (m.next d) = m.vert h
    · intro he
      obtain ⟨o, a1, a2, a3⟩ := s.ring_out hd' hr
      -- o' with rot (rot o') = o
      obtain ⟨i, hi⟩ := orbit_symm (S := m.darts) (f := m.rot) (fun x hx => s.wf.rot_mem hx)
        (fun x hx y hy => s.wf.rot_inj hx hy) a1 2
      have hmem : m.rot^[i] o ∈ m.darts := iterate_mem (fun x hx => s.wf.rot_mem hx) a1 i
      have hc : m.rot^[2] (m.rot^[i] o) = o := by
        rw [← iterate_add_apply, Nat.add_comm, iterate_add_apply]; exact hi
      have hsrc : m.src (m.rot^[i] o) = m.vert h := by
        have h1 := s.wf.src_rot (s.wf.rot_mem hmem)
        rw [s.wf.src_rot hmem] at h1
        rw [← h1]
        have : m.rot (m.rot (m.rot^[i] o)) = o := hc
        rw [this]; exact a2
      have h2 := s.ring_iterate hmem hsrc 2
      rw [hc, a3] at h2
      have h3 : (eraseCenter m h).next^[2] d = d := he
      rw [h3, ← a3] at h2
      have h4 := s.wf.next_inj a1 hmem h2
      rw [← h4] at hc
      exact s.deg o a1 a2 hc
    · rw [s.next_plain hr, s.next_plain (s.plain_next hd hr)]
      exact s.wf.deg3 d hd'
  fresh := by
    intro d hd
    have hf := s.wf.fresh d (s.mem_old hd)
    refine ⟨hf.1, ?_, hf.2.2⟩
    by_cases hr : m.vert (m.next d) = m.vert h
    · rw [s.face_ring (s.mem_old hd) hr]; exact (s.wf.fresh h s.hh).2.1
    · rw [s.face_plain hd hr]; exact hf.2.1

theorem conn' {h0 : Nat} (hc : m.Conn h0) (h0k : h0 ∈ (eraseCenter m h).darts) : (eraseCenter m h).Conn h0 := by
  refine ⟨h0k, ?_⟩
  -- the ring halfedge of an erased halfedge's triangle
  let r : Nat → Nat := fun d => if m.src d = m.vert h then m.next d else if m.vert d = m.vert h then
    m.next (m.next d) else d
  have rk : ∀ d ∈ (eraseCenter m h).darts, r d = d := by
    intro d hd
    have h1 := (s.mem_iff d).mp hd
    simp only [r, if_neg h1.2.2, if_neg h1.2.1]
  have rout : ∀ o, m.src o = m.vert h → r o = m.next o := fun o ho => by simp only [r, if_pos ho]
  have rin : ∀ x ∈ m.darts, m.vert x = m.vert h → r x = m.next (m.next x) := by
    intro x hx hv
    have : m.src x ≠ m.vert h := by rw [← hv]; exact s.wf.noloop x hx
    simp only [r, if_neg this, if_pos hv]
  have stepR : ∀ a ∈ m.darts, ∀ b, b = m.next a ∨ b = m.opp a → Reach (eraseCenter m h).h (r a) (r b) := by
    intro a ha b hb
    by_cases hs : m.src a = m.vert h
    · obtain ⟨o1, o2, o3⟩ := s.out_facts ha hs
      rcases hb with rfl | rfl
      · rw [rout a hs, rk _ o1]; exact .refl
      · have ho := s.wf.opp_mem ha
        have hv : m.vert (m.opp a) = m.vert h := hs
        obtain ⟨i1, i2, i3⟩ := s.in_facts ho hv
        rw [rout a hs, rin _ ho hv]
        obtain ⟨i, hi⟩ := s.ring_reach (s.mem_old o1) o2 (s.mem_old i3) (by rw [i2]; exact hv)
        have := Reach.iterate (eraseCenter m h).h (m.next a) (m.next a) .refl i
        rwa [hi] at this
    · by_cases hv : m.vert a = m.vert h
      · obtain ⟨i1, i2, i3⟩ := s.in_facts ha hv
        rcases hb with rfl | rfl
        · rw [rin a ha hv, rout _ i1]; exact .refl
        · have ho := s.wf.opp_mem ha
          have hs2 : m.src (m.opp a) = m.vert h := by rw [s.wf.src_opp ha, hv]
          obtain ⟨o1, o2, o3⟩ := s.out_facts ho hs2
          rw [rin a ha hv, rout _ hs2]
          obtain ⟨i, hi⟩ := s.ring_reach (s.mem_old i3) (by rw [i2]; exact hv) (s.mem_old o1) o2
          have := Reach.iterate (eraseCenter m h).h (m.next (m.next a)) (m.next (m.next a)) .refl i
          rwa [hi] at this
      · have hak : a ∈ (eraseCenter m h).darts := (s.mem_iff a).mpr ⟨ha, hv, hs⟩
        rw [rk a hak]
        rcases hb with rfl | rfl
        · by_cases hr : m.vert (m.next a) = m.vert h
          · obtain ⟨i1, i2, i3⟩ := s.in_facts (s.wf.next_mem ha) hr
            have e := s.wf.next_inj (s.wf.next_mem (s.wf.next_mem (s.wf.next_mem ha))) ha i2
            rw [rin _ (s.wf.next_mem ha) hr, e]; exact .refl
          · have hn := s.next_mem' a hak
            rw [s.next_plain hr] at hn
            rw [rk _ hn]
            exact .single (Or.inl (s.next_plain hr).symm)
        · rw [rk _ (s.opp_mem' a hak)]
          exact .single (Or.inr rfl)
  have all : ∀ d, Reach m.h h0 d → Reach (eraseCenter m h).h (r h0) (r d) := by
    intro d hd
    induction hd with
    | refl => exact .refl
    | tail hab hst ih => exact ih.trans (stepR _ (Reach.mem s.wf.h hc.1 hab) _ hst)
  intro d hd
  have := all d (hc.2 d (s.mem_old hd))
  rwa [rk h0 h0k, rk d hd] at this

end Star

end TDP.Codec
