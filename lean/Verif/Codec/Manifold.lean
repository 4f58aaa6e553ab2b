import Verif.Codec.Conquest
/-! What `willViolateManifold` decides, independently of where its polygon starts. -/
namespace TDP.Codec
open TDP.Traversal Function

variable {P : Type}

/-- Removing `v` would double an edge: two neighbours of `v` that follow each other around it, and whose corner facet is not
a triangle, are joined by an edge. -/
def Blocked (m : Mesh P) (v : Nat) : Prop :=
  ∃ p ∈ m.darts, m.src p = v ∧ m.deg (m.rot p) ≠ 3 ∧ ∃ x ∈ m.darts, m.src x = m.vert p ∧ m.vert x = m.vert (m.rot p)

theorem rot_index {m : Mesh P} (hm : m.WF) {d : Nat} (hd : d ∈ m.darts) {i j : Nat} (hi : i < minimalPeriod m.rot d)
    (hj : j < minimalPeriod m.rot d) :
    m.rot (m.rot^[i] d) = m.rot^[j] d ↔ j = if i = minimalPeriod m.rot d - 1 then 0 else i + 1 := by
  rw [← iterate_succ_apply' m.rot]
  by_cases h : i = minimalPeriod m.rot d - 1
  · rw [if_pos h, show i.succ = minimalPeriod m.rot d by omega, iterate_minimalPeriod]
    constructor
    · intro e
      have e' : m.rot^[0] d = m.rot^[j] d := e
      have := iterate_injOn_Iio_minimalPeriod (f := m.rot) (x := d) (show 0 ∈ Set.Iio _ from by change 0 < _; omega)
        (show j ∈ Set.Iio _ from hj) e'
      exact this.symm
    · rintro rfl; rfl
  · rw [if_neg h]
    constructor
    · intro e
      have := iterate_injOn_Iio_minimalPeriod (f := m.rot) (x := d) (show i + 1 ∈ Set.Iio _ from by change i + 1 < _; omega)
        (show j ∈ Set.Iio _ from hj) e
      exact this.symm
    · rintro rfl; rfl

theorem deg_rot {m : Mesh P} (hm : m.WF) {d : Nat} (hd : d ∈ m.darts) : m.deg (m.rot d) = m.deg (m.opp d) := by
  rw [deg_card hm (hm.rot_mem hd), deg_card hm (hm.opp_mem hd), show m.face (m.rot d) = m.face (m.opp d) from hm.face_next (hm.opp_mem hd)]

theorem violates_iff {m : Mesh P} (hm : m.WF) {d : Nat} (hd : d ∈ m.darts) :
    willViolateManifold m (m.ring d) = true ↔ Blocked m (m.src d) := by
  have getD : ∀ i < minimalPeriod m.rot d, (m.ring d).getD i 0 = m.rot^[i] d := by
    intro i hi
    rw [ring_eq hm hd]
    simp [List.getD, hi]
  have itm : ∀ i, m.rot^[i] d ∈ m.darts := fun i => iterate_mem (fun x hx => hm.rot_mem hx) hd i
  unfold willViolateManifold
  simp only [ring_length hm hd]
  rw [List.any_eq_true]
  constructor
  · rintro ⟨i, hi, h⟩
    rw [List.mem_range] at hi
    rw [List.any_eq_true] at h
    obtain ⟨u, hu, h⟩ := h
    rw [getD i hi] at hu h
    obtain ⟨x, hx, rfl⟩ := List.mem_map.mp hu
    obtain ⟨hx1, hx2⟩ := (mem_ring hm (hm.opp_mem (itm i)) x).mp hx
    rw [hm.src_opp (itm i)] at hx2
    rw [List.any_eq_true] at h
    obtain ⟨j, hj, h⟩ := h
    rw [List.mem_range] at hj
    rw [getD j hj, Bool.and_eq_true, Bool.or_eq_true, Bool.and_eq_true, Bool.and_eq_true] at h
    simp only [beq_iff_eq, bne_iff_ne, ne_eq] at h
    obtain ⟨h1, ⟨h2, h3⟩ | ⟨h2, h3⟩⟩ := h
    · have hr : m.rot (m.rot^[j] d) = m.rot^[i] d := by
        rw [rot_index hm hd hj hi]
        by_cases hz : i = 0
        · rw [if_pos hz] at h2; rw [if_pos h2]; exact hz
        · rw [if_neg hz] at h2; rw [if_neg (by omega)]; omega
      refine ⟨_, itm j, src_iterate hm hd j, by rw [hr]; exact h3, m.opp x, hm.opp_mem hx1, ?_, ?_⟩
      · rw [hm.src_opp hx1]; exact h1
      · rw [hr]; exact hx2
    · have hr : m.rot (m.rot^[i] d) = m.rot^[j] d := (rot_index hm hd hi hj).mpr h2
      refine ⟨_, itm i, src_iterate hm hd i, by rw [deg_rot hm (itm i)]; exact h3, x, hx1, hx2, ?_⟩
      rw [hr]; exact h1
  · rintro ⟨p, hp, hs, hdeg, x, hx, hxs, hxv⟩
    obtain ⟨i, hi, rfl⟩ := ring_index hm hd hp hs
    obtain ⟨j, hj, hij⟩ := ring_index hm hd (hm.rot_mem hp) (by rw [hm.src_rot hp, hs])
    refine ⟨i, List.mem_range.mpr hi, ?_⟩
    rw [List.any_eq_true, getD i hi]
    refine ⟨m.vert x, List.mem_map.mpr ⟨x, (mem_ring hm (hm.opp_mem hp) x).mpr ⟨hx, by rw [hxs, hm.src_opp hp]⟩, rfl⟩, ?_⟩
    rw [List.any_eq_true]
    refine ⟨j, List.mem_range.mpr hj, ?_⟩
    rw [getD j hj, Bool.and_eq_true, Bool.or_eq_true, Bool.and_eq_true, Bool.and_eq_true]
    simp only [beq_iff_eq, bne_iff_ne, ne_eq]
    refine ⟨by rw [hxv, hij], Or.inr ⟨(rot_index hm hd hi hj).mp hij.symm, ?_⟩⟩
    rw [← deg_rot hm hp]; exact hdeg

theorem ring_length_eq {m : Mesh P} (hm : m.WF) {d e : Nat} (hd : d ∈ m.darts) (he : e ∈ m.darts) (hs : m.src d = m.src e) :
    (m.ring d).length = (m.ring e).length := by
  obtain ⟨i, rfl⟩ := hm.one_orbit d hd e he hs
  clear he hs
  have hper := (period_spec (fun x hx => hm.rot_mem hx) (fun x hx y hy => hm.rot_inj hx hy) hd).1
  have hpp : d ∈ periodicPts m.rot := minimalPeriod_pos_iff_mem_periodicPts.mp hper
  rw [ring_length hm hd, ring_length hm (iterate_mem (fun x hx => hm.rot_mem hx) hd i), minimalPeriod_apply_iterate hpp]

/-- What `isRemovable` decides. -/
theorem isRemovable_iff {convex : Mesh P → Nat → Bool} {v0 v1 : Nat} {s : St P} (hm : s.m.WF) {hh e : Nat}
    (hd : hh ∈ s.m.darts) (he : e ∈ s.m.darts) (hs : s.m.src e = s.m.vert hh) :
    isRemovable convex v0 v1 s hh = true ↔
      s.m.vert hh ≠ v0 ∧ s.m.vert hh ≠ v1 ∧ s.conq (s.m.vert hh) = false ∧ 3 ≤ (s.m.ring e).length ∧ (s.m.ring e).length ≤ 8 ∧
        ¬ Blocked s.m (s.m.vert hh) ∧ convex s.m (s.m.vert hh) = true := by
  have ho := hm.opp_mem hd
  have hl := ring_length_eq hm ho he (by rw [hm.src_opp hd, hs])
  have hb := violates_iff hm ho
  rw [hm.src_opp hd, ← Bool.not_eq_false] at hb
  unfold isRemovable
  simp only [Bool.and_eq_true, Bool.not_eq_true', bne_iff_ne, ne_eq, decide_eq_true_eq, hl]
  constructor
  · rintro ⟨⟨⟨⟨⟨r1, r2⟩, r3⟩, r4⟩, r5⟩, r6, r7⟩
    exact ⟨r1, r2, r3, by omega, r5, fun h => hb.mpr h r6, r7⟩
  · rintro ⟨r1, r2, r3, r4, r5, r6, r7⟩
    refine ⟨⟨⟨⟨⟨r1, r2⟩, r3⟩, by omega⟩, r5⟩, ?_, r7⟩
    by_contra h; exact r6 (hb.mp h)

end TDP.Codec
