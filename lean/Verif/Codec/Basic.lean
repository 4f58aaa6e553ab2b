import Verif.Codec.Model
import Verif.Traversal.EdgeLemmas
/-! Well-formed meshes and elementary facts. -/
namespace TDP.Codec
open TDP.Traversal Function

variable {P : Type}

section Orbit
variable {S : Finset Nat} {f : Nat → Nat}

theorem orbit_symm (hm : ∀ x ∈ S, f x ∈ S) (hi : ∀ x ∈ S, ∀ y ∈ S, f x = f y → x = y) {x : Nat} (hx : x ∈ S)
    (i : Nat) : ∃ j, f^[j] (f^[i] x) = x := by
  obtain ⟨hp, _⟩ := period_spec hm hi hx
  refine ⟨minimalPeriod f x * i - i, ?_⟩
  rw [← iterate_add_apply]
  have e : minimalPeriod f x * i - i + i = minimalPeriod f x * i := by
    have := Nat.le_mul_of_pos_left i hp
    omega
  rw [e]
  exact (isPeriodicPt_minimalPeriod f x).mul_const i

/-- Every element is the image of one, found on its own orbit. -/
theorem exists_pre (hm : ∀ x ∈ S, f x ∈ S) (hi : ∀ x ∈ S, ∀ y ∈ S, f x = f y → x = y) {x : Nat} (hx : x ∈ S) :
    ∃ i, f (f^[i] x) = x := by
  obtain ⟨hp, _⟩ := period_spec hm hi hx
  refine ⟨minimalPeriod f x - 1, ?_⟩
  rw [← iterate_succ_apply' f]
  have : (minimalPeriod f x - 1).succ = minimalPeriod f x := by omega
  rw [this]; exact iterate_minimalPeriod

/-- Facet labels are right if they are constant along `next` and each facet has a halfedge from which
all its halfedges are met. -/
theorem face_iff_of {face : Nat → Nat} (hm : ∀ x ∈ S, f x ∈ S) (hi : ∀ x ∈ S, ∀ y ∈ S, f x = f y → x = y)
    (hc : ∀ x ∈ S, face (f x) = face x)
    (base : Nat → Nat) (hb : ∀ x ∈ S, base (face x) ∈ S ∧ ∃ i, f^[i] (base (face x)) = x) :
    ∀ d ∈ S, ∀ e ∈ S, face d = face e ↔ ∃ i, f^[i] d = e := by
  intro d hd e he
  constructor
  · intro h
    obtain ⟨b1, i, hi1⟩ := hb d hd
    obtain ⟨_, j, hj⟩ := hb e he
    rw [← h] at hj
    obtain ⟨k, hk⟩ := orbit_symm hm hi b1 i
    rw [hi1] at hk
    exact ⟨j + k, by rw [iterate_add_apply, hk, hj]⟩
  · rintro ⟨i, rfl⟩
    clear he
    induction i with
    | zero => rfl
    | succ i ih => rw [iterate_succ_apply', hc _ (iterate_mem hm hd i)]; exact ih

end Orbit

/-- A closed polyhedron without multiple edges or loops: pointers are consistent, facets are the cycles of
`next()` and have at least three halfedges, the halfedges leaving a vertex form one cycle, at most one edge
joins two vertices, and the counters are above all numbers in use. -/
structure Mesh.WF (m : Mesh P) : Prop where
  h : m.h.WF
  src_next : ∀ d ∈ m.darts, m.src (m.next d) = m.vert d
  one_orbit : ∀ d ∈ m.darts, ∀ e ∈ m.darts, m.src d = m.src e → ∃ i, m.rot^[i] d = e
  simple : ∀ d ∈ m.darts, ∀ e ∈ m.darts, m.src d = m.src e → m.vert d = m.vert e → d = e
  noloop : ∀ d ∈ m.darts, m.src d ≠ m.vert d
  deg3 : ∀ d ∈ m.darts, m.next (m.next d) ≠ d
  fresh : ∀ d ∈ m.darts, d < m.nd ∧ m.face d < m.nf ∧ m.vert d < m.nv

section
variable {m : Mesh P} (hm : m.WF)
include hm

theorem Mesh.WF.next_mem {d : Nat} (hd : d ∈ m.darts) : m.next d ∈ m.darts := hm.h.next_mem d hd
theorem Mesh.WF.opp_mem {d : Nat} (hd : d ∈ m.darts) : m.opp d ∈ m.darts := hm.h.opp_mem d hd
theorem Mesh.WF.opp_opp {d : Nat} (hd : d ∈ m.darts) : m.opp (m.opp d) = d := hm.h.opp_opp d hd
theorem Mesh.WF.opp_ne {d : Nat} (hd : d ∈ m.darts) : m.opp d ≠ d := hm.h.opp_ne d hd
theorem Mesh.WF.next_inj {d e : Nat} (hd : d ∈ m.darts) (he : e ∈ m.darts) (h : m.next d = m.next e) : d = e :=
  hm.h.next_inj d hd e he h
theorem Mesh.WF.face_next {d : Nat} (hd : d ∈ m.darts) : m.face (m.next d) = m.face d :=
  ((hm.h.face_iff d hd _ (hm.next_mem hd)).mpr ⟨1, rfl⟩).symm
theorem Mesh.WF.src_opp {d : Nat} (hd : d ∈ m.darts) : m.src (m.opp d) = m.vert d := by
  unfold Mesh.src; rw [hm.opp_opp hd]
theorem Mesh.WF.next_ne {d : Nat} (hd : d ∈ m.darts) : m.next d ≠ d := by
  intro h
  have := hm.src_next d hd
  rw [h] at this
  exact hm.noloop d hd this
theorem Mesh.WF.rot_mem {d : Nat} (hd : d ∈ m.darts) : m.rot d ∈ m.darts := hm.next_mem (hm.opp_mem hd)
theorem Mesh.WF.rot_inj {d e : Nat} (hd : d ∈ m.darts) (he : e ∈ m.darts) (h : m.rot d = m.rot e) : d = e := by
  have := hm.next_inj (hm.opp_mem hd) (hm.opp_mem he) h
  have h2 := congrArg m.opp this
  rwa [hm.opp_opp hd, hm.opp_opp he] at h2
theorem Mesh.WF.src_rot {d : Nat} (hd : d ∈ m.darts) : m.src (m.rot d) = m.src d :=
  hm.src_next _ (hm.opp_mem hd)
theorem Mesh.WF.vert_next_ne {d : Nat} (hd : d ∈ m.darts) : m.vert (m.next d) ≠ m.vert d := by
  have h1 := hm.noloop _ (hm.next_mem hd)
  rw [hm.src_next d hd] at h1
  exact fun h => h1 h.symm

theorem Mesh.WF.exists_prev {d : Nat} (hd : d ∈ m.darts) : ∃ p ∈ m.darts, m.next p = d ∧ m.face p = m.face d := by
  obtain ⟨i, hi⟩ := exists_pre hm.h.next_mem hm.h.next_inj hd
  have hp := iterate_mem hm.h.next_mem hd i
  refine ⟨_, hp, hi, ?_⟩
  have := hm.face_next hp
  rw [← this]; exact congrArg m.face hi

end

/-- Everything is reached from `h0`. -/
def Mesh.Conn (m : Mesh P) (h0 : Nat) : Prop := h0 ∈ m.darts ∧ ∀ d ∈ m.darts, Reach m.h h0 d

/-- Reachability is symmetric. -/
theorem reach_symm {m : HMesh Nat Nat} (hm : m.WF) {a b : Nat} (ha : a ∈ m.darts) (h : Reach m a b) : Reach m b a := by
  induction h with
  | refl => exact .refl
  | tail hab hs ih =>
    rename_i b c
    have hb := Reach.mem hm ha hab
    have hcb : Reach m c b := by
      rcases hs with rfl | rfl
      · obtain ⟨j, hj⟩ := orbit_symm hm.next_mem hm.next_inj hb 1
        have := Reach.iterate m (m.next b) (m.next b) .refl j
        rw [show m.next b = m.next^[1] b from rfl, hj] at this
        exact this
      · have h1 : Reach m (m.opp b) (m.opp (m.opp b)) := .single (Or.inr rfl)
        rwa [hm.opp_opp b hb] at h1
    exact hcb.trans ih

end TDP.Codec
