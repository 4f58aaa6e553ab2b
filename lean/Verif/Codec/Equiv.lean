import Verif.Codec.Refine
import Verif.Codec.Conquest
import Verif.Codec.Center
/-! Isomorphic meshes are traversed in the same way. -/
namespace TDP.Codec
open TDP.Traversal Function

variable {P : Type}

section
variable {φ : Nat → Nat} {K N : Mesh P} (i : Iso φ K N) (hK : K.h.WF) (hN : N.h.WF)
include i hK

theorem Iso.rot_mem {d : Nat} (hd : d ∈ K.darts) : rot K.h d ∈ K.darts := hK.next_mem _ (hK.opp_mem d hd)

theorem Iso.rot {d : Nat} (hd : d ∈ K.darts) : rot N.h (φ d) = φ (rot K.h d) := by
  change N.next (N.opp (φ d)) = φ (K.next (K.opp d))
  rw [i.next _ (hK.opp_mem d hd), i.opp d hd]

theorem Iso.rot_iterate {d : Nat} (hd : d ∈ K.darts) (k : Nat) : (Traversal.rot N.h)^[k] (φ d) = φ ((Traversal.rot K.h)^[k] d) := by
  induction k with
  | zero => rfl
  | succ k ih =>
    rw [iterate_succ_apply', iterate_succ_apply', ih]
    exact i.rot hK (iterate_mem (Traversal.rot_mem hK) hd k)

theorem Iso.period {d : Nat} (hd : d ∈ K.darts) : minimalPeriod N.next (φ d) = minimalPeriod K.next d := by
  apply minimalPeriod_eq_minimalPeriod_iff.mpr
  intro k
  unfold IsPeriodicPt IsFixedPt
  rw [i.iterate hK hd k]
  exact ⟨fun h => i.inj _ (iterate_mem hK.next_mem hd k) _ hd h, fun h => congrArg φ h⟩

theorem Iso.rot_period {d : Nat} (hd : d ∈ K.darts) :
    minimalPeriod (Traversal.rot N.h) (φ d) = minimalPeriod (Traversal.rot K.h) d := by
  apply minimalPeriod_eq_minimalPeriod_iff.mpr
  intro k
  unfold IsPeriodicPt IsFixedPt
  rw [i.rot_iterate hK hd k]
  exact ⟨fun h => i.inj _ (iterate_mem (Traversal.rot_mem hK) hd k) _ hd h, fun h => congrArg φ h⟩

include hN

theorem Iso.around {d : Nat} (hd : d ∈ K.darts) : around N.h (φ d) = (around K.h d).map φ := by
  have h1 : Traversal.around N.h (φ d) = (List.range (minimalPeriod N.next (φ d))).map (fun k => N.next^[k] (φ d)) :=
    around_eq hN (i.mem d hd)
  have h2 : Traversal.around K.h d = (List.range (minimalPeriod K.next d)).map (fun k => K.next^[k] d) := around_eq hK hd
  rw [h1, h2, i.period hK hd, List.map_map]
  apply List.map_congr_left
  intro k _
  exact i.iterate hK hd k

theorem Iso.leaving {d : Nat} (hd : d ∈ K.darts) : leaving N.h (φ d) = (leaving K.h d).map φ := by
  have ho : K.opp d ∈ K.darts := hK.opp_mem d hd
  have h1 := leaving_eq hN (i.mem d hd)
  have h2 := leaving_eq hK hd
  have e : N.opp (φ d) = φ (K.opp d) := (i.opp d hd).symm
  rw [h1, h2]
  change (List.range (minimalPeriod (Traversal.rot N.h) (N.opp (φ d)) - 1)).map (fun k => (Traversal.rot N.h)^[1 + k] (N.opp (φ d))) = _
  rw [e, i.rot_period hK ho, List.map_map]
  apply List.map_congr_left
  intro k _
  exact i.rot_iterate hK ho _

theorem Iso.facePos {d : Nat} (hd : d ∈ K.darts) : facePos N (φ d) = facePos K d := by
  unfold Codec.facePos
  rw [i.around hK hN hd, List.map_map]
  apply List.map_congr_left
  intro x hx
  exact i.pos x ((mem_around hK hd x).mp hx).1

theorem Iso.deg {d : Nat} (hd : d ∈ K.darts) : N.deg (φ d) = K.deg d := by
  unfold Mesh.deg
  rw [i.around hK hN hd, List.length_map]

theorem Iso.opps {l : List Nat} (hl : ∀ x ∈ l, x ∈ K.darts) : (l.map φ).map N.opp = (l.map K.opp).map φ := by
  rw [List.map_map, List.map_map]
  apply List.map_congr_left
  intro x hx
  exact (i.opp x (hl x hx)).symm

theorem Iso.visits {q : List Nat} {proc proc' : Nat → Bool} {gs : List Nat} (hv : Visits K.h q proc gs)
    (hq : ∀ d ∈ q, d ∈ K.darts) (hp : ∀ d ∈ K.darts, proc' (N.face (φ d)) = proc (K.face d)) :
    Visits N.h (q.map φ) proc' (gs.map φ) := by
  induction hv generalizing proc' with
  | nil proc => exact .nil _
  | skip h q proc gs h1 hv ih =>
    rw [List.map_cons]
    refine .skip _ _ _ _ ?_ (ih (fun d hd => hq d (List.mem_cons_of_mem _ hd)) hp)
    exact (hp h (hq h List.mem_cons_self)).trans h1
  | visit h q proc gs h1 hv ih =>
    have hh := hq h List.mem_cons_self
    rw [List.map_cons, List.map_cons]
    refine .visit _ _ _ _ ((hp h hh).trans h1) ?_
    have hset : ∀ d ∈ K.darts, Traversal.set proc' (N.face (φ h)) true (N.face (φ d)) = Traversal.set proc (K.face h) true (K.face d) := by
      intro d hd
      unfold Traversal.set
      have := i.face hK hN hd hh
      by_cases e : K.face d = K.face h
      · rw [if_pos e, if_pos (this.mp e)]
      · rw [if_neg e, if_neg (fun h => e (this.mpr h)), hp d hd]
    have hq' := pushed_mem hK hh (p := fun d => !(Traversal.set proc (K.face h) true) (K.face d)) (fun d hd => hq d (List.mem_cons_of_mem _ hd))
    have := ih hq' hset
    rw [List.map_append] at this
    have e : ((Traversal.around N.h (φ h)).map N.opp).filter (fun d => !(Traversal.set proc' (N.face (φ h)) true) (N.face d)) =
        (((Traversal.around K.h h).map K.opp).filter (fun d => !(Traversal.set proc (K.face h) true) (K.face d))).map φ := by
      rw [i.around hK hN hh, i.opps hK hN (fun x hx => ((mem_around hK hh x).mp hx).1), List.filter_map]
      congr 1
      apply List.filter_congr
      intro d hd
      obtain ⟨x, hx, rfl⟩ := List.mem_map.mp hd
      change (!Traversal.set proc' (N.face (φ h)) true (N.face (φ (K.opp x)))) = _
      rw [hset _ (hK.opp_mem x ((mem_around hK hh x).mp hx).1)]
    rw [← e] at this
    exact this

theorem Iso.evisits {q : List Nat} {proc proc' : Nat → Bool} {gs : List Nat} (hv : EVisits K.h q proc gs)
    (hq : ∀ d ∈ q, d ∈ K.darts) (hp : ∀ d ∈ K.darts, proc' (φ d) = proc d) :
    EVisits N.h (q.map φ) proc' (gs.map φ) := by
  induction hv generalizing proc' with
  | nil proc => exact .nil _
  | skip h q proc gs h1 hv ih =>
    rw [List.map_cons]
    refine .skip _ _ _ _ ?_ (ih (fun d hd => hq d (List.mem_cons_of_mem _ hd)) hp)
    exact (hp h (hq h List.mem_cons_self)).trans h1
  | visit h q proc gs h1 hv ih =>
    have hh := hq h List.mem_cons_self
    have ho : K.opp h ∈ K.darts := hK.opp_mem h hh
    rw [List.map_cons, List.map_cons]
    refine .visit _ _ _ _ ((hp h hh).trans h1) ?_
    have hset : ∀ d ∈ K.darts, Traversal.set (Traversal.set proc' (φ h) true) (N.opp (φ h)) true (φ d) =
        Traversal.set (Traversal.set proc h true) (K.opp h) true d := by
      intro d hd
      unfold Traversal.set
      rw [← i.opp h hh]
      by_cases e : d = K.opp h
      · rw [if_pos e, if_pos (by rw [e])]
      · rw [if_neg e, if_neg (fun h1 => e (i.inj d hd _ ho h1))]
        by_cases e : d = h
        · rw [if_pos e, if_pos (by rw [e])]
        · rw [if_neg e, if_neg (fun h1 => e (i.inj d hd _ hh h1)), hp d hd]
    have hq' := epushed_mem hK hh (p := fun d => !(Traversal.set (Traversal.set proc h true) (K.opp h) true) d) (fun d hd => hq d (List.mem_cons_of_mem _ hd))
    have := ih hq' hset
    rw [List.map_append] at this
    have e : (Traversal.leaving N.h (φ h)).filter (fun d => !(Traversal.set (Traversal.set proc' (φ h) true) (N.opp (φ h)) true) d) =
        ((Traversal.leaving K.h h).filter (fun d => !(Traversal.set (Traversal.set proc h true) (K.opp h) true) d)).map φ := by
      rw [i.leaving hK hN hh, List.filter_map]
      congr 1
      apply List.filter_congr
      intro d hd
      change (!Traversal.set (Traversal.set proc' (φ h) true) (N.opp (φ h)) true (φ d)) = _
      rw [hset _ (leaving_orbit hK hh hd).1]
    rw [← e] at this
    exact this

omit hK in
/-- A consistent isomorphic copy of a well-formed mesh is well-formed. -/
theorem Iso.wf (hK : K.WF) (hf : N.Fresh) : N.WF where
  h := hN
  src_next := by
    intro x hx
    obtain ⟨d, hd, rfl⟩ := i.surj x hx
    have ho : K.opp (K.next d) ∈ K.darts := hK.opp_mem (hK.next_mem hd)
    unfold Mesh.src
    rw [← i.next d hd, ← i.opp _ (hK.next_mem hd)]
    exact (i.vert _ ho d hd).mp (hK.src_next d hd)
  one_orbit := by
    intro x hx y hy h
    obtain ⟨d, hd, rfl⟩ := i.surj x hx
    obtain ⟨e, he, rfl⟩ := i.surj y hy
    unfold Mesh.src at h
    rw [← i.opp d hd, ← i.opp e he] at h
    obtain ⟨k, hk⟩ := hK.one_orbit d hd e he ((i.vert _ (hK.opp_mem hd) _ (hK.opp_mem he)).mpr h)
    exact ⟨k, (i.rot_iterate hK.h hd k).trans (congrArg φ hk)⟩
  simple := by
    intro x hx y hy h h'
    obtain ⟨d, hd, rfl⟩ := i.surj x hx
    obtain ⟨e, he, rfl⟩ := i.surj y hy
    unfold Mesh.src at h
    rw [← i.opp d hd, ← i.opp e he] at h
    rw [hK.simple d hd e he ((i.vert _ (hK.opp_mem hd) _ (hK.opp_mem he)).mpr h) ((i.vert d hd e he).mpr h')]
  noloop := by
    intro x hx h
    obtain ⟨d, hd, rfl⟩ := i.surj x hx
    unfold Mesh.src at h
    rw [← i.opp d hd] at h
    exact hK.noloop d hd ((i.vert _ (hK.opp_mem hd) d hd).mpr h)
  deg3 := by
    intro x hx h
    obtain ⟨d, hd, rfl⟩ := i.surj x hx
    rw [← i.next d hd, ← i.next _ (hK.next_mem hd)] at h
    exact hK.deg3 d hd (i.inj _ (hK.next_mem (hK.next_mem hd)) d hd h)
  fresh := hf

omit hK in
theorem Iso.conn (hK : K.WF) {h0 : Nat} (hc : K.Conn h0) : N.Conn (φ h0) := by
  refine ⟨i.mem _ hc.1, ?_⟩
  intro x hx
  obtain ⟨d, hd, rfl⟩ := i.surj x hx
  have main : ∀ d, Reach K.h h0 d → d ∈ K.darts ∧ Reach N.h (φ h0) (φ d) := by
    intro d h
    induction h with
    | refl => exact ⟨hc.1, .refl⟩
    | tail _ hs ih =>
      rename_i b c _
      obtain ⟨hb, ih⟩ := ih
      rcases hs with rfl | rfl
      · refine ⟨hK.next_mem hb, ih.tail (Or.inl ?_)⟩
        exact i.next b hb
      · refine ⟨hK.opp_mem hb, ih.tail (Or.inr ?_)⟩
        exact i.opp b hb
  exact (main d (hc.2 d hd)).2

end

/-- The starting halfedge is found from the two departure vertices. -/
theorem pushHehInit_eq {m : Mesh P} (hm : m.WF) {h0 hit : Nat} (hh : h0 ∈ m.darts) (hit_mem : hit ∈ m.darts)
    (hv : m.vert hit = m.src h0) : pushHehInit m hit (m.vert h0) = some h0 := by
  have ho := hm.opp_mem hit_mem
  have hs : m.src (m.opp hit) = m.src h0 := by rw [hm.src_opp hit_mem]; exact hv
  have hin : h0 ∈ m.ring (m.opp hit) := (mem_ring hm ho h0).mpr ⟨hh, hs.symm⟩
  unfold pushHehInit
  cases hf : (m.ring (m.opp hit)).find? (fun d => m.vert d == m.vert h0) with
  | none =>
    have := List.find?_eq_none.mp hf h0 hin
    simp at this
  | some x =>
    have h1 := List.find?_some hf
    have h2 := (mem_ring hm ho x).mp (List.mem_of_find?_eq_some hf)
    simp only [beq_iff_eq] at h1
    rw [hm.simple x h2.1 h0 hh (h2.2.trans hs) h1]

end TDP.Codec
