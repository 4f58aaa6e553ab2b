import Verif.Codec.Basic
/-! `split_facet` cutting a corner. -/
namespace TDP.Codec
open TDP.Traversal Function

variable {P : Type}

section
variable {m : Mesh P} (hm : m.WF)
include hm

theorem period3 {h : Nat} (hh : h ∈ m.darts) : 3 ≤ minimalPeriod m.next h := by
  obtain ⟨hp, _⟩ := period_spec hm.h.next_mem hm.h.next_inj hh
  have h0 : m.next^[minimalPeriod m.next h] h = h := iterate_minimalPeriod
  rcases Nat.lt_or_ge (minimalPeriod m.next h) 3 with hlt | hge
  · exfalso
    have : minimalPeriod m.next h = 1 ∨ minimalPeriod m.next h = 2 := by
      have hp' : 0 < minimalPeriod m.next h := hp
      omega
    rcases this with e | e
    · rw [e] at h0; exact hm.next_ne hh h0
    · rw [e] at h0; exact hm.deg3 h hh h0
  · exact hge

theorem around_eq' {h : Nat} (hh : h ∈ m.darts) :
    around m.h h = (List.range (minimalPeriod m.next h)).map (fun i => m.next^[i] h) := around_eq hm.h hh

theorem deg_eq {h : Nat} (hh : h ∈ m.darts) : m.deg h = minimalPeriod m.next h := by
  unfold Mesh.deg; rw [around_eq' hm hh]; simp

theorem deg_ge {h : Nat} (hh : h ∈ m.darts) : 3 ≤ m.deg h := by rw [deg_eq hm hh]; exact period3 hm hh

theorem deg_three_iff {h : Nat} (hh : h ∈ m.darts) : m.deg h = 3 ↔ m.next (m.next (m.next h)) = h := by
  rw [deg_eq hm hh]
  have h3 := period3 hm hh
  constructor
  · intro e
    have h0 : m.next^[minimalPeriod m.next h] h = h := iterate_minimalPeriod
    rw [e] at h0; exact h0
  · intro e
    have : IsPeriodicPt m.next 3 h := e
    have := this.minimalPeriod_le (by omega)
    omega

theorem corner_index {h g : Nat} (hh : h ∈ m.darts) (hg : g ∈ m.darts) (hgh : m.next (m.next g) = h) :
    g = m.next^[minimalPeriod m.next h - 2] h := by
  have h3 := period3 hm hh
  have h0 : m.next^[minimalPeriod m.next h] h = h := iterate_minimalPeriod
  have e : minimalPeriod m.next h = (minimalPeriod m.next h - 2) + 1 + 1 := by omega
  rw [e, iterate_succ_apply', iterate_succ_apply', ← hgh] at h0
  have hmem := iterate_mem hm.h.next_mem hh (minimalPeriod m.next h - 2)
  rw [hgh] at h0
  have h1 : m.next (m.next (m.next^[minimalPeriod m.next h - 2] h)) = m.next (m.next g) := by rw [hgh]; exact h0
  exact (hm.next_inj hmem hg (hm.next_inj (hm.next_mem hmem) (hm.next_mem hg) h1)).symm

end

theorem walk_eq {f : Nat → Nat} {h g : Nat} (hn : 3 ≤ minimalPeriod f h)
    (hg : g = f^[minimalPeriod f h - 2] h) (k j : Nat) (hj1 : 1 ≤ j) (hj2 : j ≤ minimalPeriod f h - 2)
    (hk : minimalPeriod f h - 1 - j ≤ k) :
    walk f g k (f^[j] h) = (List.range (minimalPeriod f h - 1 - j)).map (fun i => f^[j + i] h) := by
  induction k generalizing j with
  | zero => omega
  | succ k ih =>
    rw [walk, ← iterate_succ_apply' f j h]
    by_cases hlast : j = minimalPeriod f h - 2
    · rw [if_pos (by rw [hg, hlast]), show minimalPeriod f h - 1 - j = 1 by omega]
      simp
    · have hne : f^[j] h ≠ g := by
        rw [hg]
        intro he
        have := iterate_injOn_Iio_minimalPeriod (f := f) (x := h) (show j ∈ Set.Iio _ from by
          simp only [Set.mem_Iio]; omega) (show minimalPeriod f h - 2 ∈ Set.Iio _ from by
          simp only [Set.mem_Iio]; omega) he
        omega
      rw [if_neg hne, ih (j + 1) (by omega) (by omega) (by omega),
        show minimalPeriod f h - 1 - j = (minimalPeriod f h - 1 - (j + 1)) + 1 by omega, List.range_succ_eq_map,
        List.map_cons, List.map_map, Nat.add_zero]
      congr 1
      apply List.map_congr_left
      intro i _
      simp only [Function.comp_apply]
      congr 1; omega

section
variable {m : Mesh P} (hm : m.WF)
include hm

theorem mem_walk {h g : Nat} (hh : h ∈ m.darts) (hg : g ∈ m.darts) (hgh : m.next (m.next g) = h) (d : Nat) :
    d ∈ walk m.next g m.darts.card (m.next h) ↔ d ∈ m.darts ∧ m.face d = m.face h ∧ d ≠ h ∧ d ≠ m.next g := by
  have h3 := period3 hm hh
  obtain ⟨hp, hle⟩ := period_spec hm.h.next_mem hm.h.next_inj hh
  have hle' : minimalPeriod m.next h ≤ m.darts.card := hle
  have hgi := corner_index hm hh hg hgh
  have hw := walk_eq (f := m.next) h3 hgi m.darts.card 1 (by omega) (by omega) (by omega)
  rw [iterate_one] at hw
  rw [hw, List.mem_map]
  have hpg : m.next g = m.next^[minimalPeriod m.next h - 1] h := by
    conv_lhs => rw [hgi]
    rw [← iterate_succ_apply' m.next]
    congr 1; omega
  have hinj : ∀ i j, i < minimalPeriod m.next h → j < minimalPeriod m.next h → m.next^[i] h = m.next^[j] h → i = j := by
    intro i j hi hj he
    exact iterate_injOn_Iio_minimalPeriod (f := m.next) (x := h) hi hj he
  constructor
  · rintro ⟨i, hi, rfl⟩
    rw [List.mem_range] at hi
    have hd := iterate_mem hm.h.next_mem hh (1 + i)
    refine ⟨hd, ((hm.h.face_iff h hh _ hd).mpr ⟨1 + i, rfl⟩).symm, ?_, ?_⟩
    · intro he
      have := hinj (1 + i) 0 (by omega) (by omega) he
      omega
    · rw [hpg]
      intro he
      have := hinj _ _ (by omega) (by omega) he
      omega
  · rintro ⟨hd, hf, hne1, hne2⟩
    have hmem := (mem_around hm.h hh d).mpr ⟨hd, hf⟩
    rw [around_eq' hm hh, List.mem_map] at hmem
    obtain ⟨i, hi, rfl⟩ := hmem
    rw [List.mem_range] at hi
    have hi0 : i ≠ 0 := fun e => hne1 (by rw [e]; rfl)
    have hi1 : i ≠ minimalPeriod m.next h - 1 := fun e => hne2 (by rw [hpg, e])
    exact ⟨i - 1, List.mem_range.mpr (by omega), by congr 1; omega⟩

end

/-- What is needed to cut the corner between `h` and the second next after `g`. -/
structure Corner (m : Mesh P) (h g : Nat) : Prop where
  wf : m.WF
  hh : h ∈ m.darts
  hg : g ∈ m.darts
  close : m.next (m.next g) = h
  notadj : ∀ d ∈ m.darts, m.src d = m.vert h → m.vert d ≠ m.vert g
  ne : m.vert h ≠ m.vert g

namespace Corner
variable {m : Mesh P} {h g : Nat} (c : Corner m h g)
include c

theorem nd1 : m.nd ∉ m.darts := fun hd => absurd (c.wf.fresh _ hd).1 (by omega)
theorem nd2 : m.nd + 1 ∉ m.darts := fun hd => absurd (c.wf.fresh _ hd).1 (by omega)
theorem h_ne_g : h ≠ g := fun e => by
  have := c.close; rw [← e] at this; exact c.wf.deg3 h c.hh this
theorem h_ne_nd : h ≠ m.nd := fun e => c.nd1 (e ▸ c.hh)
theorem h_ne_nd' : h ≠ m.nd + 1 := fun e => c.nd2 (e ▸ c.hh)
theorem g_ne_nd : g ≠ m.nd := fun e => c.nd1 (e ▸ c.hg)
theorem g_ne_nd' : g ≠ m.nd + 1 := fun e => c.nd2 (e ▸ c.hg)
theorem nexth_ne_g : m.next h ≠ g := fun e =>
  c.notadj _ (c.wf.next_mem c.hh) (c.wf.src_next h c.hh) (by rw [e])
theorem p_ne_h : m.next g ≠ h := fun e => by
  have := c.close; rw [e] at this; exact c.wf.next_ne c.hh this
theorem p_ne_g : m.next g ≠ g := c.wf.next_ne c.hg
theorem p_mem : m.next g ∈ m.darts := c.wf.next_mem c.hg
theorem face_p : m.face (m.next g) = m.face g := c.wf.face_next c.hg
theorem face_g : m.face g = m.face h := by
  have h1 := c.wf.face_next c.p_mem
  rw [c.close, c.face_p] at h1
  exact h1.symm

/-! the new pointers -/
theorem next_h : (splitFacet m h g).next h = m.nd := by simp [splitFacet]
theorem next_g : (splitFacet m h g).next g = m.nd + 1 := by
  simp only [splitFacet, if_neg c.h_ne_g.symm, if_true]
theorem next_nd : (splitFacet m h g).next m.nd = m.next g := by
  simp only [splitFacet, if_neg c.h_ne_nd.symm, if_neg c.g_ne_nd.symm, if_true]
theorem next_nd' : (splitFacet m h g).next (m.nd + 1) = m.next h := by
  have h1 : m.nd + 1 ≠ m.nd := by omega
  simp only [splitFacet, if_neg c.h_ne_nd'.symm, if_neg c.g_ne_nd'.symm, if_neg h1, if_true]
theorem next_old {d : Nat} (hd : d ∈ m.darts) (h1 : d ≠ h) (h2 : d ≠ g) : (splitFacet m h g).next d = m.next d := by
  have h3 : d ≠ m.nd := fun e => c.nd1 (e ▸ hd)
  have h4 : d ≠ m.nd + 1 := fun e => c.nd2 (e ▸ hd)
  simp only [splitFacet, if_neg h1, if_neg h2, if_neg h3, if_neg h4]
theorem opp_nd : (splitFacet m h g).opp m.nd = m.nd + 1 := by simp [splitFacet]
theorem opp_nd' : (splitFacet m h g).opp (m.nd + 1) = m.nd := by simp [splitFacet]
theorem opp_old {d : Nat} (hd : d ∈ m.darts) : (splitFacet m h g).opp d = m.opp d := by
  have h3 : d ≠ m.nd := fun e => c.nd1 (e ▸ hd)
  have h4 : d ≠ m.nd + 1 := fun e => c.nd2 (e ▸ hd)
  simp only [splitFacet, if_neg h3, if_neg h4]
theorem vert_nd : (splitFacet m h g).vert m.nd = m.vert g := by simp [splitFacet]
theorem vert_nd' : (splitFacet m h g).vert (m.nd + 1) = m.vert h := by simp [splitFacet]
theorem vert_old {d : Nat} (hd : d ∈ m.darts) : (splitFacet m h g).vert d = m.vert d := by
  have h3 : d ≠ m.nd := fun e => c.nd1 (e ▸ hd)
  have h4 : d ≠ m.nd + 1 := fun e => c.nd2 (e ▸ hd)
  simp only [splitFacet, if_neg h3, if_neg h4]
theorem src_nd : (splitFacet m h g).src m.nd = m.vert h := by
  unfold Mesh.src; rw [c.opp_nd, c.vert_nd']
theorem src_nd' : (splitFacet m h g).src (m.nd + 1) = m.vert g := by
  unfold Mesh.src; rw [c.opp_nd', c.vert_nd]
theorem src_old {d : Nat} (hd : d ∈ m.darts) : (splitFacet m h g).src d = m.src d := by
  unfold Mesh.src; rw [c.opp_old hd, c.vert_old (c.wf.opp_mem hd)]
theorem mem_iff (d : Nat) : d ∈ (splitFacet m h g).darts ↔ d = m.nd ∨ d = m.nd + 1 ∨ d ∈ m.darts := by
  simp [splitFacet]
theorem face_nd : (splitFacet m h g).face m.nd = m.face h := by simp [splitFacet]
theorem face_nd' : (splitFacet m h g).face (m.nd + 1) = m.nf := by simp [splitFacet]
theorem face_old {d : Nat} (hd : d ∈ m.darts) : (splitFacet m h g).face d =
    if m.face d = m.face h ∧ d ≠ h ∧ d ≠ m.next g then m.nf else m.face d := by
  have h3 : d ≠ m.nd := fun e => c.nd1 (e ▸ hd)
  have h4 : d ≠ m.nd + 1 := fun e => c.nd2 (e ▸ hd)
  have hw := mem_walk c.wf c.hh c.hg c.close d
  simp only [splitFacet, if_neg h3, h4, false_or]
  by_cases hc : m.face d = m.face h ∧ d ≠ h ∧ d ≠ m.next g
  · rw [if_pos hc, if_pos (hw.mpr ⟨hd, hc⟩)]
  · rw [if_neg hc, if_neg (fun hx => hc (hw.mp hx).2)]
theorem face_h : (splitFacet m h g).face h = m.face h := by rw [c.face_old c.hh, if_neg]; simp
theorem face_p' : (splitFacet m h g).face (m.next g) = m.face h := by
  rw [c.face_old c.p_mem, if_neg (by simp), c.face_p, c.face_g]
theorem face_other {d : Nat} (hd : d ∈ m.darts) (hf : m.face d ≠ m.face h) : (splitFacet m h g).face d = m.face d := by
  rw [c.face_old hd, if_neg (fun hx => hf hx.1)]

/-- The new pointers are permutations. -/
theorem next_mem' : ∀ d ∈ (splitFacet m h g).darts, (splitFacet m h g).next d ∈ (splitFacet m h g).darts := by
  intro d hd
  rw [c.mem_iff] at hd ⊢
  rcases hd with rfl | rfl | hd
  · rw [c.next_nd]; exact Or.inr (Or.inr c.p_mem)
  · rw [c.next_nd']; exact Or.inr (Or.inr (c.wf.next_mem c.hh))
  · by_cases h1 : d = h
    · rw [h1, c.next_h]; exact Or.inl rfl
    · by_cases h2 : d = g
      · rw [h2, c.next_g]; exact Or.inr (Or.inl rfl)
      · rw [c.next_old hd h1 h2]; exact Or.inr (Or.inr (c.wf.next_mem hd))

theorem next_inj' : ∀ d ∈ (splitFacet m h g).darts, ∀ e ∈ (splitFacet m h g).darts,
    (splitFacet m h g).next d = (splitFacet m h g).next e → d = e := by
  -- a left inverse of the new `next`
  have key : ∀ d, d ∈ (splitFacet m h g).darts → ∀ e, e ∈ (splitFacet m h g).darts →
      (splitFacet m h g).next d = (splitFacet m h g).next e → d = e := by
    have cls : ∀ d ∈ (splitFacet m h g).darts, (d = h ∧ (splitFacet m h g).next d = m.nd) ∨
        (d = g ∧ (splitFacet m h g).next d = m.nd + 1) ∨ (d = m.nd ∧ (splitFacet m h g).next d = m.next g) ∨
        (d = m.nd + 1 ∧ (splitFacet m h g).next d = m.next h) ∨
        (d ∈ m.darts ∧ d ≠ h ∧ d ≠ g ∧ (splitFacet m h g).next d = m.next d) := by
      intro d hd
      rw [c.mem_iff] at hd
      rcases hd with rfl | rfl | hd
      · exact Or.inr (Or.inr (Or.inl ⟨rfl, c.next_nd⟩))
      · exact Or.inr (Or.inr (Or.inr (Or.inl ⟨rfl, c.next_nd'⟩)))
      · by_cases h1 : d = h
        · exact Or.inl ⟨h1, h1 ▸ c.next_h⟩
        · by_cases h2 : d = g
          · exact Or.inr (Or.inl ⟨h2, h2 ▸ c.next_g⟩)
          · exact Or.inr (Or.inr (Or.inr (Or.inr ⟨hd, h1, h2, c.next_old hd h1 h2⟩)))
    have nm : ∀ d ∈ m.darts, m.next d ≠ m.nd ∧ m.next d ≠ m.nd + 1 := fun d hd =>
      ⟨fun e => c.nd1 (e ▸ c.wf.next_mem hd), fun e => c.nd2 (e ▸ c.wf.next_mem hd)⟩
    have ng := nm g c.hg
    have nh := nm h c.hh
    intro d hd e he heq
    have hgh : m.next g ≠ m.next h := fun x => c.h_ne_g (c.wf.next_inj c.hg c.hh x).symm
    rcases cls d hd with ⟨a1, a2⟩ | ⟨a1, a2⟩ | ⟨a1, a2⟩ | ⟨a1, a2⟩ | ⟨a0, a1, a3, a2⟩ <;>
    rcases cls e he with ⟨b1, b2⟩ | ⟨b1, b2⟩ | ⟨b1, b2⟩ | ⟨b1, b2⟩ | ⟨b0, b1, b3, b2⟩ <;>
    rw [a2, b2] at heq
    all_goals first
      | (rw [a1, b1]; done)
      | (exfalso; omega)
      | (exact absurd heq (nm _ b0).1.symm)
      | (exact absurd heq (nm _ b0).2.symm)
      | (exact absurd heq (nm _ a0).1)
      | (exact absurd heq (nm _ a0).2)
      | (exact absurd heq hgh)
      | (exact absurd heq.symm hgh)
      | (exact absurd heq.symm ng.1)
      | (exact absurd (c.wf.next_inj c.hg b0 heq).symm b3)
      | (exact absurd (c.wf.next_inj c.hh b0 heq).symm b1)
      | (exact absurd (c.wf.next_inj a0 c.hg heq) a3)
      | (exact absurd (c.wf.next_inj a0 c.hh heq) a1)
      | (exact c.wf.next_inj a0 b0 heq)
  intro d hd e he heq
  exact key d hd e he heq

theorem face_const' : ∀ d ∈ (splitFacet m h g).darts, (splitFacet m h g).face ((splitFacet m h g).next d) =
    (splitFacet m h g).face d := by
  have hfg : (splitFacet m h g).face g = m.nf := by
    rw [c.face_old c.hg, if_pos ⟨c.face_g, c.h_ne_g.symm, c.p_ne_g.symm⟩]
  have hfn : (splitFacet m h g).face (m.next h) = m.nf := by
    rw [c.face_old (c.wf.next_mem c.hh), if_pos ⟨c.wf.face_next c.hh, c.wf.next_ne c.hh,
      fun e => c.h_ne_g (c.wf.next_inj c.hh c.hg e)⟩]
  intro d hd
  rw [c.mem_iff] at hd
  rcases hd with rfl | rfl | hd
  · rw [c.next_nd, c.face_nd, c.face_p']
  · rw [c.next_nd', c.face_nd', hfn]
  · by_cases h1 : d = h
    · rw [h1, c.next_h, c.face_nd, c.face_h]
    · by_cases h2 : d = g
      · rw [h2, c.next_g, c.face_nd', hfg]
      · rw [c.next_old hd h1 h2]
        by_cases hf : m.face d = m.face h
        · by_cases hp : d = m.next g
          · rw [hp, c.close, c.face_h, c.face_p']
          · rw [c.face_old hd, if_pos ⟨hf, h1, hp⟩, c.face_old (c.wf.next_mem hd), if_pos]
            refine ⟨by rw [c.wf.face_next hd, hf], fun e => ?_, fun e => h2 (c.wf.next_inj hd c.hg e)⟩
            exact hp (c.wf.next_inj hd c.p_mem (by rw [e, c.close]))
        · rw [c.face_other hd hf, c.face_other (c.wf.next_mem hd) (by rw [c.wf.face_next hd]; exact hf),
            c.wf.face_next hd]

theorem iterate_rest (j : Nat) (h1 : 1 ≤ j) (h2 : j ≤ minimalPeriod m.next h - 2) :
    (splitFacet m h g).next^[j] (m.nd + 1) = m.next^[j] h := by
  induction j with
  | zero => omega
  | succ j ih =>
    rw [iterate_succ_apply', iterate_succ_apply']
    rcases Nat.eq_zero_or_pos j with rfl | hj
    · exact c.next_nd'
    · rw [ih hj (by omega)]
      have h3 := period3 c.wf c.hh
      have hinj : ∀ i k, i < minimalPeriod m.next h → k < minimalPeriod m.next h →
          m.next^[i] h = m.next^[k] h → i = k := by
        intro i k hi hk he
        exact iterate_injOn_Iio_minimalPeriod (f := m.next) (x := h) hi hk he
      refine c.next_old (iterate_mem c.wf.h.next_mem c.hh j) ?_ ?_
      · intro e
        have := hinj j 0 (by omega) (by omega) e
        omega
      · rw [corner_index c.wf c.hh c.hg c.close]
        intro e
        have := hinj j _ (by omega) (by omega) e
        omega

theorem iterate_other {d : Nat} (hd : d ∈ m.darts) (hf : m.face d ≠ m.face h) (i : Nat) :
    (splitFacet m h g).next^[i] d = m.next^[i] d := by
  induction i with
  | zero => rfl
  | succ i ih =>
    rw [iterate_succ_apply', iterate_succ_apply', ih]
    have hmem := iterate_mem c.wf.h.next_mem hd i
    have hfi : m.face (m.next^[i] d) = m.face d := ((c.wf.h.face_iff d hd _ hmem).mpr ⟨i, rfl⟩).symm
    refine c.next_old hmem ?_ ?_
    · intro e; rw [e] at hfi; exact hf hfi.symm
    · intro e; rw [e, c.face_g] at hfi; exact hf hfi.symm

theorem face_iff' : ∀ d ∈ (splitFacet m h g).darts, ∀ e ∈ (splitFacet m h g).darts,
    (splitFacet m h g).face d = (splitFacet m h g).face e ↔ ∃ i, (splitFacet m h g).next^[i] d = e := by
  classical
  let base : Nat → Nat := fun f => if f = m.nf then m.nd + 1 else if f = m.face h then h else
    if hx : ∃ d ∈ m.darts, m.face d = f then hx.choose else 0
  have fresh_ne : ∀ d ∈ m.darts, m.face d ≠ m.nf := fun d hd => by have := (c.wf.fresh d hd).2.1; omega
  have bnf : base m.nf = m.nd + 1 := by simp [base]
  have bh : base (m.face h) = h := by simp [base, fresh_ne h c.hh]
  refine face_iff_of c.next_mem' c.next_inj' c.face_const' base ?_
  have hmemh : h ∈ (splitFacet m h g).darts := (c.mem_iff h).mpr (Or.inr (Or.inr c.hh))
  have hmemn : m.nd + 1 ∈ (splitFacet m h g).darts := (c.mem_iff _).mpr (Or.inr (Or.inl rfl))
  intro d hd
  rw [c.mem_iff] at hd
  rcases hd with rfl | rfl | hd
  · rw [c.face_nd, bh]; exact ⟨hmemh, 1, c.next_h⟩
  · rw [c.face_nd', bnf]; exact ⟨hmemn, 0, rfl⟩
  · by_cases hf : m.face d = m.face h
    · by_cases h1 : d = h
      · rw [h1, c.face_h, bh]; exact ⟨hmemh, 0, rfl⟩
      · by_cases h2 : d = m.next g
        · rw [h2, c.face_p', bh]
          refine ⟨hmemh, 2, ?_⟩
          change (splitFacet m h g).next ((splitFacet m h g).next h) = _
          rw [c.next_h, c.next_nd]
        · rw [c.face_old hd, if_pos ⟨hf, h1, h2⟩, bnf]
          refine ⟨hmemn, ?_⟩
          have hmem := (mem_around c.wf.h c.hh d).mpr ⟨hd, hf⟩
          rw [around_eq' c.wf c.hh, List.mem_map] at hmem
          obtain ⟨i, hi, rfl⟩ := hmem
          rw [List.mem_range] at hi
          have hgi := corner_index c.wf c.hh c.hg c.close
          have h3 := period3 c.wf c.hh
          have hpg : m.next g = m.next^[minimalPeriod m.next h - 1] h := by
            conv_lhs => rw [hgi]
            rw [← iterate_succ_apply' m.next]
            congr 1; omega
          have hi0 : i ≠ 0 := fun e => h1 (by rw [e]; rfl)
          have hi1 : i ≠ minimalPeriod m.next h - 1 := fun e => h2 (by rw [hpg, e])
          exact ⟨i, c.iterate_rest i (by omega) (by omega)⟩
    · rw [c.face_other hd hf]
      have hx : ∃ d' ∈ m.darts, m.face d' = m.face d := ⟨d, hd, rfl⟩
      have hb : base (m.face d) = hx.choose := by
        simp only [base, if_neg (fresh_ne d hd), if_neg hf, dif_pos hx]
      obtain ⟨b1, b2⟩ := hx.choose_spec
      rw [hb]
      refine ⟨(c.mem_iff _).mpr (Or.inr (Or.inr b1)), ?_⟩
      obtain ⟨i, hi⟩ := (c.wf.h.face_iff _ b1 d hd).mp b2
      exact ⟨i, by rw [c.iterate_other b1 (by rw [b2]; exact hf)]; exact hi⟩

theorem opp_facts : (∀ d ∈ (splitFacet m h g).darts, (splitFacet m h g).opp d ∈ (splitFacet m h g).darts) ∧
    (∀ d ∈ (splitFacet m h g).darts, (splitFacet m h g).opp ((splitFacet m h g).opp d) = d) ∧
    (∀ d ∈ (splitFacet m h g).darts, (splitFacet m h g).opp d ≠ d) := by
  refine ⟨?_, ?_, ?_⟩ <;> intro d hd <;> rw [c.mem_iff] at hd <;> rcases hd with rfl | rfl | hd
  · rw [c.opp_nd, c.mem_iff]; simp
  · rw [c.opp_nd', c.mem_iff]; simp
  · rw [c.opp_old hd, c.mem_iff]; exact Or.inr (Or.inr (c.wf.opp_mem hd))
  · rw [c.opp_nd, c.opp_nd']
  · rw [c.opp_nd', c.opp_nd]
  · rw [c.opp_old hd, c.opp_old (c.wf.opp_mem hd), c.wf.opp_opp hd]
  · rw [c.opp_nd]; omega
  · rw [c.opp_nd']; omega
  · rw [c.opp_old hd]; exact c.wf.opp_ne hd

theorem rot_nd : (splitFacet m h g).rot m.nd = m.next h := by unfold Mesh.rot; rw [c.opp_nd, c.next_nd']
theorem rot_nd' : (splitFacet m h g).rot (m.nd + 1) = m.next g := by unfold Mesh.rot; rw [c.opp_nd', c.next_nd]
theorem rot_old {d : Nat} (hd : d ∈ m.darts) (h1 : m.opp d ≠ h) (h2 : m.opp d ≠ g) :
    (splitFacet m h g).rot d = m.rot d := by
  unfold Mesh.rot; rw [c.opp_old hd, c.next_old (c.wf.opp_mem hd) h1 h2]
theorem rot_opp_h : (splitFacet m h g).rot (m.opp h) = m.nd := by
  unfold Mesh.rot; rw [c.opp_old (c.wf.opp_mem c.hh), c.wf.opp_opp c.hh, c.next_h]
theorem rot_opp_g : (splitFacet m h g).rot (m.opp g) = m.nd + 1 := by
  unfold Mesh.rot; rw [c.opp_old (c.wf.opp_mem c.hg), c.wf.opp_opp c.hg, c.next_g]

theorem rot_step {x : Nat} (hx : x ∈ m.darts) : ∃ j, (splitFacet m h g).rot^[j] x = m.rot x := by
  by_cases h1 : m.opp x = h
  · refine ⟨2, ?_⟩
    have e : x = m.opp h := by rw [← h1, c.wf.opp_opp hx]
    change (splitFacet m h g).rot ((splitFacet m h g).rot x) = _
    rw [e, c.rot_opp_h, c.rot_nd]
    unfold Mesh.rot; rw [c.wf.opp_opp c.hh]
  · by_cases h2 : m.opp x = g
    · refine ⟨2, ?_⟩
      have e : x = m.opp g := by rw [← h2, c.wf.opp_opp hx]
      change (splitFacet m h g).rot ((splitFacet m h g).rot x) = _
      rw [e, c.rot_opp_g, c.rot_nd']
      unfold Mesh.rot; rw [c.wf.opp_opp c.hg]
    · exact ⟨1, c.rot_old hx h1 h2⟩

theorem rot_reach {d : Nat} (hd : d ∈ m.darts) (i : Nat) : ∃ j, (splitFacet m h g).rot^[j] d = m.rot^[i] d := by
  induction i with
  | zero => exact ⟨0, rfl⟩
  | succ i ih =>
    obtain ⟨j, hj⟩ := ih
    have hmem : m.rot^[i] d ∈ m.darts := iterate_mem (fun x hx => c.wf.rot_mem hx) hd i
    obtain ⟨k, hk⟩ := c.rot_step hmem
    refine ⟨k + j, ?_⟩
    rw [iterate_add_apply, hj, hk, iterate_succ_apply']

theorem one_orbit' : ∀ d ∈ (splitFacet m h g).darts, ∀ e ∈ (splitFacet m h g).darts,
    (splitFacet m h g).src d = (splitFacet m h g).src e → ∃ i, (splitFacet m h g).rot^[i] d = e := by
  have fwd : ∀ d ∈ (splitFacet m h g).darts, ∃ i, ∃ x ∈ m.darts, (splitFacet m h g).rot^[i] d = x ∧
      m.src x = (splitFacet m h g).src d := by
    intro d hd
    rw [c.mem_iff] at hd
    rcases hd with rfl | rfl | hd
    · exact ⟨1, _, c.wf.next_mem c.hh, c.rot_nd, by rw [c.src_nd]; exact c.wf.src_next h c.hh⟩
    · exact ⟨1, _, c.wf.next_mem c.hg, c.rot_nd', by rw [c.src_nd']; exact c.wf.src_next g c.hg⟩
    · exact ⟨0, d, hd, rfl, (c.src_old hd).symm⟩
  have bwd : ∀ e ∈ (splitFacet m h g).darts, ∃ i, ∃ x ∈ m.darts, (splitFacet m h g).rot^[i] x = e ∧
      m.src x = (splitFacet m h g).src e := by
    intro d hd
    rw [c.mem_iff] at hd
    rcases hd with rfl | rfl | hd
    · exact ⟨1, _, c.wf.opp_mem c.hh, c.rot_opp_h, by rw [c.src_nd]; exact c.wf.src_opp c.hh⟩
    · exact ⟨1, _, c.wf.opp_mem c.hg, c.rot_opp_g, by rw [c.src_nd']; exact c.wf.src_opp c.hg⟩
    · exact ⟨0, d, hd, rfl, (c.src_old hd).symm⟩
  intro d hd e he hs
  obtain ⟨i, x, hx, h1, h2⟩ := fwd d hd
  obtain ⟨j, y, hy, h3, h4⟩ := bwd e he
  obtain ⟨k, hk⟩ := c.wf.one_orbit x hx y hy (by rw [h2, h4, hs])
  obtain ⟨l, hl⟩ := c.rot_reach hx k
  exact ⟨j + (l + i), by rw [iterate_add_apply, iterate_add_apply, h1, hl, hk, h3]⟩

/-- Cutting a corner keeps the mesh well-formed. -/
theorem wf' : (splitFacet m h g).WF where
  h := ⟨c.next_mem', c.opp_facts.1, c.next_inj', c.opp_facts.2.1, c.opp_facts.2.2, c.face_iff'⟩
  src_next := by
    intro d hd
    rw [c.mem_iff] at hd
    rcases hd with rfl | rfl | hd
    · rw [c.next_nd, c.vert_nd, c.src_old c.p_mem]; exact c.wf.src_next g c.hg
    · rw [c.next_nd', c.vert_nd', c.src_old (c.wf.next_mem c.hh)]; exact c.wf.src_next h c.hh
    · rw [c.vert_old hd]
      by_cases h1 : d = h
      · rw [h1, c.next_h, c.src_nd]
      · by_cases h2 : d = g
        · rw [h2, c.next_g, c.src_nd']
        · rw [c.next_old hd h1 h2, c.src_old (c.wf.next_mem hd)]; exact c.wf.src_next d hd
  one_orbit := c.one_orbit'
  simple := by
    have old : ∀ e ∈ m.darts, m.src e = m.vert g → m.vert e ≠ m.vert h := by
      intro e he h1 h2
      exact c.notadj _ (c.wf.opp_mem he) (by rw [c.wf.src_opp he, h2]) h1
    intro d hd e he
    rw [c.mem_iff] at hd he
    rcases hd with rfl | rfl | hd <;> rcases he with rfl | rfl | he
    · intro _ _; rfl
    · rw [c.src_nd, c.src_nd']; intro h1; exact absurd h1 c.ne
    · rw [c.src_nd, c.vert_nd, c.src_old he, c.vert_old he]
      intro h1 h2; exact absurd h2.symm (c.notadj e he h1.symm)
    · rw [c.src_nd, c.src_nd']; intro h1; exact absurd h1.symm c.ne
    · intro _ _; rfl
    · rw [c.src_nd', c.vert_nd', c.src_old he, c.vert_old he]
      intro h1 h2; exact absurd h2.symm (old e he h1.symm)
    · rw [c.src_nd, c.vert_nd, c.src_old hd, c.vert_old hd]
      intro h1 h2; exact absurd h2 (c.notadj d hd h1)
    · rw [c.src_nd', c.vert_nd', c.src_old hd, c.vert_old hd]
      intro h1 h2; exact absurd h2 (old d hd h1)
    · rw [c.src_old hd, c.src_old he, c.vert_old hd, c.vert_old he]; exact c.wf.simple d hd e he
  noloop := by
    intro d hd
    rw [c.mem_iff] at hd
    rcases hd with rfl | rfl | hd
    · rw [c.src_nd, c.vert_nd]; exact c.ne
    · rw [c.src_nd', c.vert_nd']; exact c.ne.symm
    · rw [c.src_old hd, c.vert_old hd]; exact c.wf.noloop d hd
  deg3 := by
    intro d hd
    rw [c.mem_iff] at hd
    rcases hd with rfl | rfl | hd
    · rw [c.next_nd, c.next_old c.p_mem c.p_ne_h c.p_ne_g, c.close]; exact c.h_ne_nd
    · rw [c.next_nd', c.next_old (c.wf.next_mem c.hh) (c.wf.next_ne c.hh) c.nexth_ne_g]
      exact fun e => c.nd2 (e ▸ c.wf.next_mem (c.wf.next_mem c.hh))
    · by_cases h1 : d = h
      · rw [h1, c.next_h, c.next_nd]; exact c.p_ne_h
      · by_cases h2 : d = g
        · rw [h2, c.next_g, c.next_nd']; exact c.nexth_ne_g
        · rw [c.next_old hd h1 h2]
          by_cases h3 : m.next d = h
          · rw [h3, c.next_h]; exact fun e => c.nd1 (e ▸ hd)
          · by_cases h4 : m.next d = g
            · rw [h4, c.next_g]; exact fun e => c.nd2 (e ▸ hd)
            · rw [c.next_old (c.wf.next_mem hd) h3 h4]; exact c.wf.deg3 d hd
  fresh := by
    intro d hd
    change d < m.nd + 2 ∧ (splitFacet m h g).face d < m.nf + 1 ∧ (splitFacet m h g).vert d < m.nv
    rw [c.mem_iff] at hd
    have fh := c.wf.fresh h c.hh
    have fg := c.wf.fresh g c.hg
    rcases hd with rfl | rfl | hd
    · rw [c.face_nd, c.vert_nd]; omega
    · rw [c.face_nd', c.vert_nd']; omega
    · have fd := c.wf.fresh d hd
      rw [c.face_old hd, c.vert_old hd]
      refine ⟨by omega, ?_, by omega⟩
      split <;> omega

theorem reach_old {a b : Nat} (ha : a ∈ m.darts) (hr : Reach m.h a b) : Reach (splitFacet m h g).h a b := by
  induction hr with
  | refl => exact .refl
  | tail hab hs ih =>
    rename_i b d
    have hb : b ∈ m.darts := Reach.mem c.wf.h ha hab
    refine ih.trans ?_
    rcases hs with rfl | rfl
    · by_cases h1 : b = h
      · refine Relation.ReflTransGen.tail (b := m.nd + 1) (Relation.ReflTransGen.tail (b := m.nd) (.single (Or.inl ?_)) (Or.inr ?_)) (Or.inl ?_)
        · rw [h1]; exact c.next_h.symm
        · exact c.opp_nd.symm
        · rw [h1]; exact c.next_nd'.symm
      · by_cases h2 : b = g
        · refine Relation.ReflTransGen.tail (b := m.nd) (Relation.ReflTransGen.tail (b := m.nd + 1) (.single (Or.inl ?_)) (Or.inr ?_)) (Or.inl ?_)
          · rw [h2]; exact c.next_g.symm
          · exact c.opp_nd'.symm
          · rw [h2]; exact c.next_nd.symm
        · exact .single (Or.inl (c.next_old hb h1 h2).symm)
    · exact .single (Or.inr (c.opp_old hb).symm)

theorem conn' {h0 : Nat} (hc : m.Conn h0) : (splitFacet m h g).Conn h0 := by
  have hh := c.reach_old hc.1 (hc.2 h c.hh)
  have hn : Reach (splitFacet m h g).h h0 m.nd := hh.tail (Or.inl c.next_h.symm)
  refine ⟨(c.mem_iff _).mpr (Or.inr (Or.inr hc.1)), ?_⟩
  intro d hd
  rw [c.mem_iff] at hd
  rcases hd with rfl | rfl | hd
  · exact hn
  · exact hn.tail (Or.inr c.opp_nd.symm)
  · exact c.reach_old hc.1 (hc.2 d hd)

end Corner

end TDP.Codec
