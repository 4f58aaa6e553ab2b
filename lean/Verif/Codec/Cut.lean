import Verif.Codec.Level
/-! The loop of `vertexCut` turns the facets around a vertex into triangles. -/
namespace TDP.Codec
open TDP.Traversal Function

variable {P : Type}

theorem findSplit_aux {m : Mesh P} (hm : m.WF) {h : Nat} (hh : h ∈ m.darts) (k j : Nat) (hj1 : 1 ≤ j)
    (hj2 : j ≤ minimalPeriod m.next h - 2) (hk : minimalPeriod m.next h - 1 - j ≤ k) :
    ∃ g, findSplit m h k (m.next^[j] h) = some g ∧ g ∈ m.darts ∧ m.next (m.next g) = h := by
  have h3 := period3 hm hh
  induction k generalizing j with
  | zero => omega
  | succ k ih =>
    rw [findSplit]
    by_cases hc : m.next (m.next (m.next^[j] h)) = h
    · rw [if_pos hc]
      exact ⟨_, rfl, iterate_mem hm.h.next_mem hh j, hc⟩
    · rw [if_neg hc, ← iterate_succ_apply' m.next j h]
      refine ih (j + 1) (by omega) ?_ (by omega)
      by_contra hlt
      have e : j + 1 + 1 = minimalPeriod m.next h := by omega
      apply hc
      rw [← iterate_succ_apply' m.next j h, ← iterate_succ_apply' m.next (j + 1) h]
      have : m.next^[minimalPeriod m.next h] h = h := iterate_minimalPeriod
      rw [show (j + 1).succ = minimalPeriod m.next h from e]
      exact this

theorem findSplit_some {m : Mesh P} (hm : m.WF) {h : Nat} (hh : h ∈ m.darts) :
    ∃ g, findSplit m h m.darts.card (m.next h) = some g ∧ g ∈ m.darts ∧ m.next (m.next g) = h := by
  have h3 := period3 hm hh
  obtain ⟨_, hle⟩ := period_spec hm.h.next_mem hm.h.next_inj hh
  have hle' : minimalPeriod m.next h ≤ m.darts.card := hle
  exact findSplit_aux hm hh m.darts.card 1 (by omega) (by omega) (by omega)

/-- A cut in a facet that is not a triangle leaves triangles alone. -/
theorem Corner.tri {m : Mesh P} {h g : Nat} (cn : Corner m h g) (hne : m.next (m.next (m.next h)) ≠ h) {x : Nat}
    (hx : x ∈ m.darts) (ht : m.next (m.next (m.next x)) = x) :
    x ≠ h ∧ x ≠ g ∧ (splitFacet m h g).next x = m.next x ∧
      (splitFacet m h g).next ((splitFacet m h g).next ((splitFacet m h g).next x)) = x := by
  have h1 := cn.wf.next_mem hx
  have h2 := cn.wf.next_mem h1
  have a1 : x ≠ h := fun e => hne (by rw [← e]; exact ht)
  have a2 : m.next x ≠ h := fun e => hne (by rw [← e, ht])
  have a3 : m.next (m.next x) ≠ h := fun e => hne (by rw [← e, ht])
  have b1 : x ≠ g := fun e => a3 (by rw [e]; exact cn.close)
  have b2 : m.next x ≠ g := fun e => by
    have := cn.close; rw [← e, ht] at this; exact a1 this
  have b3 : m.next (m.next x) ≠ g := fun e => by
    have := cn.close; rw [← e, ht] at this; exact a2 this
  refine ⟨a1, b1, cn.next_old hx a1 b1, ?_⟩
  rw [cn.next_old hx a1 b1, cn.next_old h1 a2 b2, cn.next_old h2 a3 b3, ht]

theorem deg_card {m : Mesh P} (hm : m.WF) {d : Nat} (hd : d ∈ m.darts) :
    m.deg d = (m.darts.filter (fun x => m.face x = m.face d)).card := around_length hm.h hd

/-- A cut does not make facets larger. -/
theorem Corner.deg_le {m : Mesh P} {h g : Nat} (cn : Corner m h g) {D : Nat} (hD : 3 ≤ D)
    (hall : ∀ d ∈ m.darts, m.deg d ≤ D) : ∀ d ∈ (splitFacet m h g).darts, (splitFacet m h g).deg d ≤ D := by
  intro d hd
  have facene : ∀ d ∈ m.darts, m.face d ≠ m.nf := fun d hd => by have := (cn.wf.fresh d hd).2.1; omega
  rw [deg_card cn.wf' hd]
  by_cases h1 : (splitFacet m h g).face d = m.nf
  · rw [h1]
    have hsub : (splitFacet m h g).darts.filter (fun x => (splitFacet m h g).face x = m.nf) ⊆
        insert (m.nd + 1) ((m.darts.filter (fun x => m.face x = m.face h)).erase h) := by
      intro x hx
      obtain ⟨a, b⟩ := Finset.mem_filter.mp hx
      rw [Finset.mem_insert, Finset.mem_erase, Finset.mem_filter]
      rcases (cn.mem_iff x).mp a with e | e | hk
      · rw [e, cn.face_nd] at b; exact absurd b (facene h cn.hh)
      · exact Or.inl e
      · rw [cn.face_old hk] at b
        by_cases hc : m.face x = m.face h ∧ x ≠ h ∧ x ≠ m.next g
        · exact Or.inr ⟨hc.2.1, hk, hc.1⟩
        · rw [if_neg hc] at b; exact absurd b (facene x hk)
    have c1 := Finset.card_le_card hsub
    have c2 := Finset.card_insert_le (m.nd + 1) ((m.darts.filter (fun x => m.face x = m.face h)).erase h)
    have c3 := Finset.card_erase_of_mem (Finset.mem_filter.mpr ⟨cn.hh, rfl⟩ : h ∈ m.darts.filter (fun x => m.face x = m.face h))
    have c4 := hall h cn.hh
    have c5 := deg_ge cn.wf cn.hh
    rw [deg_card cn.wf cn.hh] at c4 c5
    omega
  · by_cases h2 : (splitFacet m h g).face d = m.face h
    · rw [h2]
      have hsub : (splitFacet m h g).darts.filter (fun x => (splitFacet m h g).face x = m.face h) ⊆
          insert m.nd (insert h {m.next g}) := by
        intro x hx
        obtain ⟨a, b⟩ := Finset.mem_filter.mp hx
        rw [Finset.mem_insert, Finset.mem_insert, Finset.mem_singleton]
        rcases (cn.mem_iff x).mp a with e | e | hk
        · exact Or.inl e
        · rw [e, cn.face_nd'] at b; exact absurd b.symm (facene h cn.hh)
        · rw [cn.face_old hk] at b
          by_cases hc : m.face x = m.face h ∧ x ≠ h ∧ x ≠ m.next g
          · rw [if_pos hc] at b; exact absurd b.symm (facene h cn.hh)
          · rw [if_neg hc] at b
            by_contra hcon
            rw [not_or, not_or] at hcon
            exact hc ⟨b, hcon.2.1, hcon.2.2⟩
      have c1 := Finset.card_le_card hsub
      have c2 := Finset.card_insert_le m.nd (insert h {m.next g})
      have c3 := Finset.card_insert_le h {m.next g}
      rw [Finset.card_singleton] at c3
      omega
    · rcases (cn.mem_iff d).mp hd with e | e | hk
      · rw [e, cn.face_nd] at h2; exact absurd rfl h2
      · rw [e, cn.face_nd'] at h1; exact absurd rfl h1
      · have hf : m.face d ≠ m.face h := by
          intro e
          rw [cn.face_old hk] at h1 h2
          by_cases hc : m.face d = m.face h ∧ d ≠ h ∧ d ≠ m.next g
          · rw [if_pos hc] at h1; exact h1 rfl
          · rw [if_neg hc] at h2; exact h2 e
        refine le_trans ?_ (hall d hk)
        rw [deg_card cn.wf hk, cn.face_other hk hf]
        apply Finset.card_le_card
        intro x hx
        obtain ⟨a, b⟩ := Finset.mem_filter.mp hx
        rcases (cn.mem_iff x).mp a with e | e | hk'
        · rw [e, cn.face_nd] at b; exact absurd b.symm hf
        · rw [e, cn.face_nd'] at b; exact absurd b.symm (facene d hk)
        · refine Finset.mem_filter.mpr ⟨hk', ?_⟩
          rw [cn.face_old hk'] at b
          by_cases hc : m.face x = m.face h ∧ x ≠ h ∧ x ≠ m.next g
          · rw [if_pos hc] at b; exact absurd b.symm (facene d hk)
          · rwa [if_neg hc] at b

/-- What is known when `vertexCut` starts. -/
structure CutHyp (s0 : St P) (startH : Nat) : Prop where
  wf : s0.m.WF
  hs : startH ∈ s0.m.darts
  un : ∀ d ∈ s0.m.darts, s0.m.vert d = s0.m.vert startH → s0.flag (s0.m.face d) = .unknown
  ring3 : ∀ d ∈ s0.m.darts, s0.m.src d = s0.m.vert startH → s0.m.rot (s0.m.rot d) ≠ d
  nadj : ∀ o ∈ s0.m.darts, s0.m.src o = s0.m.vert startH → s0.m.next (s0.m.next (s0.m.next o)) ≠ o →
    ∀ p ∈ s0.m.darts, s0.m.rot p = o → ∀ x ∈ s0.m.darts, s0.m.src x = s0.m.vert o → s0.m.vert x ≠ s0.m.vert p

/-- Number of halfedges in facets not conquered. -/
def unconq (s : St P) : Nat := (s.m.darts.filter (fun d => (s.flag (s.m.face d)).conquered = false)).card

/-- The `j`-th halfedge leaving the vertex. -/
abbrev hj (s0 : St P) (startH j : Nat) : Nat := s0.m.rot^[j] (s0.m.opp startH)

/-- The state of the loop after `i` corners. -/
structure CutInv (s0 : St P) (startH i : Nat) (s : St P) : Prop where
  wf : s.m.WF
  conn : ∀ h0, s0.m.Conn h0 → s.m.Conn h0
  sub : ∀ d ∈ s0.m.darts, d ∈ s.m.darts ∧ s.m.opp d = s0.m.opp d ∧ s.m.vert d = s0.m.vert d
  new : ∀ d ∈ s.m.darts, d ∉ s0.m.darts → ∃ j < i, ∃ p ∈ s0.m.darts, s0.m.rot p = hj s0 startH j ∧
    ((s.m.src d = s0.m.vert (hj s0 startH j) ∧ s.m.vert d = s0.m.vert p ∧ d = s.m.next (hj s0 startH j)) ∨
     (s.m.vert d = s0.m.vert (hj s0 startH j) ∧ s.m.src d = s0.m.vert p ∧ s.m.opp d = s.m.next (hj s0 startH j)))
  rot : ∀ d ∈ s0.m.darts, s0.m.vert d = s0.m.vert startH → s.m.next d = s0.m.next d
  done : ∀ j < i, s.m.next (s.m.next (s.m.next (hj s0 startH j))) = hj s0 startH j
  keep : ∀ o ∈ s0.m.darts, s0.m.src o = s0.m.vert startH → s0.m.next (s0.m.next (s0.m.next o)) = o →
    s.m.next (s.m.next (s.m.next o)) = o
  flag : ∀ d ∈ s0.m.darts, s.flag (s.m.face d) = s0.flag (s0.m.face d) ∧ s.rem (s.m.face d) = s0.rem (s0.m.face d)
  flagv : ∀ d ∈ s0.m.darts, (s0.flag (s0.m.face d)).conquered = true → s.m.face d = s0.m.face d
  flagn : ∀ d ∈ s.m.darts, d ∉ s0.m.darts → s.flag (s.m.face d) = .unknown
  cov : ∀ y ∈ s.m.darts, (y ∈ s0.m.darts ∧ ∀ q ∈ s0.m.darts, s0.m.face q = s0.m.face y → s.m.face q = s.m.face y) ∨
    (∃ o ∈ s0.m.darts, s0.m.src o = s0.m.vert startH ∧ s.m.face y = s.m.face o) ∨
    (∃ j < i, ∃ e ∈ s.m.darts, s.m.face e = s.m.face y ∧ s.m.opp e = s.m.next (hj s0 startH j))
  conq0 : ∀ u, s0.conq u = true → s.conq u = true
  conq : ∀ j < i, s.conq (s0.m.vert (hj s0 startH j)) = true
  added : ∀ d ∈ s.m.darts, s.added d = true → d ∉ s0.m.darts ∨ s0.added d = true
  addo : (∀ d ∈ s0.m.darts, s0.added d = true → s0.added (s0.m.opp d) = true) →
    ∀ d ∈ s.m.darts, s.added d = true → s.added (s.m.opp d) = true
  degs : ∀ D, 3 ≤ D → (∀ d ∈ s0.m.darts, s0.m.deg d ≤ D) → ∀ d ∈ s.m.darts, s.m.deg d ≤ D
  vset : ∀ d ∈ s.m.darts, ∃ e ∈ s0.m.darts, s0.m.vert e = s.m.vert d
  level : ∀ M R c, Level M R s0.m (fun f => s0.flag f = .splittable) c (fun d => s0.added d = true) →
    ∃ R', R'.pos = R.pos ∧ Level M R' s.m (fun f => s.flag f = .splittable) c (fun d => s.added d = true)
  cnt : unconq s ≤ unconq s0 + 2 * i
  pos : s.m.pos = s0.m.pos
  far : ∀ d ∈ s0.m.darts, (∀ j, s0.m.vert (hj s0 startH j) ≠ s0.m.vert d) → s.m.next d = s0.m.next d
  cnext : ∀ d ∈ s0.m.darts, (s0.flag (s0.m.face d)).conquered = true → s.m.next d = s0.m.next d
  nd : s0.m.nd ≤ s.m.nd ∧ ∀ d ∈ s.m.darts, d ∉ s0.m.darts → s0.m.nd ≤ d
  queue : s.queue = s0.queue
  nrem : s.nrem = s0.nrem

section
variable {s0 : St P} {startH : Nat} (H : CutHyp s0 startH)
include H

theorem CutHyp.mem (j : Nat) : hj s0 startH j ∈ s0.m.darts :=
  iterate_mem (fun _ hx => H.wf.rot_mem hx) (H.wf.opp_mem H.hs) j

theorem CutHyp.src (j : Nat) : s0.m.src (hj s0 startH j) = s0.m.vert startH := by
  induction j with
  | zero => exact H.wf.src_opp H.hs
  | succ j ih => rw [hj, iterate_succ_apply', H.wf.src_rot (H.mem j)]; exact ih

theorem CutHyp.init : CutInv s0 startH 0 s0 where
  wf := H.wf
  conn := fun _ h => h
  sub := fun d hd => ⟨hd, rfl, rfl⟩
  new := fun d hd hn => absurd hd hn
  rot := fun _ _ _ => rfl
  done := fun j hj => absurd hj (by omega)
  keep := fun _ _ _ h => h
  flag := fun _ _ => ⟨rfl, rfl⟩
  flagv := fun _ _ _ => rfl
  flagn := fun d hd hn => absurd hd hn
  cov := fun y hy => Or.inl ⟨hy, fun _ _ h => h⟩
  conq0 := fun _ h => h
  conq := fun j hj => absurd hj (by omega)
  added := fun _ _ h => Or.inr h
  addo := fun h => h
  degs := fun _ _ h => h
  vset := fun d hd => ⟨d, hd, rfl⟩
  level := fun M R c L => ⟨R, rfl, L⟩
  cnt := by omega
  pos := rfl
  far := fun _ _ _ => rfl
  cnext := fun _ _ _ => rfl
  nd := ⟨le_rfl, fun d hd hn => absurd hd hn⟩
  queue := rfl
  nrem := rfl

theorem CutHyp.step {i : Nat} {s : St P} (I : CutInv s0 startH i s) (hi : i < minimalPeriod s0.m.rot (s0.m.opp startH)) :
    ∃ s', cutCorner s (hj s0 startH i) = some s' ∧ CutInv s0 startH (i + 1) s' ∧
      s'.m.rot (hj s0 startH i) = hj s0 startH (i + 1) := by
  have hmem0 := H.mem i
  have hsrc := H.src i
  obtain ⟨hmem, hopp, hvert⟩ := I.sub _ hmem0
  have hrot1 : s.m.rot (hj s0 startH i) = hj s0 startH (i + 1) := by
    have hsu : hj s0 startH (i + 1) = s0.m.rot (hj s0 startH i) := iterate_succ_apply' _ _ _
    rw [hsu]
    change s.m.next (s.m.opp (hj s0 startH i)) = s0.m.next (s0.m.opp (hj s0 startH i))
    rw [hopp]
    exact I.rot _ (H.wf.opp_mem hmem0) hsrc
  unfold cutCorner
  by_cases hdeg : 3 < s.m.deg (hj s0 startH i)
  swap
  · -- already a triangle
    rw [if_neg hdeg]
    refine ⟨_, rfl, ?_, hrot1⟩
    have h3 : s.m.deg (hj s0 startH i) = 3 := by have := deg_ge I.wf hmem; omega
    have ht := (deg_three_iff I.wf hmem).mp h3
    refine { I with new := ?_, done := ?_, cov := ?_, conq0 := ?_, conq := ?_, cnt := ?_ }
    · intro d hd hn
      obtain ⟨j, hjl, rest⟩ := I.new d hd hn
      exact ⟨j, by omega, rest⟩
    · intro j hjl
      rcases Nat.lt_succ_iff_lt_or_eq.mp hjl with h | h
      · exact I.done j h
      · rw [h]; exact ht
    · intro y hy
      rcases I.cov y hy with h | h | ⟨j, hjl, h⟩
      · exact Or.inl h
      · exact Or.inr (Or.inl h)
      · exact Or.inr (Or.inr ⟨j, by omega, h⟩)
    · intro u hu
      change set s.conq _ true u = true
      unfold Traversal.set
      by_cases he : u = s.m.vert (hj s0 startH i)
      · rw [if_pos he]
      · rw [if_neg he]; exact I.conq0 u hu
    · intro j hjl
      change set s.conq _ true _ = true
      unfold Traversal.set
      by_cases he : s0.m.vert (hj s0 startH j) = s.m.vert (hj s0 startH i)
      · rw [if_pos he]
      · rw [if_neg he]
        rcases Nat.lt_succ_iff_lt_or_eq.mp hjl with h | h
        · exact I.conq j h
        · rw [h] at he; exact absurd hvert.symm he
    · have := I.cnt
      change unconq s ≤ _
      omega
  · rw [if_pos hdeg]
    have hnt : s.m.next (s.m.next (s.m.next (hj s0 startH i))) ≠ hj s0 startH i := by
      intro h
      have := (deg_three_iff I.wf hmem).mpr h
      omega
    obtain ⟨g, hg1, hg, hgh⟩ := findSplit_some I.wf hmem
    rw [hg1]
    -- the previous halfedge of the ring
    obtain ⟨k, hk⟩ := exists_pre (fun x hx => H.wf.rot_mem hx) (fun x hx y hy => H.wf.rot_inj hx hy) hmem0
    set p := s0.m.rot^[k] (hj s0 startH i) with hp
    have pm : p ∈ s0.m.darts := iterate_mem (fun x hx => H.wf.rot_mem hx) hmem0 k
    have psrc : s0.m.src p = s0.m.vert startH := by
      rw [← H.wf.src_rot pm, hk, hsrc]
    have pop : s.m.next (s0.m.opp p) = hj s0 startH i := by
      rw [I.rot _ (H.wf.opp_mem pm) psrc]; exact hk
    have pom : s0.m.opp p ∈ s.m.darts := (I.sub _ (H.wf.opp_mem pm)).1
    have hgp : s.m.next g = s0.m.opp p := by
      refine I.wf.next_inj (I.wf.next_mem hg) pom ?_
      rw [hgh, pop]
    have vg : s.m.vert g = s0.m.vert p := by
      rw [← I.wf.src_next g hg, hgp]
      change s.m.vert (s.m.opp (s0.m.opp p)) = _
      rw [(I.sub _ (H.wf.opp_mem pm)).2.1, H.wf.opp_opp pm, (I.sub p pm).2.2]
    have hrr : ∀ x ∈ s0.m.darts, s0.m.src x = s0.m.vert startH → s0.m.rot x ≠ x := by
      intro x hx hs h
      exact H.ring3 x hx hs (by rw [h, h])
    have cn : Corner s.m (hj s0 startH i) g := by
      refine ⟨I.wf, hmem, hg, hgh, ?_, ?_⟩
      · intro x hx hxs hxv
        rw [hvert] at hxs
        rw [vg] at hxv
        by_cases hx0 : x ∈ s0.m.darts
        · refine H.nadj _ hmem0 hsrc (fun h => hnt (I.keep _ hmem0 hsrc h)) p pm hk x hx0 ?_ ?_
          · rw [← hxs]
            change s0.m.vert (s0.m.opp x) = s.m.vert (s.m.opp x)
            rw [(I.sub x hx0).2.1, (I.sub _ (H.wf.opp_mem hx0)).2.2]
          · rw [← (I.sub x hx0).2.2]; exact hxv
        · obtain ⟨j, hjl, q, hq, hqr, h | h⟩ := I.new x hx hx0
          · -- the same ring halfedge twice
            have e : hj s0 startH i = hj s0 startH j := by
              refine H.wf.simple _ hmem0 _ (H.mem j) (by rw [hsrc, H.src j]) ?_
              rw [← hxs, h.1]
            have := iterate_injOn_Iio_minimalPeriod (f := s0.m.rot) (x := s0.m.opp startH)
              (show i ∈ Set.Iio _ from hi) (show j ∈ Set.Iio _ from by
                exact lt_trans hjl hi) e
            omega
          · have qsrc : s0.m.src q = s0.m.vert startH := by rw [← H.wf.src_rot hq, hqr, H.src j]
            have e1 : hj s0 startH i = q := by
              refine H.wf.simple _ hmem0 _ hq (by rw [hsrc, qsrc]) ?_
              rw [← hxs, h.2.1]
            have e2 : p = hj s0 startH j := by
              refine H.wf.simple _ pm _ (H.mem j) (by rw [psrc, H.src j]) ?_
              rw [← hxv, h.1]
            apply H.ring3 p pm psrc
            rw [hk, e1, hqr, e2]
      · rw [hvert, vg]
        intro h
        have e : hj s0 startH i = p := H.wf.simple _ hmem0 _ pm (by rw [hsrc, psrc]) h
        have h2 := hrr p pm psrc
        rw [hk, e] at h2
        exact h2 rfl
    have oldnd : ∀ d ∈ s.m.darts, d ≠ s.m.nd ∧ d ≠ s.m.nd + 1 := fun d hd =>
      ⟨fun e => cn.nd1 (e ▸ hd), fun e => cn.nd2 (e ▸ hd)⟩
    have fuh : s.flag (s.m.face (hj s0 startH i)) = .unknown := by
      rw [(I.flag _ hmem0).1]
      have h1 := H.un _ (H.wf.opp_mem pm) psrc
      have h2 : s0.m.face (hj s0 startH i) = s0.m.face (s0.m.opp p) := by
        rw [← hk]; exact H.wf.face_next (H.wf.opp_mem pm)
      rw [h2]; exact h1
    -- flags and facets after the cut
    have facene : ∀ d ∈ s.m.darts, s.m.face d ≠ s.m.nf := fun d hd => by have := (I.wf.fresh d hd).2.1; omega
    have setold : ∀ {B : Type} (f : Nat → B) (d : Nat), d ∈ s.m.darts →
        set f s.m.nf (f (s.m.face (hj s0 startH i))) ((splitFacet s.m (hj s0 startH i) g).face d) = f (s.m.face d) := by
      intro B f d hd
      rw [cn.face_old hd]
      unfold Traversal.set
      by_cases hc : s.m.face d = s.m.face (hj s0 startH i) ∧ d ≠ hj s0 startH i ∧ d ≠ s.m.next g
      · rw [if_pos hc, if_pos rfl, hc.1]
      · rw [if_neg hc, if_neg (facene d hd)]
    have setnd : ∀ {B : Type} (f : Nat → B) (b : B), set f s.m.nf b (s.m.face (hj s0 startH i)) = f (s.m.face (hj s0 startH i)) := by
      intro B f b; unfold Traversal.set; rw [if_neg (facene _ hmem)]
    have setnf : ∀ {B : Type} (f : Nat → B) (b : B), set f s.m.nf b s.m.nf = b := by
      intro B f b; unfold Traversal.set; rw [if_pos rfl]
    -- halfedges at the vertex are not touched
    have atv : ∀ d ∈ s0.m.darts, s0.m.vert d = s0.m.vert startH → (splitFacet s.m (hj s0 startH i) g).next d = s.m.next d := by
      intro d hd hv
      refine cn.next_old (I.sub d hd).1 ?_ ?_
      · intro e
        apply H.wf.noloop _ hmem0
        rw [hsrc, ← hv, e]
      · intro e
        have h1 : s.m.vert g = s0.m.vert startH := by rw [← e, (I.sub d hd).2.2, hv]
        apply H.wf.noloop p pm
        rw [psrc, ← h1, vg]
    have nj : ∀ j < i, (splitFacet s.m (hj s0 startH i) g).next (hj s0 startH j) = s.m.next (hj s0 startH j) := by
      intro j hjl
      exact (cn.tri hnt (I.sub _ (H.mem j)).1 (I.done j hjl)).2.2.1
    refine ⟨_, rfl, ?_, ?_⟩
    swap
    · change (splitFacet s.m (hj s0 startH i) g).next ((splitFacet s.m (hj s0 startH i) g).opp (hj s0 startH i)) = _
      rw [cn.opp_old hmem, hopp, atv _ (H.wf.opp_mem hmem0) hsrc, ← hopp]
      exact hrot1
    have oldm : ∀ d ∈ s.m.darts, d ∈ (splitFacet s.m (hj s0 startH i) g).darts := fun d hd => (cn.mem_iff d).mpr (Or.inr (Or.inr hd))
    refine
      { wf := cn.wf'
        conn := fun h0 hc => cn.conn' (I.conn h0 hc)
        sub := ?_
        new := ?_
        rot := ?_
        done := ?_
        keep := ?_
        flag := ?_
        flagv := ?_
        flagn := ?_
        cov := ?_
        conq0 := ?_
        conq := ?_
        added := ?_
        addo := ?_
        degs := fun D hD hall => cn.deg_le hD (I.degs D hD hall)
        vset := ?_
        level := ?_
        cnt := ?_
        pos := I.pos
        far := ?_
        cnext := ?_
        nd := ?_
        queue := I.queue
        nrem := I.nrem }
    · intro d hd
      obtain ⟨a, b, c⟩ := I.sub d hd
      exact ⟨oldm d a, by change (splitFacet _ _ _).opp d = _; rw [cn.opp_old a, b], by change (splitFacet _ _ _).vert d = _; rw [cn.vert_old a, c]⟩
    · intro d hd hn
      rcases (cn.mem_iff d).mp hd with e | e | hk'
      · refine ⟨i, by omega, p, pm, hk, Or.inl ⟨?_, ?_, ?_⟩⟩
        · rw [e]; exact cn.src_nd.trans hvert
        · rw [e]; exact cn.vert_nd.trans vg
        · rw [e]; exact cn.next_h.symm
      · refine ⟨i, by omega, p, pm, hk, Or.inr ⟨?_, ?_, ?_⟩⟩
        · rw [e]; exact cn.vert_nd'.trans hvert
        · rw [e]; exact cn.src_nd'.trans vg
        · rw [e]; exact cn.opp_nd'.trans cn.next_h.symm
      · obtain ⟨j, hjl, q, hq, hqr, h⟩ := I.new d hk' hn
        refine ⟨j, by omega, q, hq, hqr, ?_⟩
        change ((splitFacet _ _ _).src d = _ ∧ (splitFacet _ _ _).vert d = _ ∧ d = (splitFacet _ _ _).next _) ∨
          ((splitFacet _ _ _).vert d = _ ∧ (splitFacet _ _ _).src d = _ ∧ (splitFacet _ _ _).opp d = (splitFacet _ _ _).next _)
        rw [cn.src_old hk', cn.vert_old hk', cn.opp_old hk', nj j hjl]
        exact h
    · intro d hd hv
      change (splitFacet _ _ _).next d = _
      rw [atv d hd hv]; exact I.rot d hd hv
    · intro j hjl
      change (splitFacet _ _ _).next ((splitFacet _ _ _).next ((splitFacet _ _ _).next _)) = _
      rcases Nat.lt_succ_iff_lt_or_eq.mp hjl with h | h
      · exact (cn.tri hnt (I.sub _ (H.mem j)).1 (I.done j h)).2.2.2
      · rw [h, cn.next_h, cn.next_nd, cn.next_old cn.p_mem cn.p_ne_h cn.p_ne_g, hgh]
    · intro o ho hs ht
      exact (cn.tri hnt (I.sub _ ho).1 (I.keep o ho hs ht)).2.2.2
    · intro d hd
      obtain ⟨a, b, c⟩ := I.sub d hd
      exact ⟨(setold s.flag d a).trans (I.flag d hd).1, (setold s.rem d a).trans (I.flag d hd).2⟩
    · intro d hd hq
      obtain ⟨a, b, c⟩ := I.sub d hd
      change (splitFacet _ _ _).face d = _
      rw [cn.face_other a, I.flagv d hd hq]
      intro e
      have h1 := (I.flag d hd).1
      rw [e, fuh] at h1
      rw [← h1] at hq
      exact absurd hq (by decide)
    · intro d hd hn
      rcases (cn.mem_iff d).mp hd with e | e | hk'
      · change set s.flag s.m.nf _ ((splitFacet _ _ _).face d) = _
        rw [e, cn.face_nd, setnd, fuh]
      · change set s.flag s.m.nf _ ((splitFacet _ _ _).face d) = _
        rw [e, cn.face_nd', setnf, fuh]
      · exact (setold s.flag d hk').trans (I.flagn d hk' hn)
    · intro y hy
      -- a halfedge in the facet that is cut ends in one of its two parts
      have parts : ∀ z ∈ s.m.darts, s.m.face z = s.m.face (hj s0 startH i) →
          ((splitFacet s.m (hj s0 startH i) g).face z = (splitFacet s.m (hj s0 startH i) g).face (hj s0 startH i) ∨
           (splitFacet s.m (hj s0 startH i) g).face (s.m.nd + 1) = (splitFacet s.m (hj s0 startH i) g).face z) := by
        intro z hz hf
        rw [cn.face_h, cn.face_nd', cn.face_old hz]
        by_cases hc : s.m.face z = s.m.face (hj s0 startH i) ∧ z ≠ hj s0 startH i ∧ z ≠ s.m.next g
        · rw [if_pos hc]; exact Or.inr rfl
        · rw [if_neg hc]; exact Or.inl hf
      have fin : ∀ z, ((splitFacet s.m (hj s0 startH i) g).face z = (splitFacet s.m (hj s0 startH i) g).face (hj s0 startH i) ∨
           (splitFacet s.m (hj s0 startH i) g).face (s.m.nd + 1) = (splitFacet s.m (hj s0 startH i) g).face z) →
          (∃ o ∈ s0.m.darts, s0.m.src o = s0.m.vert startH ∧
            (splitFacet s.m (hj s0 startH i) g).face z = (splitFacet s.m (hj s0 startH i) g).face o) ∨
          (∃ j < i + 1, ∃ e ∈ (splitFacet s.m (hj s0 startH i) g).darts, (splitFacet s.m (hj s0 startH i) g).face e =
            (splitFacet s.m (hj s0 startH i) g).face z ∧ (splitFacet s.m (hj s0 startH i) g).opp e =
              (splitFacet s.m (hj s0 startH i) g).next (hj s0 startH j)) := by
        intro z h
        rcases h with h | h
        · exact Or.inl ⟨_, hmem0, hsrc, h⟩
        · exact Or.inr ⟨i, by omega, _, (cn.mem_iff _).mpr (Or.inr (Or.inl rfl)), h, cn.opp_nd'.trans cn.next_h.symm⟩
      change (_ ∧ ∀ q ∈ s0.m.darts, _ → (splitFacet s.m (hj s0 startH i) g).face q = (splitFacet s.m (hj s0 startH i) g).face y) ∨ _
      rcases (cn.mem_iff y).mp hy with e | e | hk'
      · right; apply fin; left; rw [e, cn.face_nd, cn.face_h]
      · right; apply fin; right; rw [e]
      · by_cases hf : s.m.face y = s.m.face (hj s0 startH i)
        · right; exact fin y (parts y hk' hf)
        · rw [cn.face_other hk' hf]
          rcases I.cov y hk' with ⟨h1, h2⟩ | ⟨o, ho, h1, h2⟩ | ⟨j, hjl, e, he, h1, h2⟩
          · refine Or.inl ⟨h1, fun q hq hqf => ?_⟩
            have := h2 q hq hqf
            rw [cn.face_other (I.sub q hq).1 (by rw [this]; exact hf), this]
          · refine Or.inr (Or.inl ⟨o, ho, h1, ?_⟩)
            change s.m.face y = (splitFacet _ _ _).face o
            rw [cn.face_other (I.sub o ho).1 (by rw [← h2]; exact hf), h2]
          · refine Or.inr (Or.inr ⟨j, by omega, e, oldm e he, ?_, ?_⟩)
            · change (splitFacet _ _ _).face e = _
              rw [cn.face_other he (by rw [h1]; exact hf), h1]
            · change (splitFacet _ _ _).opp e = (splitFacet _ _ _).next _
              rw [cn.opp_old he, nj j hjl, h2]
    · intro u hu
      change set s.conq _ true u = true
      unfold Traversal.set
      by_cases he : u = s.m.vert (hj s0 startH i)
      · rw [if_pos he]
      · rw [if_neg he]; exact I.conq0 u hu
    · intro j hjl
      change set s.conq _ true _ = true
      unfold Traversal.set
      by_cases he : s0.m.vert (hj s0 startH j) = s.m.vert (hj s0 startH i)
      · rw [if_pos he]
      · rw [if_neg he]
        rcases Nat.lt_succ_iff_lt_or_eq.mp hjl with h | h
        · exact I.conq j h
        · rw [h] at he; exact absurd hvert.symm he
    · intro d hd ha
      change set (set s.added s.m.nd true) (s.m.nd + 1) true d = true at ha
      rcases (cn.mem_iff d).mp hd with e | e | hk'
      · left; intro hx; exact (oldnd d (I.sub d hx).1).1 e
      · left; intro hx; exact (oldnd d (I.sub d hx).1).2 e
      · refine I.added d hk' ?_
        unfold Traversal.set at ha
        rwa [if_neg (oldnd d hk').2, if_neg (oldnd d hk').1] at ha
    · intro hall d hd ha
      change set (set s.added s.m.nd true) (s.m.nd + 1) true d = true at ha
      change set (set s.added s.m.nd true) (s.m.nd + 1) true ((splitFacet _ _ _).opp d) = true
      unfold Traversal.set at ha ⊢
      rcases (cn.mem_iff d).mp hd with e | e | hk'
      · rw [e, cn.opp_nd, if_pos rfl]
      · rw [e, cn.opp_nd']; simp
      · rw [if_neg (oldnd d hk').2, if_neg (oldnd d hk').1] at ha
        have ho := I.wf.opp_mem hk'
        rw [cn.opp_old hk', if_neg (oldnd _ ho).2, if_neg (oldnd _ ho).1]
        exact I.addo hall d hk' ha
    · intro d hd
      rcases (cn.mem_iff d).mp hd with e | e | hk'
      · exact ⟨p, pm, by rw [e]; exact (cn.vert_nd.trans vg).symm⟩
      · exact ⟨_, hmem0, by rw [e]; exact (cn.vert_nd'.trans hvert).symm⟩
      · obtain ⟨e, he, h1⟩ := I.vset d hk'
        exact ⟨e, he, by rw [h1]; exact (cn.vert_old hk').symm⟩
    · intro M R c L
      obtain ⟨R', hR, L'⟩ := I.level M R c L
      refine ⟨cutR R' s.m (hj s0 startH i) g, hR, ?_⟩
      have h1 := L'.split (S' := fun f => set s.flag s.m.nf (s.flag (s.m.face (hj s0 startH i))) f = .splittable) cn
        (by rw [fuh]; decide) (fun d hd => by rw [setold s.flag d hd]) (by rw [setnd, fuh]; decide)
        (by rw [setnf, fuh]; decide)
      have hA : (fun d => s.added d = true ∨ d = s.m.nd ∨ d = s.m.nd + 1) =
          (fun d => set (set s.added s.m.nd true) (s.m.nd + 1) true d = true) := by
        funext d
        unfold Traversal.set
        by_cases h2 : d = s.m.nd + 1
        · rw [if_pos h2]; simp [h2]
        · rw [if_neg h2]
          by_cases h3 : d = s.m.nd
          · rw [if_pos h3]; simp [h3]
          · rw [if_neg h3]; simp [h2, h3]
      rw [hA] at h1
      exact h1
    · have hsub : (splitFacet s.m (hj s0 startH i) g).darts.filter (fun d =>
          (set s.flag s.m.nf (s.flag (s.m.face (hj s0 startH i))) ((splitFacet s.m (hj s0 startH i) g).face d)).conquered = false) ⊆
          insert s.m.nd (insert (s.m.nd + 1) (s.m.darts.filter (fun d => (s.flag (s.m.face d)).conquered = false))) := by
        intro d hd
        obtain ⟨h1, h2⟩ := Finset.mem_filter.mp hd
        rw [Finset.mem_insert, Finset.mem_insert]
        rcases (cn.mem_iff d).mp h1 with e | e | hk'
        · exact Or.inl e
        · exact Or.inr (Or.inl e)
        · rw [setold s.flag d hk'] at h2
          exact Or.inr (Or.inr (Finset.mem_filter.mpr ⟨hk', h2⟩))
      have h1 := Finset.card_le_card hsub
      have h2 := Finset.card_insert_le s.m.nd (insert (s.m.nd + 1) (s.m.darts.filter (fun d => (s.flag (s.m.face d)).conquered = false)))
      have h3 := Finset.card_insert_le (s.m.nd + 1) (s.m.darts.filter (fun d => (s.flag (s.m.face d)).conquered = false))
      have h4 : (s.m.darts.filter (fun d => (s.flag (s.m.face d)).conquered = false)).card ≤ unconq s0 + 2 * i := I.cnt
      refine le_trans h1 ?_
      omega
    · intro d hd hf
      change (splitFacet _ _ _).next d = _
      rw [cn.next_old (I.sub d hd).1 (fun e => hf i (by rw [e])) ?_]
      · exact I.far d hd hf
      · intro e
        refine hf (i + k) ?_
        have : hj s0 startH (i + k) = p := by
          rw [hp, hj, Nat.add_comm, iterate_add_apply]
        rw [this, ← vg, ← e, (I.sub d hd).2.2]
    · intro d hd hq
      have hu : s.flag (s.m.face d) ≠ .unknown := by
        rw [(I.flag d hd).1]; intro e; rw [e] at hq; exact absurd hq (by decide)
      change (splitFacet _ _ _).next d = _
      rw [cn.next_old (I.sub d hd).1 (fun e => hu (by rw [e]; exact fuh)) (fun e => hu (by rw [e, cn.face_g]; exact fuh))]
      exact I.cnext d hd hq
    · refine ⟨le_trans I.nd.1 (Nat.le_add_right _ 2), ?_⟩
      intro d hd hn
      rcases (cn.mem_iff d).mp hd with e | e | hk'
      · rw [e]; exact I.nd.1
      · rw [e]; exact le_trans I.nd.1 (Nat.le_succ _)
      · exact I.nd.2 d hk' hn

theorem CutHyp.loop (n i : Nat) {s : St P} (I : CutInv s0 startH i s)
    (hi : i < minimalPeriod s0.m.rot (s0.m.opp startH))
    (hn : minimalPeriod s0.m.rot (s0.m.opp startH) - i ≤ n) :
    ∃ s', cutLoop (s0.m.opp startH) n s (hj s0 startH i) = some s' ∧
      CutInv s0 startH (minimalPeriod s0.m.rot (s0.m.opp startH)) s' := by
  induction n generalizing i s with
  | zero => omega
  | succ n ih =>
    obtain ⟨s', h1, I', hr⟩ := H.step I hi
    rw [cutLoop, h1]
    simp only [Option.bind_eq_bind, Option.bind_some]
    rw [hr]
    by_cases hlast : i + 1 = minimalPeriod s0.m.rot (s0.m.opp startH)
    · have : hj s0 startH (i + 1) = s0.m.opp startH := by rw [hlast]; exact iterate_minimalPeriod
      rw [if_pos this]
      exact ⟨s', rfl, hlast ▸ I'⟩
    · rw [if_neg]
      · exact ih (i + 1) I' (by omega) (by omega)
      · intro e
        have e' : s0.m.rot^[i + 1] (s0.m.opp startH) = s0.m.rot^[0] (s0.m.opp startH) := e
        have := iterate_injOn_Iio_minimalPeriod (f := s0.m.rot) (x := s0.m.opp startH)
          (show i + 1 ∈ Set.Iio _ from by change i + 1 < _; omega) (show 0 ∈ Set.Iio _ from by change 0 < _; omega) e'
        omega

/-- The loop ends with triangles all around. -/
theorem CutHyp.cut : ∃ s', cutLoop (s0.m.opp startH) s0.m.darts.card s0 (s0.m.opp startH) = some s' ∧
      CutInv s0 startH (minimalPeriod s0.m.rot (s0.m.opp startH)) s' := by
  obtain ⟨hp, hle⟩ := period_spec (fun x hx => H.wf.rot_mem hx) (fun x hx y hy => H.wf.rot_inj hx hy) (H.wf.opp_mem H.hs)
  exact H.loop s0.m.darts.card 0 H.init hp (by omega)

end

end TDP.Codec
