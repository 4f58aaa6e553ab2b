import Verif.Codec.Removed
import Verif.Codec.Convex
import Verif.Codec.Manifold
import Verif.Codec.Props
/-!
# What a decimation removes, and when compression stops (C74, C75, C76)

`Mesh.Has m v`: `v` is a vertex of `m`. `Mesh.link m d`: the positions of the neighbours of the vertex that `d` leaves, in
order around it, starting with the target of `d`. `facePos m e`: the positions of the corners of the facet of `e`, in order.
`OneSided` (Codec/Convex.lean): no edge of the polygon has points of it clearly on both sides.
-/
namespace TDP.Codec
open TDP.Traversal TDP.Quant Function

variable {P : Type}

/-- The convexity test as `isRemovable` calls it (mymeshCompTests.cpp:191-208): the neighbours in circulator order from
`v->halfedge()`, here `hit m v`. -/
noncomputable def convexAt (hit : Mesh P3 → Nat → Nat) (m : Mesh P3) (v : Nat) : Bool := isConvex (m.link (m.opp (hit m v)))

/-! ### Rotations -/

theorem ring_rot {m : Mesh P} (hm : m.WF) {d : Nat} (hd : d ∈ m.darts) : m.ring (m.rot d) = (m.ring d).rotate 1 := by
  have hper := (period_spec (fun x hx => hm.rot_mem hx) (fun x hx y hy => hm.rot_inj hx hy) hd).1
  have hpp : d ∈ periodicPts m.rot := minimalPeriod_pos_iff_mem_periodicPts.mp hper
  have hp : minimalPeriod m.rot (m.rot d) = minimalPeriod m.rot d := minimalPeriod_apply hpp
  rw [ring_eq hm (hm.rot_mem hd), ring_eq hm hd, hp]
  apply List.ext_getElem
  · simp
  · intro i h1 h2
    rw [List.getElem_rotate]
    simp only [List.getElem_map, List.getElem_range, List.length_map, List.length_range]
    rw [iterate_mod_minimalPeriod_eq, iterate_succ_apply]

theorem ring_rotated {m : Mesh P} (hm : m.WF) {d e : Nat} (hd : d ∈ m.darts) (he : e ∈ m.darts) (hs : m.src d = m.src e) :
    m.ring d ~r m.ring e := by
  obtain ⟨i, rfl⟩ := hm.one_orbit d hd e he hs
  clear he hs
  induction i with
  | zero => exact List.IsRotated.refl _
  | succ i ih =>
    rw [iterate_succ_apply', ring_rot hm (iterate_mem (fun x hx => hm.rot_mem hx) hd i)]
    exact ih.trans ⟨1, rfl⟩

theorem link_rotated {m : Mesh P} (hm : m.WF) {d e : Nat} (hd : d ∈ m.darts) (he : e ∈ m.darts) (hs : m.src d = m.src e) :
    m.link d ~r m.link e := (ring_rotated hm hd he hs).map _

/-! ### The facet left behind -/

/-- The facet that replaces a removed vertex has its former neighbours as corners, in reverse order. -/
theorem rim_facet {M m : Mesh P} (hM : M.WF) (hm : m.WF) {v : Nat} {r : Nat → Nat}
    (hr : ∀ d ∈ M.darts, M.src d = v → r d ∈ m.darts ∧ m.src (r d) = M.vert d ∧ m.next (r (M.rot d)) = r d)
    {d : Nat} (hd : d ∈ M.darts) (hs : M.src d = v) :
    (around m.h (r d)).map m.vert = ((M.ring d).map M.vert).reverse := by
  obtain ⟨k, hk⟩ : ∃ k, minimalPeriod M.rot d = k := ⟨_, rfl⟩
  have kpos : 0 < k := by
    rw [← hk]; exact (period_spec (fun x hx => hM.rot_mem hx) (fun x hx y hy => hM.rot_inj hx hy) hd).1
  have itm : ∀ i, M.rot^[i] d ∈ M.darts := fun i => iterate_mem (fun x hx => hM.rot_mem hx) hd i
  have its : ∀ i, M.src (M.rot^[i] d) = v := fun i => by rw [src_iterate hM hd, hs]
  have per : M.rot^[k] d = d := by rw [← hk]; exact iterate_minimalPeriod
  have A : ∀ i ≤ k, m.next^[i] (r d) = r (M.rot^[k - i] d) := by
    intro i hi
    induction i with
    | zero => rw [Nat.sub_zero, per]; rfl
    | succ i ih =>
      rw [iterate_succ_apply', ih (by omega), show k - i = (k - (i + 1)) + 1 by omega, iterate_succ_apply']
      exact (hr _ (itm _) (its _)).2.2
  have rm := (hr d hd hs).1
  have B : minimalPeriod m.next (r d) = k := by
    have pk : IsPeriodicPt m.next k (r d) := by
      change m.next^[k] (r d) = r d
      rw [A k le_rfl, Nat.sub_self]; rfl
    refine le_antisymm (pk.minimalPeriod_le kpos) ?_
    by_contra hlt
    obtain ⟨i, hi⟩ : ∃ i, minimalPeriod m.next (r d) = i := ⟨_, rfl⟩
    have ipos : 0 < i := by rw [← hi]; exact pk.minimalPeriod_pos kpos
    have h1 : m.next^[i] (r d) = r d := by rw [← hi]; exact iterate_minimalPeriod
    rw [A i (by omega)] at h1
    have h2 : M.vert (M.rot^[k - i] d) = M.vert d := by
      rw [← (hr _ (itm _) (its _)).2.1, ← (hr d hd hs).2.1, h1]
    have h3 := hM.simple _ (itm (k - i)) _ hd (by rw [its, hs]) h2
    have h4 : IsPeriodicPt M.rot (k - i) d := h3
    have := h4.minimalPeriod_le (by omega)
    omega
  rw [around_eq' hm rm, ring_eq hM hd, B, hk, List.map_map, List.map_map]
  apply List.ext_getElem
  · simp
  · intro i h1 h2
    have hi : i < k := by simpa using h1
    rw [List.getElem_reverse]
    simp only [List.getElem_map, List.getElem_range, List.length_map, List.length_range, comp_apply]
    have n1 : m.next^[i] (r d) ∈ m.darts := iterate_mem hm.h.next_mem rm i
    rw [← hm.src_next _ n1, ← iterate_succ_apply' m.next, A (i + 1) (by omega), (hr _ (itm _) (its _)).2.1,
      show k - (i + 1) = k - 1 - i by omega]

/-- The reverse of a polygon. -/
theorem reverse_getD (p : List P3) {i : Nat} (hi : i < p.length) : p.reverse.getD i 0 = p.getD (p.length - 1 - i) 0 := by
  rw [List.getD_eq_getElem?_getD, List.getD_eq_getElem?_getD, List.getElem?_eq_getElem (by rw [List.length_reverse]; exact hi),
    List.getElem_reverse, List.getElem?_eq_getElem (by omega)]

theorem cross_neg (a b : P3) : cross a b = - cross b a := by
  funext i; simp only [cross, Pi.neg_apply]; ring

theorem mod_cases {i s : Nat} (hi : i < s) : (i + 1) % s = if i + 1 = s then 0 else i + 1 := by
  by_cases h : i + 1 = s
  · rw [if_pos h, h, Nat.mod_self]
  · rw [if_neg h, Nat.mod_eq_of_lt (by omega)]

/-- The edge of `p` that edge `i` of the reverse is. -/
theorem rev_edge {i s : Nat} (hi : i < s) : s - 1 - (i + 1) % s < s ∧ (s - 1 - (i + 1) % s + 1) % s = s - 1 - i := by
  rw [mod_cases hi]
  by_cases h : i + 1 = s
  · rw [if_pos h, show s - 1 - 0 + 1 = s by omega, Nat.mod_self]; omega
  · rw [if_neg h]
    refine ⟨by omega, ?_⟩
    rw [Nat.mod_eq_of_lt (by omega)]; omega

theorem normalSum_reverse (p : List P3) : normalSum p.reverse = - normalSum p := by
  rw [normalSum_eq, normalSum_eq, List.length_reverse, ← Finset.sum_neg_distrib]
  refine Finset.sum_bij (fun i _ => p.length - 1 - (i + 1) % p.length) ?_ ?_ ?_ ?_
  · intro i hi
    exact Finset.mem_range.mpr (rev_edge (Finset.mem_range.mp hi)).1
  · intro a ha b hb h
    have ha' := Finset.mem_range.mp ha
    have hb' := Finset.mem_range.mp hb
    have e1 := (rev_edge ha').2
    have e2 := (rev_edge hb').2
    have h' : p.length - 1 - (a + 1) % p.length = p.length - 1 - (b + 1) % p.length := h
    rw [h'] at e1
    rw [e1] at e2
    omega
  · intro j hj
    have hj' := Finset.mem_range.mp hj
    refine ⟨p.length - 1 - (j + 1) % p.length, Finset.mem_range.mpr (rev_edge hj').1, ?_⟩
    rw [(rev_edge hj').2]; omega
  · intro i hi
    have hi' := Finset.mem_range.mp hi
    have hmod : (i + 1) % p.length < p.length := Nat.mod_lt _ (by omega)
    rw [reverse_getD p hi', reverse_getD p hmod, (rev_edge hi').2, cross_neg]

theorem turn_reverse (p : List P3) {i j : Nat} (hi : i < p.length) (hj : j < p.length) :
    turn p.reverse i j = turn p (p.length - 1 - (i + 1) % p.length) (p.length - 1 - j) := by
  have hmod : (i + 1) % p.length < p.length := Nat.mod_lt _ (by omega)
  unfold turn
  rw [normalSum_reverse, List.length_reverse, reverse_getD p hi, reverse_getD p hj, reverse_getD p hmod, (rev_edge hi).2]
  simp only [dot, cross, Pi.sub_apply, Pi.neg_apply, show (0 : Fin 3) + 1 = 1 from rfl, show (0 : Fin 3) + 2 = 2 from rfl,
    show (1 : Fin 3) + 1 = 2 from rfl, show (1 : Fin 3) + 2 = 0 from rfl, show (2 : Fin 3) + 1 = 0 from rfl,
    show (2 : Fin 3) + 2 = 1 from rfl]
  ring

theorem OneSided.reverse {p : List P3} (h : OneSided p) : OneSided p.reverse := by
  intro i hi j hj k hk hh
  rw [List.length_reverse] at hi hj hk
  have e : dot (normalSum p.reverse) (normalSum p.reverse) = dot (normalSum p) (normalSum p) := by
    rw [normalSum_reverse]; simp only [dot, Pi.neg_apply]; ring
  unfold OnLeft OnRight at hh
  rw [turn_reverse p hi hj, turn_reverse p hi hk, e] at hh
  exact h _ (rev_edge hi).1 _ (by omega) _ (by omega) hh

/-! ### C74 -/

/-- What the removability test of an intact vertex ensures. -/
theorem removable_good {hit : Mesh P3 → Nat → Nat} (hhit : HitOk hit) {M : Mesh P3} (hM : M.WF) {h0 : Nat} {Q : Nat → Prop}
    {s : St P3} (I : Inv M h0 s) (S : StarInv M Q s) {hh : Nat} (hd : hh ∈ s.m.darts)
    (hr : isRemovable (convexAt hit) (M.src h0) (M.vert h0) s hh = true) :
    s.m.vert hh ≠ M.src h0 ∧ s.m.vert hh ≠ M.vert h0 ∧ ∀ d ∈ M.darts, M.src d = s.m.vert hh →
      3 ≤ (M.ring d).length ∧ (M.ring d).length ≤ 8 ∧ OneSided (M.link d) := by
  have ho := I.wf.opp_mem hd
  unfold isRemovable at hr
  simp only [Bool.and_eq_true, Bool.not_eq_true', bne_iff_ne, ne_eq, decide_eq_true_eq] at hr
  obtain ⟨⟨⟨⟨⟨r1, r2⟩, r3⟩, r4⟩, r5⟩, _, r6⟩ := hr
  refine ⟨r1, r2, fun d hdM hs => ?_⟩
  have hH : s.m.Has (s.m.vert hh) := ⟨hh, hd, rfl⟩
  have hk := (S.mem_iff hM I.wf r3 hH).mpr ⟨hdM, hs⟩
  have hR := S.ring hM I.wf hdM (by rw [hs]; exact r3) (by rw [hs]; exact hH)
  have hl : s.m.link d = M.link d := by
    unfold Mesh.link
    rw [hR.1]
    refine List.map_congr_left (fun e he => ?_)
    rw [hR.2 e he, I.pos]
  have hlen : (s.m.ring (s.m.opp hh)).length = (M.ring d).length := by
    rw [← hR.1]
    exact (ring_rotated I.wf ho hk.1 (by rw [I.wf.src_opp hd, hk.2])).perm.length_eq
  refine ⟨by omega, by omega, ?_⟩
  have hx := hhit s.m _ hH
  have h1 := (isConvex_iff _).mp (show isConvex (s.m.link (s.m.opp (hit s.m (s.m.vert hh)))) = true from r6)
  have h2 := h1.rotated (link_rotated I.wf (I.wf.opp_mem hx.1) hk.1 (by rw [I.wf.src_opp hx.1, hx.2, hk.2]))
  rwa [hl] at h2

/-- **C74.** A vertex that a decimation removes is not an end of the departure edge, has three to eight neighbours, all of
which are still there afterwards (no two neighbours are removed in one round), and its ring of neighbours passed the
convexity test. In its place there is a facet whose corners are exactly its former neighbours in (reverse) order; that facet
passes the test, too. This holds whatever halfedge CGAL starts at (`hit`) and wherever the conquest starts. -/
theorem C74_removed_vertices (hit : Mesh P3 → Nat → Nat) (hhit : HitOk hit) (M : Mesh P3) (hM : M.WF) (first init : Nat)
    (hc : M.Conn first) (hi : init ∈ M.darts) (n : Nat) (s : St P3)
    (h : conquest (convexAt hit) (M.src first) (M.vert first) n (beginConquest M init) = some s)
    (v : Nat) (hv : M.Has v) (hg : ¬ s.m.Has v) :
    v ≠ M.src first ∧ v ≠ M.vert first ∧
    ∀ d ∈ M.darts, M.src d = v →
      3 ≤ (M.ring d).length ∧ (M.ring d).length ≤ 8 ∧ s.m.Has (M.vert d) ∧ OneSided (M.link d) ∧
      ∃ e ∈ s.m.darts, facePos s.m e = (M.link d).reverse ∧ OneSided (facePos s.m e) := by
  have I0 := Inv.init hM hc hi
  have I := (inv_of_conquest hM hc hi h).1
  have S := StarInv.conquest hM (convexAt hit)
    (Q := fun v => v ≠ M.src first ∧ v ≠ M.vert first ∧ ∀ d ∈ M.darts, M.src d = v →
      3 ≤ (M.ring d).length ∧ (M.ring d).length ≤ 8 ∧ OneSided (M.link d))
    (fun s I S hh hd hr => removable_good hhit hM I S hd hr) n I0 (StarInv.init M _ init) h
  obtain ⟨⟨q1, q2, q3⟩, q4⟩ := S.gone v hv hg
  obtain ⟨r, hr⟩ := S.rim v hv hg
  refine ⟨q1, q2, fun d hd hs => ?_⟩
  obtain ⟨a, b, c⟩ := q3 d hd hs
  have hf : facePos s.m (r d) = (M.link d).reverse := by
    have := rim_facet hM I.wf (v := v) (r := r) (fun d hd hs => by
      obtain ⟨x1, x2, x3, x4⟩ := hr d hd hs; exact ⟨x1, x3, x4⟩) hd hs
    unfold facePos Mesh.link
    have e1 : (around s.m.h (r d)).map (fun d => s.m.pos (s.m.vert d)) = ((around s.m.h (r d)).map s.m.vert).map s.m.pos := by
      rw [List.map_map]; rfl
    rw [e1, this, I.pos, ← List.map_reverse, ← List.map_reverse, List.map_map]; rfl
  exact ⟨a, b, (q4 d hd hs).2, c, r d, (hr d hd hs).1, hf, by rw [hf]; exact c.reverse⟩

/-! ### C75 -/

/-- A vertex of `M` that may be removed: not an end of the departure edge, three to eight neighbours, the removal doubles no
edge, and the geometric test says yes. -/
def Removable (convex : Mesh P → Nat → Bool) (M : Mesh P) (first v : Nat) : Prop :=
  v ≠ M.src first ∧ v ≠ M.vert first ∧ (∀ d ∈ M.darts, M.src d = v → 3 ≤ (M.ring d).length ∧ (M.ring d).length ≤ 8) ∧
    ¬ Blocked M v ∧ convex M v = true

/-- While nothing is removed: the vertices conquered so far have been tested, but for one. -/
structure IdleInv (M : Mesh P) (T : Nat → Prop) (init : Nat) (s : St P) : Prop where
  tested : s.nrem = 0 → ∀ v, s.conq v = true → v = M.vert init ∨ T v
  gate : ∀ q ∈ s.queue, q = init ∨ s.conq (s.m.vert q) = true

theorem nrem_mono {convex : Mesh P → Nat → Bool} {v0 v1 : Nat} (n : Nat) {s s' : St P}
    (h : conquest convex v0 v1 n s = some s') : s.nrem ≤ s'.nrem := by
  have cutc : ∀ {s s' : St P} {h : Nat}, cutCorner s h = some s' → s'.nrem = s.nrem := by
    intro s s' h hc
    unfold cutCorner at hc
    by_cases hd : 3 < s.m.deg h
    · rw [if_pos hd] at hc
      cases hf : findSplit s.m h s.m.darts.card (s.m.next h) with
      | none => rw [hf] at hc; exact absurd hc (by simp)
      | some g => rw [hf] at hc; rw [← Option.some.inj hc]
    · rw [if_neg hd] at hc; rw [← Option.some.inj hc]
  have loop : ∀ (k : Nat) {stop : Nat} {s s' : St P} {h : Nat}, cutLoop stop k s h = some s' → s'.nrem = s.nrem := by
    intro k
    induction k with
    | zero => intro _ _ _ _ hc; exact absurd hc (by simp [cutLoop])
    | succ k ih =>
      intro stop s s' h hc
      rw [cutLoop] at hc
      cases hx : cutCorner s h with
      | none => rw [hx] at hc; exact absurd hc (by simp)
      | some t =>
        rw [hx] at hc
        simp only [Option.bind_eq_bind, Option.bind_some] at hc
        by_cases hs : t.m.rot h = stop
        · rw [if_pos hs] at hc; rw [← Option.some.inj hc, cutc hx]
        · rw [if_neg hs] at hc; rw [ih hc, cutc hx]
  induction n generalizing s with
  | zero => rw [Codec.conquest] at h; exact absurd h (by simp)
  | succ n ih =>
    rw [Codec.conquest] at h
    cases hq : s.queue with
    | nil => rw [hq] at h; rw [← Option.some.inj h]
    | cons g q =>
      rw [hq] at h
      by_cases hnot : g ∉ s.m.darts
      · simp only [hnot, not_false_eq_true, if_true] at h; exact absurd h (by simp)
      simp only [hnot, if_false] at h
      by_cases hc : (s.flag (s.m.face g)).conquered = true
      · rw [if_pos hc] at h
        exact ih (s := { s with queue := q }) h
      · rw [if_neg hc] at h
        cases hf : firstRemovable convex v0 v1 { s with queue := q } g with
        | none =>
          rw [hf] at h
          have h' := ih h
          exact h'
        | some hh' =>
          rw [hf] at h
          cases hx : vertexCut { s with queue := q } hh' with
          | none => simp only [hx, Option.bind_eq_bind, Option.bind_none] at h; exact absurd h (by simp)
          | some t =>
            simp only [hx, Option.bind_eq_bind, Option.bind_some] at h
            refine le_trans ?_ (ih h)
            unfold vertexCut at hx
            cases hy : cutLoop (s.m.opp hh') s.m.darts.card { s with queue := q } (s.m.opp hh') with
            | none => rw [hy] at hx; exact absurd hx (by simp)
            | some u =>
              rw [hy] at hx
              rw [← Option.some.inj hx]
              have := loop _ hy
              change s.nrem ≤ u.nrem + 1
              change u.nrem = s.nrem at this
              omega

theorem IdleInv.conquest {M : Mesh P} {h0 : Nat} {init : Nat} (convex : Mesh P → Nat → Bool)
    (n : Nat) {s s' : St P} (I : Inv M h0 s)
    (J : IdleInv M (fun v => ¬ Removable convex M h0 v) init s)
    (h : conquest convex (M.src h0) (M.vert h0) n s = some s') (h0' : s'.nrem = 0) :
    ∀ v, s'.conq v = true → v = M.vert init ∨ ¬ Removable convex M h0 v := by
  have hz : s.nrem = 0 := by have := nrem_mono n h; omega
  induction n generalizing s with
  | zero => rw [Codec.conquest] at h; exact absurd h (by simp)
  | succ n ih =>
    rw [Codec.conquest] at h
    cases hq : s.queue with
    | nil => rw [hq] at h; rw [← Option.some.inj h]; exact J.tested hz
    | cons g q =>
      rw [hq] at h
      have hh : g ∈ s.m.darts := (I.que g (by rw [hq]; exact List.mem_cons_self)).1
      have hnot : ¬ g ∉ s.m.darts := not_not.mpr hh
      simp only [hnot, if_false] at h
      by_cases hc : (s.flag (s.m.face g)).conquered = true
      · rw [if_pos hc] at h
        exact ih (I.pop hq hc) ⟨J.tested, fun x hx => J.gate x (by rw [hq]; exact List.mem_cons_of_mem _ hx)⟩ h hz
      · rw [if_neg hc] at h
        have hc' : (s.flag (s.m.face g)).conquered = false := by rwa [Bool.not_eq_true] at hc
        have e : firstRemovable convex (M.src h0) (M.vert h0) { s with queue := q } g =
            (around s.m.h g).tail.find? (isRemovable convex (M.src h0) (M.vert h0) s) := rfl
        rw [e] at h
        cases hf : (around s.m.h g).tail.find? (isRemovable convex (M.src h0) (M.vert h0) s) with
        | none =>
          rw [hf] at h
          obtain ⟨I', _⟩ := I.mark hq hc' _ rfl
          refine ih I' ⟨?_, ?_⟩ h hz
          · intro _ v hv
            have hv' : s.conq v = true ∨ v ∈ (around s.m.h g).map s.m.vert := by
              have : (s.conq v || ((around s.m.h g).map s.m.vert).contains v) = true := hv
              simpa using this
            rcases hv' with hv' | hv'
            · exact J.tested hz v hv'
            · by_cases hcv : s.conq v = true
              · exact J.tested hz v hcv
              have hcv' : s.conq v = false := by rwa [Bool.not_eq_true] at hcv
              obtain ⟨x, hx, hxv⟩ := List.mem_map.mp hv'
              have hsM : s.m = M := I.same hz
              have hcons : around s.m.h g = g :: (around s.m.h g).tail := by
                have hp := period3 I.wf hh
                rw [around_eq' I.wf hh]
                obtain ⟨k, hk⟩ : ∃ k, minimalPeriod s.m.next g = k + 1 := ⟨minimalPeriod s.m.next g - 1, by omega⟩
                rw [hk, List.range_succ_eq_map]; rfl
              rw [hcons] at hx
              rcases List.mem_cons.mp hx with rfl | hx
              · left
                rcases J.gate x (by rw [hq]; exact List.mem_cons_self) with rfl | hg
                · rw [← hxv, hsM]
                · rw [hxv, hcv'] at hg; exact absurd hg (by decide)
              · right
                have hx2 : x ∈ s.m.darts :=
                  ((mem_around I.wf.h hh x).mp (List.mem_of_mem_tail hx)).1
                have ht := List.find?_eq_none.mp hf x hx
                rw [Bool.not_eq_true] at ht
                rintro ⟨t1, t2, t3, t4, t5⟩
                have hxo := I.wf.opp_mem hx2
                have hxs := I.wf.src_opp hx2
                have hl := t3 (s.m.opp x) (by rw [← hsM]; exact hxo) (by rw [← hsM, hxs, hxv])
                rw [← hsM] at t4 t5 hl
                have := (isRemovable_iff (convex := convex) (v0 := M.src h0) (v1 := M.vert h0) I.wf hx2 hxo hxs).mpr
                  ⟨by rw [hxv]; exact t1, by rw [hxv]; exact t2, by rw [hxv]; exact hcv', hl.1, hl.2, by rw [hxv]; exact t4,
                    by rw [hxv]; exact t5⟩
                rw [this] at ht; exact absurd ht (by decide)
          · intro x hx
            have hx' : x ∈ q ++ frontier { s with
                queue := q
                flag := Traversal.set s.flag (s.m.face g) .unsplittable
                conq := fun v => s.conq v || ((around s.m.h g).map s.m.vert).contains v } g := hx
            rcases List.mem_append.mp hx' with hx' | hx'
            · rcases J.gate x (by rw [hq]; exact List.mem_cons_of_mem _ hx') with h1 | h1
              · exact Or.inl h1
              · right
                change (s.conq (s.m.vert x) || _) = true
                rw [h1]; rfl
            · right
              obtain ⟨y, hy, hyf, rfl, _⟩ := (mem_frontier (s := { s with
                queue := q
                flag := Traversal.set s.flag (s.m.face g) .unsplittable
                conq := fun v => s.conq v || ((around s.m.h g).map s.m.vert).contains v }) I.wf hh x).mp hx'
              change (s.conq (s.m.vert (s.m.opp y)) || ((around s.m.h g).map s.m.vert).contains (s.m.vert (s.m.opp y))) = true
              obtain ⟨z, hz1, hz2, hz3⟩ := I.wf.exists_prev hy
              have e1 : s.m.vert (s.m.opp y) = s.m.vert z := by
                rw [← I.wf.src_next z hz1, hz2]
              have : s.m.vert z ∈ (around s.m.h g).map s.m.vert :=
                List.mem_map.mpr ⟨z, (mem_around I.wf.h hh z).mpr ⟨hz1, hz3.trans hyf⟩, rfl⟩
              rw [e1]
              simp [this]
        | some hh' =>
          rw [hf] at h
          exfalso
          have hmem : hh' ∈ around s.m.h g := List.mem_of_mem_tail (List.mem_of_find?_eq_some hf)
          obtain ⟨m1, m2⟩ := (mem_around I.wf.h hh hh').mp hmem
          obtain ⟨Hs, _, _, _, _⟩ := removable_hyp I m1 (List.find?_some hf)
          have H : CutHyp { s with queue := q } hh' := ⟨Hs.wf, Hs.hs, Hs.un, Hs.ring3, Hs.nadj⟩
          obtain ⟨s1, hN, CI, hNk, hNf, hNr, hres⟩ := H.result
          simp only [hres, Option.bind_eq_bind, Option.bind_some] at h
          have := nrem_mono n h
          change s.nrem + 1 ≤ _ at this
          omega

/-- **C75 (one round).** A decimation that removes nothing has found no removable vertex, except perhaps the vertex its first
gate points to. -/
theorem C75_idle_round_partial (convex : Mesh P → Nat → Bool) (M : Mesh P) (hM : M.WF) (first init : Nat) (hc : M.Conn first)
    (hi : init ∈ M.darts) (n : Nat) (s : St P)
    (h : conquest convex (M.src first) (M.vert first) n (beginConquest M init) = some s) (hz : s.nrem = 0)
    (v : Nat) (hv : M.Has v) (hne : v ≠ M.vert init) : ¬ Removable convex M first v := by
  obtain ⟨I, hq⟩ := inv_of_conquest hM hc hi h
  have J : IdleInv M (fun v => ¬ Removable convex M first v) init (beginConquest M init) :=
    ⟨fun _ v hv => by simp [beginConquest] at hv, fun q hq => Or.inl (by simpa [beginConquest] using hq)⟩
  obtain ⟨d, hd, rfl⟩ := hv
  have hsM := I.same hz
  rw [← hsM] at hd
  have hcq : s.conq (M.vert d) = true := by
    have := I.vcon d hd (by
      have := I.all hq d hd
      by_contra hn
      rw [Bool.not_eq_true] at hn
      exact this (conquered_false.mp hn))
    rwa [hsM] at this
  exact (J.conquest convex n (Inv.init hM hc hi) h hz _ hcq).resolve_left hne

/-- **C75.** Compression stops only when the base mesh has no removable vertex left, except perhaps the one the first gate of
the last conquest points to. -/
theorem C75_base_mesh_partial {V : Type} (geo : Geo P3 V) (env : Env P3) (he : env.Ok) (M : Mesh P3) (hM : M.WF) (first : Nat)
    (hc : M.Conn first) (n k : Nat) (L : List (Mesh P3 × LevelSyms V)) (B : Mesh P3)
    (h : compressLevels geo (convexAt env.hit) env.init env.hit (M.src first) (M.vert first) n k M = some (L, B))
    (v : Nat) (hv : B.Has v) (hne : v ≠ B.vert (env.init B)) (h0 : v ≠ M.src first) (h1 : v ≠ M.vert first)
    (h8 : ∀ d ∈ B.darts, B.src d = v → 3 ≤ (B.ring d).length ∧ (B.ring d).length ≤ 8) (hb : ¬ Blocked B v) :
    ∀ d ∈ B.darts, B.src d = v → ¬ OneSided (B.link d) := by
  induction k generalizing M L with
  | zero => exact absurd h (by simp [compressLevels])
  | succ k ih =>
    rw [compressLevels] at h
    cases hs : conquest (convexAt env.hit) (M.src first) (M.vert first) n (beginConquest M (env.init M)) with
    | none => rw [hs] at h; exact absurd h (by simp)
    | some s =>
      rw [hs] at h
      simp only [Option.bind_eq_bind, Option.bind_some] at h
      have hi : env.init M ∈ M.darts := he.init M ⟨first, hc.1⟩
      obtain ⟨I, hq⟩ := inv_of_conquest hM hc hi hs
      by_cases hz : s.nrem = 0
      · rw [if_pos hz] at h
        have e := congrArg Prod.snd (Option.some.inj h)
        have hBM : B = M := by rw [← I.same hz]; exact e.symm
        subst hBM
        have hno := C75_idle_round_partial _ B hM first _ hc hi n s hs hz v hv hne
        intro d hd hsd hone
        refine hno ⟨h0, h1, h8, hb, ?_⟩
        have hx := he.hit B v hv
        refine (isConvex_iff _).mpr (hone.rotated (link_rotated hM hd (hM.opp_mem hx.1) ?_))
        rw [hM.src_opp hx.1, hx.2, hsd]
      · rw [if_neg hz] at h
        cases hl : codeLevel geo n s (env.hit s.m (M.src first)) (M.vert first) with
        | none => rw [hl] at h; exact absurd h (by simp)
        | some l =>
          rw [hl] at h
          simp only [Option.bind_some] at h
          cases hr : compressLevels geo (convexAt env.hit) env.init env.hit (M.src first) (M.vert first) n k s.m with
          | none => rw [hr] at h; exact absurd h (by simp)
          | some r =>
            rw [hr] at h
            have e := congrArg Prod.snd (Option.some.inj h)
            have e' : r.2 = B := e
            refine ih s.m I.wf I.conn r.1 ?_ (by rw [I.dep.1]; exact h0) (by rw [I.dep.2]; exact h1)
            rw [I.dep.1, I.dep.2, hr, ← e']

/-! ### A vertex that is never looked at -/

/-- The octahedron's corners, the second one moved to the inside: `(1/2, 0, 0)`. -/
def dentPos : Nat → P3
  | 0 => fun i => if i.val = 0 then 1 else 0
  | 1 => fun i => if i.val = 0 then 1 / 2 else 0
  | 2 => fun i => if i.val = 1 then 1 else 0
  | 3 => fun i => if i.val = 1 then -1 else 0
  | 4 => fun i => if i.val = 2 then 1 else 0
  | _ => fun i => if i.val = 2 then -1 else 0

theorem convexAt_eq (hit : Mesh P3 → Nat → Nat) :
    convexAt hit = fun m v => decide (OneSided (m.link (m.opp (hit m v)))) := by
  funext m v
  rw [Bool.eq_iff_iff, decide_eq_true_eq]
  exact isConvex_iff _

/-- The exception in C75 is real: on a dented octahedron, a conquest starting at halfedge 4 removes nothing, so compression
stops, although vertex 1 is removable: the vertex the first gate points to is skipped by the loop over its facet
(mymeshComp.cpp:109), then marked conquered. Starting at another halfedge of the same facet, it is removed. -/
theorem C75_counterexample :
    ((conquest (convexAt sampleEnv.hit) ((octahedron dentPos).src 0) ((octahedron dentPos).vert 0) 30
      (beginConquest (octahedron dentPos) 4)).map (fun s => s.nrem) = some 0) ∧
    (octahedron dentPos).vert 4 = 1 ∧ Removable (convexAt sampleEnv.hit) (octahedron dentPos) 0 1 ∧
    ((conquest (convexAt sampleEnv.hit) ((octahedron dentPos).src 0) ((octahedron dentPos).vert 0) 30
      (beginConquest (octahedron dentPos) 3)).map (fun s => s.nrem) = some 1) := by
  refine ⟨?_, rfl, ⟨by decide, by decide, ?_, ?_, ?_⟩, ?_⟩
  · rw [convexAt_eq]; decide +kernel
  · decide +kernel
  · have : ¬ ∃ p ∈ (octahedron dentPos).darts, (octahedron dentPos).src p = 1 ∧
        (octahedron dentPos).deg ((octahedron dentPos).rot p) ≠ 3 := by decide +kernel
    rintro ⟨p, h1, h2, h3, _⟩
    exact this ⟨p, h1, h2, h3⟩
  · rw [convexAt_eq]; decide +kernel
  · rw [convexAt_eq]; decide +kernel

/-- C74 speaks about something: on the unit octahedron one vertex is removed. -/
example : ((conquest (convexAt sampleEnv.hit) ((octahedron octPos).src 0) ((octahedron octPos).vert 0) 30
      (beginConquest (octahedron octPos) 3)).map (fun s => (s.nrem, s.m.darts.image s.m.vert))) = some (1, {0, 2, 3, 4, 5}) := by
  rw [convexAt_eq]; decide +kernel

/-! ### C76 -/

/-- **C76 (what is promised).** The test's answer does not depend on where around the vertex CGAL starts, nor on the
direction, and it is yes exactly when no edge of the ring has other ring vertices more than `10⁻⁶` to both sides of it. -/
theorem C76_convexity_partial (p : List P3) :
    (isConvex p = true ↔ ∀ i < p.length, ∀ j < p.length, ∀ k < p.length, ¬ (OnLeft p i j ∧ OnRight p i k)) ∧
    (∀ r, isConvex (p.rotate r) = isConvex p) ∧ isConvex p.reverse = isConvex p := by
  refine ⟨isConvex_iff p, fun r => (isConvex_rotated ⟨r, rfl⟩).symm, ?_⟩
  rw [Bool.eq_iff_iff, isConvex_iff, isConvex_iff]
  refine ⟨fun h => ?_, fun h => h.reverse⟩
  have := h.reverse
  rwa [List.reverse_reverse] at this

/-- A point with coordinates `x y z`. -/
def xyz (x y z : ℚ) : P3 := fun i => if i.val = 0 then x else if i.val = 1 then y else z

/-- A flat concave quadrilateral: the third corner is inside the triangle of the others. -/
def arrow (s : ℚ) : List P3 := [xyz 0 0 0, xyz (4 * s) 0 0, xyz s s 0, xyz 0 (4 * s) 0]

/-- A quadrilateral whose first and third sides cross in their middle. -/
def bowTie : List P3 := [xyz 0 0 0, xyz 1 1 0, xyz 1 0 0, xyz 0 1 0]

/-- **C76 (what fails).** The test is no convexity test: its tolerance is absolute, so that any ring with edges and diagonals of
at most 1/2000 per axis passes, like a concave quadrilateral that is refused at unit size; and a ring whose area vector is zero passes,
like a quadrilateral with crossing sides. -/
theorem C76_counterexample :
    (∀ p : List P3, (∀ i < p.length, ∀ j < p.length, ∀ c, |p.getD i 0 c - p.getD j 0 c| ≤ 1 / 2000) → isConvex p = true) ∧
    isConvex (arrow 1) = false ∧ isConvex (arrow (1 / 8000)) = true ∧
    (∀ p : List P3, normalSum p = 0 → isConvex p = true) ∧ isConvex bowTie = true ∧
    (∀ c, (bowTie.getD 0 0 c + bowTie.getD 1 0 c) / 2 = (bowTie.getD 2 0 c + bowTie.getD 3 0 c) / 2) := by
  refine ⟨fun p h => (isConvex_iff p).mpr (oneSided_of_small h), ?_, ?_, fun p h => (isConvex_iff p).mpr (oneSided_of_zero h), ?_, ?_⟩
  · rw [← Bool.not_eq_true, isConvex_iff]; decide +kernel
  · rw [isConvex_iff]; decide +kernel
  · rw [isConvex_iff]; decide +kernel
  · decide +kernel

/-- The test is not trivial: a square passes, at unit size. -/
example : isConvex [xyz 0 0 0, xyz 1 0 0, xyz 1 1 0, xyz 0 1 0] = true ∧ normalSum [xyz 0 0 0, xyz 1 0 0, xyz 1 1 0, xyz 0 1 0] ≠ 0 := by
  rw [isConvex_iff]; decide +kernel

end TDP.Codec
