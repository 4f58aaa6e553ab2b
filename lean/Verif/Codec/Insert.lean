import Verif.Codec.Center
/-! `insertRemovedVertices`. -/
namespace TDP.Codec
open TDP.Traversal Function

variable {P V : Type}

section
variable {C N C' : Mesh P} {T T' : Nat → Prop} {c : Nat → Nat} {h k : Nat} {p : P}

/-- A facet that is not refined is the same cycle in both meshes. -/
theorem Refine.same_iter (r : Refine C N T c) (hN : N.h.WF) (hh : h ∈ N.darts) (hT : ¬ T (N.face h)) (i : Nat) :
    C.next^[i] h = N.next^[i] h := by
  induction i with
  | zero => rfl
  | succ i ih =>
    have hm : N.next^[i] h ∈ N.darts := iterate_mem hN.next_mem hh i
    have hf : N.face h = N.face (N.next^[i] h) := (hN.face_iff h hh _ hm).mpr ⟨i, rfl⟩
    rw [iterate_succ_apply', iterate_succ_apply', ih, r.plain _ hm (by rw [← hf]; exact hT)]

theorem Refine.same_around (r : Refine C N T c) (hN : N.h.WF) (hC : C.h.WF) (hh : h ∈ N.darts) (hT : ¬ T (N.face h)) :
    around C.h h = around N.h h := by
  have h1 : around C.h h = (List.range (minimalPeriod C.next h)).map (fun i => C.next^[i] h) := around_eq hC (r.sub h hh)
  have h2 : around N.h h = (List.range (minimalPeriod N.next h)).map (fun i => N.next^[i] h) := around_eq hN hh
  have e := fun i => r.same_iter hN hh hT i
  have ep : minimalPeriod C.next h = minimalPeriod N.next h := by
    apply minimalPeriod_eq_minimalPeriod_iff.mpr
    intro i
    unfold IsPeriodicPt IsFixedPt
    rw [e i]
  rw [h1, h2, ep]
  apply List.map_congr_left
  intro i _
  exact e i

theorem Refine.same_face (r : Refine C N T c) (hN : N.h.WF) (hC : C.h.WF) (hh : h ∈ N.darts) (hT : ¬ T (N.face h)) {d : Nat}
    (hd : d ∈ C.darts) : C.face d = C.face h ↔ d ∈ N.darts ∧ N.face d = N.face h := by
  constructor
  · intro hf
    obtain ⟨i, hi⟩ := (hC.face_iff h (r.sub h hh) d hd).mp hf.symm
    have hi' : N.next^[i] h = d := by rw [← r.same_iter hN hh hT i]; exact hi
    have hm : N.next^[i] h ∈ N.darts := iterate_mem hN.next_mem hh i
    have hf : N.face h = N.face (N.next^[i] h) := (hN.face_iff h hh _ hm).mpr ⟨i, rfl⟩
    rw [hi'] at hm hf
    exact ⟨hm, hf.symm⟩
  · rintro ⟨hn, hf⟩
    obtain ⟨i, hi⟩ := (hN.face_iff h hh d hn).mp hf.symm
    have hi' : C.next^[i] h = d := by rw [r.same_iter hN hh hT i]; exact hi
    exact ((hC.face_iff h (r.sub h hh) d hd).mpr ⟨i, hi'⟩).symm

theorem Refine.center (r : Refine C N T c) (hN : N.h.WF) (hC : C.h.WF) (hf : C.Fresh) (hh : h ∈ N.darts)
    (hT : ¬ T (N.face h)) (ic : IsCenter C C' h k p) (hT' : ∀ f, T' f ↔ T f ∨ f = N.face h) :
    Refine C' N T' (Traversal.set c (N.face h) C.nv) := by
  have hhC := r.sub h hh
  have sf : ∀ d ∈ C.darts, C.face d = C.face h ↔ d ∈ N.darts ∧ N.face d = N.face h := fun d hd => r.same_face hN hC hh hT hd
  have loop : ∀ d ∈ N.darts, N.face d = N.face h → ∃ i < k, d = C.next^[i] h := fun d hd hfd =>
    ic.idx hC hhC (r.sub d hd) ((sf d (r.sub d hd)).mpr ⟨hd, hfd⟩)
  have nn : ∀ d ∈ N.darts, N.next d ∈ N.darts := hN.next_mem
  have fn : ∀ d ∈ N.darts, N.face (N.next d) = N.face d := fun d hd =>
    ((hN.face_iff d hd _ (nn d hd)).mpr ⟨1, rfl⟩).symm
  have old : ∀ d ∈ C.darts, d ∈ C'.darts := fun d hd => (ic.mem d).mpr (Or.inl hd)
  have ne : ∀ d ∈ N.darts, N.face d ≠ N.face h → C.face d ≠ C.face h := fun d hd hne e =>
    hne ((sf d (r.sub d hd)).mp e).2
  have neN : ∀ d ∈ C.darts, d ∉ N.darts → C.face d ≠ C.face h := fun d hd hn e => hn ((sf d hd).mp e).1
  have nonew : ∀ y, C.nd ≤ y → y ∉ N.darts := fun y hy hd => by have := (hf y (r.sub y hd)).1; omega
  have tne : ∀ d, T (N.face d) → N.face d ≠ N.face h := fun d ht e => hT (e ▸ ht)
  -- the loop
  have ln : ∀ i, N.next (C.next^[i] h) = C.next^[i + 1] h := by
    intro i
    rw [iterate_succ_apply', r.same_iter hN hh hT i]
    have hm : N.next^[i] h ∈ N.darts := iterate_mem hN.next_mem hh i
    have hf : N.face h = N.face (N.next^[i] h) := (hN.face_iff h hh _ hm).mpr ⟨i, rfl⟩
    rw [r.plain _ hm (by rw [← hf]; exact hT)]
  -- spokes at an old refined facet
  have keep : ∀ d ∈ N.darts, T (N.face d) → C'.next d = C.next d ∧ C'.opp (C.next d) = C.opp (C.next d) ∧
      C'.next (C.next d) = C.next (C.next d) ∧ C'.next (C.opp (C.next d)) = C.next (C.opp (C.next d)) ∧
      C'.opp (C.opp (C.next d)) = C.opp (C.opp (C.next d)) := by
    intro d hd ht
    have m1 := r.in_mem d hd ht
    have m2 := r.out_mem d hd ht
    exact ⟨ic.next_o d (r.sub d hd) (ne d hd (tne d ht)), ic.opp_o _ m1, ic.next_o _ m1 (neN _ m1 (r.in_new d hd ht)),
      ic.next_o _ m2 (neN _ m2 (r.out_new d hd ht)), ic.opp_o _ m2⟩
  have cset : ∀ d, T (N.face d) → Traversal.set c (N.face h) C.nv (N.face d) = c (N.face d) := fun d ht => if_neg (tne d ht)
  have cset' : ∀ d, N.face d = N.face h → Traversal.set c (N.face h) C.nv (N.face d) = C.nv := fun d e => if_pos e
  have clt : ∀ d ∈ N.darts, T (N.face d) → c (N.face d) < C.nv := by
    intro d hd ht
    rw [← r.vin d hd ht]; exact (hf _ (r.in_mem d hd ht)).2.2
  refine ⟨fun d hd => old d (r.sub d hd), ?_, ?_, ?_, ?_, ?_, ?_, ?_, ?_, ?_, ?_, ?_, ?_, ?_, ?_, ?_, ?_⟩
  · intro d hd; rw [ic.opp_o d (r.sub d hd), r.opp d hd]
  · intro d hd; rw [ic.vert_o d (r.sub d hd), r.vert d hd]
  · intro d hd
    have : N.vert d ≠ C.nv := by
      rw [← r.vert d hd]; have := (hf d (r.sub d hd)).2.2; omega
    rw [ic.pos_o _ this, r.pos d hd]
  · intro d hd hn
    rw [hT', not_or] at hn
    rw [ic.next_o d (r.sub d hd) (ne d hd hn.2), r.plain d hd hn.1]
  · intro d hd ht
    rcases (hT' _).mp ht with ht | ht
    · rw [(keep d hd ht).1]; exact old _ (r.in_mem d hd ht)
    · obtain ⟨i, hi, rfl⟩ := loop d hd ht
      rw [ic.next_l i hi]; exact (ic.mem _).mpr (Or.inr (Or.inl ⟨i, hi, rfl⟩))
  · intro d hd ht
    rcases (hT' _).mp ht with ht | ht
    · rw [(keep d hd ht).1]; exact r.in_new d hd ht
    · obtain ⟨i, hi, rfl⟩ := loop d hd ht
      rw [ic.next_l i hi]; exact nonew _ (by omega)
  · intro d hd ht
    rcases (hT' _).mp ht with ht | ht
    · rw [(keep d hd ht).1, (keep d hd ht).2.1]; exact old _ (r.out_mem d hd ht)
    · obtain ⟨i, hi, rfl⟩ := loop d hd ht
      rw [ic.next_l i hi, ic.opp_s i hi]; exact (ic.mem _).mpr (Or.inr (Or.inr ⟨i, hi, rfl⟩))
  · intro d hd ht
    rcases (hT' _).mp ht with ht | ht
    · rw [(keep d hd ht).1, (keep d hd ht).2.1]; exact r.out_new d hd ht
    · obtain ⟨i, hi, rfl⟩ := loop d hd ht
      rw [ic.next_l i hi, ic.opp_s i hi]; exact nonew _ (by omega)
  · intro d hd ht
    rcases (hT' _).mp ht with ht | ht
    · obtain ⟨k1, k2, _, _, k5⟩ := keep d hd ht
      rw [k1, k2, k5]; exact r.opp_opp d hd ht
    · obtain ⟨i, hi, rfl⟩ := loop d hd ht
      rw [ic.next_l i hi, ic.opp_s i hi, ic.opp_t i hi]
  · intro d hd ht
    rcases (hT' _).mp ht with ht | ht
    · obtain ⟨k1, k2, _, k4, _⟩ := keep d hd ht
      rw [k1, k2, k4]; exact r.out_next d hd ht
    · obtain ⟨i, hi, rfl⟩ := loop d hd ht
      rw [ic.next_l i hi, ic.opp_s i hi, ic.next_t i hi, ln]
  · intro d hd ht
    rcases (hT' _).mp ht with ht | ht
    · obtain ⟨k1, k2, _, _, _⟩ := keep d hd ht
      have ht2 : T (N.face (N.next d)) := by rw [fn d hd]; exact ht
      obtain ⟨j1, _, j3, _, _⟩ := keep _ (nn d hd) ht2
      rw [k1, k2, j1, j3]; exact r.close d hd ht
    · obtain ⟨i, hi, rfl⟩ := loop d hd ht
      rw [ic.next_l i hi, ic.opp_s i hi, ln]
      by_cases e : i + 1 = k
      · have h0 := ic.next_l 0 (by omega)
        have e0 : C.next^[i + 1] h = C.next^[0] h := by rw [e, ic.lk hC hhC]; rfl
        rw [e0, h0, Nat.mul_zero, Nat.add_zero, ic.next_0]; omega
      · rw [ic.next_l _ (by omega), ic.next_s i (by omega)]
  · intro d hd ht
    rcases (hT' _).mp ht with ht | ht
    · rw [(keep d hd ht).1, (keep d hd ht).2.1, ic.vert_o _ (r.out_mem d hd ht), r.vout d hd ht]
    · obtain ⟨i, hi, rfl⟩ := loop d hd ht
      rw [ic.next_l i hi, ic.opp_s i hi, ic.vert_t i hi, r.vert _ hd]
  · intro d hd ht
    rcases (hT' _).mp ht with ht | ht
    · rw [(keep d hd ht).1, ic.vert_o _ (r.in_mem d hd ht), r.vin d hd ht, cset d ht]
    · rw [cset' d ht]
      obtain ⟨i, hi, rfl⟩ := loop d hd ht
      rw [ic.next_l i hi, ic.vert_s i hi]
  · intro d hd ht e he hte
    rcases (hT' _).mp ht with ht | ht <;> rcases (hT' _).mp hte with hte | hte
    · rw [cset d ht, cset e hte]; exact r.cinj d hd ht e he hte
    · rw [cset d ht, cset' e hte]; intro h1; have := clt d hd ht; omega
    · rw [cset' d ht, cset e hte]; intro h1; have := clt e he hte; omega
    · intro _; rw [ht, hte]
  · intro d hd ht e he
    rcases (hT' _).mp ht with ht | ht
    · rw [cset d ht]; exact r.cnew d hd ht e he
    · rw [cset' d ht, ← r.vert e he]; have := (hf e (r.sub e he)).2.2; omega
  · intro x hx hn
    rcases (ic.mem x).mp hx with h1 | ⟨i, hi, h1⟩ | ⟨i, hi, h1⟩
    · obtain ⟨d, hd, ht, h2⟩ := r.cover x h1 hn
      refine ⟨d, hd, (hT' _).mpr (Or.inl ht), ?_⟩
      rw [(keep d hd ht).1, (keep d hd ht).2.1]; exact h2
    all_goals
      have hm : C.next^[i] h ∈ N.darts := by rw [r.same_iter hN hh hT i]; exact iterate_mem hN.next_mem hh i
      have hfi : N.face (C.next^[i] h) = N.face h :=
        ((sf _ (r.sub _ hm)).mp (ic.lface hC hhC i)).2
      refine ⟨_, hm, (hT' _).mpr (Or.inr hfi), ?_⟩
      rw [ic.next_l i hi, ic.opp_s i hi]
    · exact Or.inl h1
    · exact Or.inr h1

end

/-- The state of `insertRemovedVertices`: current mesh `C`, processed flags `pc`, on the mesh `N` it started from, whose
facets with `pn` are done. -/
structure InsInv (N C : Mesh P) (flag : Nat → Flag) (pc pn : Nat → Bool) (c : Nat → Nat) : Prop where
  ref : Refine C N (fun f => flag f = .splittable ∧ pn f = true) c
  wf : C.h.WF
  fresh : C.Fresh
  face : ∀ d ∈ N.darts, pn (N.face d) = false → C.face d = N.face d
  proc : ∀ d ∈ N.darts, pc (C.face d) = pn (N.face d)

theorem InsInv.init {N : Mesh P} (hN : N.h.WF) (hf : N.Fresh) (flag : Nat → Flag) :
    InsInv N N flag (fun _ => false) (fun _ => false) (fun _ => 0) where
  ref := by
    have no : ∀ f, ¬ (flag f = .splittable ∧ false = true) := by simp
    refine ⟨fun d hd => hd, fun d _ => rfl, fun d _ => rfl, fun d _ => rfl, fun d _ _ => rfl, ?_, ?_, ?_, ?_, ?_, ?_, ?_, ?_,
      ?_, ?_, ?_, fun x hx hn => absurd hx hn⟩ <;> intro d _ h <;> exact absurd h (no _)
  wf := hN
  fresh := hf
  face := fun _ _ _ => rfl
  proc := fun _ _ => rfl

theorem InsInv.facePos {N C : Mesh P} {flag : Nat → Flag} {pc pn : Nat → Bool} {c : Nat → Nat} (I : InsInv N C flag pc pn c)
    (hN : N.h.WF) {h : Nat} (hh : h ∈ N.darts) (hp : pn (N.face h) = false) :
    around C.h h = around N.h h ∧ Codec.facePos C h = Codec.facePos N h := by
  have e := I.ref.same_around hN I.wf hh (by rw [hp]; simp)
  refine ⟨e, ?_⟩
  unfold Codec.facePos
  rw [e]
  apply List.map_congr_left
  intro d hd
  have hd' := ((mem_around hN hh d).mp hd).1
  rw [I.ref.vert d hd', I.ref.pos d hd']

/-- All gates of the traversal are handled: the loop ends, and each splittable facet gets a vertex at the decoded position. -/
theorem insertLoop_spec {N : Mesh P} (hN : N.h.WF) (geo : Geo P V) (flag : Nat → Flag) (res : Nat → Option V)
    (hres : ∀ d ∈ N.darts, flag (N.face d) = .splittable → (res (N.face d)).isSome) (n : Nat) {q : List Nat}
    {pn : Nat → Bool} {gs : List Nat} (hv : Visits N.h q pn gs) (hq : ∀ d ∈ q, d ∈ N.darts)
    (hn : q.length + unproc N.h pn < n) {C : Mesh P} {pc : Nat → Bool} {c : Nat → Nat} (I : InsInv N C flag pc pn c) :
    ∃ R c', insertLoop geo flag res n C pc q = some R ∧
      Refine R N (fun f => flag f = .splittable ∧ (pn f = true ∨ ∃ g ∈ gs, N.face g = f)) c' ∧ R.h.WF ∧ R.Fresh ∧
      (∀ d ∈ N.darts, flag (N.face d) = .splittable → pn (N.face d) = true → R.pos (c' (N.face d)) = C.pos (c (N.face d))) ∧
      (∀ g ∈ gs, flag (N.face g) = .splittable →
        ∃ r, res (N.face g) = some r ∧ R.pos (c' (N.face g)) = geo.insert (facePos N g) r) := by
  induction n generalizing q pn gs C pc c with
  | zero => omega
  | succ n ih =>
    cases hv with
    | nil =>
      refine ⟨C, c, rfl, ?_, I.wf, I.fresh, fun _ _ _ _ => rfl, by simp⟩
      have e : (fun f => flag f = Flag.splittable ∧ (pn f = true ∨ ∃ g ∈ ([] : List Nat), N.face g = f)) =
          (fun f => flag f = Flag.splittable ∧ pn f = true) := by
        funext f; simp
      rw [e]; exact I.ref
    | skip h q _ _ hp hv =>
      rw [List.length_cons] at hn
      have hh := hq h List.mem_cons_self
      have hp' : pc (C.face h) = true := by rw [I.proc h hh]; exact hp
      rw [insertLoop, if_pos hp']
      exact ih hv (fun d hd => hq d (List.mem_cons_of_mem _ hd)) (by omega) I
    | visit h q _ gs hp hv =>
      rw [List.length_cons] at hn
      have hh := hq h List.mem_cons_self
      have hp0 : pn (N.face h) = false := hp
      have hu := unproc_visit hN pn hh hp
      have hp' : ¬ pc (C.face h) = true := by rw [I.proc h hh, hp0]; simp
      obtain ⟨ea, ep⟩ := I.facePos hN hh hp0
      have hT : ¬ (flag (N.face h) = .splittable ∧ pn (N.face h) = true) := by rw [hp0]; simp
      have hfh := I.face h hh hp0
      have sf : ∀ d ∈ N.darts, C.face d = C.face h ↔ N.face d = N.face h := fun d hd => by
        rw [I.ref.same_face hN I.wf hh hT (I.ref.sub d hd)]; simp [hd]
      -- the queue
      have hpc : ∀ d ∈ N.darts, Traversal.set pc (C.face h) true (C.face d) = Traversal.set pn (N.face h) true (N.face d) := by
        intro d hd
        unfold Traversal.set
        by_cases e : N.face d = N.face h
        · rw [if_pos e, if_pos ((sf d hd).mpr e)]
        · rw [if_neg e, if_neg (fun h1 => e ((sf d hd).mp h1)), I.proc d hd]
      have eq : ((around C.h h).map C.opp).filter (fun d => !(Traversal.set pc (C.face h) true) (C.face d)) =
          ((around N.h h).map N.opp).filter (fun d => !(Traversal.set pn (N.face h) true) (N.face d)) := by
        rw [ea]
        have e1 : (around N.h h).map C.opp = (around N.h h).map N.opp :=
          List.map_congr_left (fun d hd => I.ref.opp d ((mem_around hN hh d).mp hd).1)
        rw [e1]
        apply List.filter_congr
        intro d hd
        obtain ⟨x, hx, rfl⟩ := List.mem_map.mp hd
        rw [hpc _ (hN.opp_mem x ((mem_around hN hh x).mp hx).1)]
      rw [insertLoop, if_neg hp']
      simp only
      rw [eq]
      have hq' : ∀ d ∈ q ++ ((around N.h h).map N.opp).filter (fun d => !(Traversal.set pn (N.face h) true) (N.face d)), d ∈ N.darts :=
        pushed_mem hN hh (fun d hd => hq d (List.mem_cons_of_mem _ hd))
      have hn' : (q ++ ((around N.h h).map N.opp).filter (fun d => !(Traversal.set pn (N.face h) true) (N.face d))).length +
          unproc N.h (Traversal.set pn (N.face h) true) < n := by
        have := List.length_filter_le (fun d => !(Traversal.set pn (N.face h) true) (N.face d)) ((around N.h h).map N.opp)
        rw [List.length_map] at this
        rw [List.length_append]
        change unproc N.h (Traversal.set pn (N.face h) true) + _ = _ at hu
        omega
      have hset : ∀ f, Traversal.set pn (N.face h) true f = true ↔ pn f = true ∨ f = N.face h := by
        intro f
        unfold Traversal.set
        by_cases e : f = N.face h
        · simp [e]
        · simp [e]
      have hgoal : ∀ f, (flag f = Flag.splittable ∧ (Traversal.set pn (N.face h) true f = true ∨ ∃ g ∈ gs, N.face g = f)) ↔
          (flag f = Flag.splittable ∧ (pn f = true ∨ ∃ g ∈ h :: gs, N.face g = f)) := by
        intro f
        rw [hset]
        simp only [List.mem_cons, exists_eq_or_imp]
        constructor
        · rintro ⟨h1, (h2 | h2) | h2⟩
          · exact ⟨h1, Or.inl h2⟩
          · exact ⟨h1, Or.inr (Or.inl h2.symm)⟩
          · exact ⟨h1, Or.inr (Or.inr h2)⟩
        · rintro ⟨h1, h2 | h2 | h2⟩
          · exact ⟨h1, Or.inl (Or.inl h2)⟩
          · exact ⟨h1, Or.inl (Or.inr h2.symm)⟩
          · exact ⟨h1, Or.inr h2⟩
      by_cases hs : flag (N.face h) = .splittable
      · -- a new vertex
        have hs' : flag (C.face h) = .splittable := by rw [hfh]; exact hs
        obtain ⟨v, hv'⟩ := Option.isSome_iff_exists.mp (hres h hh hs)
        have hv2 : res (C.face h) = some v := by rw [hfh]; exact hv'
        rw [if_pos hs', hv2]
        simp only
        obtain ⟨k, ic⟩ := createCenter_spec I.wf I.fresh (I.ref.sub h hh) (geo.insert (facePos C h) v)
        have hR : Refine (createCenter C h (geo.insert (facePos C h) v)) N
            (fun f => flag f = .splittable ∧ Traversal.set pn (N.face h) true f = true) (Traversal.set c (N.face h) C.nv) := by
          refine I.ref.center hN I.wf I.fresh hh hT ic (fun f => ?_)
          rw [hset]
          constructor
          · rintro ⟨h1, h2 | h2⟩
            · exact Or.inl ⟨h1, h2⟩
            · exact Or.inr h2
          · rintro (⟨h1, h2⟩ | h2)
            · exact ⟨h1, Or.inl h2⟩
            · exact ⟨by rw [h2]; exact hs, Or.inr h2⟩
        have kp := ic.kpos I.wf (I.ref.sub h hh)
        have I' : InsInv N (createCenter C h (geo.insert (facePos C h) v)) flag
            (fun f => Traversal.set pc (C.face h) true f || decide (C.nf ≤ f ∧ f < (createCenter C h (geo.insert (facePos C h) v)).nf))
            (Traversal.set pn (N.face h) true) (Traversal.set c (N.face h) C.nv) := by
          refine ⟨hR, ic.wf I.wf I.fresh (I.ref.sub h hh), ic.fresh I.wf I.fresh (I.ref.sub h hh), ?_, ?_⟩
          · intro d hd hpd
            have h1 : ¬ (pn (N.face d) = true ∨ N.face d = N.face h) := fun h1 => by rw [(hset _).mpr h1] at hpd; simp at hpd
            rw [not_or] at h1
            rw [ic.face_o d (I.ref.sub d hd) (fun e => h1.2 ((sf d hd).mp e)), I.face d hd (by simpa using h1.1)]
          · intro d hd
            by_cases e : N.face d = N.face h
            · have hr : Traversal.set pn (N.face h) true (N.face d) = true := (hset _).mpr (Or.inr e)
              rw [hr]
              obtain ⟨i, hi, hdi⟩ := ic.idx I.wf (I.ref.sub h hh) (I.ref.sub d hd) ((sf d hd).mpr e)
              rw [hdi, ic.face_l i hi]
              by_cases h0 : i = 0
              · rw [if_pos h0]; simp [Traversal.set]
              · rw [if_neg h0, ic.nf]
                have : C.nf ≤ C.nf + i - 1 ∧ C.nf + i - 1 < C.nf + (k - 1) := by omega
                simp [this]
            · have e' : C.face d ≠ C.face h := fun h1 => e ((sf d hd).mp h1)
              rw [ic.face_o d (I.ref.sub d hd) e', hpc d hd]
              have : ¬ C.nf ≤ C.face d := by have := (I.fresh d (I.ref.sub d hd)).2.1; omega
              simp [this]
        obtain ⟨R, c', r1, r2, r3, r4, r5, r6⟩ := ih hv hq' hn' I'
        refine ⟨R, c', r1, ?_, r3, r4, ?_, ?_⟩
        · rw [funext (fun f => propext (hgoal f))] at r2; exact r2
        · intro d hd hs1 hp1
          rw [r5 d hd hs1 ((hset _).mpr (Or.inl hp1))]
          have hne : N.face d ≠ N.face h := fun e => by rw [e, hp0] at hp1; simp at hp1
          have e1 : Traversal.set c (N.face h) C.nv (N.face d) = c (N.face d) := if_neg hne
          rw [e1]
          refine ic.pos_o _ ?_
          rw [← I.ref.vin d hd ⟨hs1, hp1⟩]
          have := (I.fresh _ (I.ref.in_mem d hd ⟨hs1, hp1⟩)).2.2
          omega
        · intro g hg hs1
          rcases List.mem_cons.mp hg with e | hg
          · refine ⟨v, by rw [e]; exact hv', ?_⟩
            rw [e, r5 h hh hs ((hset _).mpr (Or.inr rfl))]
            have e1 : Traversal.set c (N.face h) C.nv (N.face h) = C.nv := if_pos rfl
            rw [e1, ic.pos_c, ep]
          · exact r6 g hg hs1
      · have hs' : ¬ flag (C.face h) = .splittable := by rw [hfh]; exact hs
        rw [if_neg hs']
        have hT2 : (fun f => flag f = Flag.splittable ∧ Traversal.set pn (N.face h) true f = true) =
            (fun f => flag f = Flag.splittable ∧ pn f = true) := by
          funext f
          rw [hset]
          apply propext
          constructor
          · rintro ⟨h1, h2 | h2⟩
            · exact ⟨h1, h2⟩
            · exact absurd (by rw [← h2]; exact h1) hs
          · rintro ⟨h1, h2⟩; exact ⟨h1, Or.inl h2⟩
        have I' : InsInv N C flag (Traversal.set pc (C.face h) true) (Traversal.set pn (N.face h) true) c := by
          refine ⟨by rw [hT2]; exact I.ref, I.wf, I.fresh, ?_, hpc⟩
          intro d hd hpd
          have h1 : ¬ (pn (N.face d) = true ∨ N.face d = N.face h) := fun h1 => by rw [(hset _).mpr h1] at hpd; simp at hpd
          rw [not_or] at h1
          exact I.face d hd (by simpa using h1.1)
        obtain ⟨R, c', r1, r2, r3, r4, r5, r6⟩ := ih hv hq' hn' I'
        refine ⟨R, c', r1, ?_, r3, r4, ?_, ?_⟩
        · rw [funext (fun f => propext (hgoal f))] at r2; exact r2
        · intro d hd hs1 hp1
          exact r5 d hd hs1 ((hset _).mpr (Or.inl hp1))
        · intro g hg hs1
          rcases List.mem_cons.mp hg with e | hg
          · rw [e] at hs1; exact absurd hs1 hs
          · exact r6 g hg hs1

end TDP.Codec
