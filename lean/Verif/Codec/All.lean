import Verif.Codec.OneLevel
import Verif.Codec.AllModel
/-! Coding and decoding all levels. -/
namespace TDP.Codec
open TDP.Traversal Function

variable {P V : Type}

/-! ### More fuel does not change a result -/

theorem conquest_mono {convex : Mesh P → Nat → Bool} {v0 v1 n n' : Nat} (hn : n ≤ n') {s t : St P}
    (h : conquest convex v0 v1 n s = some t) : conquest convex v0 v1 n' s = some t := by
  induction n generalizing n' s with
  | zero => simp [conquest] at h
  | succ n ih =>
    obtain ⟨n', rfl⟩ : ∃ k, n' = k + 1 := ⟨n' - 1, by omega⟩
    rw [conquest] at h ⊢
    cases hq : s.queue with
    | nil => rw [hq] at h; exact h
    | cons a q =>
      rw [hq] at h
      simp only at h ⊢
      by_cases h1 : a ∉ s.m.darts
      · rw [if_pos h1] at h; exact absurd h (by simp)
      · rw [if_neg h1] at h ⊢
        by_cases h2 : (s.flag (s.m.face a)).conquered = true
        · rw [if_pos h2] at h ⊢; exact ih (by omega) h
        · rw [if_neg h2] at h ⊢
          cases hf : firstRemovable convex v0 v1 { s with queue := q } a with
          | none => rw [hf] at h; exact ih (by omega) h
          | some hh =>
            rw [hf] at h
            simp only [Option.bind_eq_bind, Option.bind_eq_some_iff] at h ⊢
            obtain ⟨u, hu, h⟩ := h
            exact ⟨u, hu, ih (by omega) h⟩

theorem codeFaces_mono {m : HMesh Nat Nat} {n n' : Nat} (hn : n ≤ n') {q : List Nat} {proc : Nat → Bool} {t : List Nat}
    (h : codeFaces m n q proc = some t) : codeFaces m n' q proc = some t := by
  induction n generalizing n' q proc t with
  | zero => simp [codeFaces] at h
  | succ n ih =>
    obtain ⟨n', rfl⟩ : ∃ k, n' = k + 1 := ⟨n' - 1, by omega⟩
    cases q with
    | nil => simpa [codeFaces] using h
    | cons a q =>
      rw [codeFaces] at h ⊢
      split at h
      · rename_i h1; rw [if_pos h1]; exact ih (by omega) h
      · rename_i h1; rw [if_neg h1]
        simp only [Option.map_eq_map, Option.map_eq_some_iff, Option.bind_eq_bind, Option.bind_eq_some_iff] at h ⊢
        obtain ⟨u, hu, h⟩ := h
        exact ⟨u, ih (by omega) hu, h⟩

theorem codeEdges_mono {m : HMesh Nat Nat} {flag : Nat → Flag} {added : Nat → Bool} {n n' : Nat} (hn : n ≤ n') {q : List Nat}
    {proc : Nat → Bool} {t : List Nat × List Bool}
    (h : codeEdges m flag added n q proc = some t) : codeEdges m flag added n' q proc = some t := by
  induction n generalizing n' q proc t with
  | zero => simp [codeEdges] at h
  | succ n ih =>
    obtain ⟨n', rfl⟩ : ∃ k, n' = k + 1 := ⟨n' - 1, by omega⟩
    cases q with
    | nil => simpa [codeEdges] using h
    | cons a q =>
      rw [codeEdges] at h ⊢
      split at h
      · rename_i h1; rw [if_pos h1]; exact ih (by omega) h
      · rename_i h1; rw [if_neg h1]
        simp only [Option.map_eq_map, Option.map_eq_some_iff, Option.bind_eq_bind, Option.bind_eq_some_iff] at h ⊢
        obtain ⟨u, hu, h⟩ := h
        exact ⟨u, ih (by omega) hu, h⟩

theorem codeLevel_mono {geo : Geo P V} {n n' : Nat} (hn : n ≤ n') {s : St P} {hit v1 : Nat} {t : LevelSyms V}
    (h : codeLevel geo n s hit v1 = some t) : codeLevel geo n' s hit v1 = some t := by
  unfold codeLevel at h ⊢
  simp only [Option.bind_eq_bind, Option.bind_eq_some_iff] at h ⊢
  obtain ⟨a, ha, b, hb, c, hc, h⟩ := h
  exact ⟨a, ha, b, codeFaces_mono hn hb, c, codeEdges_mono hn hc, h⟩

/-! ### Vertices -/

/-- The vertices of a decimated mesh are vertices of the original one. -/
theorem Inv.vert_sub {M : Mesh P} {h0 : Nat} {s : St P} (I : Inv M h0 s) :
    ∀ d ∈ s.m.darts, ∃ e ∈ M.darts, M.vert e = s.m.vert d := by
  obtain ⟨R, c, _, L, _⟩ := I.level
  have r := L.ref
  have hK := I.wf
  have spoke : ∀ p ∈ s.m.darts, s.flag (s.m.face p) = .splittable → ∃ e ∈ M.darts, M.vert e = s.m.vert p := by
    intro p hp hs
    have ho := r.out_mem p hp hs
    have hm : R.opp (R.next p) ∈ M.darts := (L.skip.mem _).mpr ⟨ho, fun ha => r.out_new p hp hs (L.addK _ ho ha)⟩
    exact ⟨_, hm, by rw [← L.skip.vert _ hm, r.vout p hp hs]⟩
  intro d hd
  by_cases ha : s.added d = true
  · rcases (I.addc d hd ha).2 with h | h
    · exact spoke d hd h
    · obtain ⟨p, hp, h1, h2⟩ := hK.exists_prev (hK.opp_mem hd)
      obtain ⟨e, he, h3⟩ := spoke p hp (by rw [h2]; exact h)
      refine ⟨e, he, h3.trans ?_⟩
      rw [← hK.src_next p hp, h1, hK.src_opp hd]
  · have hm : d ∈ M.darts := (L.skip.mem d).mpr ⟨r.sub d hd, ha⟩
    exact ⟨d, hm, by rw [← L.skip.vert d hm, r.vert d hd]⟩

/-- `v->halfedge()` points to `v`. -/
def HitOk (hit : Mesh P → Nat → Nat) : Prop :=
  ∀ m v, (∃ d ∈ m.darts, m.vert d = v) → hit m v ∈ m.darts ∧ m.vert (hit m v) = v

theorem HitOk.src {hit : Mesh P → Nat → Nat} (hh : HitOk hit) {m : Mesh P} (hm : m.h.WF) {d : Nat} (hd : d ∈ m.darts) :
    hit m (m.src d) ∈ m.darts ∧ m.vert (hit m (m.src d)) = m.src d := hh m _ ⟨_, hm.opp_mem d hd, rfl⟩

/-- The mesh of level `i` of a compression: the original one is level 0, the base mesh is the last. -/
def lodMesh (L : List (Mesh P × LevelSyms V)) (B : Mesh P) (i : Nat) : Mesh P := (L.map (·.1)).getD i B

/-- The symbols stored for levels `i` and coarser, in the order they are stored. -/
def stored (L : List (Mesh P × LevelSyms V)) (i : Nat) : List (LevelSyms V) := ((L.drop i).map (·.2)).reverse

/-- A decimation that removed something left a facet to split. -/
theorem Inv.exists_split {M : Mesh P} {h0 : Nat} {s : St P} (I : Inv M h0 s) (hr : s.nrem ≠ 0) :
    ∃ d ∈ s.m.darts, s.flag (s.m.face d) = .splittable := by
  by_contra hno
  push Not at hno
  obtain ⟨R, c, _, L, _⟩ := I.level
  have r := L.ref
  have hR : ∀ x ∈ R.darts, x ∈ s.m.darts := by
    intro x hx
    by_contra hk
    obtain ⟨d, hd, hs, _⟩ := r.cover x hx hk
    exact hno d hd hs
  have hA : ∀ d ∈ s.m.darts, ¬ s.added d = true := by
    intro d hd ha
    rcases (I.addc d hd ha).2 with h | h
    · exact hno d hd h
    · exact hno _ (I.wf.opp_mem hd) h
  have hsub : M.darts.image M.vert ⊆ s.m.darts.image s.m.vert := by
    intro v hv
    obtain ⟨d, hd, rfl⟩ := Finset.mem_image.mp hv
    have hdR := ((L.skip.mem d).mp hd).1
    exact Finset.mem_image.mpr ⟨d, hR d hdR, by rw [← r.vert d (hR d hdR), L.skip.vert d hd]⟩
  have := Finset.card_le_card hsub
  have := I.verts
  omega

/-- The face symbols of a level: at least one residual, and every residual is that of a vertex of the mesh against some of
its vertices. -/
def SymsOf (geo : Geo P V) (M : Mesh P) (faces : List (Option V)) : Prop :=
  (∃ r, some r ∈ faces) ∧ ∀ r, some r ∈ faces → ∃ d ∈ M.darts, ∃ ps : List P, ps ≠ [] ∧
    (∀ p ∈ ps, ∃ e ∈ M.darts, p = M.pos (M.vert e)) ∧ r = geo.residual (M.pos (M.vert d)) ps

theorem Inv.syms {M : Mesh P} {h0 : Nat} {s : St P} (I : Inv M h0 s) (hr : s.nrem ≠ 0) (geo : Geo P V) {gs : List Nat}
    (gK : ∀ g ∈ gs, g ∈ s.m.darts) (cov : ∀ d ∈ s.m.darts, ∃ g ∈ gs, s.m.face g = s.m.face d) :
    SymsOf geo M (gs.map (faceSym geo s)) := by
  obtain ⟨R, c, _, L, hrem⟩ := I.level
  have r := L.ref
  constructor
  · obtain ⟨d, hd, hs⟩ := I.exists_split hr
    obtain ⟨g, hg, e⟩ := cov d hd
    rw [← e] at hs
    refine ⟨geo.residual (M.pos (c (s.m.face g))) (facePos s.m g), List.mem_map.mpr ⟨g, hg, ?_⟩⟩
    unfold faceSym; rw [if_pos hs, hrem g (gK g hg) hs]; rfl
  · intro x hx
    obtain ⟨g, hg, e⟩ := List.mem_map.mp hx
    have hgm := gK g hg
    unfold faceSym at e
    by_cases hs : s.flag (s.m.face g) = .splittable
    · rw [if_pos hs, hrem g hgm hs] at e
      simp only [Option.map_some, Option.some.injEq] at e
      have hin := r.in_mem g hgm hs
      have hm : R.next g ∈ M.darts := (L.skip.mem _).mpr ⟨hin, fun ha => r.in_new g hgm hs (L.addK _ hin ha)⟩
      have hc : c (s.m.face g) = M.vert (R.next g) := by rw [← L.skip.vert _ hm, r.vin g hgm hs]
      refine ⟨_, hm, facePos s.m g, ?_, ?_, ?_⟩
      · unfold facePos
        have : g ∈ around s.m.h g := (mem_around I.wf.h hgm g).mpr ⟨hgm, rfl⟩
        intro h
        rw [List.map_eq_nil_iff] at h
        rw [h] at this; exact absurd this (by simp)
      · intro p hp
        obtain ⟨y, hy, rfl⟩ := List.mem_map.mp hp
        obtain ⟨e', he', h⟩ := I.vert_sub y ((mem_around I.wf.h hgm y).mp hy).1
        exact ⟨e', he', by rw [h, I.pos]⟩
      · rw [← e, hc]
    · rw [if_neg hs] at e; exact absurd e (by simp)

theorem SymsOf.sub {geo : Geo P V} {M K : Mesh P} {faces : List (Option V)} (h : SymsOf geo K faces) (hp : K.pos = M.pos)
    (hv : ∀ d ∈ K.darts, ∃ e ∈ M.darts, M.vert e = K.vert d) : SymsOf geo M faces := by
  refine ⟨h.1, fun r hr => ?_⟩
  obtain ⟨d, hd, ps, h1, h2, h3⟩ := h.2 r hr
  obtain ⟨e, he, hev⟩ := hv d hd
  refine ⟨e, he, ps, h1, ?_, by rw [hev, ← hp]; exact h3⟩
  intro p hp'
  obtain ⟨x, hx, hxe⟩ := h2 p hp'
  obtain ⟨y, hy, hye⟩ := hv x hx
  exact ⟨y, hy, by rw [hye, ← hp]; exact hxe⟩

/-- What compression promises about a mesh `M`, its levels `L` and base mesh `B`. -/
structure Compressed (geo : Geo P V) (M : Mesh P) (h0 : Nat) (L : List (Mesh P × LevelSyms V)) (B : Mesh P) : Prop where
  wf : B.WF
  sep : B.Sep
  conn : B.Conn h0
  dep : B.src h0 = M.src h0 ∧ B.vert h0 = M.vert h0
  pos : B.pos = M.pos
  vsub : ∀ d ∈ B.darts, ∃ e ∈ M.darts, M.vert e = B.vert d
  degs : ∀ D, 8 ≤ D → (∀ d ∈ M.darts, M.deg d ≤ D) → ∀ d ∈ B.darts, B.deg d ≤ D
  verts : (B.darts.image B.vert).card + L.length ≤ (M.darts.image M.vert).card
  first : lodMesh L B 0 = M
  syms : ∀ l ∈ L, SymsOf geo M l.2.1
  mid : ∀ i ≤ L.length, (lodMesh L B i).WF ∧ (lodMesh L B i).Sep ∧ (lodMesh L B i).Conn h0 ∧ (lodMesh L B i).pos = M.pos ∧
    (lodMesh L B i).src h0 = M.src h0 ∧ (lodMesh L B i).vert h0 = M.vert h0 ∧
    ∀ D, 8 ≤ D → (∀ d ∈ M.darts, M.deg d ≤ D) → ∀ d ∈ (lodMesh L B i).darts, (lodMesh L B i).deg d ≤ D
  chain : ∀ i < L.length, (lodMesh L B (i + 1)).darts.image (lodMesh L B (i + 1)).vert ⊂ (lodMesh L B i).darts.image (lodMesh L B i).vert

theorem all_levels (geo : Geo P V) (convex : Mesh P → Nat → Bool) (init : Mesh P → Nat) (hit hit' : Mesh P → Nat → Nat)
    (order : Mesh P → List Nat)
    (hinit : ∀ m : Mesh P, m.darts.Nonempty → init m ∈ m.darts) (hhit : HitOk hit) (hhit' : HitOk hit')
    (hord : ∀ m, (order m).Nodup ∧ ∀ d, d ∈ order m ↔ d ∈ m.darts) (h0 : Nat) :
    ∀ (w : Nat) (M : Mesh P), (M.darts.image M.vert).card ≤ w → M.WF → M.Sep → M.Conn h0 →
    (∀ d ∈ M.darts, ∀ l, geo.insert l (geo.residual (M.pos (M.vert d)) l) = M.pos (M.vert d)) →
    ∃ L B fuel, (∀ n ≥ fuel, ∀ k ≥ fuel, compressLevels geo convex init hit (M.src h0) (M.vert h0) n k M = some (L, B)) ∧
      Compressed geo M h0 L B ∧
      ∀ n ≥ fuel, ∀ φ N, Iso φ B N → N.h.WF → N.Fresh → ∀ i ≤ L.length, ∃ N' ψ,
        decompressLevels geo order hit' (N.src (φ h0)) (N.vert (φ h0)) n (stored L i) N = some N' ∧
        Iso ψ (lodMesh L B i) N' ∧ N'.h.WF ∧ N'.Fresh ∧ N'.src (ψ h0) = N.src (φ h0) ∧ N'.vert (ψ h0) = N.vert (φ h0) := by
  intro w
  induction w using Nat.strong_induction_on with
  | _ w ih =>
  intro M hw hM hs hc hgeo
  have hne : M.darts.Nonempty := ⟨h0, hc.1⟩
  have I0 := Inv.init hM hc (hinit M hne)
  obtain ⟨s, hcon, I, hq⟩ := I0.conquest convex _ (Nat.lt_succ_self _)
  generalize hn0 : ((beginConquest M (init M)).queue.length + unconq (beginConquest M (init M))).succ = n0 at hcon
  by_cases hr : s.nrem = 0
  · have hsm := I.same hr
    refine ⟨[], M, n0 + 1, ?_, ⟨hM, hs, hc, ⟨rfl, rfl⟩, rfl, fun d hd => ⟨d, hd, rfl⟩, fun D _ h => h, le_rfl, rfl, by simp,
      fun i _ => by rw [show lodMesh [] M i = M from rfl]; exact ⟨hM, hs, hc, rfl, rfl, rfl, fun D _ h => h⟩, by simp⟩, ?_⟩
    · intro n hn k hk
      obtain ⟨k, rfl⟩ : ∃ j, k = j + 1 := ⟨k - 1, by omega⟩
      rw [compressLevels, conquest_mono (by omega) hcon]
      simp only [Option.bind_eq_bind, Option.bind_some]
      rw [if_pos hr, hsm]
    · intro n _ φ N i hN hf j hj
      have : j = 0 := by simpa using hj
      subst this
      exact ⟨N, φ, rfl, i, hN, hf, rfl, rfl⟩
  · -- one level, then the rest
    obtain ⟨hsep, _⟩ := level_roundtrip hM hs hc I hq geo hgeo le_rfl (hhit.src I.wf.h I.conn.1).1 (hhit.src I.wf.h I.conn.1).2
    have hgeo2 : ∀ d ∈ s.m.darts, ∀ l, geo.insert l (geo.residual (s.m.pos (s.m.vert d)) l) = s.m.pos (s.m.vert d) := by
      intro d hd l
      obtain ⟨e, he, h⟩ := I.vert_sub d hd
      rw [I.pos, ← h]; exact hgeo e he l
    have hv := I.verts
    obtain ⟨L, B, fuel, hcomp, C, hdec⟩ := ih (s.m.darts.image s.m.vert).card (by omega) s.m le_rfl I.wf hsep I.conn hgeo2
    rw [I.dep.1, I.dep.2] at hcomp
    have hh := hhit.src I.wf.h I.conn.1
    obtain ⟨_, faces, edges, hcode, hfac, _⟩ := level_roundtrip hM hs hc I hq geo hgeo le_rfl hh.1 hh.2
    rw [I.dep.1, I.dep.2] at hcode
    generalize hn1 : s.m.darts.card * s.m.darts.card + 2 = n1 at hcode
    refine ⟨(M, faces, edges) :: L, B, n0 + n1 + fuel + 1, ?_, ?_, ?_⟩
    · intro n hn k hk
      obtain ⟨k, rfl⟩ : ∃ j, k = j + 1 := ⟨k - 1, by omega⟩
      rw [compressLevels, conquest_mono (by omega) hcon]
      simp only [Option.bind_eq_bind, Option.bind_some]
      rw [if_neg hr, codeLevel_mono (by omega) hcode]
      simp only [Option.bind_some]
      rw [hcomp n (by omega) k (by omega)]
      rfl
    · refine ⟨C.wf, C.sep, C.conn, ⟨C.dep.1.trans I.dep.1, C.dep.2.trans I.dep.2⟩, C.pos.trans I.pos, ?_, ?_, ?_, rfl, ?_, ?_, ?_⟩
      · intro d hd
        obtain ⟨e, he, h⟩ := C.vsub d hd
        obtain ⟨e', he', h'⟩ := I.vert_sub e he
        exact ⟨e', he', h'.trans h⟩
      · intro D hD h; exact C.degs D hD (I.degs D hD h)
      · have := C.verts
        rw [List.length_cons]; omega
      · intro l hl
        rcases List.mem_cons.mp hl with rfl | hl
        · obtain ⟨gs, rfl, gK, cov⟩ := hfac
          exact I.syms hr geo gK cov
        · exact (C.syms l hl).sub I.pos I.vert_sub
      · intro j hj
        cases j with
        | zero => exact ⟨hM, hs, hc, rfl, rfl, rfl, fun D _ h => h⟩
        | succ j =>
          obtain ⟨m1, m2, m3, m4, m5, m6, m7⟩ := C.mid j (by simpa using hj)
          exact ⟨m1, m2, m3, m4.trans I.pos, m5.trans I.dep.1, m6.trans I.dep.2, fun D hD h => m7 D hD (I.degs D hD h)⟩
      · intro j hj
        cases j with
        | zero =>
          change (lodMesh L B 0).darts.image (lodMesh L B 0).vert ⊂ M.darts.image M.vert
          rw [C.first]
          refine ssubset_of_subset_of_ne ?_ (fun e => by rw [e] at hv; omega)
          intro u hu
          obtain ⟨d, hd, rfl⟩ := Finset.mem_image.mp hu
          obtain ⟨e, he, h⟩ := I.vert_sub d hd
          exact Finset.mem_image.mpr ⟨e, he, h⟩
        | succ j => exact C.chain j (by simpa using hj)
    · intro n hn φ N i hN hf j hj
      cases j with
      | succ j =>
        obtain ⟨N', ψ, d1, d2⟩ := hdec n (by omega) φ N i hN hf j (by simpa using hj)
        exact ⟨N', ψ, d1, d2⟩
      | zero =>
        obtain ⟨N1, ψ1, d1, d2, d3, d4, d5, d6⟩ := hdec n (by omega) φ N i hN hf 0 (Nat.zero_le _)
        rw [C.first] at d2
        obtain ⟨_, faces', edges', hcode', _, hlev⟩ := level_roundtrip hM hs hc I hq geo hgeo
          (n := n) (by omega) hh.1 hh.2
        rw [I.dep.1, I.dep.2, codeLevel_mono (by omega) hcode] at hcode'
        simp only [Option.some.injEq, Prod.mk.injEq] at hcode'
        obtain ⟨rfl, rfl⟩ := hcode'
        have hx := hhit'.src d3 (d2.mem h0 I.conn.1)
        obtain ⟨N2, ψ2, e1, e2, e3, e4, e5, e6⟩ := hlev ψ1 N1 d2 d3 d4 _ hx.1 hx.2 order hord
        refine ⟨N2, ψ2, ?_, e2, e3, e4, e5.trans d5, e6.trans d6⟩
        have hst : stored ((M, faces, edges) :: L) 0 = stored L 0 ++ [(faces, edges)] := by
          simp [stored]
        rw [hst]
        unfold decompressLevels at d1 ⊢
        rw [List.foldlM_append, d1]
        simp only [Option.bind_eq_bind, Option.bind_some, List.foldlM_cons, List.foldlM_nil]
        rw [d5, d6] at e1
        rw [e1]; rfl

end TDP.Codec
