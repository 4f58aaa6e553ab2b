import Verif.Codec.AssertsProps
import Verif.Pipeline.Overflow
/-!
# C95: the halfedges `removeInsertedEdges` walks over (src/PPMC/mymeshDecomp.cpp:298-310)

`for (hit = halfedges_begin(); hit != halfedges_end(); ++hit) if (hit->isAdded()) join_facet(hit);` erases the halfedge the
iterator stands on, and then follows its link. Here that read of freed memory is `none`.
-/
namespace TDP.Codec
open TDP.Traversal Function

variable {P V : Type}

/-- `removeInsertedEdges` (mymeshDecomp.cpp:298-310): the halfedges from `hit` on, in storage order; `++hit` needs `hit` alive. -/
def removeWalk (marked : Nat → Bool) : List Nat → Mesh P → Option (Mesh P)
  | [], m => some m
  | d :: rest, m =>
      let m := if marked d then joinFacet m d else m
      if d ∈ m.darts then removeWalk marked rest m else none

/-- One decompression level after its symbols (mymeshDecomp.cpp:57-310), as `decodeLevel`, with the walk above. -/
def decodeLevelW (geo : Geo P V) (order : Mesh P → List Nat) (n : Nat) (m : Mesh P) (hit0 v1 : Nat)
    (faces : List (Option V)) (edges : List Bool) : Option (Mesh P) := do
  let h0 ← pushHehInit m hit0 v1
  let (_, flag, res, rest) ← decodeFaces m.h n [h0] (fun _ => .unknown) (fun _ => none) faces
  if rest ≠ [] then none
  let (_, marked, rest) ← decodeEdges m.h flag (fun _ => false) n [h0] (fun _ => false) (fun _ => false) edges
  if rest ≠ [] then none
  let m' ← insertLoop geo flag res n m (fun _ => false) [h0]
  removeWalk marked (order m') m'

theorem removeWalk_none {marked : Nat → Bool} (l : List Nat) (m : Mesh P) (h : ∃ d ∈ l, marked d = true) :
    removeWalk marked l m = none := by
  induction l generalizing m with
  | nil => obtain ⟨d, hd, _⟩ := h; simp at hd
  | cons x l ih =>
    rw [removeWalk]
    by_cases hx : marked x = true
    · rw [hx]
      simp only [if_true]
      rw [if_neg]
      simp [joinFacet]
    · simp only [hx, if_false, Bool.false_eq_true]
      obtain ⟨d, hd, hm⟩ := h
      rcases List.mem_cons.mp hd with rfl | hd
      · exact absurd hm hx
      · rw [ih m ⟨d, hd, hm⟩]; split <;> rfl

theorem removeWalk_some {marked : Nat → Bool} (l : List Nat) (m : Mesh P) (hl : ∀ d ∈ l, d ∈ m.darts)
    (h : ∀ d ∈ l, marked d = false) : removeWalk marked l m = some m := by
  induction l with
  | nil => rfl
  | cons x l ih =>
    rw [removeWalk, h x List.mem_cons_self]
    simp only [Bool.false_eq_true, if_false, hl x List.mem_cons_self, if_true]
    exact ih (fun d hd => hl d (List.mem_cons_of_mem _ hd)) (fun d hd => h d (List.mem_cons_of_mem _ hd))

/-- Something is marked exactly if a symbol read says so. -/
theorem decodeEdges_marks (m : Mesh P) (flag : Nat → Flag) (n : Nat) {q : List Nat} {proc marked : Nat → Bool} {syms : List Bool}
    {gs : List Nat} {marked' : Nat → Bool} {rest : List Bool}
    (hd : decodeEdges m.h flag (fun _ => false) n q proc marked syms = some (gs, marked', rest)) :
    ∃ read, syms = read ++ rest ∧ ((∃ d, marked' d = true) ↔ (∃ d, marked d = true) ∨ true ∈ read) := by
  induction n generalizing q proc marked syms gs with
  | zero => simp [decodeEdges] at hd
  | succ n ih =>
    cases q with
    | nil =>
      rw [decodeEdges] at hd
      injection hd with hd
      injection hd with e1 hd
      injection hd with e2 e3
      subst e1 e2 e3
      exact ⟨[], rfl, by simp⟩
    | cons h q =>
      rw [decodeEdges] at hd
      by_cases hp : proc h = true
      · rw [if_pos hp] at hd
        exact ih hd
      · rw [if_neg hp] at hd
        simp only at hd
        by_cases hs : (flag (m.h.face h) == .splittable || flag (m.h.face (m.h.opp h)) == .splittable) = true
        · rw [if_pos hs] at hd
          cases syms with
          | nil => simp at hd
          | cons s syms =>
            simp only at hd
            obtain ⟨r, hr, he⟩ := Option.map_eq_some_iff.mp hd
            obtain ⟨gs', mk', rs'⟩ := r
            injection he with e1 he
            injection he with e2 e3
            simp only at e1 e2 e3
            subst e2 e3
            obtain ⟨read, r1, r2⟩ := ih hr
            refine ⟨s :: read, by rw [r1]; rfl, ?_⟩
            rw [r2]
            cases s with
            | true =>
              simp only [if_true]
              refine ⟨fun _ => Or.inr List.mem_cons_self, fun _ => Or.inl ⟨h, ?_⟩⟩
              simp [Traversal.set]
            | false => simp
        · rw [if_neg hs] at hd
          obtain ⟨r, hr, he⟩ := Option.map_eq_some_iff.mp hd
          obtain ⟨gs', mk', rs'⟩ := r
          injection he with e1 he
          injection he with e2 e3
          simp only at e1 e2 e3
          subst e2 e3
          exact ih hr

/-- Refining with any symbols: the walk is over live halfedges exactly if no edge symbol is 1. -/
theorem decodeLevelW_iff (geo : Geo P V) (order : Mesh P → List Nat) (ho : ∀ m, ∀ d, d ∈ order m ↔ d ∈ m.darts) (n : Nat)
    {m : Mesh P} (hm : m.h.WF) (hf : m.Fresh) {hit0 v1 : Nat} (hh : ∀ d ∈ m.ring (m.opp hit0), d ∈ m.darts)
    {faces : List (Option V)} {edges : List Bool} {m' : Mesh P}
    (h : decodeLevel geo order n m hit0 v1 faces edges = some m') :
    decodeLevelW geo order n m hit0 v1 faces edges = if true ∈ edges then none else some m' := by
  unfold decodeLevel at h
  unfold decodeLevelW
  obtain ⟨h0, e0, h⟩ := Option.bind_eq_some_iff.mp h
  have h0m : h0 ∈ m.darts := hh _ (List.mem_of_find?_eq_some e0)
  obtain ⟨⟨g1, flag, res, rest⟩, e1, h⟩ := Option.bind_eq_some_iff.mp h
  simp only at h
  rw [e0, Option.bind_eq_bind, Option.bind_some, e1, Option.bind_eq_bind, Option.bind_some]
  simp only
  by_cases hr : rest = []
  · subst hr
    simp only [ne_eq, not_true_eq_false, if_false, Option.bind_eq_bind] at h ⊢
    obtain ⟨⟨g2, marked, rest2⟩, e2, h⟩ := Option.bind_eq_some_iff.mp h
    rw [e2, Option.bind_some]
    simp only at h ⊢
    by_cases hr : rest2 = []
    · subst hr
      simp only [not_true_eq_false, if_false] at h ⊢
      obtain ⟨mi, e4, h⟩ := Option.bind_eq_some_iff.mp h
      rw [e4, Option.bind_some]
      obtain ⟨f2, _, _, _, f2d⟩ := decodeEdgesA_ok (f2 := fun _ => .original) m hm flag n (by simp) (by simp) (by simp)
        (fun d hd => by rw [List.mem_singleton.mp hd]; exact h0m) e2
      obtain ⟨read, r1, r2⟩ := decodeEdges_marks m flag n e2
      rw [List.append_nil] at r1
      subst r1
      have r3 : (∃ d, marked d = true) ↔ true ∈ edges := by rw [r2]; simp
      -- old halfedges stay
      have keep : ∀ (n : Nat) (m mi : Mesh P) (proc : Nat → Bool) (q : List Nat),
          insertLoop geo flag res n m proc q = some mi → ∀ d ∈ m.darts, d ∈ mi.darts := by
        intro n
        induction n with
        | zero => intro m mi proc q h; simp [insertLoop] at h
        | succ n ih =>
          intro m mi proc q h d hd
          cases q with
          | nil =>
            rw [insertLoop] at h
            injection h with h
            exact h ▸ hd
          | cons x q =>
            rw [insertLoop] at h
            by_cases hp : proc (m.face x) = true
            · rw [if_pos hp] at h; exact ih _ _ _ _ h d hd
            · rw [if_neg hp] at h
              simp only at h
              by_cases hs : flag (m.face x) = .splittable
              · rw [if_pos hs] at h
                cases hr : res (m.face x) with
                | none => rw [hr] at h; simp at h
                | some r =>
                  rw [hr] at h
                  refine ih _ _ _ _ h d ?_
                  exact Finset.mem_union_left _ hd
              · rw [if_neg hs] at h; exact ih _ _ _ _ h d hd
      by_cases ht : true ∈ edges
      · rw [if_pos ht]
        obtain ⟨d, hd⟩ := r3.mpr ht
        exact removeWalk_none _ _ ⟨d, (ho mi d).mpr (keep _ _ _ _ _ e4 d (f2d d hd)), hd⟩
      · rw [if_neg ht]
        have hno : ∀ d, marked d = false := by
          intro d
          rw [← Bool.not_eq_true]
          exact fun e => ht (r3.mp ⟨d, e⟩)
        rw [removeWalk_some _ _ (fun d hd => (ho mi d).mp hd) (fun d _ => hno d), ← h]
        unfold removeInsertedEdges
        rw [List.filter_eq_nil_iff.mpr (fun d _ => by rw [hno d]; simp)]
        rfl
    · simp [hr] at h
  · simp [hr] at h

/-- **C95, partial.** Refining a level that a decimation wrote, on any copy of the decimated mesh, reads no freed halfedge
exactly if the decimation inserted no edge; then the result is the mesh before. Missing from the full claim: levels with an
inserted edge, for which the code does read freed memory (`C95_counterexample`). -/
theorem C95_live_iterator_partial (convex : Mesh P → Nat → Bool) (M : Mesh P) (hM : M.WF) (hs : M.Sep) (first init : Nat)
    (hc : M.Conn first) (hi : init ∈ M.darts) (geo : Geo P V)
    (hgeo : ∀ d ∈ M.darts, ∀ l, geo.insert l (geo.residual (M.pos (M.vert d)) l) = M.pos (M.vert d)) (n0 : Nat) (s : St P)
    (h : conquest convex (M.src first) (M.vert first) n0 (beginConquest M init) = some s)
    (n : Nat) (hn : s.m.darts.card * s.m.darts.card + 2 ≤ n) (hit : Nat) (hitm : hit ∈ s.m.darts)
    (hitv : s.m.vert hit = M.src first) :
    ∃ faces edges, codeLevel geo n s hit (M.vert first) = some (faces, edges) ∧
      (true ∈ edges ↔ ∃ d ∈ s.m.darts, s.added d = true) ∧
      ∀ φ N, Iso φ s.m N → N.h.WF → N.Fresh → ∀ hit' ∈ N.darts, N.vert hit' = N.src (φ first) →
        ∀ order : Mesh P → List Nat, (∀ m, (order m).Nodup ∧ ∀ d, d ∈ order m ↔ d ∈ m.darts) →
        ((∀ d ∈ s.m.darts, s.added d = false) →
          ∃ N' ψ, decodeLevelW geo order n N hit' (N.vert (φ first)) faces edges = some N' ∧ Iso ψ M N') ∧
        ((∃ d ∈ s.m.darts, s.added d = true) →
          decodeLevelW geo order n N hit' (N.vert (φ first)) faces edges = none) := by
  obtain ⟨faces, edges, h1, h2⟩ := C55_level_roundtrip convex M hM hs first init hc hi geo hgeo n0 s h n hn hit hitm hitv
  obtain ⟨I, hq⟩ := inv_of_conquest hM hc hi h
  have key : true ∈ edges ↔ ∃ d ∈ s.m.darts, s.added d = true := by
    have hsep : s.m.Sep := I.sep hM hs
    have hK := I.wf
    have idIso : Iso id s.m s.m := ⟨fun _ h => h, fun _ _ _ _ h => h, fun x h => ⟨x, h, rfl⟩, fun _ _ => rfl, fun _ _ => rfl,
      fun _ _ _ _ => Iff.rfl, fun _ _ => rfl⟩
    obtain ⟨es, syms, hce, marked, hde, hm1, hm2⟩ := edges_level idIso hK.h hK.h I.conn (hsep first I.conn.1) hn (flag := s.flag)
      (flag' := s.flag) (added := s.added) (I.all hq) (fun _ _ => rfl) (fun d hd ha => (I.addc d hd ha).2) I.addo
    have he : edges = syms := by
      unfold codeLevel at h1
      rw [← I.dep.2, pushHehInit_eq hK I.conn.1 hitm (by rw [hitv, I.dep.1])] at h1
      simp only [Option.bind_eq_bind, Option.bind_some] at h1
      obtain ⟨gs, _, h1⟩ := Option.bind_eq_some_iff.mp h1
      rw [hce] at h1
      simp only [Option.bind_some, Option.some.injEq, Prod.mk.injEq] at h1
      exact h1.2.symm
    obtain ⟨read, r1, r2⟩ := decodeEdges_marks s.m s.flag n hde
    rw [List.append_nil] at r1
    subst r1
    subst he
    constructor
    · intro ht
      obtain ⟨x, hx⟩ := r2.mpr (Or.inr ht)
      obtain ⟨d, hd, _, ha, _⟩ := hm1 x hx
      exact ⟨d, hd, ha⟩
    · rintro ⟨d, hd, ha⟩
      have : ∃ x, marked x = true := (hm2 d hd ha).elim (fun h => ⟨_, h⟩) (fun h => ⟨_, h⟩)
      rcases r2.mp this with ⟨x, hx⟩ | hx
      · simp at hx
      · exact hx
  refine ⟨faces, edges, h1, key, ?_⟩
  intro φ N i hN hf hit' hm hv order ho
  obtain ⟨N', ψ, a1, a2, _⟩ := h2 φ N i hN hf hit' hm hv order ho
  have hNW : N.WF := i.wf hN I.wf hf
  have e := decodeLevelW_iff geo order (fun m => (ho m).2) n hN hf
    (fun d hd => ((mem_ring hNW (hNW.opp_mem hm) d).mp hd).1) a1
  refine ⟨fun hno => ⟨N', ψ, ?_, a2⟩, fun hex => ?_⟩
  · rw [e, if_neg]
    intro ht
    obtain ⟨d, hd, ha⟩ := key.mp ht
    rw [hno d hd] at ha; exact absurd ha (by decide)
  · rw [e, if_pos (key.mpr hex)]

end TDP.Codec

namespace TDP.Pipeline
open TDP.Codec

/-- **C95 fails.** Coding the oblique prism of `prText` with the program's own convexity test, its first decimation inserts
edges: its refinement, whose result is the prism itself, follows the link of an erased halfedge. -/
theorem C95_counterexample : ∃ s, conquest (fun m v => decide (OneSided (m.link (m.opp (sampleEnv.hit m v)))))
      (prInput.quantised.src prInput.first) (prInput.quantised.vert prInput.first) 40
      (beginConquest prInput.quantised (sampleEnv.init prInput.quantised)) = some s ∧ s.nrem = 1 ∧ s.m.darts.card = 16 ∧
    ∃ d ∈ s.m.darts, s.added d = true := by
  have h : ((conquest (fun m v => decide (OneSided (m.link (m.opp (sampleEnv.hit m v)))))
      (prInput.quantised.src prInput.first) (prInput.quantised.vert prInput.first) 40
      (beginConquest prInput.quantised (sampleEnv.init prInput.quantised))).map
      (fun s => decide (s.nrem = 1 ∧ s.m.darts.card = 16 ∧ ∃ d ∈ s.m.darts, s.added d = true))) = some true := by decide +kernel
  obtain ⟨s, h1, h2⟩ := Option.map_eq_some_iff.mp h
  exact ⟨s, h1, of_decide_eq_true h2⟩

end TDP.Pipeline
