import Verif.Traversal.EdgeLemmas
/-!
# C14, C15: coder and decoder traverse the mesh in lockstep
-/
namespace TDP.Traversal

variable {D F : Type} [DecidableEq D] [DecidableEq F]

/-- C14. On any finite closed halfedge structure and any starting halfedge the coder's face pass ends and
processes a list of gates, one per face of the component of the starting halfedge, each face once, every
face of the component; and the decoder, fed with the symbols the coder writes for these faces (`sym f` is
`none` for symbol 0 and `some r` for symbol 1 with residual `r`) followed by anything, processes the same
gates in the same order, reads exactly these symbols, and ends with every face carrying its own label and
residual. Any bound `n` on the number of turns of the loops that is above the number of halfedges plus 1
does. -/
theorem C14_same_faces_same_order {S : Type} (m : HMesh D F) (hm : m.WF) (h0 : D) (h0m : h0 ∈ m.darts)
    (n : Nat) (hn : m.darts.card + 2 ≤ n) :
    ∃ gates : List D,
      codeFaces m n [h0] (fun _ => false) = some gates ∧
      (gates.map m.face).Nodup ∧
      (∀ f, f ∈ gates.map m.face ↔ ∃ d, Reach m h0 d ∧ m.face d = f) ∧
      ∀ (sym : F → Option S) (rest : List (Option S)), ∃ flag res,
        decodeFaces m n [h0] (fun _ => .unknown) (fun _ => none)
            (gates.map (fun g => sym (m.face g)) ++ rest) = some (gates, flag, res, rest) ∧
        ∀ d, Reach m h0 d → flag (m.face d) = Flag.ofSym (sym (m.face d)) ∧ res (m.face d) = sym (m.face d) := by
  have hq : ∀ d ∈ [h0], d ∈ m.darts := by simpa using h0m
  have hu : ∀ p, unproc m p ≤ m.darts.card := fun p => Finset.card_filter_le _ _
  obtain ⟨gs, hv⟩ := visits_exists hm _ [h0] (fun _ => false) hq le_rfl
  have hlen : [h0].length + unproc m (fun _ => false) < n := by
    have := hu (fun _ => false); simp only [List.length_singleton]; omega
  obtain ⟨a1, a2, a3, a4⟩ := hv.spec hm hq
  have hreach := hv.reach hm hq h0 (by intro d hd; rw [List.mem_singleton] at hd; rw [hd]; exact .refl)
  simp only [Bool.false_eq_true, false_or] at a3 a4
  have hcover : ∀ d, Reach m h0 d → m.face d ∈ gs.map m.face := by
    intro d hr
    have hmain : d ∈ m.darts ∧ m.face d ∈ gs.map m.face := by
      induction hr with
      | refl => exact ⟨h0m, a3 h0 (by simp)⟩
      | tail _ hstep ih =>
        rename_i b c hb
        obtain ⟨hbm, hbf⟩ := ih
        rcases hstep with rfl | rfl
        · refine ⟨hm.next_mem b hbm, ?_⟩
          rwa [← (hm.face_iff b hbm _ (hm.next_mem b hbm)).mpr ⟨1, rfl⟩]
        · exact ⟨hm.opp_mem b hbm, a4 b hbm hbf⟩
    exact hmain.2
  refine ⟨gs, codeFaces_of_visits hm n _ _ gs hq hlen hv, a2, ?_, ?_⟩
  · intro f
    constructor
    · intro hf
      obtain ⟨g, hg, rfl⟩ := List.mem_map.mp hf
      exact ⟨g, hreach g hg, rfl⟩
    · rintro ⟨d, hr, rfl⟩
      exact hcover d hr
  · intro sym rest
    obtain ⟨flag, res, e1, e2⟩ := decodeFaces_of_visits hm sym n [h0] (fun _ => .unknown) (fun _ => none) gs hq hlen hv rest
    exact ⟨flag, res, e1, fun d hr => (e2 (m.face d)).1 (hcover d hr)⟩

/-- C15. On any finite closed halfedge structure, any labelling of its faces as split or unsplit and any
set of added edges: the coder's edge pass ends, processes each edge at most once (never both halfedges of
an edge) and, when the starting edge separates two faces, every edge of its component. The decoder, fed
with the symbols the coder wrote followed by anything, processes the same edges in the same order, reads
exactly these symbols and marks exactly the added ones among the edges that got a symbol. -/
theorem C15_same_edges_same_symbols (m : HMesh D F) (hm : m.WF) (h0 : D) (h0m : h0 ∈ m.darts)
    (flag : F → Flag) (hf : ∀ f, flag f ≠ .unknown) (added : D → Bool)
    (n : Nat) (hn : m.darts.card * m.darts.card + 2 ≤ n) :
    ∃ (edges : List D) (syms : List Bool),
      codeEdges m flag added n [h0] (fun _ => false) = some (edges, syms) ∧
      (∀ g ∈ edges, g ∈ m.darts) ∧ edges.Nodup ∧ (∀ g ∈ edges, m.opp g ∉ edges) ∧
      (m.face (m.opp h0) ≠ m.face h0 → ∀ d, Reach m h0 d → d ∈ edges ∨ m.opp d ∈ edges) ∧
      ∀ rest : List Bool, ∃ marked : D → Bool,
        decodeEdges m flag (fun _ => false) n [h0] (fun _ => false) (fun _ => false) (syms ++ rest) =
          some (edges, marked, rest) ∧
        ∀ d, marked d = true ↔ d ∈ edges ∧ added d = true ∧
          (flag (m.face d) = .splittable ∨ flag (m.face (m.opp d)) = .splittable) := by
  have hq : ∀ d ∈ [h0], d ∈ m.darts := by simpa using h0m
  have hmeas : emeasure m [h0] (fun _ => false) < n := by
    unfold emeasure eunproc
    have h1 := Nat.mul_le_mul_left m.darts.card
      (Finset.card_filter_le m.darts (fun d => (fun _ : D => false) d = false))
    rw [List.length_singleton]
    omega
  obtain ⟨gs, hv⟩ := evisits_exists hm _ [h0] (fun _ => false) hq le_rfl
  obtain ⟨a1, a2, a3, _⟩ := hv.spec hm hq (fun _ _ => rfl)
  refine ⟨gs, _, codeEdges_of_visits hm flag added n _ _ gs hq hmeas hv, fun g hg => (a1 g hg).1, a2, a3,
    fun hface d hr => hv.covers hm h0m hface d hr, ?_⟩
  intro rest
  refine ⟨_, decodeEdges_of_visits hm flag added (fun d _ => hf _) n _ _ gs _ hq hmeas hv rest, ?_⟩
  intro d
  have hc : coded m flag d = true ↔ flag (m.face d) = .splittable ∨ flag (m.face (m.opp d)) = .splittable := by
    unfold coded
    have h1 := hf (m.face d)
    have h2 := hf (m.face (m.opp d))
    generalize flag (m.face d) = a at *
    generalize flag (m.face (m.opp d)) = b at *
    cases a <;> cases b <;> simp_all
  unfold markAll
  rw [Bool.false_or, List.contains_iff_mem, List.mem_filter, List.mem_filter, hc]
  tauto

/-- An added edge that got no symbol is lost: the coder skips edges between two unsplit faces, which is
right only because added edges always bound a split face. -/
theorem C15_added_edges_need_a_split_side (m : HMesh D F) (hm : m.WF) (h0 : D) (h0m : h0 ∈ m.darts)
    (flag : F → Flag) (hf : ∀ f, flag f ≠ .unknown) (added : D → Bool)
    (hadd : ∀ d ∈ m.darts, added d = true →
      flag (m.face d) = .splittable ∨ flag (m.face (m.opp d)) = .splittable)
    (hsym : ∀ d ∈ m.darts, added (m.opp d) = added d)
    (hface : m.face (m.opp h0) ≠ m.face h0) (n : Nat) (hn : m.darts.card * m.darts.card + 2 ≤ n) :
    ∃ (edges : List D) (syms : List Bool), codeEdges m flag added n [h0] (fun _ => false) = some (edges, syms) ∧
      ∀ rest, ∃ marked, decodeEdges m flag (fun _ => false) n [h0] (fun _ => false) (fun _ => false) (syms ++ rest) =
          some (edges, marked, rest) ∧
        ∀ d, Reach m h0 d → (added d = true ↔ marked d = true ∨ marked (m.opp d) = true) := by
  obtain ⟨edges, syms, e1, e2, e3, e4, e5, e6⟩ := C15_same_edges_same_symbols m hm h0 h0m flag hf added n hn
  refine ⟨edges, syms, e1, fun rest => ?_⟩
  obtain ⟨marked, k1, k2⟩ := e6 rest
  refine ⟨marked, k1, fun d hr => ?_⟩
  have hd := Reach.mem hm h0m hr
  constructor
  · intro ha
    rcases e5 hface d hr with h1 | h1
    · exact Or.inl ((k2 d).mpr ⟨h1, ha, hadd d hd ha⟩)
    · refine Or.inr ((k2 _).mpr ⟨h1, by rw [hsym d hd]; exact ha, ?_⟩)
      rw [hm.opp_opp d hd]
      exact (hadd d hd ha).symm
  · rintro (h1 | h1)
    · exact ((k2 d).mp h1).2.1
    · rw [← hsym d hd]; exact ((k2 _).mp h1).2.1

/-! ### A concrete structure: a tetrahedron (12 halfedges, 4 faces) -/

/-- Halfedge `3f+i` of triangle `f`. -/
def tetra : HMesh Nat Nat where
  darts := Finset.range 12
  next d := if d % 3 = 2 then d - 2 else d + 1
  opp d := [3, 9, 6, 0, 8, 10, 2, 11, 4, 1, 5, 7].getD d 0
  face d := d / 3

theorem tetra_wf : tetra.WF where
  next_mem := by decide
  opp_mem := by decide
  next_inj := by decide
  opp_opp := by decide
  opp_ne := by decide
  face_iff := by
    intro d hd e he
    constructor
    · have : ∀ d ∈ Finset.range 12, ∀ e ∈ Finset.range 12, tetra.face d = tetra.face e →
          ∃ i < 3, tetra.next^[i] d = e := by decide
      intro h
      obtain ⟨i, _, hi⟩ := this d hd e he h
      exact ⟨i, hi⟩
    · rintro ⟨i, rfl⟩
      clear he
      induction i with
      | zero => rfl
      | succ i ih =>
        rw [Function.iterate_succ_apply']
        have : ∀ d ∈ Finset.range 12, tetra.face d = tetra.face (tetra.next d) := by decide
        rw [ih]
        exact this _ (iterate_mem (by decide) hd i)

example : codeFaces tetra 14 [0] (fun _ => false) = some [0, 3, 9, 6] := by decide
example : codeEdges tetra (fun f => if f = 0 then .splittable else .unsplittable) (fun d => d == 0 || d == 3) 146 [0]
    (fun _ => false) = some ([0, 1, 10, 2, 7, 8], [true, false, false]) := by decide
example : tetra.face (tetra.opp 0) ≠ tetra.face 0 := by decide
example := C14_same_faces_same_order (S := Int) tetra tetra_wf 0 (by decide) 14 (by decide)
example := C15_same_edges_same_symbols tetra tetra_wf 0 (by decide)
  (fun f => if f = 0 then .splittable else .unsplittable) (by intro f; split <;> simp) (fun d => d == 0 || d == 3) 146 (by decide)

end TDP.Traversal
