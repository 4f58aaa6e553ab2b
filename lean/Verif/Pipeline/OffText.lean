import Verif.Fill.Arrays
import Verif.Codec.Build
import Verif.Tools.GetMesh
import Verif.Tools.Names
/-!
# C116: a mesh written as OFF text and read back
(src/spatial/himesh.cpp:15-21, src/PPMC/mymeshIO.cpp:333-345, src/test/data_generator.cpp:37-52, src/spatial/spatial_common.cpp:99-112)

`os << mesh` is CGAL's writer of the OFF format, modelled after its manual and its behaviour: the header, the counts, one line for every
vertex in the order of `vertices_begin()`, one line for every facet in the order of `facets_begin()` with the numbers of its vertices from
`facet_begin()` on. A coordinate is printed by `shw` (`operator<<` for a float on a stream with default settings: six significant digits)
and a word read back as a number by `rd`.
-/
namespace TDP.OffText
open TDP.Boxes TDP.EndToEnd TDP.Codec TDP.Text TDP.Names TDP.Fill TDP.Traversal

/-- A line for a vertex. -/
def vertexLine (shw : ℚ → List Char) (p : Pt ℚ) : List Char := shw (p 0) ++ ' ' :: (shw (p 1) ++ ' ' :: (shw (p 2) ++ ['\n']))

/-- A line for a facet: the number of its corners, two blanks between this and the first index. -/
def facetLine (f : List Nat) : List Char := dec f.length ++ ' ' :: (f.flatMap (fun i => ' ' :: dec i) ++ ['\n'])

/-- `os << *this` (himesh.cpp:17, mymeshIO.cpp:340, data_generator.cpp:39, 50). -/
def offText (shw : ℚ → List Char) (m : Mesh (Pt ℚ)) (facets verts : List Nat) : List Char :=
  "OFF\n".toList ++ (dec verts.length ++ ' ' :: (dec facets.length ++ " 0\n\n".toList)) ++ verts.flatMap (fun v => vertexLine shw (m.pos v)) ++
    (faceLists m facets verts.idxOf).flatMap facetLine

/-- The coordinates, three by three. -/
def points (rd : List Char → ℚ) : List (List Char) → List (Pt ℚ)
  | x :: y :: z :: ws => (fun i => if i.val = 0 then rd x else if i.val = 1 then rd y else rd z) :: points rd ws
  | _ => []

/-- `is >> poly`: the reader of the OFF format gives the points and the facets to the builder. `none`: the stream fails. -/
def buildRead (rd : List Char → ℚ) (x : Option (List (List Char) × List (List Nat))) : Option (Mesh (Pt ℚ)) :=
  x.bind (fun (ps, fs) => buildMesh fs (points rd ps))

/-- `HiMesh::to_polyhedron` (himesh.cpp:15-21): write to a string stream, read it. The same with a file in between
(`MyMesh::writeMeshOff`, mymeshIO.cpp:333-345). -/
def toPolyhedron (shw : ℚ → List Char) (rd : List Char → ℚ) (m : Mesh (Pt ℚ)) (facets verts : List Nat) : Option (Mesh (Pt ℚ)) :=
  buildRead rd (readOff (offText shw m facets verts))

/-- `poly_to_mesh` (data_generator.cpp:48-52): the text goes through `get_mesh`; `heap` is the memory behind the copy made there. (The mesh
compressed by the same constructor afterwards is the subject of other modules.) -/
def polyToMesh (shw : ℚ → List Char) (rd : List Char → ℚ) (m : Mesh (Pt ℚ)) (facets verts : List Nat) (heap : List Char) :
    Option (Mesh (Pt ℚ)) :=
  buildRead rd (getMesh true (offText shw m facets verts) heap)

/-! ### Specification -/

/-- Numbers are printed as words: not empty, without white space, bars or NULs. -/
def Printer (shw : ℚ → List Char) : Prop := ∀ x, shw x ≠ [] ∧ ∀ c ∈ shw x, isSpace c = false ∧ c ≠ '|' ∧ c ≠ Char.ofNat 0

/-- Six significant digits: a number near an integer of six digits is printed as that integer. -/
def SixDigits (shw : ℚ → List Char) : Prop := ∀ n : Nat, 100000 ≤ n → n < 1000000 → ∀ x : ℚ, |x - n| < 1 / 2 → shw x = dec n

/-- The same surface: halfedges of `m` correspond to those of `N` one to one, with the next halfedge of the facet, the opposite one and
the vertices, and a vertex of `m` at `p` is at `f p` in `N`. -/
structure SameUpTo (f : ℚ → ℚ) (m N : Mesh (Pt ℚ)) : Prop where
  halfedges : ∃ φ : Nat → Nat, (∀ d ∈ m.darts, φ d ∈ N.darts) ∧ (∀ d ∈ m.darts, ∀ e ∈ m.darts, φ d = φ e → d = e) ∧
    (∀ x ∈ N.darts, ∃ d ∈ m.darts, φ d = x) ∧
    ∀ d ∈ m.darts, φ (m.next d) = N.next (φ d) ∧ φ (m.opp d) = N.opp (φ d) ∧ (∀ i, N.pos (N.vert (φ d)) i = f (m.pos (m.vert d) i)) ∧
      ∀ e ∈ m.darts, (m.vert d = m.vert e ↔ N.vert (φ d) = N.vert (φ e)) ∧ (m.face d = m.face e ↔ N.face (φ d) = N.face (φ e))

/-! ### The words of the text -/

theorem Words.append {s t : List Char} {ws vs : List (List Char)} (h : Words s ws) (h' : Words t vs) : Words (s ++ t) (ws ++ vs) := by
  induction h with
  | nil sp h =>
    induction sp with
    | nil => exact h'
    | cons c sp ih => exact Words.sep (h c List.mem_cons_self) (ih (fun x hx => h x (List.mem_cons_of_mem _ hx)))
  | cons sp w c s ws hsp hw hns hc _ ih =>
    have := Words.cons sp w c (s ++ t) (ws ++ vs) hsp hw hns hc ih
    simpa using this

theorem Words.one {w : List Char} (hw : w ≠ []) (hns : ∀ c ∈ w, isSpace c = false) {c : Char} (hc : isSpace c = true) {s : List Char}
    {ws : List (List Char)} (h : Words s ws) : Words (w ++ c :: s) (w :: ws) := by
  simpa using Words.cons [] w c s ws (by simp) hw hns hc h

theorem Words.blank {c : Char} (hc : isSpace c = true) : Words [c] [] := .nil _ (by simpa using hc)

theorem dec_word (n : Nat) : ∀ c ∈ dec n, isSpace c = false ∧ c ≠ '|' ∧ c ≠ Char.ofNat 0 := by
  intro c hc
  obtain ⟨h1, h2⟩ := dec_digits n c hc
  have key : ∀ k, 48 ≤ k → k ≤ 57 → isSpace (Char.ofNat k) = false ∧ Char.ofNat k ≠ '|' ∧ Char.ofNat k ≠ Char.ofNat 0 := by
    intro k h h'
    interval_cases k <;> decide
  have := key c.toNat h1 h2
  rwa [Char.ofNat_toNat] at this

theorem natOf_dec (n : Nat) : natOf (dec n) = some n := by
  unfold natOf
  rw [if_pos]
  · exact congrArg some (dec_value n)
  · refine ⟨dec_ne_nil n, List.all_eq_true.2 fun c hc => ?_⟩
    obtain ⟨h1, h2⟩ := dec_digits n c hc
    simp only [Char.isDigit, Bool.and_eq_true, decide_eq_true_eq]
    exact ⟨h1, h2⟩

/-- The words of a vertex. -/
def coords (shw : ℚ → List Char) (p : Pt ℚ) : List (List Char) := [shw (p 0), shw (p 1), shw (p 2)]

theorem vertexLine_words {shw : ℚ → List Char} (hs : Printer shw) (p : Pt ℚ) : Words (vertexLine shw p) (coords shw p) :=
  have h := fun x {c : Char} (hc : isSpace c = true) {s ws} => Words.one (hs x).1 (fun c hc => ((hs x).2 c hc).1) (c := c) hc (s := s) (ws := ws)
  h (p 0) (by decide) (h (p 1) (by decide) (h (p 2) (by decide) (.nil [] (by simp))))

theorem indices_words (f : List Nat) : ∃ c s, f.flatMap (fun i => ' ' :: dec i) ++ ['\n'] = c :: s ∧ isSpace c = true ∧ Words s (f.map dec) := by
  induction f with
  | nil => exact ⟨'\n', [], rfl, by decide, .nil [] (by simp)⟩
  | cons i f ih =>
    obtain ⟨c, s, h1, h2, h3⟩ := ih
    refine ⟨' ', dec i ++ c :: s, ?_, by decide, Words.one (dec_ne_nil i) (fun c hc => (dec_word i c hc).1) h2 h3⟩
    rw [List.flatMap_cons, List.append_assoc, h1]; rfl

theorem facetLine_words (f : List Nat) : Words (facetLine f) (dec f.length :: f.map dec) := by
  obtain ⟨c, s, h1, h2, h3⟩ := indices_words f
  unfold facetLine
  rw [h1]
  exact Words.one (dec_ne_nil _) (fun c hc => (dec_word _ c hc).1) (by decide) (h3.sep h2)

theorem flatMap_words {α : Type} (g : α → List Char) (h : α → List (List Char)) (hw : ∀ a, Words (g a) (h a)) :
    ∀ l : List α, Words (l.flatMap g) (l.flatMap h)
  | [] => .nil [] (by simp)
  | a :: l => by
    rw [List.flatMap_cons, List.flatMap_cons]
    exact Words.append (hw a) (flatMap_words g h hw l)

/-- The words of the text. -/
def offWords (shw : ℚ → List Char) (m : Mesh (Pt ℚ)) (facets verts : List Nat) : List (List Char) :=
  "OFF".toList :: dec verts.length :: dec facets.length :: ['0'] :: (verts.flatMap (fun v => coords shw (m.pos v)) ++
    ((faceLists m facets verts.idxOf).map (fun f => dec f.length :: f.map dec)).flatten ++ [])

theorem offText_words {shw : ℚ → List Char} (hs : Printer shw) (m : Mesh (Pt ℚ)) (facets verts : List Nat) :
    Words (offText shw m facets verts) (offWords shw m facets verts) := by
  have h1 : Words ("OFF\n".toList ++ (dec verts.length ++ ' ' :: (dec facets.length ++ " 0\n\n".toList)))
      ["OFF".toList, dec verts.length, dec facets.length, ['0']] := by
    have d := fun n {c : Char} (hc : isSpace c = true) {s ws} => Words.one (dec_ne_nil n) (fun c hc => (dec_word n c hc).1) (c := c) hc (s := s) (ws := ws)
    have h0 : Words ['0', '\n', '\n'] [['0']] :=
      Words.one (w := ['0']) (by simp) (by decide) (c := '\n') (by decide) (Words.blank (c := '\n') (by decide))
    have := Words.one (w := "OFF".toList) (by decide) (by decide) (c := '\n') (by decide)
      (d verts.length (c := ' ') (by decide) (d facets.length (c := ' ') (by decide) h0))
    exact this
  have h2 := flatMap_words (fun v => vertexLine shw (m.pos v)) (fun v => coords shw (m.pos v)) (fun v => vertexLine_words hs (m.pos v)) verts
  have h3 := flatMap_words facetLine (fun f => dec f.length :: f.map dec) facetLine_words (faceLists m facets verts.idxOf)
  have := Words.append (Words.append h1 h2) h3
  unfold offText offWords
  rw [List.append_nil, ← List.flatMap_def]
  simpa using this

theorem offWords_announce (shw : ℚ → List Char) (m : Mesh (Pt ℚ)) (facets verts : List Nat) :
    Announces (offWords shw m facets verts) (verts.flatMap (fun v => coords shw (m.pos v))) (faceLists m facets verts.idxOf) := by
  refine ⟨_, _, _, _, [], rfl, ?_, ?_, ?_, ?_⟩
  · rw [natOf_dec, Option.getD_some, List.length_flatMap]
    simp [coords, Nat.mul_comm]
  · rw [natOf_dec]; simp
  · rw [natOf_dec]; simp [faceLists]
  · rw [List.forall₂_map_left_iff]
    generalize faceLists m facets verts.idxOf = fs
    induction fs with
    | nil => exact .nil
    | cons f fs ih =>
      refine .cons ?_ ih
      unfold FacetWords
      rw [List.map_cons, natOf_dec, List.map_map]
      congr 1
      exact List.map_congr_left (fun i _ => natOf_dec i)

theorem points_flat (rd : List Char → ℚ) (shw : ℚ → List Char) (ps : List (Pt ℚ)) :
    points rd (ps.flatMap (coords shw)) = ps.map (fun p i => rd (shw (p i))) := by
  induction ps with
  | nil => rfl
  | cons p ps ih =>
    rw [List.flatMap_cons, List.map_cons]
    show _ :: points rd (ps.flatMap (coords shw)) = _
    rw [ih]
    congr 1
    funext i
    match i with
    | 0 => rfl
    | 1 => rfl
    | 2 => rfl

/-! ### Reading -/

theorem readOff_text {shw : ℚ → List Char} (hs : Printer shw) (m : Mesh (Pt ℚ)) (facets verts : List Nat) :
    readOff (offText shw m facets verts) = some (verts.flatMap (fun v => coords shw (m.pos v)), faceLists m facets verts.idxOf) :=
  readOff_rest (offWords_announce shw m facets verts) (junk := []) ⟨_, (List.append_nil _).symm, offText_words hs m facets verts⟩

theorem text_plain {shw : ℚ → List Char} (hs : Printer shw) (m : Mesh (Pt ℚ)) (facets verts : List Nat) :
    ∀ c ∈ offText shw m facets verts, c ≠ '|' ∧ c ≠ Char.ofNat 0 := by
  intro c hc
  have hp := fun x => fun h : c ∈ shw x => ((hs x).2 c h).2
  have hd := fun n => fun h : c ∈ dec n => (dec_word n c h).2
  have sp : c = ' ' → c ≠ '|' ∧ c ≠ Char.ofNat 0 := by rintro rfl; decide
  have nl : c = '\n' → c ≠ '|' ∧ c ≠ Char.ofNat 0 := by rintro rfl; decide
  unfold offText at hc
  simp only [List.mem_append, List.mem_cons, List.mem_flatMap, vertexLine, facetLine, List.not_mem_nil, or_false] at hc
  rcases hc with ((h | h | h | h | h) | ⟨v, _, h | h | h | h | h | h⟩) | ⟨f, _, h | h | ⟨i, _, h | h⟩ | h⟩
  · clear hp hd sp nl; revert c; decide
  · exact hd _ h
  · exact sp h
  · exact hd _ h
  · clear hp hd sp nl; revert c; decide
  all_goals first | exact hp _ h | exact hd _ h | exact sp h | exact nl h

theorem getMesh_text {shw : ℚ → List Char} (hs : Printer shw) (m : Mesh (Pt ℚ)) (facets verts : List Nat) (heap : List Char) :
    getMesh true (offText shw m facets verts) heap =
      some (verts.flatMap (fun v => coords shw (m.pos v)), faceLists m facets verts.idxOf) := by
  refine C89_text_partial _ heap (offWords shw m facets verts) _ _ (fun c hc => (text_plain hs m facets verts c hc).2) ?_
    (offWords_announce shw m facets verts)
  have : (offText shw m facets verts).map (fun c => if c = '|' then '\n' else c) = offText shw m facets verts := by
    conv_rhs => rw [← List.map_id (offText shw m facets verts)]
    exact List.map_congr_left (fun c hc => if_neg (text_plain hs m facets verts c hc).1)
  rw [this]
  exact offText_words hs m facets verts

/-- The mesh with its coordinates printed and read. -/
abbrev printed (shw : ℚ → List Char) (rd : List Char → ℚ) (m : Mesh (Pt ℚ)) : Mesh (Pt ℚ) := { m with pos := fun v i => rd (shw (m.pos v i)) }

theorem printed_wf (shw : ℚ → List Char) (rd : List Char → ℚ) {m : Mesh (Pt ℚ)} (hm : m.WF) : (printed shw rd m).WF :=
  ⟨hm.h, hm.src_next, hm.one_orbit, hm.simple, hm.noloop, hm.deg3, hm.fresh⟩

theorem build_core {shw : ℚ → List Char} (rd : List Char → ℚ) {m : Mesh (Pt ℚ)} (hm : m.WF) {facets verts : List Nat}
    (hf : FacetEnum m facets) (hv : VertEnum m verts) :
    ∃ N φ, buildRead rd (some (verts.flatMap (fun v => coords shw (m.pos v)), faceLists m facets verts.idxOf)) = some N ∧
      Iso φ (printed shw rd m) N ∧ N.h.WF ∧ N.Fresh ∧ ∀ d ∈ m.darts, N.vert (φ d) = verts.idxOf (m.vert d) := by
  have hB := printed_wf shw rd hm
  have hvert : ∀ d ∈ m.darts, verts.idxOf (m.vert d) < verts.length := fun d hd => List.idxOf_lt_length_of_mem ((hv.mem _).2 ⟨d, hd, rfl⟩)
  have hg : OnePerFacet (printed shw rd m) facets := ⟨hf.mem, hf.nodup, fun d hd => by
    obtain ⟨g, h1, h2⟩ := List.mem_map.1 (hf.all d hd)
    exact ⟨g, h1, h2⟩⟩
  have hget : ∀ d ∈ m.darts, verts[verts.idxOf (m.vert d)]? = some (m.vert d) := fun d hd => by
    rw [List.getElem?_eq_getElem (hvert d hd), List.getElem_idxOf]
  obtain ⟨N, φ, h1, i, hN, h2, h3⟩ := build_iso hB hg verts.idxOf
    (fun d hd e he h => by
      have h1 := hget d hd
      rw [show verts.idxOf (m.vert d) = verts.idxOf (m.vert e) from h, hget e he] at h1
      exact (Option.some.inj h1).symm)
    (verts.map (fun v => (printed shw rd m).pos v)) (fun d hd => by
      rw [List.getElem?_map]
      show Option.map _ (verts[verts.idxOf (m.vert d)]?) = _
      rw [hget d hd]; rfl)
  refine ⟨N, φ, ?_, i, hN, h2, h3⟩
  unfold buildRead
  rw [Option.bind_some]
  have := points_flat rd shw (verts.map m.pos)
  rw [List.flatMap_map, List.map_map] at this
  show buildMesh _ (points rd _) = _
  rw [this]
  exact h1

theorem same_of_iso {shw : ℚ → List Char} {rd : List Char → ℚ} {m N : Mesh (Pt ℚ)} (hm : m.WF) {φ : Nat → Nat} (i : Iso φ (printed shw rd m) N)
    (hN : N.h.WF) : SameUpTo (fun x => rd (shw x)) m N := by
  refine ⟨φ, i.mem, i.inj, i.surj, fun d hd => ⟨i.next d hd, i.opp d hd, fun k => ?_, fun e he => ⟨i.vert d hd e he, ?_⟩⟩⟩
  · rw [i.pos d hd]
  · rw [hm.h.face_iff d hd e he, hN.face_iff _ (i.mem d hd) _ (i.mem e he)]
    constructor
    · rintro ⟨k, rfl⟩
      exact ⟨k, i.iterate hm.h hd k⟩
    · rintro ⟨k, hk⟩
      have := i.iterate hm.h hd k
      rw [hk] at this
      exact ⟨k, (i.inj _ he _ (TDP.Traversal.iterate_mem hm.h.next_mem hd k) this).symm⟩

theorem build_text {shw : ℚ → List Char} (rd : List Char → ℚ) {m : Mesh (Pt ℚ)} (hm : m.WF) {facets verts : List Nat}
    (hf : FacetEnum m facets) (hv : VertEnum m verts) :
    ∃ N, buildRead rd (some (verts.flatMap (fun v => coords shw (m.pos v)), faceLists m facets verts.idxOf)) = some N ∧
      SameUpTo (fun x => rd (shw x)) m N := by
  obtain ⟨N, φ, h1, i, hN, _, _⟩ := build_core (shw := shw) rd hm hf hv
  exact ⟨N, h1, same_of_iso hm i hN⟩

/-- **C116**: a closed mesh written as text and read back, through a stream or a file, or through `get_mesh` whatever the memory behind
the copy holds, is the same surface; every coordinate is the number its text means. -/
theorem C116_read {shw : ℚ → List Char} (hs : Printer shw) (rd : List Char → ℚ) {m : Mesh (Pt ℚ)} (hm : m.WF) {facets verts : List Nat}
    (hf : FacetEnum m facets) (hv : VertEnum m verts) :
    (∃ N, toPolyhedron shw rd m facets verts = some N ∧ SameUpTo (fun x => rd (shw x)) m N) ∧
      ∀ heap, ∃ N, polyToMesh shw rd m facets verts heap = some N ∧ SameUpTo (fun x => rd (shw x)) m N := by
  obtain ⟨N, h1, h2⟩ := build_text (shw := shw) rd hm hf hv
  refine ⟨⟨N, ?_, h2⟩, fun heap => ⟨N, ?_, h2⟩⟩
  · unfold toPolyhedron; rw [readOff_text hs]; exact h1
  · unfold polyToMesh; rw [getMesh_text hs]; exact h1

/-- C116 (partial: the coordinates of the mesh are printed exactly). The mesh read back is the mesh. -/
theorem C116_exact_partial {shw : ℚ → List Char} (hs : Printer shw) {rd : List Char → ℚ} {m : Mesh (Pt ℚ)} (hm : m.WF) {facets verts : List Nat}
    (hf : FacetEnum m facets) (hv : VertEnum m verts) (hx : ∀ d ∈ m.darts, ∀ i, rd (shw (m.pos (m.vert d) i)) = m.pos (m.vert d) i) :
    ∃ N, toPolyhedron shw rd m facets verts = some N ∧ SameUpTo id m N := by
  obtain ⟨N, h1, ⟨φ, a, b, c, h⟩⟩ := (C116_read hs rd hm hf hv).1
  exact ⟨N, h1, ⟨φ, a, b, c, fun d hd => ⟨(h d hd).1, (h d hd).2.1, fun i => ((h d hd).2.2.1 i).trans (hx d hd i), (h d hd).2.2.2⟩⟩⟩

theorem idxOf_range {n k : Nat} (h : k < n) : (List.range n).idxOf k = k := by
  have := (List.nodup_range (n := n)).idxOf_getElem k (by simpa using h)
  simpa using this

/-- **C116, once and for all**: what is read is again a closed mesh, its vertices in the order of the text and its facets begun at the first
index written; if reading a number and printing it again gives the same text, writing this mesh gives the same text again: the digits are
lost the first time, and never more. -/
theorem C116_stable {shw : ℚ → List Char} (hs : Printer shw) {rd : List Char → ℚ} (hst : ∀ x, shw (rd (shw x)) = shw x) {m : Mesh (Pt ℚ)}
    (hm : m.WF) {facets verts : List Nat} (hf : FacetEnum m facets) (hv : VertEnum m verts) :
    ∃ N facets', toPolyhedron shw rd m facets verts = some N ∧ SameUpTo (fun x => rd (shw x)) m N ∧ N.WF ∧ FacetEnum N facets' ∧
      VertEnum N (List.range verts.length) ∧ offText shw N facets' (List.range verts.length) = offText shw m facets verts := by
  obtain ⟨N, φ, h1, i, hN, hfr, hvt⟩ := build_core (shw := shw) rd hm hf hv
  have hB := printed_wf shw rd hm
  have hW : N.WF := i.wf hN hB hfr
  have hlt : ∀ d ∈ m.darts, verts.idxOf (m.vert d) < verts.length := fun d hd => List.idxOf_lt_length_of_mem ((hv.mem _).2 ⟨d, hd, rfl⟩)
  have hface : ∀ d ∈ m.darts, ∀ e ∈ m.darts, (m.face d = m.face e ↔ N.face (φ d) = N.face (φ e)) := by
    intro d hd e he
    rw [hm.h.face_iff d hd e he, hN.face_iff _ (i.mem d hd) _ (i.mem e he)]
    constructor
    · rintro ⟨k, rfl⟩
      exact ⟨k, i.iterate hm.h hd k⟩
    · rintro ⟨k, hk⟩
      have := i.iterate hm.h hd k
      rw [hk] at this
      exact ⟨k, (i.inj _ he _ (TDP.Traversal.iterate_mem hm.h.next_mem hd k) this).symm⟩
  have hpos : ∀ v ∈ verts, N.pos (verts.idxOf v) = fun k => rd (shw (m.pos v k)) := by
    intro v hvm
    obtain ⟨d, hd, rfl⟩ := (hv.mem v).1 hvm
    rw [← hvt d hd]
    exact i.pos d hd
  refine ⟨N, facets.map φ, ?_, same_of_iso hm i hN, hW, ⟨?_, ?_, ?_⟩, ⟨List.nodup_range, ?_⟩, ?_⟩
  · unfold toPolyhedron; rw [readOff_text hs]; exact h1
  · rw [List.map_map]
    have hn := hf.nodup
    rw [List.nodup_map_iff_inj_on (List.Nodup.of_map _ hn)] at hn
    rw [List.nodup_map_iff_inj_on (List.Nodup.of_map _ hf.nodup)]
    intro x hx y hy h
    exact hn x hx y hy ((hface x (hf.mem x hx) y (hf.mem y hy)).2 h)
  · intro d hd
    obtain ⟨x, hx, rfl⟩ := List.mem_map.1 hd
    exact i.mem x (hf.mem x hx)
  · intro y hy
    obtain ⟨d, hd, rfl⟩ := i.surj y hy
    obtain ⟨g, hg, e⟩ := List.mem_map.1 (hf.all d hd)
    rw [List.map_map]
    exact List.mem_map.2 ⟨g, hg, (hface g (hf.mem g hg) d hd).1 e⟩
  · intro v
    rw [List.mem_range]
    constructor
    · intro h
      obtain ⟨d, hd, e⟩ := (hv.mem _).1 (List.getElem_mem h)
      refine ⟨φ d, i.mem d hd, ?_⟩
      rw [hvt d hd, e]
      exact hv.nodup.idxOf_getElem v h
    · rintro ⟨y, hy, rfl⟩
      obtain ⟨d, hd, rfl⟩ := i.surj y hy
      rw [hvt d hd]
      exact hlt d hd
  · have e1 : (List.range verts.length).flatMap (fun v => vertexLine shw (N.pos v)) = verts.flatMap (fun v => vertexLine shw (m.pos v)) := by
      rw [List.flatMap_def, List.flatMap_def]
      congr 1
      apply List.ext_getElem (by simp)
      intro k h1 h2
      rw [List.getElem_map, List.getElem_map, List.getElem_range]
      have hk : k < verts.length := by simpa using h2
      have := hpos verts[k] (List.getElem_mem hk)
      rw [hv.nodup.idxOf_getElem k hk] at this
      rw [this]
      simp only [vertexLine, hst]
    have e2 : faceLists N (facets.map φ) (List.range verts.length).idxOf = faceLists m facets verts.idxOf := by
      unfold faceLists
      rw [List.map_map]
      refine List.map_congr_left (fun g hg => ?_)
      have hgm := hf.mem g hg
      show (around N.h (φ g)).map _ = _
      rw [i.around hB.h hN hgm, List.map_map]
      refine List.map_congr_left (fun d hd => ?_)
      have hdm : d ∈ m.darts := ((mem_around hm.h hgm d).1 hd).1
      show (List.range verts.length).idxOf (N.vert (φ d)) = _
      rw [hvt d hdm, idxOf_range (hlt d hdm)]
    unfold offText
    rw [e1, e2, List.length_range, List.length_map]

/-! ### Six digits -/

/-- The pyramid, a quarter of its size, at 100000. -/
def farPyramid : Mesh (Pt ℚ) := { ExPyr.mesh with pos := fun v i => 100000 + ExPyr.mesh.pos v i / 4 }

theorem farPyramid_wf : farPyramid.WF :=
  have hm := ExPyr.ok.1
  ⟨hm.h, hm.src_next, hm.one_orbit, hm.simple, hm.noloop, hm.deg3, hm.fresh⟩

theorem far_facets : FacetEnum farPyramid ExPyr.facets := ⟨ExPyr.facetEnum.nodup, ExPyr.facetEnum.mem, ExPyr.facetEnum.all⟩
theorem far_verts : VertEnum farPyramid [4, 0, 1, 2, 3] := ⟨ExPyr.vertEnum.nodup, ExPyr.vertEnum.mem⟩

theorem far_near (d : Nat) (i : Fin 3) : |farPyramid.pos (farPyramid.vert d) i - (100000 : Nat)| < 1 / 2 := by
  have h : ∀ v, 0 ≤ ExPyr.vpos v i ∧ ExPyr.vpos v i ≤ 1 := by
    intro v
    unfold ExPyr.vpos ExPyr.pt
    split_ifs <;> dsimp only <;> split_ifs <;> norm_num
  have := h (ExPyr.mesh.vert d)
  have e : farPyramid.pos (farPyramid.vert d) i = 100000 + ExPyr.vpos (ExPyr.mesh.vert d) i / 4 := rfl
  rw [e, abs_lt]
  push_cast
  constructor <;> linarith [this.1, this.2]

/-- C116 is false for coordinates with more than six significant digits: there is a closed mesh, its five corners at five different
places, that is read back with all of them at one place, whatever the reader. -/
theorem C116_counterexample {shw : ℚ → List Char} (hs : Printer shw) (h6 : SixDigits shw) (rd : List Char → ℚ) :
    ∃ (m : Mesh (Pt ℚ)) (facets verts : List Nat), m.WF ∧ FacetEnum m facets ∧ VertEnum m verts ∧ verts.length = 5 ∧
      (∀ v ∈ verts, ∀ w ∈ verts, m.pos v = m.pos w → v = w) ∧
      ∃ N, toPolyhedron shw rd m facets verts = some N ∧ N.darts.card = m.darts.card ∧
        ∀ x ∈ N.darts, ∀ y ∈ N.darts, N.pos (N.vert x) = N.pos (N.vert y) := by
  refine ⟨farPyramid, ExPyr.facets, [4, 0, 1, 2, 3], farPyramid_wf, far_facets, far_verts, rfl, by decide +kernel, ?_⟩
  obtain ⟨N, h1, ⟨φ, a, b, c, h⟩⟩ := (C116_read hs rd farPyramid_wf far_facets far_verts).1
  refine ⟨N, h1, ?_, fun x hx y hy => ?_⟩
  · refine (Finset.card_bij (fun d _ => φ d) (fun d hd => a d hd) (fun d hd e he h => b d hd e he h) (fun x hx => ?_)).symm
    obtain ⟨d, hd, e⟩ := c x hx
    exact ⟨d, hd, e⟩
  · obtain ⟨d, hd, rfl⟩ := c x hx
    obtain ⟨e, he, rfl⟩ := c y hy
    funext i
    rw [(h d hd).2.2.1 i, (h e he).2.2.1 i]
    show rd (shw _) = rd (shw _)
    rw [h6 100000 (by norm_num) (by norm_num) _ (far_near d i), h6 100000 (by norm_num) (by norm_num) _ (far_near e i)]

/-! ### Non-vacuity -/

/-- A printer as described, for the numbers of the pyramids. -/
def exShw (x : ℚ) : List Char := if x = 0 then ['0'] else if x = 1 then ['1'] else if x = 1 / 2 then "0.5".toList else dec (x + 1 / 2).floor.toNat
/-- Its reader. -/
def exRd (w : List Char) : ℚ := if w = "0.5".toList then 1 / 2 else (value w : ℚ)

theorem exPrinter : Printer exShw := by
  intro x
  unfold exShw
  split
  · decide
  · split
    · decide
    · split
      · decide
      · exact ⟨dec_ne_nil _, dec_word _⟩

theorem exSix : SixDigits exShw := by
  intro n h1 h2 x hx
  rw [abs_lt] at hx
  have hn : (100000 : ℚ) ≤ n := by exact_mod_cast h1
  have hx0 : (1 : ℚ) < x := by linarith [hx.1]
  unfold exShw
  rw [if_neg (by linarith), if_neg (by linarith), if_neg (by linarith)]
  congr 1
  have : (x + 1 / 2).floor = (n : ℤ) := by
    rw [show (x + 1 / 2).floor = ⌊x + 1 / 2⌋ from rfl, Int.floor_eq_iff]
    push_cast
    constructor <;> linarith [hx.1, hx.2]
  rw [this, Int.toNat_natCast]

example : String.ofList (offText exShw ExPyr.mesh ExPyr.facets [4, 0, 1, 2, 3]) =
    "OFF\n5 5 0\n\n0.5 0.5 1\n0 0 0\n1 0 0\n1 1 0\n0 1 0\n4  2 3 4 1\n3  1 0 2\n3  2 0 3\n3  3 0 4\n3  4 0 1\n" := by decide +kernel

example : ∃ N, toPolyhedron exShw exRd ExPyr.mesh ExPyr.facets [4, 0, 1, 2, 3] = some N ∧ SameUpTo id ExPyr.mesh N :=
  C116_exact_partial exPrinter ExPyr.ok.1 ExPyr.facetEnum ExPyr.vertEnum (by decide +kernel)

example : ∃ (m : Mesh (Pt ℚ)) (facets verts : List Nat), m.WF ∧ FacetEnum m facets ∧ VertEnum m verts ∧ verts.length = 5 :=
  let ⟨m, f, v, h1, h2, h3, h4, _⟩ := C116_counterexample exPrinter exSix exRd
  ⟨m, f, v, h1, h2, h3, h4⟩

theorem exRd_dec (n : Nat) : exRd (dec n) = n := by
  unfold exRd
  rw [if_neg, dec_value]
  intro h
  have : '.' ∈ dec n := by rw [h]; decide
  exact absurd (dec_digits n _ this) (by decide)

theorem exShw_nat (n : Nat) : exShw n = dec n := by
  unfold exShw
  by_cases h0 : n = 0
  · subst h0; rw [if_pos (by norm_num), dec_small (by norm_num)]
  by_cases h1 : n = 1
  · subst h1; rw [if_neg (by norm_num), if_pos (by norm_num), dec_small (by norm_num)]
  have h2 : (2 : ℚ) ≤ n := by exact_mod_cast (show 2 ≤ n by omega)
  rw [if_neg (by linarith), if_neg (by linarith), if_neg (by linarith)]
  congr 1
  have : ((n : ℚ) + 1 / 2).floor = (n : ℤ) := by
    rw [show ((n : ℚ) + 1 / 2).floor = ⌊(n : ℚ) + 1 / 2⌋ from rfl, Int.floor_eq_iff]
    push_cast
    constructor <;> linarith
  rw [this, Int.toNat_natCast]

theorem exStable (x : ℚ) : exShw (exRd (exShw x)) = exShw x := by
  have h : exShw x = "0.5".toList ∨ ∃ n, exShw x = dec n := by
    unfold exShw
    split
    · exact .inr ⟨0, by rw [dec_small (by norm_num)]⟩
    · split
      · exact .inr ⟨1, by rw [dec_small (by norm_num)]⟩
      · split
        · exact .inl rfl
        · exact .inr ⟨_, rfl⟩
  rcases h with h | ⟨n, h⟩
  · rw [h]; decide +kernel
  · rw [h, exRd_dec, exShw_nat]

/-- The pyramid at 100000 is written twice. -/
example : ∃ N facets', toPolyhedron exShw exRd farPyramid ExPyr.facets [4, 0, 1, 2, 3] = some N ∧ N.WF ∧
    offText exShw N facets' (List.range 5) = offText exShw farPyramid ExPyr.facets [4, 0, 1, 2, 3] := by
  obtain ⟨N, f, h1, _, h3, _, _, h6⟩ := C116_stable exPrinter exStable farPyramid_wf far_facets far_verts
  exact ⟨N, f, h1, h3, h6⟩

end TDP.OffText
