import Verif.Codec.Basic
import Verif.Fill.Tri
import Mathlib.Data.Fintype.Pigeonhole
/-!
# Text output: `HiMesh::to_wkt`, `polyhedron_to_wkt` and the tool `towkt`
(src/spatial/himesh.cpp:442-471, src/spatial/spatial_common.cpp:65-97, src/test/towkt.cpp:14-22)

How a stream prints a number is a parameter (`shw`): it depends on the precision, 6 in `to_wkt` and 10 in `polyhedron_to_wkt`.
The order in which CGAL enumerates facets is a parameter.
-/
namespace TDP.Wkt
open TDP.Boxes TDP.Codec TDP.Fill TDP.Traversal

/-! ## Model -/

/-- The stream and the variables `first`, `firstpoint` (himesh.cpp:453-455). -/
structure St where
  out : List Char
  first : Bool
  firstpoint : Pt ℚ

/-- `ss<<p[0]<<" "<<p[1]<<" "<<p[2]` (himesh.cpp:464, 467). -/
def putPoint (shw : ℚ → List Char) (p : Pt ℚ) (out : List Char) : List Char :=
  out ++ shw (p 0) ++ " ".toList ++ shw (p 1) ++ " ".toList ++ shw (p 2)

/-- The `do … while(++hit != end)` loop (himesh.cpp:456-466). -/
def ringLoop (shw : ℚ → List Char) (m : Mesh (Pt ℚ)) (end_ : Nat) : Nat → Nat → St → Option St
  | 0, _, _ => none
  | k + 1, hit, s =>
    let p := m.pos (m.vert hit)
    let s : St := if !s.first then { s with out := s.out ++ ",".toList } else { s with firstpoint := p }
    let s : St := { s with first := false }
    let s : St := { s with out := putPoint shw p s.out }
    if m.next hit = end_ then some s else ringLoop shw m end_ k (m.next hit) s

/-- One turn of the loop over the facets (himesh.cpp:446-469); `lfirst` with the stream. -/
def facetStep (shw : ℚ → List Char) (m : Mesh (Pt ℚ)) (fuel : Nat) (s : List Char × Bool) (fit : Nat) : Option (List Char × Bool) := do
  let s : List Char × Bool := if s.2 then (s.1, false) else (s.1 ++ ",".toList, s.2)
  let out := s.1 ++ "((".toList
  let r ← ringLoop shw m fit fuel fit ⟨out, true, fun _ => 0⟩
  let out := putPoint shw r.firstpoint (r.out ++ ",".toList)
  pure (out ++ "))".toList, s.2)

/-- `HiMesh::to_wkt` (himesh.cpp:442-471). `facets`: `f->facet_begin()` of every facet, in order. -/
def toWkt (shw : ℚ → List Char) (m : Mesh (Pt ℚ)) (facets : List Nat) (fuel : Nat) : Option (List Char) := do
  let s ← facets.foldlM (facetStep shw m fuel) ("POLYHEDRALSURFACE Z (".toList, true)
  pure (s.1 ++ ")".toList)

/-- `polyhedron_to_wkt` (spatial_common.cpp:65-97): the same loops, another precision, and a newline at the end. -/
def polyhedronToWkt (shw : ℚ → List Char) (m : Mesh (Pt ℚ)) (facets : List Nat) (fuel : Nat) : Option (List Char) := do
  let s ← facets.foldlM (facetStep shw m fuel) ("POLYHEDRALSURFACE Z (".toList, true)
  pure (s.1 ++ ")".toList ++ "\n".toList)

/-- The loop of `towkt` (towkt.cpp:19-21) from object `i` on; the objects are at the full level of detail. -/
def towktFrom (shw : ℚ → List Char) (shwi : Nat → List Char) (fuel : Nat) : Nat → List (Mesh (Pt ℚ) × List Nat) → Option (List Char)
  | _, [] => some []
  | i, o :: os => do
    let w ← toWkt shw o.1 o.2 fuel
    let rest ← towktFrom shw shwi fuel (i + 1) os
    pure (shwi i ++ "|".toList ++ w ++ "\n".toList ++ rest)

/-- The output of `towkt`. -/
def towkt (shw : ℚ → List Char) (shwi : Nat → List Char) (fuel : Nat) (os : List (Mesh (Pt ℚ) × List Nat)) : Option (List Char) :=
  towktFrom shw shwi fuel 0 os

/-! ## Specification -/

/-- `cs` are the corners of the facet of `d`, once around it, from the one `d` points to. -/
def Corners (m : Mesh (Pt ℚ)) (d : Nat) (cs : List (Pt ℚ)) : Prop :=
  ∃ n, 0 < n ∧ m.next^[n] d = d ∧ (∀ i, 0 < i → i < n → m.next^[i] d ≠ d) ∧
    cs = (List.range n).map (fun i => m.pos (m.vert (m.next^[i] d)))

/-- A point of a well-known text. -/
def pointText (shw : ℚ → List Char) (p : Pt ℚ) : List Char := [' '].intercalate [shw (p 0), shw (p 1), shw (p 2)]

/-- A closed ring: the first point is repeated at the end. -/
def closed {A : Type} (cs : List A) : List A := cs ++ cs.take 1

/-- A polygon with one ring and no hole. -/
def polygonText (shw : ℚ → List Char) (cs : List (Pt ℚ)) : List Char :=
  '(' :: '(' :: ([','].intercalate ((closed cs).map (pointText shw)) ++ [')', ')'])

/-- A polyhedral surface. -/
def surfaceText (shw : ℚ → List Char) (rings : List (List (Pt ℚ))) : List Char :=
  "POLYHEDRALSURFACE Z (".toList ++ ([','].intercalate (rings.map (polygonText shw)) ++ [')'])

/-- Numbers are printed with at least one character and none of those with a meaning in the text. -/
def Clean (shw : ℚ → List Char) : Prop :=
  ∀ x, shw x ≠ [] ∧ ∀ c ∈ shw x, c ≠ ' ' ∧ c ≠ ',' ∧ c ≠ '(' ∧ c ≠ ')' ∧ c ≠ '|' ∧ c ≠ '\n'

/-- A reader of such texts, of the part after the keyword: the number, the point, the ring being read and the polygons read. -/
structure Rd where
  num : List Char
  pt : List (List Char)
  ring : List (List (List Char))
  polys : List (List (List (List Char)))

/-- One character. -/
def Rd.step (r : Rd) (c : Char) : Rd :=
  if c = ' ' then { r with num := [], pt := r.pt ++ [r.num] }
  else if c = ',' then
    if r.num = [] then r else { r with num := [], pt := [], ring := r.ring ++ [r.pt ++ [r.num]] }
  else if c = ')' then
    if r.num = [] then r else ⟨[], [], [], r.polys ++ [r.ring ++ [r.pt ++ [r.num]]]⟩
  else if c = '(' then r
  else { r with num := r.num ++ [c] }

/-- Read a text: what follows the keyword. -/
def readWkt (t : List Char) : Option (List (List (List (List Char)))) :=
  if "POLYHEDRALSURFACE Z (".toList.isPrefixOf t then
    some ((t.drop "POLYHEDRALSURFACE Z (".toList.length).foldl Rd.step ⟨[], [], [], []⟩).polys
  else none

/-! ## Proofs -/

theorem intercalate_cons_cons {A : Type} (s a b : List A) (l : List (List A)) :
    s.intercalate (a :: b :: l) = a ++ (s ++ s.intercalate (b :: l)) := by
  simp [List.intercalate, List.intersperse]

theorem intercalate_single {A : Type} (s a : List A) : s.intercalate [a] = a := by
  simp [List.intercalate, List.intersperse]

theorem intercalate_snoc {A : Type} (s : List A) (l : List (List A)) (hl : l ≠ []) (a : List A) :
    s.intercalate (l ++ [a]) = s.intercalate l ++ (s ++ a) := by
  induction l with
  | nil => exact absurd rfl hl
  | cons x l ih =>
    cases l with
    | nil => simp only [List.cons_append, List.nil_append, intercalate_cons_cons, intercalate_single]
    | cons y l =>
      have := ih (by simp)
      rw [List.cons_append, List.cons_append, intercalate_cons_cons, intercalate_cons_cons, ← List.cons_append, this]
      simp only [List.append_assoc]

theorem putPoint_eq (shw : ℚ → List Char) (p : Pt ℚ) (out : List Char) : putPoint shw p out = out ++ pointText shw p := by
  unfold putPoint pointText
  rw [intercalate_cons_cons, intercalate_cons_cons, intercalate_single]
  simp [List.append_assoc]

/-- What the loop writes after the first corner. -/
theorem ringLoop_rest (shw : ℚ → List Char) (m : Mesh (Pt ℚ)) (end_ : Nat) :
    ∀ (n k : Nat), n + 1 ≤ k → ∀ (hit : Nat) (s : St), s.first = false →
      m.next^[n + 1] hit = end_ → (∀ i, 0 < i → i < n + 1 → m.next^[i] hit ≠ end_) →
      ringLoop shw m end_ k hit s =
        some ⟨s.out ++ ((List.range (n + 1)).flatMap (fun i => ',' :: pointText shw (m.pos (m.vert (m.next^[i] hit))))), false, s.firstpoint⟩ := by
  intro n
  induction n with
  | zero =>
    intro k hk hit s hs h1 h2
    obtain ⟨k, rfl⟩ : ∃ j, k = j + 1 := ⟨k - 1, by omega⟩
    simp only [ringLoop, hs]
    have : m.next hit = end_ := by simpa using h1
    rw [if_pos this]
    simp [putPoint_eq, List.append_assoc]
  | succ n ih =>
    intro k hk hit s hs h1 h2
    obtain ⟨k, rfl⟩ : ∃ j, k = j + 1 := ⟨k - 1, by omega⟩
    simp only [ringLoop, hs]
    have h3 : m.next hit ≠ end_ := by simpa using h2 1 (by omega) (by omega)
    rw [if_neg h3, ih k (by omega) (m.next hit) _ rfl]
    · simp only [putPoint_eq, Bool.not_false, if_true, List.range_succ_eq_map (n := n + 1), List.flatMap_cons, List.flatMap_map]
      simp [List.append_assoc]
    · simpa [Function.iterate_succ_apply] using h1
    · intro i hi hin
      have := h2 (i + 1) (by omega) (by omega)
      simpa [Function.iterate_succ_apply] using this

/-- Points after the first one of a ring. -/
theorem intercalate_flat (shw : ℚ → List Char) (a : Pt ℚ) (l : List (Pt ℚ)) :
    [','].intercalate ((a :: l).map (pointText shw)) = pointText shw a ++ l.flatMap (fun p => ',' :: pointText shw p) := by
  induction l generalizing a with
  | nil => simp [intercalate_single]
  | cons b l ih =>
    rw [List.map_cons, List.map_cons, intercalate_cons_cons, ← List.map_cons, ih b]
    simp

theorem facetStep_eq (shw : ℚ → List Char) (m : Mesh (Pt ℚ)) (d : Nat) {cs : List (Pt ℚ)} (h : Corners m d cs) (fuel : Nat)
    (hf : cs.length ≤ fuel) (out : List Char) (b : Bool) :
    facetStep shw m fuel (out, b) d =
      some (out ++ ((if b then [] else [',']) ++ polygonText shw cs), false) := by
  obtain ⟨n, hn, h1, h2, rfl⟩ := h
  rw [List.length_map, List.length_range] at hf
  have hr : ∀ o : List Char, ringLoop shw m d fuel d ⟨o, true, fun _ => 0⟩ =
      some ⟨o ++ [','].intercalate (((List.range n).map (fun i => m.pos (m.vert (m.next^[i] d)))).map (pointText shw)), false, m.pos (m.vert d)⟩ := by
    intro o
    obtain ⟨k, rfl⟩ : ∃ j, fuel = j + 1 := ⟨fuel - 1, by omega⟩
    obtain ⟨n, rfl⟩ : ∃ j, n = j + 1 := ⟨n - 1, by omega⟩
    rw [ringLoop, List.range_succ_eq_map (n := n), List.map_cons, intercalate_flat]
    simp only [Bool.not_true, Bool.false_eq_true, if_false, Function.iterate_zero, id_eq]
    by_cases h3 : m.next d = d
    · rw [if_pos h3]
      have : n = 0 := by
        by_contra hc
        exact h2 1 (by omega) (by omega) (by simpa using h3)
      subst this
      simp [putPoint_eq]
    · rw [if_neg h3]
      obtain ⟨n, rfl⟩ : ∃ j, n = j + 1 := by
        refine ⟨n - 1, ?_⟩
        by_contra hc
        have : n = 0 := by omega
        subst this
        exact h3 (by simpa using h1)
      rw [ringLoop_rest shw m d n k (by omega) (m.next d) _ rfl]
      · simp only [putPoint_eq, List.append_assoc, List.flatMap_map, List.map_map]
        rfl
      · simpa [Function.iterate_succ_apply] using h1
      · intro i hi hin
        have := h2 (i + 1) (by omega) (by omega)
        simpa [Function.iterate_succ_apply] using this
  unfold facetStep
  have hne : ((List.range n).map (fun i => m.pos (m.vert (m.next^[i] d)))).map (pointText shw) ≠ [] := by
    intro hc
    have := congrArg List.length hc
    simp at this
    omega
  have htake : ((List.range n).map (fun i => m.pos (m.vert (m.next^[i] d)))).take 1 = [m.pos (m.vert d)] := by
    obtain ⟨n, rfl⟩ : ∃ j, n = j + 1 := ⟨n - 1, by omega⟩
    rw [List.range_succ_eq_map]
    simp
  simp only [hr, Option.bind_eq_bind, Option.bind_some, Option.pure_def, putPoint_eq, polygonText, closed, htake, List.map_append,
    List.map_cons, List.map_nil, intercalate_snoc _ _ hne]
  cases b <;> simp [List.append_assoc]

theorem foldlM_facets (shw : ℚ → List Char) (m : Mesh (Pt ℚ)) (fuel : Nat) :
    ∀ (facets : List Nat) (rings : List (List (Pt ℚ))), List.Forall₂ (Corners m) facets rings → (∀ cs ∈ rings, cs.length ≤ fuel) →
      ∀ out, facets.foldlM (facetStep shw m fuel) (out, false) =
        some (out ++ rings.flatMap (fun cs => ',' :: polygonText shw cs), false) := by
  intro facets rings h
  induction h with
  | nil => intro _ out; simp
  | cons h _ ih =>
    intro hl out
    rw [List.foldlM_cons, facetStep_eq shw m _ h fuel (hl _ (by simp))]
    simp only [Option.bind_eq_bind, Option.bind_some]
    rw [ih (fun cs hc => hl cs (by simp [hc]))]
    simp

theorem intercalate_flat' (a : List Char) (l : List (List Char)) :
    [','].intercalate (a :: l) = a ++ l.flatMap (fun p => ',' :: p) := by
  induction l generalizing a with
  | nil => simp [intercalate_single]
  | cons b l ih =>
    rw [intercalate_cons_cons, ih b]
    simp

theorem toWkt_eq (shw : ℚ → List Char) (m : Mesh (Pt ℚ)) {facets : List Nat} {rings : List (List (Pt ℚ))}
    (h : List.Forall₂ (Corners m) facets rings) (fuel : Nat) (hf : ∀ cs ∈ rings, cs.length ≤ fuel) :
    toWkt shw m facets fuel = some (surfaceText shw rings) := by
  unfold toWkt surfaceText
  cases h with
  | nil => simp
  | @cons d cs facets rings h h' =>
    rw [List.foldlM_cons, facetStep_eq shw m _ h fuel (hf _ (by simp))]
    simp only [Option.bind_eq_bind, Option.bind_some]
    rw [foldlM_facets shw m fuel _ _ h' (fun cs hc => hf cs (by simp [hc]))]
    simp only [Option.bind_some, Option.pure_def, List.map_cons, intercalate_flat', List.flatMap_map]
    simp [List.append_assoc]

/-- Every facet of a valid polyhedron has a list of corners. -/
theorem corners_exist {m : Mesh (Pt ℚ)} (hm : m.WF) {d : Nat} (hd : d ∈ m.darts) : ∃ cs, Corners m d cs ∧ 3 ≤ cs.length := by
  have hper : ∃ n, 0 < n ∧ m.next^[n] d = d := by
    have hinj : Set.InjOn m.next (m.darts : Set Nat) := fun a ha b hb hab => hm.h.next_inj a ha b hb hab
    have hmap : ∀ i, m.next^[i] d ∈ m.darts := by
      intro i
      induction i with
      | zero => exact hd
      | succ i ih => rw [Function.iterate_succ_apply']; exact hm.h.next_mem _ ih
    obtain ⟨i, j, hij, he⟩ := Finite.exists_ne_map_eq_of_infinite (fun i : Nat => (⟨m.next^[i] d, hmap i⟩ : m.darts))
    have he : m.next^[i] d = m.next^[j] d := congrArg Subtype.val he
    have key : ∀ i j : Nat, i < j → m.next^[i] d = m.next^[j] d → ∃ n, 0 < n ∧ m.next^[n] d = d := by
      intro i
      induction i with
      | zero => intro j hj he; exact ⟨j, hj, he.symm⟩
      | succ i ih =>
        intro j hj he
        obtain ⟨j, rfl⟩ : ∃ k, j = k + 1 := ⟨j - 1, by omega⟩
        rw [Function.iterate_succ_apply', Function.iterate_succ_apply'] at he
        exact ih j (by omega) (hinj (hmap i) (hmap j) he)
    rcases lt_or_gt_of_ne hij with h | h
    · exact key i j h he
    · exact key j i h he.symm
  classical
  refine ⟨_, ⟨Nat.find hper, (Nat.find_spec hper).1, (Nat.find_spec hper).2, ?_, rfl⟩, ?_⟩
  · intro i hi hlt he
    exact Nat.find_min hper hlt ⟨hi, he⟩
  · rw [List.length_map, List.length_range]
    obtain ⟨h1, h2⟩ := Nat.find_spec hper
    generalize Nat.find hper = n at *
    by_contra hc
    have : n = 1 ∨ n = 2 := by omega
    rcases this with rfl | rfl
    · have h2 : m.next d = d := by simpa using h2
      exact hm.deg3 d hd (by rw [h2, h2])
    · exact hm.deg3 d hd (by simpa using h2)

/-- **C86, the text**: for every polyhedron and every order of its facets, `to_wkt` ends and returns the text of a
polyhedral surface with, for each facet and in the same order, one polygon of a single closed ring of at least four points
through the corners of the facet. -/
theorem C86_text (shw : ℚ → List Char) {m : Mesh (Pt ℚ)} (hm : m.WF) {facets : List Nat} (hf : FacetEnum m facets) :
    ∃ rings, List.Forall₂ (Corners m) facets rings ∧ (∀ cs ∈ rings, 4 ≤ (closed cs).length ∧ (closed cs).head? = (closed cs).getLast?) ∧
      ∃ K, ∀ fuel ≥ K, toWkt shw m facets fuel = some (surfaceText shw rings) ∧
        polyhedronToWkt shw m facets fuel = some (surfaceText shw rings ++ ['\n']) := by
  have : ∀ l : List Nat, (∀ d ∈ l, d ∈ m.darts) → ∃ rings, List.Forall₂ (Corners m) l rings ∧ ∀ cs ∈ rings, 3 ≤ cs.length := by
    intro l
    induction l with
    | nil => intro _; exact ⟨[], .nil, by simp⟩
    | cons d l ih =>
      intro h
      obtain ⟨rings, h1, h2⟩ := ih (fun e he => h e (by simp [he]))
      obtain ⟨cs, h3, h4⟩ := corners_exist hm (h d (by simp))
      refine ⟨cs :: rings, .cons h3 h1, ?_⟩
      intro c hc
      rcases List.mem_cons.1 hc with rfl | hc
      · exact h4
      · exact h2 c hc
  obtain ⟨rings, h1, h2⟩ := this facets hf.mem
  refine ⟨rings, h1, ?_, (rings.map List.length).sum, ?_⟩
  · intro cs hc
    have := h2 cs hc
    match cs, this with
    | a :: cs, this =>
      simp only [closed, List.take_succ_cons, List.take_zero]
      refine ⟨by simpa using this, ?_⟩
      rw [List.getLast?_append]
      rfl
  · intro fuel hfu
    have hl : ∀ cs ∈ rings, cs.length ≤ fuel := fun cs hc =>
      le_trans (List.single_le_sum (by simp) _ (List.mem_map_of_mem hc)) hfu
    have := toWkt_eq shw m h1 fuel hl
    refine ⟨this, ?_⟩
    unfold toWkt at this
    unfold polyhedronToWkt
    simp only [Option.bind_eq_bind, Option.bind_eq_some_iff, Option.pure_def, Option.some.injEq] at this ⊢
    obtain ⟨s, e1, e2⟩ := this
    exact ⟨s, e1, by rw [e2]; rfl⟩

/-! ### Reading it back -/

theorem read_num (l : List Char) (hl : ∀ c ∈ l, c ≠ ' ' ∧ c ≠ ',' ∧ c ≠ '(' ∧ c ≠ ')') (r : Rd) :
    l.foldl Rd.step r = { r with num := r.num ++ l } := by
  induction l generalizing r with
  | nil => simp
  | cons c l ih =>
    rw [List.foldl_cons, ih (fun d hd => hl d (by simp [hd]))]
    obtain ⟨h1, h2, h3, h4⟩ := hl c (by simp)
    simp [Rd.step, h1, h2, h3, h4]

theorem read_point {shw : ℚ → List Char} (hs : Clean shw) (p : Pt ℚ) (ring : List (List (List Char))) (polys) :
    (pointText shw p).foldl Rd.step ⟨[], [], ring, polys⟩ = ⟨shw (p 2), [shw (p 0), shw (p 1)], ring, polys⟩ := by
  have hc : ∀ x, ∀ c ∈ shw x, c ≠ ' ' ∧ c ≠ ',' ∧ c ≠ '(' ∧ c ≠ ')' := fun x c h =>
    ⟨((hs x).2 c h).1, ((hs x).2 c h).2.1, ((hs x).2 c h).2.2.1, ((hs x).2 c h).2.2.2.1⟩
  unfold pointText
  rw [intercalate_cons_cons, intercalate_cons_cons, intercalate_single]
  simp only [List.foldl_append, List.foldl_cons, List.foldl_nil]
  rw [read_num _ (hc _)]
  simp only [Rd.step, if_true, List.nil_append]
  rw [read_num _ (hc _)]
  simp only [List.nil_append, if_true]
  rw [read_num _ (hc _)]
  rfl

/-- The printed coordinates of a point. -/
def printed (shw : ℚ → List Char) (p : Pt ℚ) : List (List Char) := [shw (p 0), shw (p 1), shw (p 2)]

theorem read_points {shw : ℚ → List Char} (hs : Clean shw) : ∀ (l : List (Pt ℚ)) (p : Pt ℚ) (ring polys),
    ([','].intercalate ((p :: l).map (pointText shw)) ++ [')', ')']).foldl Rd.step ⟨[], [], ring, polys⟩ =
      ⟨[], [], [], polys ++ [ring ++ (p :: l).map (printed shw)]⟩ := by
  intro l
  induction l with
  | nil =>
    intro p ring polys
    rw [List.map_cons, List.map_nil, intercalate_single, List.foldl_append, read_point hs]
    have := (hs (p 2)).1
    simp [Rd.step, this, printed]
  | cons q l ih =>
    intro p ring polys
    rw [List.map_cons, List.map_cons, intercalate_cons_cons, ← List.map_cons, List.append_assoc, List.append_assoc,
      List.foldl_append, read_point hs]
    have := (hs (p 2)).1
    rw [List.foldl_append]
    have e : ([','] : List Char).foldl Rd.step ⟨shw (p 2), [shw (p 0), shw (p 1)], ring, polys⟩ = ⟨[], [], ring ++ [printed shw p], polys⟩ := by
      simp [Rd.step, this, printed]
    rw [e, ih]
    simp

theorem read_polygon {shw : ℚ → List Char} (hs : Clean shw) (cs : List (Pt ℚ)) (hc : cs ≠ []) (polys) :
    (polygonText shw cs).foldl Rd.step ⟨[], [], [], polys⟩ = ⟨[], [], [], polys ++ [(closed cs).map (printed shw)]⟩ := by
  unfold polygonText
  rw [List.foldl_cons, List.foldl_cons]
  have e : Rd.step (Rd.step ⟨[], [], [], polys⟩ '(') '(' = ⟨[], [], [], polys⟩ := by simp [Rd.step]
  rw [e]
  match cs, hc with
  | p :: l, _ =>
    have e2 : closed (p :: l) = p :: (l ++ [p]) := rfl
    rw [e2, read_points hs]
    simp

theorem read_polygons {shw : ℚ → List Char} (hs : Clean shw) : ∀ (rings : List (List (Pt ℚ))), (∀ cs ∈ rings, cs ≠ []) → ∀ polys,
    ([','].intercalate (rings.map (polygonText shw))).foldl Rd.step ⟨[], [], [], polys⟩ =
      ⟨[], [], [], polys ++ rings.map (fun cs => (closed cs).map (printed shw))⟩ := by
  intro rings
  induction rings with
  | nil => intro _ polys; simp [List.intercalate, List.intersperse]
  | cons a l ih =>
    intro h polys
    cases l with
    | nil =>
      rw [List.map_cons, List.map_nil, intercalate_single, read_polygon hs _ (h a (by simp))]
      simp
    | cons b l =>
      rw [List.map_cons, List.map_cons, intercalate_cons_cons, ← List.map_cons, List.foldl_append, List.foldl_append,
        read_polygon hs _ (h a (by simp))]
      have e : ∀ ps, ([','] : List Char).foldl Rd.step ⟨[], [], [], ps⟩ = ⟨[], [], [], ps⟩ := by intro ps; simp [Rd.step]
      rw [e, ih (fun cs hc => h cs (by simp [hc]))]
      simp

theorem readWkt_surface {shw : ℚ → List Char} (hs : Clean shw) (rings : List (List (Pt ℚ))) (h : ∀ cs ∈ rings, cs ≠ []) :
    readWkt (surfaceText shw rings) = some (rings.map (fun cs => (closed cs).map (printed shw))) := by
  have hp : "POLYHEDRALSURFACE Z (".toList.isPrefixOf (surfaceText shw rings) = true := by
    rw [List.isPrefixOf_iff_prefix]
    exact ⟨_, rfl⟩
  unfold readWkt
  rw [if_pos hp]
  unfold surfaceText
  rw [List.drop_left, List.foldl_append, read_polygons hs rings h]
  simp [Rd.step]

/-- **C86, nothing is lost**: a reader of the text gets, for each facet and in order, the closed ring of its corners with
their printed coordinates. -/
theorem C86_read {shw : ℚ → List Char} (hs : Clean shw) {m : Mesh (Pt ℚ)} (hm : m.WF) {facets : List Nat} (hf : FacetEnum m facets) :
    ∃ rings, List.Forall₂ (Corners m) facets rings ∧
      ∃ K, ∀ fuel ≥ K, ∃ t, toWkt shw m facets fuel = some t ∧
        readWkt t = some (rings.map (fun cs => (closed cs).map (fun p => [shw (p 0), shw (p 1), shw (p 2)]))) := by
  obtain ⟨rings, h1, h2, K, h3⟩ := C86_text shw hm hf
  refine ⟨rings, h1, K, fun fuel hfu => ⟨_, (h3 fuel hfu).1, readWkt_surface hs rings ?_⟩⟩
  intro cs hc he
  subst he
  have := (h2 _ hc).1
  simp [closed] at this

/-- Splitting at newlines; what follows the last one. -/
def lines : List Char → List (List Char)
  | [] => [[]]
  | c :: l => if c = '\n' then [] :: lines l else
      match lines l with
      | [] => [[c]]
      | a :: as => (c :: a) :: as

theorem lines_append (l r : List Char) (hl : '\n' ∉ l) : lines (l ++ '\n' :: r) = l :: lines r := by
  induction l with
  | nil => simp [lines]
  | cons c l ih =>
    have hc : c ≠ '\n' := fun h => hl (by simp [h])
    rw [List.cons_append, lines, if_neg hc, ih (fun h => hl (by simp [h]))]

theorem intercalate_mem {A : Type} {s : List A} {l : List (List A)} {c : A} (h : c ∈ s.intercalate l) : c ∈ s ∨ ∃ a ∈ l, c ∈ a := by
  induction l with
  | nil => simp [List.intercalate, List.intersperse] at h
  | cons a l ih =>
    cases l with
    | nil => rw [intercalate_single] at h; exact Or.inr ⟨a, by simp, h⟩
    | cons b l =>
      rw [intercalate_cons_cons, List.mem_append, List.mem_append] at h
      rcases h with h | h | h
      · exact Or.inr ⟨a, by simp, h⟩
      · exact Or.inl h
      · rcases ih h with h | ⟨x, hx, h⟩
        · exact Or.inl h
        · exact Or.inr ⟨x, by simp [hx], h⟩

theorem surface_no_newline {shw : ℚ → List Char} (hs : Clean shw) (rings : List (List (Pt ℚ))) : '\n' ∉ surfaceText shw rings := by
  intro h
  unfold surfaceText at h
  rw [List.mem_append, List.mem_append] at h
  rcases h with h | h | h
  · revert h; decide
  · rcases intercalate_mem h with h | ⟨a, ha, h⟩
    · revert h; decide
    · obtain ⟨cs, -, rfl⟩ := List.mem_map.1 ha
      unfold polygonText at h
      simp only [List.mem_cons, List.mem_append, List.not_mem_nil, or_false] at h
      rcases h with h | h | h | h | h
      · revert h; decide
      · revert h; decide
      · rcases intercalate_mem h with h | ⟨b, hb, h⟩
        · revert h; decide
        · obtain ⟨p, -, rfl⟩ := List.mem_map.1 hb
          rcases intercalate_mem h with h | ⟨c, hc, h⟩
          · revert h; decide
          · simp only [List.mem_cons, List.not_mem_nil, or_false] at hc
            rcases hc with rfl | rfl | rfl
            · exact ((hs _).2 _ h).2.2.2.2.2 rfl
            · exact ((hs _).2 _ h).2.2.2.2.2 rfl
            · exact ((hs _).2 _ h).2.2.2.2.2 rfl
      · revert h; decide
      · revert h; decide
  · revert h; decide

/-- **C86, the tool**: line `i` of the output is the number `i`, a bar, and the text of object `i`; there are as many lines as
objects, each one ended by a newline. -/
theorem C86_tool {shw : ℚ → List Char} (hs : Clean shw) {shwi : Nat → List Char} (hi : ∀ i, '\n' ∉ shwi i)
    (os : List (Mesh (Pt ℚ) × List Nat)) (ho : ∀ o ∈ os, o.1.WF ∧ FacetEnum o.1 o.2) :
    ∃ rings : List (List (List (Pt ℚ))), List.Forall₂ (fun o r => List.Forall₂ (Corners o.1) o.2 r) os rings ∧
      ∃ K, ∀ fuel ≥ K, ∃ t, towkt shw shwi fuel os = some t ∧
        lines t = (List.range os.length).map (fun i => shwi i ++ '|' :: surfaceText shw (rings.getD i [])) ++ [[]] := by
  have key : ∀ (os : List (Mesh (Pt ℚ) × List Nat)), (∀ o ∈ os, o.1.WF ∧ FacetEnum o.1 o.2) →
      ∃ rings : List (List (List (Pt ℚ))), List.Forall₂ (fun o r => List.Forall₂ (Corners o.1) o.2 r) os rings ∧
      ∃ K, ∀ fuel ≥ K, ∀ j, ∃ t, towktFrom shw shwi fuel j os = some t ∧
        lines t = (List.range os.length).map (fun i => shwi (j + i) ++ '|' :: surfaceText shw (rings.getD i [])) ++ [[]] := by
    intro os
    induction os with
    | nil => intro _; exact ⟨[], .nil, 0, fun _ _ j => ⟨[], rfl, rfl⟩⟩
    | cons o os ih =>
      intro ho
      obtain ⟨rs, h1, K1, h2⟩ := ih (fun o' h => ho o' (by simp [h]))
      obtain ⟨r, h3, -, K2, h4⟩ := C86_text shw (ho o (by simp)).1 (ho o (by simp)).2
      refine ⟨r :: rs, .cons h3 h1, max K1 K2, fun fuel hfu j => ?_⟩
      obtain ⟨t, e1, e2⟩ := h2 fuel (le_trans (le_max_left _ _) hfu) (j + 1)
      refine ⟨shwi j ++ "|".toList ++ surfaceText shw r ++ "\n".toList ++ t, ?_, ?_⟩
      · simp only [towktFrom, (h4 fuel (le_trans (le_max_right _ _) hfu)).1, e1, Option.bind_eq_bind, Option.bind_some, Option.pure_def]
      · have e3 : shwi j ++ "|".toList ++ surfaceText shw r ++ "\n".toList ++ t = (shwi j ++ '|' :: surfaceText shw r) ++ '\n' :: t := by
          simp [List.append_assoc]
        rw [e3, lines_append, e2, List.length_cons, List.range_succ_eq_map, List.map_cons, List.map_map]
        · simp only [List.cons_append, Nat.add_zero, List.getD_cons_zero, List.cons.injEq, true_and]
          congr 1
          apply List.map_congr_left
          intro i _
          simp only [Function.comp, List.getD_cons_succ]
          rw [show j + 1 + i = j + (i + 1) by omega]
        · intro h
          rw [List.mem_append, List.mem_cons] at h
          rcases h with h | h | h
          · exact hi j h
          · revert h; decide
          · exact surface_no_newline hs r h
  obtain ⟨rings, h1, K, h2⟩ := key os ho
  refine ⟨rings, h1, K, fun fuel hfu => ?_⟩
  obtain ⟨t, e1, e2⟩ := h2 fuel hfu 0
  exact ⟨t, e1, by simpa using e2⟩

/-- A printing of some numbers. -/
def exShw (x : ℚ) : List Char := if x = 0 then ['0'] else if x = 1 then ['1'] else "0.5".toList

theorem exClean : Clean exShw := by
  intro x
  unfold exShw
  split
  · decide
  · split <;> decide

/-- Non-vacuity: the text of the pyramid, whose base has four corners. -/
example : (toWkt exShw ExPyr.mesh ExPyr.facets 5).map (fun t => String.ofList t) = some ("POLYHEDRALSURFACE Z (" ++
    "((1 0 0,1 1 0,0 1 0,0 0 0,1 0 0))," ++ "((0 0 0,0.5 0.5 1,1 0 0,0 0 0))," ++ "((1 0 0,0.5 0.5 1,1 1 0,1 0 0))," ++
    "((1 1 0,0.5 0.5 1,0 1 0,1 1 0))," ++ "((0 1 0,0.5 0.5 1,0 0 0,0 1 0)))") := by decide +kernel

example : ∃ rings, List.Forall₂ (Corners ExPyr.mesh) ExPyr.facets rings ∧
    ∃ K, ∀ fuel ≥ K, ∃ t, toWkt exShw ExPyr.mesh ExPyr.facets fuel = some t ∧
      readWkt t = some (rings.map (fun cs => (closed cs).map (fun p => [exShw (p 0), exShw (p 1), exShw (p 2)]))) :=
  C86_read exClean ExPyr.ok.1 ExPyr.facetEnum

/-- A polyhedron without facets. -/
example (m : Mesh (Pt ℚ)) : (toWkt exShw m [] 1).map (fun t => String.ofList t) = some "POLYHEDRALSURFACE Z ()" := rfl

end TDP.Wkt
