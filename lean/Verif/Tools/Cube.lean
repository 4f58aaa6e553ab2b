import Verif.Codec.Check
import Verif.Boxes.Model
import Mathlib.Tactic.FieldSimp
import Mathlib.Tactic.Ring
/-!
# The box as a polyhedron (src/spatial/spatial_common.cpp:12-42)

`make_cube` builds the box by Euler operators of CGAL's polyhedron. `split_facet` is the operator of `Codec/Model.lean`;
`make_tetrahedron` and `split_edge` are modelled here after CGAL's reference manual.
-/
namespace TDP.Cube
open TDP.Codec TDP.Traversal TDP.Boxes

variable {P Q : Type}

/-- A table as a function. -/
def tab (l : List Nat) (i : Nat) : Nat := l.getD i 0

/-- `make_tetrahedron(p1, p2, p3, p4)` on an empty polyhedron: returns the halfedge (number 0) pointing to `p1`; the next one points
to `p2`, the one after that to `p3`. -/
def makeTetrahedron (p1 p2 p3 p4 : P) : Mesh P where
  darts := Finset.range 12
  next := tab [1, 2, 0, 10, 6, 8, 7, 4, 9, 5, 11, 3]
  opp := tab [3, 4, 5, 0, 1, 2, 11, 8, 7, 10, 9, 6]
  face := tab [0, 0, 0, 3, 1, 2, 1, 1, 2, 2, 3, 3]
  vert := tab [0, 1, 2, 2, 0, 1, 3, 1, 3, 2, 3, 0]
  pos := fun v => if v = 0 then p1 else if v = 1 then p2 else if v = 2 then p3 else p4
  nd := 12
  nf := 4
  nv := 4

/-- `split_edge(h)`: a new vertex, a copy of the one `h` leaves; the returned halfedge (`m.nd`) points to the new vertex and is
followed by `h`; `h->opposite()` now points to the new vertex. -/
def splitEdge (m : Mesh P) (h : Nat) : Mesh P :=
  let o := m.opp h
  { darts := insert m.nd (insert (m.nd + 1) m.darts)
    next := fun d => if d = m.nd then h else if d = m.nd + 1 then m.next o else if d = o then m.nd + 1
      else if m.next d = h then m.nd else m.next d
    opp := fun d => if d = m.nd then m.nd + 1 else if d = m.nd + 1 then m.nd else m.opp d
    face := fun d => if d = m.nd then m.face h else if d = m.nd + 1 then m.face o else m.face d
    vert := fun d => if d = m.nd ∨ d = o then m.nv else if d = m.nd + 1 then m.vert o else m.vert d
    pos := fun v => if v = m.nv then m.pos (m.vert o) else m.pos v
    nd := m.nd + 2
    nf := m.nf
    nv := m.nv + 1 }

/-- `h->vertex()->point() = p`. -/
def setPoint (m : Mesh P) (h : Nat) (p : P) : Mesh P := { m with pos := fun v => if v = m.vert h then p else m.pos v }

/-- `make_cube` (spatial_common.cpp:18-42); `c x y z` is the corner with the maximal coordinate where the argument is `true`. -/
def makeCubeOf (c : Bool → Bool → Bool → P) : Mesh P :=
  -- 23-27
  let m := makeTetrahedron (c true false false) (c false false true) (c false false false) (c false true false)
  let h := 0
  let g := m.next (m.opp (m.next h))                                  -- 28
  let m := splitEdge m (m.next h)                                     -- 29
  let m := splitEdge m (m.next g)                                     -- 30
  let m := splitEdge m g                                              -- 31
  let m := setPoint m (m.next h) (c true false true)                  -- 32
  let m := setPoint m (m.next g) (c false true true)                  -- 33
  let m := setPoint m (m.opp g) (c true true false)                   -- 34
  let f := m.nd                                                       -- 35-36: the new diagonal
  let m := splitFacet m (m.next g) (m.next (m.next (m.next g)))
  let e := m.nd                                                       -- 37
  let m := splitEdge m f
  let m := setPoint m e (c true true true)                            -- 38
  splitFacet m e (m.next (m.next f))                                  -- 39

/-- The corner of a box. -/
def corner {α : Type} (b : Box α) (x y z : Bool) : Pt α :=
  pt3 (if x then b.max 0 else b.min 0) (if y then b.max 1 else b.min 1) (if z then b.max 2 else b.min 2)

/-- `make_cube(box)`. -/
def makeCube {α : Type} (b : Box α) : Mesh (Pt α) := makeCubeOf (corner b)

/-! ### Positions do not steer the construction -/

/-- Rename the positions. -/
def mapPos (f : P → Q) (m : Mesh P) : Mesh Q := ⟨m.darts, m.next, m.opp, m.face, m.vert, fun v => f (m.pos v), m.nd, m.nf, m.nv⟩

theorem mapPos_splitEdge (f : P → Q) (m : Mesh P) (h : Nat) : splitEdge (mapPos f m) h = mapPos f (splitEdge m h) := by
  unfold mapPos splitEdge
  simp only [Mesh.mk.injEq, true_and, and_true]
  funext v
  by_cases hv : v = m.nv <;> simp [hv]

theorem mapPos_setPoint (f : P → Q) (m : Mesh P) (h : Nat) (p : P) : setPoint (mapPos f m) h (f p) = mapPos f (setPoint m h p) := by
  unfold mapPos setPoint
  simp only [Mesh.mk.injEq, true_and, and_true]
  funext v
  by_cases hv : v = m.vert h <;> simp [hv]

theorem mapPos_tet (f : P → Q) (a b c d : P) : makeTetrahedron (f a) (f b) (f c) (f d) = mapPos f (makeTetrahedron a b c d) := by
  unfold mapPos makeTetrahedron
  simp only [Mesh.mk.injEq, true_and, and_true]
  funext v
  by_cases h0 : v = 0
  · simp [h0]
  · by_cases h1 : v = 1
    · simp [h1]
    · by_cases h2 : v = 2 <;> simp [h0, h1, h2]

theorem mapPos_splitFacet (f : P → Q) (m : Mesh P) (h g : Nat) : splitFacet (mapPos f m) h g = mapPos f (splitFacet m h g) := rfl

/-- The cube with its corners as positions. -/
def labelled : Mesh (Bool × Bool × Bool) := makeCubeOf (fun x y z => (x, y, z))

theorem makeCubeOf_eq (c : Bool → Bool → Bool → P) : makeCubeOf c = mapPos (fun t => c t.1 t.2.1 t.2.2) labelled := by
  unfold labelled makeCubeOf
  have : makeTetrahedron (c true false false) (c false false true) (c false false false) (c false true false) =
      mapPos (fun t : Bool × Bool × Bool => c t.1 t.2.1 t.2.2) (makeTetrahedron (true, false, false) (false, false, true) (false, false, false) (false, true, false)) :=
    mapPos_tet (fun t : Bool × Bool × Bool => c t.1 t.2.1 t.2.2) (true, false, false) (false, false, true) (false, false, false) (false, true, false)
  have e : ∀ m h x y z, setPoint (mapPos (fun t : Bool × Bool × Bool => c t.1 t.2.1 t.2.2) m) h (c x y z) =
      mapPos (fun t => c t.1 t.2.1 t.2.2) (setPoint m h (x, y, z)) := fun m h x y z => mapPos_setPoint (fun t => c t.1 t.2.1 t.2.2) m h (x, y, z)
  have n1 : ∀ m : Mesh (Bool × Bool × Bool), (mapPos (fun t : Bool × Bool × Bool => c t.1 t.2.1 t.2.2) m).next = m.next := fun _ => rfl
  have n2 : ∀ m : Mesh (Bool × Bool × Bool), (mapPos (fun t : Bool × Bool × Bool => c t.1 t.2.1 t.2.2) m).opp = m.opp := fun _ => rfl
  have n3 : ∀ m : Mesh (Bool × Bool × Bool), (mapPos (fun t : Bool × Bool × Bool => c t.1 t.2.1 t.2.2) m).nd = m.nd := fun _ => rfl
  simp only [this, e, n1, n2, n3, mapPos_splitEdge, mapPos_splitFacet]

set_option maxRecDepth 10000 in
theorem labelled_check : labelled.check 4 0 (List.range 24) = true := by decide +kernel


/-! ### Specification -/

/-- The positions of the corners of the facets of a polyhedron, each facet from one of its halfedges on. -/
def facetsOf (m : Mesh P) : List (List P) :=
  (List.range m.nf).map fun f => ((List.range m.nd).find? (fun d => decide (d ∈ m.darts ∧ m.face d = f))).elim [] fun d => (around m.h d).map fun e => m.pos (m.vert e)

/-- The corners of the side of a box in direction `k`, at the maximum if `s`, counterclockwise seen from outside. -/
def sideCorners {α : Type} (b : Box α) (k : Fin 3) (s : Bool) : List (Pt α) :=
  let p := fun (u v : Bool) => fun i : Fin 3 => if i = k then (if s then b.max i else b.min i)
    else if i = k + 1 then (if u then b.max i else b.min i) else (if v then b.max i else b.min i)
  if s then [p false false, p true false, p true true, p false true] else [p false false, p false true, p true true, p true false]

/-- A facet is this side of the box, from any of its corners on. -/
def IsSide {α : Type} (b : Box α) (k : Fin 3) (s : Bool) (ps : List (Pt α)) : Prop := ∃ r, ps = (sideCorners b k s).rotate r

/-- All six sides. -/
def sixSides : List (Fin 3 × Bool) := [(0, false), (0, true), (1, false), (1, true), (2, false), (2, true)]

/-- Convex combinations of points. -/
def InHull (ps : List (Pt ℚ)) (q : Pt ℚ) : Prop :=
  ∃ ws : List ℚ, ws.length = ps.length ∧ (∀ w ∈ ws, 0 ≤ w) ∧ ws.sum = 1 ∧ ∀ i, q i = (List.zipWith (fun w p => w * p i) ws ps).sum

/-- Six times the volume of the tetrahedron from the origin. -/
def det3 (a b c : Pt ℚ) : ℚ :=
  a 0 * (b 1 * c 2 - b 2 * c 1) - a 1 * (b 0 * c 2 - b 2 * c 0) + a 2 * (b 0 * c 1 - b 1 * c 0)

/-- Six times the part of a facet in the enclosed volume: its fan of triangles from the first corner. -/
def fan (ps : List (Pt ℚ)) : ℚ := ((List.range (ps.length - 2)).map fun i => det3 (ps.getD 0 0) (ps.getD (i + 1) 0) (ps.getD (i + 2) 0)).sum

/-! ### Theorems -/

theorem facetsOf_mapPos (f : P → Q) (m : Mesh P) : facetsOf (mapPos f m) = (facetsOf m).map (fun l => l.map f) := by
  unfold facetsOf
  rw [List.map_map]
  refine List.map_congr_left fun k _ => ?_
  simp only [Function.comp]
  show Option.elim ((List.range m.nd).find? (fun d => decide (d ∈ m.darts ∧ m.face d = k))) [] _ = _
  cases (List.range m.nd).find? (fun d => decide (d ∈ m.darts ∧ m.face d = k)) with
  | none => rfl
  | some d =>
    simp only [Option.elim_some, List.map_map]
    rfl

theorem labelled_facets : facetsOf labelled =
    [[(true, false, false), (true, false, true), (false, false, true), (false, false, false)],
     [(false, true, false), (false, true, true), (true, true, true), (true, true, false)],
     [(false, false, true), (false, true, true), (false, true, false), (false, false, false)],
     [(false, false, false), (false, true, false), (true, true, false), (true, false, false)],
     [(true, false, true), (true, true, true), (false, true, true), (false, false, true)],
     [(true, false, false), (true, true, false), (true, true, true), (true, false, true)]] := by decide +kernel

/-- C90: for every box, the polyhedron is closed, connected and consistently connected, with 24 halfedges and 6 facets. -/
theorem C90_closed {α : Type} (b : Box α) :
    (makeCube b).WF ∧ (makeCube b).Sep ∧ (makeCube b).darts.card = 24 ∧ ((makeCube b).darts.image (makeCube b).face).card = 6 ∧
      ∀ d ∈ (makeCube b).darts, Reach (makeCube b).h 0 d := by
  have hc : (makeCube b).check 4 0 (List.range 24) = true := by
    unfold makeCube; rw [makeCubeOf_eq]; exact labelled_check
  obtain ⟨h1, h2, _⟩ := Mesh.check_wf hc
  refine ⟨h1, h2, ?_, ?_, ?_⟩
  · unfold makeCube; rw [makeCubeOf_eq]
    show labelled.darts.card = 24
    decide +kernel
  · unfold makeCube; rw [makeCubeOf_eq]
    show (labelled.darts.image labelled.face).card = 6
    decide +kernel
  · have hr : ∀ d ∈ labelled.darts, Reach labelled.h 0 d := by
      have : labelled.Conn 0 := by refine Mesh.conn_of (n := 6) (ds := List.range 24) ?_ ?_ ?_ <;> decide +kernel
      exact this.2
    unfold makeCube; rw [makeCubeOf_eq]
    exact hr

/-- C90: the vertices are the eight corners of the box, each once. -/
theorem C90_corners {α : Type} (b : Box α) :
    (makeCube b).nv = 8 ∧ (makeCube b).darts.image (makeCube b).vert = Finset.range 8 ∧
      ((List.range 8).map (makeCube b).pos).Perm
        [corner b false false false, corner b false false true, corner b false true false, corner b false true true,
         corner b true false false, corner b true false true, corner b true true false, corner b true true true] := by
  unfold makeCube; rw [makeCubeOf_eq]
  refine ⟨?_, ?_, ?_⟩
  · show labelled.nv = 8
    decide +kernel
  · show labelled.darts.image labelled.vert = Finset.range 8
    decide +kernel
  · have : ((List.range 8).map labelled.pos).Perm [(false, false, false), (false, false, true), (false, true, false), (false, true, true),
        (true, false, false), (true, false, true), (true, true, false), (true, true, true)] := by decide +kernel
    have := this.map (fun t : Bool × Bool × Bool => corner b t.1 t.2.1 t.2.2)
    rw [List.map_map] at this
    exact this

theorem facets_cube {α : Type} (b : Box α) : facetsOf (makeCube b) =
    [[corner b true false false, corner b true false true, corner b false false true, corner b false false false],
     [corner b false true false, corner b false true true, corner b true true true, corner b true true false],
     [corner b false false true, corner b false true true, corner b false true false, corner b false false false],
     [corner b false false false, corner b false true false, corner b true true false, corner b true false false],
     [corner b true false true, corner b true true true, corner b false true true, corner b false false true],
     [corner b true false false, corner b true true false, corner b true true true, corner b true false true]] := by
  unfold makeCube
  rw [makeCubeOf_eq, facetsOf_mapPos, labelled_facets]
  rfl

theorem corner_fun {α : Type} (b : Box α) (x y z : Bool) :
    corner b x y z = fun i : Fin 3 => if (if i = 0 then x else if i = 1 then y else z) then b.max i else b.min i := by
  funext i
  fin_cases i <;> rfl

/-- C90: the six facets are the six sides of the box, each once, and their corners are in counterclockwise order seen from outside. -/
theorem C90_sides {α : Type} (b : Box α) :
    ∃ sides : List (Fin 3 × Bool), sides.Perm sixSides ∧ List.Forall₂ (fun ps s => IsSide b s.1 s.2 ps) (facetsOf (makeCube b)) sides := by
  refine ⟨[(1, false), (1, true), (0, false), (2, false), (2, true), (0, true)], by decide, ?_⟩
  rw [facets_cube]
  have key : ∀ (k : Fin 3) (s u v : Bool) (x y z : Bool),
      (∀ i : Fin 3, (if i = 0 then x else if i = 1 then y else z) = if i = k then s else if i = k + 1 then u else v) →
      corner b x y z = fun i : Fin 3 => if i = k then (if s then b.max i else b.min i)
        else if i = k + 1 then (if u then b.max i else b.min i) else (if v then b.max i else b.min i) := by
    intro k s u v x y z h
    rw [corner_fun b]
    funext i
    rw [h i]
    by_cases h1 : i = k
    · simp only [if_pos h1]
    · by_cases h2 : i = k + 1
      · simp only [if_neg h1, if_pos h2]
      · simp only [if_neg h1, if_neg h2]
  refine .cons ⟨1, ?_⟩ (.cons ⟨0, ?_⟩ (.cons ⟨1, ?_⟩ (.cons ⟨0, ?_⟩ (.cons ⟨1, ?_⟩ (.cons ⟨0, ?_⟩ .nil)))))
  · rw [key 1 false false true true false false (by decide), key 1 false true true true false true (by decide), key 1 false true false false false true (by decide), key 1 false false false false false false (by decide)]; rfl
  · rw [key 1 true false false false true false (by decide), key 1 true true false false true true (by decide), key 1 true true true true true true (by decide), key 1 true false true true true false (by decide)]; rfl
  · rw [key 0 false false true false false true (by decide), key 0 false true true false true true (by decide), key 0 false true false false true false (by decide), key 0 false false false false false false (by decide)]; rfl
  · rw [key 2 false false false false false false (by decide), key 2 false false true false true false (by decide), key 2 false true true true true false (by decide), key 2 false true false true false false (by decide)]; rfl
  · rw [key 2 true true false true false true (by decide), key 2 true true true true true true (by decide), key 2 true false true false true true (by decide), key 2 true false false false false true (by decide)]; rfl
  · rw [key 0 true false false true false false (by decide), key 0 true true false true true false (by decide), key 0 true true true true true true (by decide), key 0 true false true true false true (by decide)]; rfl

theorem quad_hull (A B C D q : Pt ℚ) (k i j : Fin 3) (hall : ∀ x, x = k ∨ x = i ∨ x = j) (c l h l' h' : ℚ) (hl : l < h) (hl' : l' < h')
    (hk : A k = c ∧ B k = c ∧ C k = c ∧ D k = c) (hi : A i = l ∧ B i = h ∧ C i = h ∧ D i = l) (hj : A j = l' ∧ B j = l' ∧ C j = h' ∧ D j = h') :
    InHull [A, B, C, D] q ↔ q k = c ∧ (l ≤ q i ∧ q i ≤ h) ∧ (l' ≤ q j ∧ q j ≤ h') := by
  constructor
  · rintro ⟨ws, hlen, h0, h1, hq⟩
    obtain ⟨w0, w1, w2, w3, rfl⟩ : ∃ w0 w1 w2 w3, ws = [w0, w1, w2, w3] := by
      match ws, hlen with
      | [a, b, c, d], _ => exact ⟨a, b, c, d, rfl⟩
    simp only [List.mem_cons, List.not_mem_nil, or_false, forall_eq_or_imp, forall_eq] at h0
    simp only [List.sum_cons, List.sum_nil, add_zero] at h1
    simp only [List.zipWith_cons_cons, List.zipWith_nil_left, List.sum_cons, List.sum_nil, add_zero] at hq
    obtain ⟨a0, a1, a2, a3⟩ := h0
    have hqk := hq k
    have hqi := hq i
    have hqj := hq j
    rw [hk.1, hk.2.1, hk.2.2.1, hk.2.2.2] at hqk
    rw [hi.1, hi.2.1, hi.2.2.1, hi.2.2.2] at hqi
    rw [hj.1, hj.2.1, hj.2.2.1, hj.2.2.2] at hqj
    have e3 : w3 = 1 - w0 - w1 - w2 := by linarith
    subst e3
    refine ⟨by rw [hqk]; ring, ⟨?_, ?_⟩, ?_, ?_⟩
    · have : q i - l = (w1 + w2) * (h - l) := by rw [hqi]; ring
      nlinarith [mul_nonneg (add_nonneg a1 a2) (sub_nonneg.mpr hl.le)]
    · have : h - q i = (1 - w1 - w2) * (h - l) := by rw [hqi]; ring
      nlinarith [mul_nonneg (show 0 ≤ 1 - w1 - w2 by linarith) (sub_nonneg.mpr hl.le)]
    · have : q j - l' = (1 - w0 - w1) * (h' - l') := by rw [hqj]; ring
      nlinarith [mul_nonneg (show 0 ≤ 1 - w0 - w1 by linarith) (sub_nonneg.mpr hl'.le)]
    · have : h' - q j = (w0 + w1) * (h' - l') := by rw [hqj]; ring
      nlinarith [mul_nonneg (add_nonneg a0 a1) (sub_nonneg.mpr hl'.le)]
  · rintro ⟨e1, ⟨e2, e3⟩, e4, e5⟩
    have d1 : 0 < h - l := sub_pos.mpr hl
    have d2 : 0 < h' - l' := sub_pos.mpr hl'
    obtain ⟨u, hu⟩ : ∃ u, u = (q i - l) / (h - l) := ⟨_, rfl⟩
    obtain ⟨v, hv⟩ : ∃ v, v = (q j - l') / (h' - l') := ⟨_, rfl⟩
    have hqi : q i = l + u * (h - l) := by rw [hu, div_mul_cancel₀ _ d1.ne']; ring
    have hqj : q j = l' + v * (h' - l') := by rw [hv, div_mul_cancel₀ _ d2.ne']; ring
    have u0 : 0 ≤ u := by rw [hu]; exact div_nonneg (by linarith) d1.le
    have v0 : 0 ≤ v := by rw [hv]; exact div_nonneg (by linarith) d2.le
    have u1 : 0 ≤ 1 - u := by
      have : u ≤ 1 := by rw [hu, div_le_one d1]; linarith
      linarith
    have v1 : 0 ≤ 1 - v := by
      have : v ≤ 1 := by rw [hv, div_le_one d2]; linarith
      linarith
    refine ⟨[(1 - u) * (1 - v), u * (1 - v), u * v, (1 - u) * v], rfl, ?_, ?_, ?_⟩
    · simp only [List.mem_cons, List.not_mem_nil, or_false, forall_eq_or_imp, forall_eq]
      exact ⟨mul_nonneg u1 v1, mul_nonneg u0 v1, mul_nonneg u0 v0, mul_nonneg u1 v0⟩
    · simp only [List.sum_cons, List.sum_nil]; ring
    · intro x
      simp only [List.zipWith_cons_cons, List.zipWith_nil_left, List.sum_cons, List.sum_nil, add_zero]
      rcases hall x with rfl | rfl | rfl
      · rw [hk.1, hk.2.1, hk.2.2.1, hk.2.2.2, e1]; ring
      · rw [hi.1, hi.2.1, hi.2.2.1, hi.2.2.2, hqi]; ring
      · rw [hj.1, hj.2.1, hj.2.2.1, hj.2.2.2, hqj]; ring

theorem inHull_rotate (ps : List (Pt ℚ)) (r : Nat) (q : Pt ℚ) (h : InHull ps q) : InHull (ps.rotate r) q := by
  obtain ⟨ws, hl, h0, h1, hq⟩ := h
  refine ⟨ws.rotate r, by simp [hl], fun w hw => h0 w (List.mem_rotate.mp hw), ?_, fun i => ?_⟩
  · rw [(List.rotate_perm ws r).sum_eq]; exact h1
  · rw [← List.zipWith_rotate_distrib _ _ _ _ hl, (List.rotate_perm _ r).sum_eq]; exact hq i

theorem side_hull (b : Box ℚ) (hb : ∀ i, b.min i < b.max i) (k : Fin 3) (s : Bool) (q : Pt ℚ) :
    InHull (sideCorners b k s) q ↔ q k = (if s then b.max k else b.min k) ∧ ∀ i, i ≠ k → b.min i ≤ q i ∧ q i ≤ b.max i := by
  have n1 : k + 1 ≠ k := by revert k; decide
  have n2 : k + 2 ≠ k := by revert k; decide
  have n3 : k + 2 ≠ k + 1 := by revert k; decide
  have hall : ∀ x : Fin 3, x = k ∨ x = k + 1 ∨ x = k + 2 := by revert k; decide
  have hall' : ∀ x : Fin 3, x = k ∨ x = k + 2 ∨ x = k + 1 := fun x => by have := hall x; tauto
  have fin : (q k = (if s then b.max k else b.min k) ∧ ∀ i, i ≠ k → b.min i ≤ q i ∧ q i ≤ b.max i) ↔
      (q k = (if s then b.max k else b.min k) ∧ (b.min (k + 1) ≤ q (k + 1) ∧ q (k + 1) ≤ b.max (k + 1)) ∧
        (b.min (k + 2) ≤ q (k + 2) ∧ q (k + 2) ≤ b.max (k + 2))) := by
    constructor
    · rintro ⟨h1, h2⟩; exact ⟨h1, h2 _ n1, h2 _ n2⟩
    · rintro ⟨h1, h2, h3⟩
      refine ⟨h1, fun i hi => ?_⟩
      rcases hall i with rfl | rfl | rfl
      · exact absurd rfl hi
      · exact h2
      · exact h3
  rw [fin]
  cases s with
  | true =>
    simp only [sideCorners, if_true]
    exact quad_hull _ _ _ _ q k (k + 1) (k + 2) hall _ _ _ _ _ (hb _) (hb _) (by simp) (by simp [n1]) (by simp [n2, n3])
  | false =>
    simp only [sideCorners, Bool.false_eq_true, if_false]
    rw [quad_hull _ _ _ _ q k (k + 2) (k + 1) hall' (b.min k) _ _ _ _ (hb (k + 2)) (hb (k + 1)) (by simp) (by simp [n2, n3]) (by simp [n1])]
    tauto

/-- C90, as a set of points: over a box with `min < max` in every direction, a point is on one of the facets exactly if it is on the
surface of the box. -/
theorem C90_surface (b : Box ℚ) (hb : ∀ i, b.min i < b.max i) (q : Pt ℚ) :
    (∃ ps ∈ facetsOf (makeCube b), InHull ps q) ↔ (∀ i, b.min i ≤ q i ∧ q i ≤ b.max i) ∧ ∃ k, q k = b.min k ∨ q k = b.max k := by
  have side : ∀ ps k s, IsSide b k s ps → (InHull ps q ↔ InHull (sideCorners b k s) q) := by
    rintro ps k s ⟨r, rfl⟩
    refine ⟨fun h => ?_, inHull_rotate _ r q⟩
    have := inHull_rotate _ (4 - r % 4) q h
    rw [List.rotate_rotate, ← List.rotate_mod] at this
    have hlen : (sideCorners b k s).length = 4 := by cases s <;> rfl
    rw [hlen, show (r + (4 - r % 4)) % 4 = 0 by omega, List.rotate_zero] at this
    exact this
  obtain ⟨sides, hp, hf⟩ := C90_sides b
  constructor
  · rintro ⟨ps, hps, h⟩
    obtain ⟨⟨k, s⟩, _, hs⟩ : ∃ x ∈ sides, IsSide b x.1 x.2 ps := by
      clear hp
      generalize facetsOf (makeCube b) = fs at *
      induction hf with
      | nil => simp at hps
      | cons h1 _ ih =>
        rcases List.mem_cons.mp hps with rfl | hps
        · exact ⟨_, List.mem_cons_self, h1⟩
        · obtain ⟨x, hx, h2⟩ := ih hps
          exact ⟨x, List.mem_cons_of_mem _ hx, h2⟩
    rw [side ps k s hs, side_hull b hb] at h
    refine ⟨fun i => ?_, k, ?_⟩
    · by_cases hi : i = k
      · subst hi
        rw [h.1]
        cases s
        · exact ⟨le_refl _, (hb i).le⟩
        · exact ⟨(hb i).le, le_refl _⟩
      · exact h.2 i hi
    · cases s
      · exact .inl h.1
      · exact .inr h.1
  · rintro ⟨h1, k, h2⟩
    obtain ⟨s, hs⟩ : ∃ s : Bool, q k = if s then b.max k else b.min k := by
      rcases h2 with h2 | h2
      · exact ⟨false, h2⟩
      · exact ⟨true, h2⟩
    have hm : (k, s) ∈ sides := hp.mem_iff.mpr (by clear hs h2; revert k s; decide)
    obtain ⟨ps, hps, h3⟩ : ∃ ps ∈ facetsOf (makeCube b), IsSide b k s ps := by
      clear hp
      generalize facetsOf (makeCube b) = fs at *
      induction hf with
      | nil => simp at hm
      | cons h1 _ ih =>
        rcases List.mem_cons.mp hm with rfl | hm
        · exact ⟨_, List.mem_cons_self, h1⟩
        · obtain ⟨x, hx, h2⟩ := ih hm
          exact ⟨x, List.mem_cons_of_mem _ hx, h2⟩
    refine ⟨ps, hps, ?_⟩
    rw [side ps k s h3, side_hull b hb]
    exact ⟨hs, fun i _ => h1 i⟩

/-- C90: the facets, with their orientation, enclose the volume of the box (whatever its extents). -/
theorem C90_volume (b : Box ℚ) :
    ((facetsOf (makeCube b)).map fan).sum = 6 * ((b.max 0 - b.min 0) * (b.max 1 - b.min 1) * (b.max 2 - b.min 2)) := by
  rw [facets_cube]
  simp only [List.map_cons, List.map_nil, fan, List.length_cons, List.length_nil, List.sum_cons, List.sum_nil]
  simp only [List.range_succ, List.range_zero, List.nil_append, List.map_append, List.map_cons, List.map_nil, List.sum_append, List.sum_cons, List.sum_nil,
    List.getD_cons_zero, List.getD_cons_succ, det3, corner, pt3, if_true, if_false, Bool.false_eq_true]
  ring

end TDP.Cube
