import Verif.Tools.Cube
import Verif.Tools.H5
import Verif.Voxels.Props
import Mathlib.Tactic.Order
/-!
# C119: the boxes of an object (src/test/get_boxes.cpp:18-37)

The polyhedra handed to `write_polyhedron` with the names of their files; the text of a file is C86 and C116. The mesh itself goes to
`/gisdata/vessel.off` first (get_boxes.cpp:24). Coordinates only get compared, so they are any linear order with two infinities.
-/
namespace TDP.GetBoxes
open TDP.Boxes TDP.Voxels TDP.Cube TDP.Codec TDP.Names

variable {α δ : Type} [LinearOrder α] [BoundedOrder α] [LinearOrder δ] [OrderTop δ]

/-- The loop (get_boxes.cpp:29-32) from the round `i` on, with the box `b` so far; `none` if a name leaves its buffer. -/
def loop : List (Gen α) → Nat → Box α → Option (List (List Char × Mesh (Pt α)) × Box α)
  | [], _, b => some ([], b)
  | v :: vs, i, b => do
    let b := b.addBox v.box
    let name ← boxName "/gisdata/boxes".toList (i : Int)
    let (files, b) ← loop vs (i + 1) b
    some ((name, makeCube v.box) :: files, b)

/-- `main` (get_boxes.cpp:26-33) on the skeleton points and vertices of the mesh: the boxes, and the files with their polyhedra. -/
def tool (dist : Pt α → Pt α → δ) (junk : Pt α) (sampleRate : Nat) (skel verts : List (Pt α)) :
    Option (List (Gen α) × List (List Char × Mesh (Pt α))) := do
  let voxels ← generate dist junk sampleRate skel verts
  let (files, b) ← loop voxels 0 emptyBox
  some (voxels, files ++ [("/gisdata/aab.off".toList, makeCube b)])

/-! ### Specification -/

/-- A closed polyhedron whose facets are the six sides of the box, each once, seen from outside. -/
def IsCube (b : Box α) (m : Mesh (Pt α)) : Prop :=
  m.WF ∧ ∃ sides : List (Fin 3 × Bool), sides.Perm sixSides ∧ List.Forall₂ (fun ps s => IsSide b s.1 s.2 ps) (facetsOf m) sides

/-- The least box around some points. -/
def Around (verts : List (Pt α)) (b : Box α) : Prop :=
  (∀ p ∈ verts, b.Mem p) ∧ ∀ c : Box α, (∀ p ∈ verts, c.Mem p) → b.Le c

/-! ### Proofs -/

omit [BoundedOrder α] in
theorem addPt_le (b c : Box α) (p : Pt α) : (b.addPt p).Le c ↔ b.Le c ∧ c.Mem p := by
  unfold Box.Le Box.Mem Box.addPt
  rw [← forall_and]
  refine forall_congr' fun i => ?_
  dsimp only
  constructor
  · rintro ⟨h1, h2⟩
    split at h1 <;> split at h2 <;> refine ⟨⟨?_, ?_⟩, ?_, ?_⟩ <;> order
  · rintro ⟨⟨h1, h2⟩, h3, h4⟩
    constructor <;> split <;> assumption

omit [BoundedOrder α] in
theorem addBox_le (b d c : Box α) : (b.addBox d).Le c ↔ b.Le c ∧ d.Le c := by
  unfold Box.Le Box.addBox
  rw [← forall_and]
  refine forall_congr' fun i => ?_
  dsimp only
  constructor
  · rintro ⟨h1, h2⟩
    split at h1 <;> split at h2 <;> refine ⟨⟨?_, ?_⟩, ?_, ?_⟩ <;> order
  · rintro ⟨⟨h1, h2⟩, h3, h4⟩
    constructor <;> split <;> assumption

theorem empty_le (c : Box α) : (emptyBox : Box α).Le c := fun _ => ⟨le_top, bot_le⟩

theorem mem_addPt (b : Box α) (p q : Pt α) (h : b.Mem q) : (b.addPt p).Mem q := by
  have : b.Le (b.addPt p) := ((addPt_le b (b.addPt p) p).1 (fun _ => ⟨le_rfl, le_rfl⟩)).1
  exact fun i => ⟨(this i).1.trans (h i).1, (h i).2.trans (this i).2⟩

theorem addPt_mem (b : Box α) (p : Pt α) : (b.addPt p).Mem p :=
  ((addPt_le b (b.addPt p) p).1 (fun _ => ⟨le_rfl, le_rfl⟩)).2

theorem boundingBox_le (verts : List (Pt α)) (c : Box α) : (boundingBox verts).Le c ↔ ∀ p ∈ verts, c.Mem p := by
  have : ∀ (l : List (Pt α)) (b : Box α), (l.foldl (fun b p => b.addPt p) b).Le c ↔ b.Le c ∧ ∀ p ∈ l, c.Mem p := by
    intro l
    induction l with
    | nil => intro b; simp
    | cons p l ih =>
      intro b
      rw [List.foldl_cons, ih, addPt_le, List.forall_mem_cons, and_assoc]
  unfold boundingBox
  rw [this]
  exact ⟨fun h => h.2, fun h => ⟨empty_le c, h⟩⟩

/-- What is known after some vertices. -/
structure Inv (done : List (Pt α)) (vs : List (Gen α)) : Prop where
  le : ∀ c : Box α, (∀ v ∈ vs, v.box.Le c) ↔ ∀ p ∈ done, c.Mem p
  empty : ∀ v ∈ vs, v.size = 0 → v.box = emptyBox
  some : ∀ p ∈ done, ∃ v ∈ vs, v.size ≠ 0 ∧ v.box.Mem p

theorem inv_step (dist : Pt α → Pt α → δ) {done : List (Pt α)} {vs ws : List (Gen α)} {p : Pt α} (h : Inv done vs)
    (e : addVertex dist vs p = some ws) : Inv (done ++ [p]) ws := by
  unfold addVertex at e
  cases hn : nearest dist (vs.map (·.core)) p with
  | none => rw [hn] at e; cases e
  | some g =>
    rw [hn] at e
    dsimp only at e
    cases hg : vs[g]? with
    | none => rw [hg] at e; cases e
    | some v =>
      rw [hg] at e
      dsimp only at e
      injection e with e
      subst e
      obtain ⟨hlt, hv⟩ := List.getElem?_eq_some_iff.1 hg
      have hw : (⟨v.core, v.box.addPt p, v.size + 1⟩ : Gen α) ∈ vs.set g ⟨v.core, v.box.addPt p, v.size + 1⟩ :=
        List.mem_set (by simpa using hlt) _
      have keep : ∀ u ∈ vs, u = v ∨ u ∈ vs.set g ⟨v.core, v.box.addPt p, v.size + 1⟩ := by
        intro u hu
        obtain ⟨k, hk, rfl⟩ := List.getElem_of_mem hu
        by_cases hkg : k = g
        · left; subst hkg; exact hv
        · right
          refine List.mem_iff_getElem.2 ⟨k, by simpa using hk, ?_⟩
          rw [List.getElem_set_ne (fun x => hkg x.symm)]
      refine ⟨fun c => ?_, ?_, ?_⟩
      · have : (∀ p' ∈ done ++ [p], c.Mem p') ↔ (∀ p' ∈ done, c.Mem p') ∧ c.Mem p := by
          simp [or_imp, forall_and]
        rw [this, ← h.le c]
        constructor
        · intro a
          have b := (addPt_le _ _ _).1 (a _ hw)
          refine ⟨fun u hu => ?_, b.2⟩
          rcases keep u hu with rfl | k
          · exact b.1
          · exact a u k
        · rintro ⟨a, b⟩ u hu
          rcases List.mem_or_eq_of_mem_set hu with k | rfl
          · exact a u k
          · exact (addPt_le _ _ _).2 ⟨a v (List.mem_of_getElem? hg), b⟩
      · intro u hu h0
        rcases List.mem_or_eq_of_mem_set hu with k | rfl
        · exact h.empty u k h0
        · simp at h0
      · intro q hq
        rcases List.mem_append.1 hq with hq | hq
        · obtain ⟨u, hu, h0, hm⟩ := h.some q hq
          rcases keep u hu with rfl | k
          · exact ⟨_, hw, by simp, mem_addPt _ _ _ hm⟩
          · exact ⟨u, k, h0, hm⟩
        · rw [List.mem_singleton] at hq
          subst hq
          exact ⟨_, hw, by simp, addPt_mem _ _⟩

theorem inv_fold (dist : Pt α → Pt α → δ) : ∀ (l done : List (Pt α)) (vs ws : List (Gen α)), Inv done vs →
    l.foldlM (addVertex dist) vs = some ws → Inv (done ++ l) ws
  | [], done, vs, ws, h, e => by
    simp only [List.foldlM_nil] at e
    injection e with e
    subst e
    simpa using h
  | p :: l, done, vs, ws, h, e => by
    rw [List.foldlM_cons] at e
    cases hx : addVertex dist vs p with
    | none => rw [hx] at e; cases e
    | some us =>
      rw [hx] at e
      have := inv_fold dist l (done ++ [p]) us ws (inv_step dist h hx) e
      simpa using this

/-- The boxes of the voxels cover the vertices, tightly as a whole. -/
theorem generate_cover (dist : Pt α → Pt α → δ) (junk : Pt α) (n : Nat) (skel verts : List (Pt α)) {vs : List (Gen α)}
    (e : generate dist junk n skel verts = some vs) :
    (∀ c : Box α, (∀ v ∈ vs, v.box.Le c) ↔ ∀ p ∈ verts, c.Mem p) ∧ ∀ p ∈ verts, ∃ v ∈ vs, v.box.Mem p := by
  have single : ∀ k : Pt α, (∀ c : Box α, (∀ v ∈ [(⟨k, boundingBox verts, verts.length⟩ : Gen α)], v.box.Le c) ↔ ∀ p ∈ verts, c.Mem p) ∧
      ∀ p ∈ verts, ∃ v ∈ [(⟨k, boundingBox verts, verts.length⟩ : Gen α)], v.box.Mem p := by
    intro k
    refine ⟨fun c => ?_, fun p hp => ⟨_, List.mem_singleton.2 rfl, (boundingBox_le verts _).1 (fun _ => ⟨le_rfl, le_rfl⟩) p hp⟩⟩
    rw [List.forall_mem_singleton]
    exact boundingBox_le verts c
  unfold generate at e
  split at e
  · injection e with e; subst e; exact single junk
  · split at e
    · injection e with e; subst e; exact single junk
    · injection e with e; subst e; exact single _
    · rw [Option.map_eq_some_iff] at e
      obtain ⟨us, h1, rfl⟩ := e
      have i0 : Inv ([] : List (Pt α)) (skel.map (fun c => (⟨c, emptyBox, 0⟩ : Gen α))) := by
        refine ⟨fun c => ⟨fun _ p hp => (by cases hp), fun _ v hv => ?_⟩, fun v hv _ => ?_, fun p hp => (by cases hp)⟩
        · obtain ⟨_, _, rfl⟩ := List.mem_map.1 hv
          exact empty_le c
        · obtain ⟨_, _, rfl⟩ := List.mem_map.1 hv
          rfl
      have i := inv_fold dist verts [] _ us i0 h1
      rw [List.nil_append] at i
      refine ⟨fun c => ?_, fun p hp => ?_⟩
      · rw [← i.le c]
        constructor
        · intro a v hv
          by_cases h0 : v.size = 0
          · rw [i.empty v hv h0]; exact empty_le c
          · exact a v (List.mem_filter.2 ⟨hv, by simpa using h0⟩)
        · exact fun a v hv => a v (List.mem_filter.1 hv).1
      · obtain ⟨v, hv, h0, hm⟩ := i.some p hp
        exact ⟨v, List.mem_filter.2 ⟨hv, by simpa using h0⟩, hm⟩

/-- The name of box `j`. -/
theorem boxName_eq (j : Nat) (h : j < 2 ^ 31) :
    boxName "/gisdata/boxes".toList (j : Int) = some ("/gisdata/boxes.".toList ++ (dec j ++ ".off".toList)) := by
  obtain ⟨t, ht⟩ := Option.isSome_iff_exists.1 ((C111_numbered_files "/gisdata/boxes".toList).2.2.1 (j : Int) (by omega) (by decide))
  rw [ht]
  have := (sprintf_iff.1 ht).1
  rw [this]
  unfold text
  simp only [List.flatMap_cons, List.flatMap_nil, Piece.text, List.append_nil]
  rw [H5.decInt_nat (by omega)]; rfl

theorem loop_spec : ∀ (vs : List (Gen α)) (i : Nat) (b : Box α), i + vs.length ≤ 2 ^ 31 →
    ∃ files b', loop vs i b = some (files, b') ∧ files.length = vs.length ∧
      (∀ j v, vs[j]? = some v → files[j]? = some ("/gisdata/boxes.".toList ++ (dec (i + j) ++ ".off".toList), makeCube v.box)) ∧
      ∀ c, b'.Le c ↔ b.Le c ∧ ∀ v ∈ vs, v.box.Le c
  | [], i, b, _ => ⟨[], b, rfl, rfl, fun j v h => by simp at h, fun c => by simp⟩
  | v :: vs, i, b, h => by
    rw [List.length_cons] at h
    obtain ⟨files, b', h1, h2, h3, h4⟩ := loop_spec vs (i + 1) (b.addBox v.box) (by omega)
    refine ⟨("/gisdata/boxes.".toList ++ (dec i ++ ".off".toList), makeCube v.box) :: files, b', ?_, by simp [h2], ?_, ?_⟩
    · unfold loop
      simp only [boxName_eq i (by omega), h1, Option.bind_eq_bind, Option.bind_some]
    · intro j w hj
      cases j with
      | zero =>
        simp only [List.getElem?_cons_zero] at hj ⊢
        injection hj with hj
        subst hj
        rfl
      | succ j =>
        simp only [List.getElem?_cons_succ] at hj ⊢
        rw [h3 j w hj, show i + 1 + j = i + (j + 1) by omega]
    · intro c
      rw [h4, addBox_le, List.forall_mem_cons, and_assoc]

omit [LinearOrder α] [BoundedOrder α] in
theorem isCube (b : Box α) : IsCube b (makeCube b) := ⟨(C90_closed b).1, C90_sides b⟩

/-- **C119.** One file per voxel, each a closed polyhedron with the six sides of its box; every vertex lies in one of the boxes; the last
file is the least box around all vertices; all names, with that of the mesh, are different. -/
theorem C119_boxes (dist : Pt α → Pt α → δ) (junk : Pt α) (sampleRate : Nat) (skel verts : List (Pt α))
    (hfin : ∀ c ∈ skel, ∀ p ∈ verts, dist c p < ⊤) (hskel : skel.length < 2 ^ 31) :
    ∃ voxels files, tool dist junk sampleRate skel verts = some (voxels, files) ∧ generate dist junk sampleRate skel verts = some voxels ∧
      files.length = voxels.length + 1 ∧ ("/gisdata/vessel.off".toList :: files.map Prod.fst).Nodup ∧
      (∀ j v, voxels[j]? = some v → ∃ m, files[j]? = some ("/gisdata/boxes.".toList ++ (dec j ++ ".off".toList), m) ∧ IsCube v.box m) ∧
      (∀ p ∈ verts, ∃ v ∈ voxels, v.box.Mem p) ∧
      ∃ b m, files[voxels.length]? = some ("/gisdata/aab.off".toList, m) ∧ IsCube b m ∧ Around verts b := by
  obtain ⟨vs, hv, -⟩ := C32_first_point_inside_partial dist dist (fun _ _ => rfl) junk sampleRate skel verts hfin
  have hlen : vs.length < 2 ^ 31 := by
    have step : ∀ (l : List (Pt α)) (us ws : List (Gen α)), l.foldlM (addVertex dist) us = some ws → ws.length = us.length := by
      intro l
      induction l with
      | nil => intro us ws e; simp only [List.foldlM_nil] at e; injection e with e; rw [e]
      | cons p l ih =>
        intro us ws e
        rw [List.foldlM_cons] at e
        cases hx : addVertex dist us p with
        | none => rw [hx] at e; cases e
        | some xs =>
          rw [hx] at e
          rw [ih xs ws e]
          unfold addVertex at hx
          split at hx
          · cases hx
          · split at hx
            · cases hx
            · injection hx with hx; rw [← hx, List.length_set]
    have e := hv
    unfold generate at e
    split at e
    · injection e with e; subst e; simp
    · split at e
      · injection e with e; subst e; simp
      · injection e with e; subst e; simp
      · rw [Option.map_eq_some_iff] at e
        obtain ⟨us, h1, rfl⟩ := e
        have := step _ _ _ h1
        rw [List.length_map] at this
        exact lt_of_le_of_lt (List.length_filter_le _ _) (by omega)
  obtain ⟨hc1, hc2⟩ := generate_cover dist junk sampleRate skel verts hv
  obtain ⟨files, b, h1, h2, h3, h4⟩ := loop_spec vs 0 emptyBox (by omega)
  have hb : ∀ c, b.Le c ↔ ∀ p ∈ verts, c.Mem p := by
    intro c
    rw [h4, ← hc1 c]
    exact ⟨fun h => h.2, fun h => ⟨empty_le c, h⟩⟩
  have hnames : files.map Prod.fst = (List.range vs.length).map (fun j => "/gisdata/boxes.".toList ++ (dec j ++ ".off".toList)) := by
    apply List.ext_getElem?
    intro j
    rw [List.getElem?_map, List.getElem?_map]
    by_cases hj : j < vs.length
    · rw [h3 j vs[j] (List.getElem?_eq_getElem hj), List.getElem?_range hj, Nat.zero_add]
      rfl
    · rw [List.getElem?_eq_none (by omega), List.getElem?_eq_none (by simpa using hj)]
      rfl
  refine ⟨vs, files ++ [("/gisdata/aab.off".toList, makeCube b)], ?_, hv, by simp [h2], ?_, ?_, hc2, b, makeCube b, ?_, isCube b, ?_, ?_⟩
  · unfold tool
    simp only [hv, h1, Option.bind_eq_bind, Option.bind_some]
  · rw [List.map_append, hnames]
    have cut : ∀ (x y : List Char) (k : Nat), x = y → x[k]? = y[k]? := fun x y k h => by rw [h]
    have nb : ∀ (s : List Char) (k : Nat), s[10]? ≠ some 'o' → s ≠ "/gisdata/boxes.".toList ++ (dec k ++ ".off".toList) := by
      intro s k h e
      exact h (by rw [e]; rfl)
    rw [List.nodup_cons, List.nodup_append]
    refine ⟨?_, ?_, by simp, ?_⟩
    · rw [List.mem_append, not_or]
      constructor
      · intro h
        obtain ⟨k, _, e⟩ := List.mem_map.1 h
        exact nb _ k (by decide) e.symm
      · simp
    · refine List.Nodup.map_on ?_ List.nodup_range
      intro x _ y _ h
      exact dec_inj (List.append_cancel_right (List.append_cancel_left h))
    · intro x hx y hy
      obtain ⟨k, _, rfl⟩ := List.mem_map.1 hx
      simp only [List.map_cons, List.map_nil, List.mem_singleton] at hy
      subst hy
      exact fun e => nb _ k (by decide) e.symm
  · intro j v hj
    have hlt := (List.getElem?_eq_some_iff.1 hj).1
    refine ⟨makeCube v.box, ?_, isCube v.box⟩
    rw [List.getElem?_append_left (by omega), h3 j v hj, Nat.zero_add]
  · rw [List.getElem?_append_right (by omega), h2, Nat.sub_self]; rfl
  · exact (hb b).1 (fun _ => ⟨le_rfl, le_rfl⟩)
  · exact fun c h => (hb c).2 h

/-- The case below meets the conditions. -/
example : ∃ r, tool dist1 (diag 0) 2 [diag 10, diag 30] [diag 8, diag 12, diag 28, diag 32] = some r := by
  obtain ⟨v, f, h, -⟩ := C119_boxes dist1 (diag 0) 2 [diag 10, diag 30] [diag 8, diag 12, diag 28, diag 32]
    (fun _ _ _ _ => WithTop.coe_lt_top _) (by decide)
  exact ⟨_, h⟩

/-- Two skeleton points, four vertices: two boxes and the box around them. -/
example : (tool dist1 (diag 0) 2 [diag 10, diag 30] [diag 8, diag 12, diag 28, diag 32]).map
    (fun r => (r.1.map (fun v => ((v.box.min 0).val, (v.box.max 0).val)), r.2.map (fun f => String.ofList f.1))) =
    some ([(8, 12), (28, 32)], ["/gisdata/boxes.0.off", "/gisdata/boxes.1.off", "/gisdata/aab.off"]) := by
  have n : ∀ j : Nat, j < 2 ^ 31 → boxName "/gisdata/boxes".toList (j : Int) = _ := boxName_eq
  have d0 : dec 0 = ['0'] := dec_small (by decide)
  have d1 : dec 1 = ['1'] := dec_small (by decide)
  have hg : (generate dist1 (diag 0) 2 [diag 10, diag 30] [diag 8, diag 12, diag 28, diag 32]).map
      (fun vs => vs.map (fun v => ((v.box.min 0).val, (v.box.max 0).val))) = some [(8, 12), (28, 32)] := by decide +kernel
  obtain ⟨vs, h1, h2⟩ := Option.map_eq_some_iff.1 hg
  have hl : vs.length = 2 := by
    have := congrArg List.length h2
    simpa using this
  match vs, hl with
  | [u, v], _ =>
    unfold tool
    simp only [h1, Option.bind_eq_bind, Option.bind_some, loop]
    rw [n 0 (by decide), n (0 + 1) (by decide)]
    simp only [Option.bind_some, Option.map_some, Nat.zero_add, d0, d1, List.map_cons, List.map_nil, List.cons_append, List.nil_append]
    simp only [List.map_cons, List.map_nil] at h2
    rw [h2]
    decide +kernel

end TDP.GetBoxes
