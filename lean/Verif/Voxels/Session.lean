import Verif.Voxels.Props
/-!
# C107: what the voxels of an object hold, whatever was asked of it before

The mesh of an object at level `p` (percent) gives the elements `elems κ p` of kind `κ`; that the mesh only depends on the largest level asked for so far
is C13 and C57. `size[lod]` of a level without data is 0 (a `map` makes such an entry when it is read; entries of `size` alone are never asked for).
-/
namespace TDP.Voxels.Session
open TDP.Boxes

variable {α δ E : Type} [LinearOrder δ] [OrderTop δ]

/-- `enum data_type` (himesh.h:73-76). -/
inductive Kind
  | segments
  | triangles
deriving DecidableEq

/-- `HiMesh_Wrapper` (himesh.h:142-187): `pct` is `i_decompPercentage` of its mesh, `none` before the mesh was retrieved. -/
structure Obj (α E : Type) where
  pct : Option Nat
  voxels : List (Voxel α E)

/-- `Tile::decode_to` (tile.cpp:198-207): `retrieve_mesh` makes the mesh at 0 per cent (himesh.cpp:428-430, tile.cpp:180-185); `advance_to`
(himesh.cpp:329-336) does nothing if the mesh is at the level or beyond. -/
def decode (lod : Nat) (o : Obj α E) : Obj α E :=
  { o with pct := some (if o.pct.getD 0 ≥ lod then o.pct.getD 0 else lod) }

/-- `HiMesh_Wrapper::fill_voxels` (himesh.cpp:540-547): nothing without a mesh; the level is that of the mesh (himesh.cpp:348). -/
def fill (dist : Pt α → Pt α → δ) (first : E → Pt α) (elems : Kind → Nat → List E) (κ : Kind) (o : Obj α E) : Option (Obj α E) :=
  match o.pct with
  | none => some o
  | some p => (fillVoxel dist first p (elems κ p) o.voxels).map (fun vs => { o with voxels := vs })

/-- `HiMesh_Wrapper::reset` and `Voxel::reset` (himesh.h:61-70, 181-187). -/
def reset (o : Obj α E) : Obj α E :=
  { o with voxels := o.voxels.map (fun v => { v with data := fun _ => none, size := fun _ => none }) }

/-- What a user may ask of an object. -/
inductive Op
  | decode (lod : Nat)
  | fill (κ : Kind)
  | reset

/-- One request. -/
def step (dist : Pt α → Pt α → δ) (first : E → Pt α) (elems : Kind → Nat → List E) (o : Obj α E) : Op → Option (Obj α E)
  | .decode lod => some (decode lod o)
  | .fill κ => fill dist first elems κ o
  | .reset => some (reset o)

/-- A history of requests, oldest first. -/
def run (dist : Pt α → Pt α → δ) (first : E → Pt α) (elems : Kind → Nat → List E) (ops : List Op) (o : Obj α E) : Option (Obj α E) :=
  ops.foldlM (step dist first elems) o

/-! ## Specification -/

/-- The level after a history (newest request first): the largest level asked for. -/
def level : List Op → Option Nat
  | [] => none
  | .decode k :: h => some (max k ((level h).getD 0))
  | _ :: h => level h

/-- The kind of the first filling at level `k` since the last reset (newest request first). -/
def kindAt : List Op → Nat → Option Kind
  | [], _ => none
  | .reset :: _, _ => none
  | .decode _ :: h, k => kindAt h k
  | .fill κ :: h, k => if kindAt h k = none then (if level h = some k then some κ else none) else kindAt h k

/-- The share of voxel `j`: the elements whose first point is nearest to its core (the first core at ties), in order. -/
noncomputable def share (dist : Pt α → Pt α → δ) (first : E → Pt α) (cores : List (Pt α)) (elems : List E) (j : Nat) : List E := by
  classical exact elems.filter (fun e => decide (FirstNearest dist cores (first e) j))

theorem fill_share (dist : Pt α → Pt α → δ) (first : E → Pt α) (lod : Nat) (elems : List E)
    (vs : List (Voxel α E)) (hne : vs ≠ []) (hempty : ∀ v ∈ vs, v.data lod = none)
    (hfin : ∀ v ∈ vs, ∀ e ∈ elems, dist v.core (first e) < ⊤) :
    ∃ ws, fillVoxel dist first lod elems vs = some ws ∧ ws.length = vs.length ∧
      ∀ j (h : j < vs.length) (h' : j < ws.length),
        ws[j].data lod = some (share dist first (vs.map (·.core)) elems j) ∧
        ws[j].size lod = some (share dist first (vs.map (·.core)) elems j).length ∧
        ws[j].core = vs[j].core ∧ ws[j].box = vs[j].box ∧
        ∀ k, k ≠ lod → ws[j].data k = vs[j].data k ∧ ws[j].size k = vs[j].size k := by
  classical
  obtain ⟨ws, h1, h2, h3⟩ := C31_fill dist first lod elems vs hne hempty hfin
  refine ⟨ws, h1, h2, fun j h h' => ?_⟩
  have := h3 j h h'
  unfold share
  convert this

/-- **C107 (any history of one object).** The voxels of an object that was just loaded. For every history of requests: nothing goes wrong, the level is the
largest one asked for, and every voxel holds at every level its share of the elements of that level, of the kind asked for by the first filling at this level
since the last reset; nothing at the levels never filled since then. -/
theorem C107_session (dist : Pt α → Pt α → δ) (first : E → Pt α) (elems : Kind → Nat → List E) (vs : List (Voxel α E)) (hne : vs ≠ [])
    (hfresh : ∀ v ∈ vs, ∀ k, v.data k = none ∧ v.size k = none)
    (hfin : ∀ v ∈ vs, ∀ κ p, ∀ e ∈ elems κ p, dist v.core (first e) < ⊤) (ops : List Op) :
    ∃ o, run dist first elems ops ⟨none, vs⟩ = some o ∧ o.pct = level ops.reverse ∧ o.voxels.length = vs.length ∧
      ∀ j (h : j < vs.length) (h' : j < o.voxels.length), o.voxels[j].core = vs[j].core ∧ o.voxels[j].box = vs[j].box ∧
        ∀ k, o.voxels[j].data k = (kindAt ops.reverse k).map (fun κ => share dist first (vs.map (·.core)) (elems κ k) j) ∧
          o.voxels[j].size k = (kindAt ops.reverse k).map (fun κ => (share dist first (vs.map (·.core)) (elems κ k) j).length) := by
  induction ops using List.reverseRecOn with
  | nil =>
    refine ⟨⟨none, vs⟩, rfl, rfl, rfl, fun j h h' => ⟨rfl, rfl, fun k => ?_⟩⟩
    exact hfresh _ (List.getElem_mem h) k
  | append_singleton ops op ih =>
    obtain ⟨o, h1, h2, h3, h4⟩ := ih
    have hr : run dist first elems (ops ++ [op]) ⟨none, vs⟩ = step dist first elems o op := by
      unfold run at h1 ⊢
      rw [List.foldlM_append, h1]
      simp [List.foldlM_cons]
    rw [hr, List.reverse_append]
    cases op with
    | decode lod =>
      refine ⟨_, rfl, ?_, h3, h4⟩
      show some (if o.pct.getD 0 ≥ lod then o.pct.getD 0 else lod) = some (max lod ((level ops.reverse).getD 0))
      rw [← h2]
      by_cases hc : o.pct.getD 0 ≥ lod
      · rw [if_pos hc, max_eq_right hc]
      · rw [if_neg hc, max_eq_left (by omega)]
    | reset =>
      refine ⟨_, rfl, h2, ?_, ?_⟩
      · show (o.voxels.map _).length = _
        rw [List.length_map]; exact h3
      · intro j h h'
        have h'' : j < o.voxels.length := by rw [h3]; exact h
        obtain ⟨a, b, _⟩ := h4 j h h''
        have e : (reset o).voxels[j] = { o.voxels[j] with data := fun _ => none, size := fun _ => none } := List.getElem_map ..
        show ((reset o).voxels[j]'h').core = _ ∧ ((reset o).voxels[j]'h').box = _ ∧ ∀ k, ((reset o).voxels[j]'h').data k = _ ∧ ((reset o).voxels[j]'h').size k = _
        rw [e]
        exact ⟨a, b, fun k => ⟨rfl, rfl⟩⟩
    | fill κ =>
      have hcores : o.voxels.map (·.core) = vs.map (·.core) := by
        apply List.ext_getElem
        · simp [h3]
        · intro j x y
          rw [List.length_map] at x y
          rw [List.getElem_map, List.getElem_map]
          exact (h4 j y x).1
      show ∃ o', fill dist first elems κ o = some o' ∧ o'.pct = level ops.reverse ∧ o'.voxels.length = vs.length ∧ ∀ j (h : j < vs.length) (h' : j < o'.voxels.length), o'.voxels[j].core = vs[j].core ∧ o'.voxels[j].box = vs[j].box ∧ ∀ k, o'.voxels[j].data k = (if kindAt ops.reverse k = none then (if level ops.reverse = some k then some κ else none) else kindAt ops.reverse k).map (fun κ => share dist first (vs.map (·.core)) (elems κ k) j) ∧ o'.voxels[j].size k = (if kindAt ops.reverse k = none then (if level ops.reverse = some k then some κ else none) else kindAt ops.reverse k).map (fun κ => (share dist first (vs.map (·.core)) (elems κ k) j).length)
      have same : (∀ k, level ops.reverse = some k → kindAt ops.reverse k ≠ none) → ∀ k, (if kindAt ops.reverse k = none then (if level ops.reverse = some k then some κ else none) else kindAt ops.reverse k) = kindAt ops.reverse k := by
        intro hs k
        by_cases hk : kindAt ops.reverse k = none
        · rw [if_pos hk, if_neg (fun h => hs k h hk), hk]
        · rw [if_neg hk]
      unfold fill
      cases hp : o.pct with
      | none =>
        have hl : level ops.reverse = none := by rw [← h2, hp]
        refine ⟨o, rfl, h2, h3, fun j h h' => ⟨(h4 j h h').1, (h4 j h h').2.1, fun k => ?_⟩⟩
        rw [same (fun k hk => by rw [hl] at hk; cases hk)]
        exact (h4 j h h').2.2 k
      | some p =>
        have hl : level ops.reverse = some p := by rw [← h2, hp]
        have h0 : 0 < vs.length := List.length_pos_iff.2 hne
        have hone : o.voxels ≠ [] := by rw [← List.length_pos_iff, h3]; exact h0
        by_cases hk : kindAt ops.reverse p = none
        · have hempty : ∀ v ∈ o.voxels, v.data p = none := by
            intro v hv
            obtain ⟨j, hj, rfl⟩ := List.getElem_of_mem hv
            rw [((h4 j (h3 ▸ hj) hj).2.2 p).1, hk]; rfl
          have hf : ∀ v ∈ o.voxels, ∀ e ∈ elems κ p, dist v.core (first e) < ⊤ := by
            intro v hv e he
            obtain ⟨j, hj, rfl⟩ := List.getElem_of_mem hv
            rw [(h4 j (h3 ▸ hj) hj).1]
            exact hfin _ (List.getElem_mem _) κ p e he
          obtain ⟨ws, w1, w2, w3⟩ := fill_share dist first p (elems κ p) o.voxels hone hempty hf
          refine ⟨{ o with voxels := ws }, ?_, h2, w2.trans h3, ?_⟩
          · show (fillVoxel dist first p (elems κ p) o.voxels).map _ = _
            rw [w1, hp]; rfl
          · intro j h h'
            have hj : j < o.voxels.length := by rw [h3]; exact h
            obtain ⟨x1, x2, x3, x4, x5⟩ := w3 j hj h'
            obtain ⟨y1, y2, y3⟩ := h4 j h hj
            refine ⟨x3.trans y1, x4.trans y2, fun k => ?_⟩
            by_cases hkp : k = p
            · subst hkp
              rw [if_pos hk, if_pos hl, ← hcores]
              exact ⟨x1, x2⟩
            · have : (if kindAt ops.reverse k = none then (if level ops.reverse = some k then some κ else none) else kindAt ops.reverse k) = kindAt ops.reverse k := by
                by_cases hk' : kindAt ops.reverse k = none
                · rw [if_pos hk', if_neg (fun e => hkp (by rw [hl] at e; exact (Option.some.inj e).symm)), hk']
                · rw [if_neg hk']
              rw [this]
              exact ⟨(x5 k hkp).1.trans (y3 k).1, (x5 k hkp).2.trans (y3 k).2⟩
        · refine ⟨o, ?_, h2, h3, fun j h h' => ⟨(h4 j h h').1, (h4 j h h').2.1, fun k => ?_⟩⟩
          · show (fillVoxel dist first p (elems κ p) o.voxels).map _ = _
            have hd := ((h4 0 h0 (h3.symm ▸ h0)).2.2 p).1
            obtain ⟨v, tl, hv⟩ := List.exists_cons_of_ne_nil hone
            have : (v.data p).isSome := by
              simp only [hv, List.getElem_cons_zero] at hd
              rw [hd]
              cases hq : kindAt ops.reverse p with
              | none => exact absurd hq hk
              | some q => rfl
            rw [hv, C31_second_fill_ignored dist first p _ v tl this]
            show some _ = some _
            rw [← hv, ← hp]
          · rw [same (fun k' hk' => by rw [hl] at hk'; cases hk'; exact hk)]
            exact (h4 j h h').2.2 k

/-! ## The rounds of a join -/

/-- The wrappers by address; in a self join both sides are the same wrappers. -/
abbrev Heap (α E : Type) := Nat → Obj α E

/-- One round: its level, the voxels of its pairs in order (wrapper, number of the voxel), and whether anything was computed. -/
structure Rnd where
  lod : Nat
  reqs : List (Nat × Nat)
  computed : Bool

/-- "not filled yet" (SpatialJoin.cpp:449-458, 567-576, 701-709). -/
def ensure (dist : Pt α → Pt α → δ) (first : E → Pt α) (elems : Nat → Kind → Nat → List E) (κ : Kind) (lod : Nat) (st : Heap α E)
    (r : Nat × Nat) : Option (Heap α E) :=
  match (st r.1).voxels[r.2]? with
  | none => none
  | some v =>
    if (v.data lod).isSome then some st
    else (fill dist first (elems r.1) κ (decode lod (st r.1))).map (fun o b => if b = r.1 then o else st b)

/-- `it->first->data[lod]` when packing (SpatialJoin.cpp:383, 737): reading makes an entry with a null pointer. -/
def touch (lod : Nat) (st : Heap α E) (r : Nat × Nat) : Heap α E := fun b =>
  if b = r.1 then { st b with voxels := st b |>.voxels.modify r.2 (fun v => if (v.data lod).isSome then v
    else { v with data := fun k => if k = lod then some [] else v.data k }) }
  else st b

/-- The voxels of a round are filled. -/
def prepare (dist : Pt α → Pt α → δ) (first : E → Pt α) (elems : Nat → Kind → Nat → List E) (κ : Kind) (st : Heap α E) (r : Rnd) :
    Option (Heap α E) :=
  r.reqs.foldlM (ensure dist first elems κ r.lod) st

/-- A whole round. -/
def round (dist : Pt α → Pt α → δ) (first : E → Pt α) (elems : Nat → Kind → Nat → List E) (κ : Kind) (st : Heap α E) (r : Rnd) :
    Option (Heap α E) :=
  (prepare dist first elems κ st r).map (fun st => if r.computed then r.reqs.foldl (touch r.lod) st else st)

/-- Rounds, one after the other. -/
def rounds (dist : Pt α → Pt α → δ) (first : E → Pt α) (elems : Nat → Kind → Nat → List E) (κ : Kind) (rs : List Rnd) (st : Heap α E) :
    Option (Heap α E) :=
  rs.foldlM (round dist first elems κ) st

/-- What is given: objects just loaded, with at least one voxel, finite distances. -/
structure Loaded (dist : Pt α → Pt α → δ) (first : E → Pt α) (elems : Nat → Kind → Nat → List E) (st : Heap α E) : Prop where
  pct : ∀ a, (st a).pct = none
  some : ∀ a, (st a).voxels ≠ []
  fresh : ∀ a, ∀ v ∈ (st a).voxels, ∀ k, v.data k = none
  fin : ∀ a, ∀ v ∈ (st a).voxels, ∀ κ p, ∀ e ∈ elems a κ p, dist v.core (first e) < ⊤

/-- Invariant of rounds with levels that never go down, at most `L` so far. -/
structure Inv (dist : Pt α → Pt α → δ) (first : E → Pt α) (elems : Nat → Kind → Nat → List E) (κ : Kind) (st0 : Heap α E) (L : Nat)
    (st : Heap α E) : Prop where
  pct : ∀ a, (st a).pct.getD 0 ≤ L
  cores : ∀ a, (st a).voxels.map (·.core) = (st0 a).voxels.map (·.core)
  all : ∀ a k, (∀ v ∈ (st a).voxels, v.data k = none) ∨
    ∀ (j : Nat) v, (st a).voxels[j]? = some v → v.data k = some (share dist first ((st0 a).voxels.map (·.core)) (elems a κ k) j)

theorem Inv.len {dist : Pt α → Pt α → δ} {first : E → Pt α} {elems : Nat → Kind → Nat → List E} {κ : Kind} {st0 : Heap α E} {L : Nat}
    {st : Heap α E} (i : Inv dist first elems κ st0 L st) (a : Nat) : (st a).voxels.length = (st0 a).voxels.length := by
  simpa using congrArg List.length (i.cores a)

theorem ensure_inv {dist : Pt α → Pt α → δ} {first : E → Pt α} {elems : Nat → Kind → Nat → List E} {κ : Kind} {st0 st : Heap α E} {lod : Nat}
    (h0 : Loaded dist first elems st0) (i : Inv dist first elems κ st0 lod st) (r : Nat × Nat) (hr : r.2 < (st0 r.1).voxels.length) :
    ∃ st', ensure dist first elems κ lod st r = some st' ∧ Inv dist first elems κ st0 lod st' ∧
      (∀ v ∈ (st' r.1).voxels, v.data lod ≠ none) ∧
      ∀ a, (∀ v ∈ (st a).voxels, v.data lod ≠ none) → ∀ v ∈ (st' a).voxels, v.data lod ≠ none := by
  obtain ⟨a, j⟩ := r
  have hj : j < (st a).voxels.length := by rw [i.len]; exact hr
  have hv : (st a).voxels[j]? = some (st a).voxels[j] := List.getElem?_eq_getElem hj
  unfold ensure
  simp only [hv]
  by_cases hd : ((st a).voxels[j].data lod).isSome
  · rw [if_pos hd]
    refine ⟨st, rfl, i, ?_, fun _ h => h⟩
    rcases i.all a lod with h | h
    · rw [h _ (List.getElem_mem hj)] at hd; cases hd
    · intro v hv
      obtain ⟨k, hk, rfl⟩ := List.getElem_of_mem hv
      rw [h k _ (List.getElem?_eq_getElem hk)]
      exact Option.some_ne_none _
  · rw [if_neg hd]
    have hnone : ∀ v ∈ (st a).voxels, v.data lod = none := by
      rcases i.all a lod with h | h
      · exact h
      · rw [h j _ hv] at hd; exact absurd rfl hd
    have hp : (decode lod (st a)).pct = some lod := by
      show some _ = some _
      have := i.pct a
      by_cases hc : (st a).pct.getD 0 ≥ lod
      · rw [if_pos hc]; congr 1; omega
      · rw [if_neg hc]
    have hne : (st a).voxels ≠ [] := by rw [← List.length_pos_iff]; omega
    have hfin : ∀ v ∈ (st a).voxels, ∀ e ∈ elems a κ lod, dist v.core (first e) < ⊤ := by
      intro v hv e he
      have : v.core ∈ (st0 a).voxels.map (·.core) := by rw [← i.cores a]; exact List.mem_map.2 ⟨v, hv, rfl⟩
      obtain ⟨w, hw, e'⟩ := List.mem_map.1 this
      rw [← e']; exact h0.fin a w hw κ lod e he
    obtain ⟨ws, w1, w2, w3⟩ := fill_share dist first lod (elems a κ lod) (st a).voxels hne hnone hfin
    have hf : fill dist first (elems a) κ (decode lod (st a)) = some ⟨some lod, ws⟩ := by
      unfold fill
      rw [hp]
      show (fillVoxel dist first lod (elems a κ lod) (st a).voxels).map _ = _
      rw [w1]; show some _ = some _
      rw [← hp]
    rw [hf]
    have hsame : ∀ b, b ≠ a → (fun b => if b = a then (⟨some lod, ws⟩ : Obj α E) else st b) b = st b := fun b hb => if_neg hb
    have hat : (fun b => if b = a then (⟨some lod, ws⟩ : Obj α E) else st b) a = ⟨some lod, ws⟩ := if_pos rfl
    have hlod : ∀ (k : Nat) v, ws[k]? = some v → v.data lod = some (share dist first ((st0 a).voxels.map (·.core)) (elems a κ lod) k) := by
      intro k v hk
      obtain ⟨hk', rfl⟩ := List.getElem?_eq_some_iff.1 hk
      rw [← i.cores a]
      exact (w3 k (w2 ▸ hk') hk').1
    refine ⟨_, rfl, ⟨?_, ?_, ?_⟩, ?_, ?_⟩
    · intro b
      by_cases hb : b = a
      · subst hb; show ((fun b' => if b' = b then (⟨some lod, ws⟩ : Obj α E) else st b') b).pct.getD 0 ≤ lod
        rw [hat]; exact Nat.le_refl _
      · show ((fun b => if b = a then (⟨some lod, ws⟩ : Obj α E) else st b) b).pct.getD 0 ≤ lod
        rw [hsame b hb]; exact i.pct b
    · intro b
      by_cases hb : b = a
      · subst hb
        show ((fun b' => if b' = b then (⟨some lod, ws⟩ : Obj α E) else st b') b).voxels.map _ = _
        rw [hat, ← i.cores b]
        apply List.ext_getElem
        · simp [w2]
        · intro k x y
          rw [List.length_map] at x y
          rw [List.getElem_map, List.getElem_map]
          exact (w3 k y x).2.2.1
      · show ((fun b => if b = a then (⟨some lod, ws⟩ : Obj α E) else st b) b).voxels.map _ = _
        rw [hsame b hb]; exact i.cores b
    · intro b k
      by_cases hb : b = a
      · subst hb
        show (∀ v ∈ ((fun b' => if b' = b then (⟨some lod, ws⟩ : Obj α E) else st b') b).voxels, _) ∨ ∀ (j : Nat) v, ((fun b' => if b' = b then (⟨some lod, ws⟩ : Obj α E) else st b') b).voxels[j]? = some v → _
        rw [hat]
        by_cases hk : k = lod
        · subst hk; exact .inr hlod
        · rcases i.all b k with h | h
          · refine .inl fun v hv => ?_
            obtain ⟨m, hm, rfl⟩ := List.getElem_of_mem hv
            rw [((w3 m (w2 ▸ hm) hm).2.2.2.2 k hk).1]
            exact h _ (List.getElem_mem _)
          · refine .inr fun m v hv => ?_
            obtain ⟨hm, rfl⟩ := List.getElem?_eq_some_iff.1 hv
            rw [((w3 m (w2 ▸ hm) hm).2.2.2.2 k hk).1]
            exact h m _ (List.getElem?_eq_getElem _)
      · show (∀ v ∈ ((fun b => if b = a then (⟨some lod, ws⟩ : Obj α E) else st b) b).voxels, _) ∨ ∀ (j : Nat) v, ((fun b => if b = a then (⟨some lod, ws⟩ : Obj α E) else st b) b).voxels[j]? = some v → _
        rw [hsame b hb]; exact i.all b k
    · intro v hv
      have hv : v ∈ ((fun b => if b = a then (⟨some lod, ws⟩ : Obj α E) else st b) a).voxels := hv
      rw [hat] at hv
      obtain ⟨k, hk, rfl⟩ := List.getElem_of_mem hv
      rw [hlod k _ (List.getElem?_eq_getElem hk)]
      exact Option.some_ne_none _
    · intro b hb v hv
      by_cases hba : b = a
      · subst hba
        have hv : v ∈ ((fun b' => if b' = b then (⟨some lod, ws⟩ : Obj α E) else st b') b).voxels := hv
        rw [hat] at hv
        obtain ⟨k, hk, rfl⟩ := List.getElem_of_mem hv
        rw [hlod k _ (List.getElem?_eq_getElem hk)]
        exact Option.some_ne_none _
      · have hv : v ∈ ((fun b => if b = a then (⟨some lod, ws⟩ : Obj α E) else st b) b).voxels := hv
        rw [hsame b hba] at hv
        exact hb v hv

theorem prepare_inv {dist : Pt α → Pt α → δ} {first : E → Pt α} {elems : Nat → Kind → Nat → List E} {κ : Kind} {st0 : Heap α E} {lod : Nat}
    (h0 : Loaded dist first elems st0) (reqs : List (Nat × Nat)) : ∀ st, Inv dist first elems κ st0 lod st →
    (∀ r ∈ reqs, r.2 < (st0 r.1).voxels.length) →
    ∃ st', reqs.foldlM (ensure dist first elems κ lod) st = some st' ∧ Inv dist first elems κ st0 lod st' ∧
      (∀ r ∈ reqs, ∀ v ∈ (st' r.1).voxels, v.data lod ≠ none) ∧
      ∀ a, (∀ v ∈ (st a).voxels, v.data lod ≠ none) → ∀ v ∈ (st' a).voxels, v.data lod ≠ none := by
  induction reqs with
  | nil => intro st i _; exact ⟨st, rfl, i, by simp, fun _ h => h⟩
  | cons r reqs ih =>
    intro st i hr
    obtain ⟨s1, e1, i1, a1, b1⟩ := ensure_inv h0 i r (hr r List.mem_cons_self)
    obtain ⟨s2, e2, i2, a2, b2⟩ := ih s1 i1 (fun x hx => hr x (List.mem_cons_of_mem _ hx))
    refine ⟨s2, ?_, i2, ?_, fun a h => b2 a (b1 a h)⟩
    · rw [List.foldlM_cons, e1]; exact e2
    · intro x hx
      rcases List.mem_cons.1 hx with rfl | hx
      · exact b2 _ a1
      · exact a2 x hx

theorem touch_id (lod : Nat) (reqs : List (Nat × Nat)) : ∀ st : Heap α E, (∀ r ∈ reqs, ∀ v ∈ (st r.1).voxels, v.data lod ≠ none) →
    reqs.foldl (touch lod) st = st := by
  induction reqs with
  | nil => intro st _; rfl
  | cons r reqs ih =>
    intro st h
    have : touch lod st r = st := by
      funext b
      unfold touch
      by_cases hb : b = r.1
      · rw [if_pos hb]
        have e : (st b).voxels.modify r.2 (fun v => if (v.data lod).isSome then v
            else { v with data := fun k => if k = lod then some [] else v.data k }) = (st b).voxels := by
          apply List.ext_getElem
          · simp
          · intro k x y
            rw [List.getElem_modify]
            have := h r List.mem_cons_self (st b).voxels[k] (by rw [← hb]; exact List.getElem_mem y)
            rw [if_pos (Option.isSome_iff_ne_none.2 this)]
            simp
        rw [e]
      · rw [if_neg hb]
    rw [List.foldl_cons, this]
    exact ih st (fun x hx => h x (List.mem_cons_of_mem _ hx))

theorem Inv.mono {dist : Pt α → Pt α → δ} {first : E → Pt α} {elems : Nat → Kind → Nat → List E} {κ : Kind} {st0 : Heap α E} {L M : Nat}
    {st : Heap α E} (i : Inv dist first elems κ st0 L st) (h : L ≤ M) : Inv dist first elems κ st0 M st :=
  ⟨fun a => (i.pct a).trans h, i.cores, i.all⟩

theorem rounds_inv {dist : Pt α → Pt α → δ} {first : E → Pt α} {elems : Nat → Kind → Nat → List E} {κ : Kind} {st0 : Heap α E}
    (h0 : Loaded dist first elems st0) (rs : List Rnd) : ∀ st L, Inv dist first elems κ st0 L st → (∀ r ∈ rs, L ≤ r.lod) →
    rs.Pairwise (fun r s => r.lod ≤ s.lod) → (∀ r ∈ rs, ∀ q ∈ r.reqs, q.2 < (st0 q.1).voxels.length) →
    ∃ st' M, rounds dist first elems κ rs st = some st' ∧ Inv dist first elems κ st0 M st' ∧ (M = L ∨ ∃ r ∈ rs, M = r.lod) := by
  induction rs with
  | nil => intro st L i _ _ _; exact ⟨st, L, rfl, i, .inl rfl⟩
  | cons r rs ih =>
    intro st L i hL hs hq
    obtain ⟨s1, e1, i1, a1, -⟩ := prepare_inv h0 r.reqs st (i.mono (hL r List.mem_cons_self)) (hq r List.mem_cons_self)
    have er : round dist first elems κ st r = some s1 := by
      unfold round prepare
      rw [e1]
      show some (if r.computed then r.reqs.foldl (touch r.lod) s1 else s1) = some s1
      by_cases hc : r.computed
      · rw [if_pos hc, touch_id r.lod r.reqs s1 a1]
      · rw [if_neg hc]
    rw [List.pairwise_cons] at hs
    obtain ⟨s2, M, e2, i2, hM⟩ := ih s1 r.lod i1 hs.1 hs.2 (fun x hx => hq x (List.mem_cons_of_mem _ hx))
    refine ⟨s2, M, ?_, i2, ?_⟩
    · unfold rounds at e2 ⊢
      rw [List.foldlM_cons, er]; exact e2
    · rcases hM with rfl | ⟨x, hx, rfl⟩
      · exact .inr ⟨r, List.mem_cons_self, rfl⟩
      · exact .inr ⟨x, List.mem_cons_of_mem _ hx, rfl⟩

/-- **C107 (the rounds of a join, part that holds).** Objects just loaded; any rounds whose levels never go down, with any voxel pairs, computed or skipped. When a
round computes, every voxel of its pairs holds its share of the elements of its object at the level of the round, of the kind of the join; also if
both tiles are the same. Missing: levels that go down, where it fails (`C107_lower_level_empty`). -/
theorem C107_rounds_partial (dist : Pt α → Pt α → δ) (first : E → Pt α) (elems : Nat → Kind → Nat → List E) (κ : Kind) (st0 : Heap α E)
    (h0 : Loaded dist first elems st0) (rs : List Rnd) (r : Rnd) (hs : (rs ++ [r]).Pairwise (fun r s => r.lod ≤ s.lod))
    (hq : ∀ x ∈ rs ++ [r], ∀ q ∈ x.reqs, q.2 < (st0 q.1).voxels.length) :
    ∃ st st', rounds dist first elems κ rs st0 = some st ∧ prepare dist first elems κ st r = some st' ∧
      ∀ q ∈ r.reqs, ∃ v, (st' q.1).voxels[q.2]? = some v ∧
        v.data r.lod = some (share dist first ((st0 q.1).voxels.map (·.core)) (elems q.1 κ r.lod) q.2) := by
  rw [List.pairwise_append] at hs
  have i0 : Inv dist first elems κ st0 0 st0 := by
    refine ⟨fun a => ?_, fun _ => rfl, fun a k => .inl fun v hv => h0.fresh a v hv k⟩
    rw [h0.pct a]; exact Nat.le_refl _
  obtain ⟨s1, M, e1, i1, hM⟩ := rounds_inv h0 rs st0 0 i0 (fun _ _ => Nat.zero_le _) hs.1
    (fun x hx => hq x (List.mem_append_left _ hx))
  have hMr : M ≤ r.lod := by
    rcases hM with rfl | ⟨x, hx, rfl⟩
    · exact Nat.zero_le _
    · exact hs.2.2 x hx r List.mem_cons_self
  have hqr := hq r (List.mem_append_right _ List.mem_cons_self)
  obtain ⟨s2, e2, i2, a2, -⟩ := prepare_inv h0 r.reqs s1 (i1.mono hMr) hqr
  refine ⟨s1, s2, e1, e2, fun q hqm => ?_⟩
  have hlt : q.2 < (s2 q.1).voxels.length := by rw [i2.len]; exact hqr q hqm
  refine ⟨_, List.getElem?_eq_getElem hlt, ?_⟩
  rcases i2.all q.1 r.lod with h | h
  · exact absurd (h _ (List.getElem_mem hlt)) (a2 q hqm _ (List.getElem_mem hlt))
  · exact h q.2 _ (List.getElem?_eq_getElem hlt)

/-! ## Levels that go down -/

/-- What voxel `v` holds at level `k`: nothing, if there is no entry. -/
def holds (v : Voxel α E) (k : Nat) : List E := (v.data k).getD []

theorem fillVoxel_other {dist : Pt α → Pt α → δ} {first : E → Pt α} {p : Nat} {elems : List E} {vs ws : List (Voxel α E)}
    (h : fillVoxel dist first p elems vs = some ws) : ∀ w ∈ ws, ∃ v ∈ vs, ∀ k, k ≠ p → w.data k = v.data k := by
  unfold fillVoxel at h
  cases vs with
  | nil => cases h
  | cons v0 vt =>
    simp only at h
    by_cases h1 : (v0.data p).isSome
    · rw [if_pos h1] at h; cases h
      exact fun w hw => ⟨w, hw, fun _ _ => rfl⟩
    · rw [if_neg h1] at h
      by_cases h2 : (v0 :: vt).length = 1
      · rw [if_pos h2] at h; cases h
        intro w hw
        rw [List.mem_singleton] at hw
        subst hw
        exact ⟨v0, List.mem_cons_self, fun k hk => if_neg hk⟩
      · rw [if_neg h2] at h
        obtain ⟨g, -, h⟩ := Option.bind_eq_some_iff.1 h
        obtain ⟨bufs, -, h⟩ := Option.bind_eq_some_iff.1 h
        cases h
        intro w hw
        obtain ⟨i, hi, rfl⟩ := List.getElem_of_mem hw
        rw [List.getElem_zipWith]
        have hi' : i < (v0 :: vt).length := by
          rw [List.length_zipWith] at hi; omega
        exact ⟨(v0 :: vt)[i], List.getElem_mem _, fun k hk => if_neg hk⟩

/-- Facts about any rounds: `S` are the levels so far. -/
structure Seen (S : List Nat) (st : Heap α E) : Prop where
  pct : ∀ a p, (st a).pct = some p → p ∈ S
  entry : ∀ a, ∀ v ∈ (st a).voxels, ∀ k, v.data k ≠ none → k ∈ S ∧ ∃ p, (st a).pct = some p ∧ k ≤ p

/-- The level of an object never goes down. -/
def Up (st st' : Heap α E) : Prop := ∀ a p, (st a).pct = some p → ∃ q, (st' a).pct = some q ∧ p ≤ q

theorem Up.trans {s t u : Heap α E} (h : Up s t) (h' : Up t u) : Up s u := by
  intro a p hp
  obtain ⟨q, hq, l⟩ := h a p hp
  obtain ⟨r, hr, l'⟩ := h' a q hq
  exact ⟨r, hr, l.trans l'⟩

theorem ensure_seen {dist : Pt α → Pt α → δ} {first : E → Pt α} {elems : Nat → Kind → Nat → List E} {κ : Kind} {S : List Nat} {lod : Nat}
    {st st' : Heap α E} {r : Nat × Nat} (hS : lod ∈ S) (i : Seen S st) (h : ensure dist first elems κ lod st r = some st') :
    Seen S st' ∧ Up st st' ∧ (∃ p, (st' r.1).pct = some p ∧ lod ≤ p) ∧
      ∀ a p, (st a).pct = some p → lod < p → (∀ v ∈ (st a).voxels, holds v lod = []) → ∀ v ∈ (st' a).voxels, holds v lod = [] := by
  obtain ⟨a, j⟩ := r
  unfold ensure at h
  cases hv : (st a).voxels[j]? with
  | none => simp only [hv] at h; cases h
  | some v =>
    simp only [hv] at h
    by_cases hd : (v.data lod).isSome
    · rw [if_pos hd] at h; cases h
      refine ⟨i, fun _ p hp => ⟨p, hp, Nat.le_refl _⟩, ?_, fun _ _ _ _ h => h⟩
      exact (i.entry a v (List.mem_of_getElem? hv) lod (Option.isSome_iff_ne_none.1 hd)).2
    · rw [if_neg hd] at h
      obtain ⟨o, ho, rfl⟩ := Option.map_eq_some_iff.1 h
      obtain ⟨p, hp⟩ : ∃ p, (decode lod (st a)).pct = some p := ⟨_, rfl⟩
      have hpS : p ∈ S ∧ lod ≤ p ∧ (∀ q, (st a).pct = some q → q ≤ p) ∧ (∀ q, (st a).pct = some q → lod < q → p = q) := by
        have hp' : (if (st a).pct.getD 0 ≥ lod then (st a).pct.getD 0 else lod) = p := Option.some.inj hp
        cases hq : (st a).pct with
        | none =>
          rw [hq] at hp'
          have : p = lod := by
            rw [← hp']
            by_cases hc : (none : Option Nat).getD 0 ≥ lod
            · rw [if_pos hc]; simp at hc ⊢; omega
            · rw [if_neg hc]
          subst this
          exact ⟨hS, Nat.le_refl _, by simp, by simp⟩
        | some q =>
          rw [hq] at hp'
          by_cases hc : (some q).getD 0 ≥ lod
          · rw [if_pos hc] at hp'
            have hp' : q = p := hp'
            subst hp'
            refine ⟨i.pct a q hq, hc, ?_, ?_⟩
            · intro x hx; cases hx; exact Nat.le_refl _
            · intro x hx _; cases hx; rfl
          · rw [if_neg hc] at hp'
            subst hp'
            have hc : ¬ q ≥ lod := hc
            refine ⟨hS, Nat.le_refl _, ?_, ?_⟩
            · intro x hx; cases hx; omega
            · intro x hx hl; cases hx; omega
      obtain ⟨p1, p2, p3, p4⟩ := hpS
      unfold fill at ho
      rw [hp] at ho
      obtain ⟨ws, hw, rfl⟩ := Option.map_eq_some_iff.1 ho
      have hw : fillVoxel dist first p (elems a κ p) (st a).voxels = some ws := hw
      have ho' := fillVoxel_other hw
      have hsame : ∀ b, b ≠ a → (fun b => if b = a then ({ pct := some p, voxels := ws } : Obj α E) else st b) b = st b := fun b hb => if_neg hb
      have hat : (fun b => if b = a then ({ pct := some p, voxels := ws } : Obj α E) else st b) a = { pct := some p, voxels := ws } := if_pos rfl
      obtain ⟨st', hst⟩ : ∃ st', (fun b => if b = a then ({ pct := some p, voxels := ws } : Obj α E) else st b) = st' := ⟨_, rfl⟩
      rw [hst] at hsame hat ⊢
      refine ⟨⟨?_, ?_⟩, ?_, ⟨p, by rw [hat], p2⟩, ?_⟩
      · intro b q hq
        by_cases hb : b = a
        · subst hb; rw [hat] at hq; cases hq; exact p1
        · rw [hsame b hb] at hq; exact i.pct b q hq
      · intro b w hw' k hk
        by_cases hb : b = a
        · subst hb
          rw [hat] at hw' ⊢
          obtain ⟨x, hx, hxk⟩ := ho' w hw'
          by_cases hkp : k = p
          · subst hkp; exact ⟨p1, k, rfl, Nat.le_refl _⟩
          · rw [hxk k hkp] at hk
            obtain ⟨e1, q, e2, e3⟩ := i.entry b x hx k hk
            exact ⟨e1, p, rfl, e3.trans (p3 q e2)⟩
        · rw [hsame b hb] at hw' ⊢; exact i.entry b w hw' k hk
      · intro b q hq
        by_cases hb : b = a
        · subst hb; rw [hat]; exact ⟨p, rfl, p3 q hq⟩
        · rw [hsame b hb]; exact ⟨q, hq, Nat.le_refl _⟩
      · intro b q hq hl he w hw'
        by_cases hb : b = a
        · subst hb
          rw [hat] at hw'
          obtain ⟨x, hx, hxk⟩ := ho' w hw'
          have : lod ≠ p := by rw [p4 q hq hl]; omega
          unfold holds
          rw [hxk lod this]
          exact he x hx
        · rw [hsame b hb] at hw'; exact he w hw'

theorem prepare_seen {dist : Pt α → Pt α → δ} {first : E → Pt α} {elems : Nat → Kind → Nat → List E} {κ : Kind} {S : List Nat} {lod : Nat}
    (hS : lod ∈ S) (reqs : List (Nat × Nat)) : ∀ st st' : Heap α E, Seen S st → reqs.foldlM (ensure dist first elems κ lod) st = some st' →
    Seen S st' ∧ Up st st' ∧ (∀ r ∈ reqs, ∃ p, (st' r.1).pct = some p ∧ lod ≤ p) ∧
      ∀ a p, (st a).pct = some p → lod < p → (∀ v ∈ (st a).voxels, holds v lod = []) → ∀ v ∈ (st' a).voxels, holds v lod = [] := by
  induction reqs with
  | nil =>
    intro st st' i h
    cases h
    exact ⟨i, fun _ p hp => ⟨p, hp, Nat.le_refl _⟩, by simp, fun _ _ _ _ h => h⟩
  | cons r reqs ih =>
    intro st st' i h
    rw [List.foldlM_cons] at h
    obtain ⟨s1, h1, h2⟩ := Option.bind_eq_some_iff.1 h
    obtain ⟨a1, a2, ⟨p, a3, a3'⟩, a4⟩ := ensure_seen hS i h1
    obtain ⟨b1, b2, b3, b4⟩ := ih s1 st' a1 h2
    refine ⟨b1, a2.trans b2, ?_, ?_⟩
    · intro x hx
      rcases List.mem_cons.1 hx with rfl | hx
      · obtain ⟨q, hq, l⟩ := b2 _ p a3
        exact ⟨q, hq, a3'.trans l⟩
      · exact b3 x hx
    · intro a q hq hl he
      obtain ⟨q', hq', l⟩ := a2 a q hq
      exact b4 a q' hq' (by omega) (a4 a q hq hl he)

theorem touch_seen {S : List Nat} {lod : Nat} (hS : lod ∈ S) (reqs : List (Nat × Nat)) : ∀ st : Heap α E, Seen S st →
    (∀ r ∈ reqs, ∃ p, (st r.1).pct = some p ∧ lod ≤ p) →
    Seen S (reqs.foldl (touch lod) st) ∧ ∀ a, (reqs.foldl (touch lod) st a).pct = (st a).pct := by
  induction reqs with
  | nil => intro st i _; exact ⟨i, fun _ => rfl⟩
  | cons r reqs ih =>
    intro st i h
    have hpct : ∀ a, (touch lod st r a).pct = (st a).pct := by
      intro a
      unfold touch
      by_cases ha : a = r.1
      · rw [if_pos ha]
      · rw [if_neg ha]
    have i' : Seen S (touch lod st r) := by
      refine ⟨fun a p hp => i.pct a p (by rw [← hpct a]; exact hp), ?_⟩
      intro a w hw k hk
      rw [hpct a]
      by_cases ha : a = r.1
      · have e : (touch lod st r a).voxels = (st a).voxels.modify r.2 (fun v => if (v.data lod).isSome then v
            else { v with data := fun k => if k = lod then some [] else v.data k }) := by
          unfold touch; rw [if_pos ha]
        rw [e] at hw
        obtain ⟨m, hm, rfl⟩ := List.getElem_of_mem hw
        rw [List.getElem_modify] at hk
        have hm' : m < (st a).voxels.length := by simpa using hm
        by_cases hr : r.2 = m
        · rw [if_pos hr] at hk
          by_cases hd : ((st a).voxels[m].data lod).isSome
          · rw [if_pos hd] at hk; exact i.entry a _ (List.getElem_mem hm') k hk
          · rw [if_neg hd] at hk
            by_cases hkl : k = lod
            · subst hkl
              rw [ha]
              exact ⟨hS, h r List.mem_cons_self⟩
            · have hk : (if k = lod then some [] else (st a).voxels[m].data k) ≠ none := hk
              rw [if_neg hkl] at hk
              exact i.entry a _ (List.getElem_mem hm') k hk
        · rw [if_neg hr] at hk; exact i.entry a _ (List.getElem_mem hm') k hk
      · have e : touch lod st r a = st a := by unfold touch; rw [if_neg ha]
        rw [e] at hw
        exact i.entry a w hw k hk
    obtain ⟨x, y⟩ := ih _ i' (fun q hq => by
      obtain ⟨p, hp, l⟩ := h q (List.mem_cons_of_mem _ hq)
      exact ⟨p, by rw [hpct]; exact hp, l⟩)
    exact ⟨x, fun a => (y a).trans (hpct a)⟩

theorem rounds_seen {dist : Pt α → Pt α → δ} {first : E → Pt α} {elems : Nat → Kind → Nat → List E} {κ : Kind} {S : List Nat}
    (rs : List Rnd) : ∀ st st' : Heap α E, (∀ r ∈ rs, r.lod ∈ S) → Seen S st → rounds dist first elems κ rs st = some st' →
    Seen S st' ∧ Up st st' ∧ ∀ r ∈ rs, ∀ q ∈ r.reqs, ∃ p, (st' q.1).pct = some p ∧ r.lod ≤ p := by
  induction rs with
  | nil =>
    intro st st' _ i h
    cases h
    exact ⟨i, fun _ p hp => ⟨p, hp, Nat.le_refl _⟩, by simp⟩
  | cons r rs ih =>
    intro st st' hS i h
    unfold rounds at h
    rw [List.foldlM_cons] at h
    obtain ⟨s2, h1, h2⟩ := Option.bind_eq_some_iff.1 h
    obtain ⟨s1, h3, h4⟩ := Option.map_eq_some_iff.1 h1
    have hr := hS r List.mem_cons_self
    obtain ⟨a1, a2, a3, -⟩ := prepare_seen hr r.reqs st s1 i h3
    have key : Seen S s2 ∧ ∀ a, (s2 a).pct = (s1 a).pct := by
      rw [← h4]
      by_cases hc : r.computed
      · rw [if_pos hc]; exact touch_seen hr r.reqs s1 a1 a3
      · rw [if_neg hc]; exact ⟨a1, fun _ => rfl⟩
    obtain ⟨b1, b2, b3⟩ := ih s2 st' (fun x hx => hS x (List.mem_cons_of_mem _ hx)) key.1 h2
    have up2 : Up s1 st' := fun a p hp => b2 a p ((key.2 a).trans hp)
    refine ⟨b1, a2.trans up2, ?_⟩
    intro x hx q hq
    rcases List.mem_cons.1 hx with rfl | hx
    · obtain ⟨p, hp, l⟩ := a3 q hq
      obtain ⟨p', hp', l'⟩ := up2 _ p hp
      exact ⟨p', hp', l.trans l'⟩
    · exact b3 x hx q hq

/-- **C107 fails for levels that go down.** Any rounds `rs` and then a round at a level that was not among theirs, but below the level of a round in which
object `a` took part: in that round all voxels of `a` count as empty, whatever its mesh is. -/
theorem C107_lower_level_empty (dist : Pt α → Pt α → δ) (first : E → Pt α) (elems : Nat → Kind → Nat → List E) (κ : Kind) (st0 : Heap α E)
    (h0 : Loaded dist first elems st0) (rs : List Rnd) (r r' : Rnd) (a j : Nat) (hr' : r' ∈ rs) (ha : (a, j) ∈ r'.reqs)
    (hlt : r.lod < r'.lod) (hnew : ∀ x ∈ rs, x.lod ≠ r.lod) (st st' : Heap α E)
    (h1 : rounds dist first elems κ rs st0 = some st) (h2 : prepare dist first elems κ st r = some st') :
    ∀ v ∈ (st' a).voxels, holds v r.lod = [] := by
  have i0 : Seen (rs.map (·.lod)) st0 := by
    refine ⟨fun b p hp => ?_, fun b v hv k hk => absurd (h0.fresh b v hv k) hk⟩
    rw [h0.pct b] at hp; cases hp
  obtain ⟨i, -, hq⟩ := rounds_seen rs st0 st (fun x hx => List.mem_map.2 ⟨x, hx, rfl⟩) i0 h1
  obtain ⟨p, hp, hl⟩ := hq r' hr' (a, j) ha
  have hn : r.lod ∉ rs.map (·.lod) := by
    intro h
    obtain ⟨x, hx, e⟩ := List.mem_map.1 h
    exact hnew x hx e
  have i' : Seen (r.lod :: rs.map (·.lod)) st :=
    ⟨fun b q hq => List.mem_cons_of_mem _ (i.pct b q hq), fun b v hv k hk => ⟨List.mem_cons_of_mem _ (i.entry b v hv k hk).1, (i.entry b v hv k hk).2⟩⟩
  refine (prepare_seen List.mem_cons_self r.reqs st st' i' h2).2.2.2 a p hp (by omega) ?_
  intro v hv
  unfold holds
  cases hd : v.data r.lod with
  | none => rfl
  | some l => exact absurd (i.entry a v hv r.lod (by rw [hd]; exact Option.some_ne_none _)).1 hn

/-- **C107 fails for two kinds at one level.** After the segments of a level were filled in, asking for the triangles of this level leaves the segments
where they are, until the next reset. -/
theorem C107_other_kind_ignored (dist : Pt α → Pt α → δ) (first : E → Pt α) (elems : Kind → Nat → List E) (vs : List (Voxel α E)) (hne : vs ≠ [])
    (hfresh : ∀ v ∈ vs, ∀ k, v.data k = none ∧ v.size k = none)
    (hfin : ∀ v ∈ vs, ∀ κ p, ∀ e ∈ elems κ p, dist v.core (first e) < ⊤) (lod : Nat) :
    ∃ o, run dist first elems [.decode lod, .fill .segments, .fill .triangles] ⟨none, vs⟩ = some o ∧
      ∀ j (_ : j < vs.length) (h' : j < o.voxels.length),
        o.voxels[j].data lod = some (share dist first (vs.map (·.core)) (elems .segments lod) j) := by
  obtain ⟨o, h1, -, -, h4⟩ := C107_session dist first elems vs hne hfresh hfin [.decode lod, .fill .segments, .fill .triangles]
  refine ⟨o, h1, fun j h h' => ?_⟩
  rw [((h4 j h h').2.2 lod).1]
  simp [kindAt, level]

/-! ## A concrete case -/

/-- One object with two voxels; at level `p` it has `p / 10 + 1` edges, its triangles are all the same. -/
def exElems : Nat → Kind → Nat → List (Nat × Nat)
  | _, .segments, p => (List.range (p / 10 + 1)).map (fun i => (i, i + 1))
  | _, .triangles, p => List.replicate (p / 20 + 1) (9, 9)

def exHeap : Heap (Fin 256) (Nat × Nat) := fun _ => ⟨none, [vox 0 0 9, vox 4 0 9]⟩

def exFirst (e : Nat × Nat) : Pt (Fin 256) := diag e.1

theorem exLoaded : Loaded dist1 exFirst exElems exHeap where
  pct := fun _ => rfl
  some := fun _ => List.cons_ne_nil _ _
  fresh := fun _ v hv k => by
    have : v = vox 0 0 9 ∨ v = vox 4 0 9 := by simpa [exHeap] using hv
    rcases this with rfl | rfl <;> rfl
  fin := fun _ v _ _ _ e _ => WithTop.coe_lt_top _

/-- Levels 20 and 50: filled as they should be. -/
example : ((rounds dist1 exFirst exElems .segments [⟨20, [(0, 0), (1, 1)], true⟩, ⟨50, [(0, 1), (1, 0)], true⟩] exHeap).map
    (fun st => (st 0).voxels.map (fun v => (v.data 20, v.data 50)))) =
    some [(some [(0, 1), (1, 2), (2, 3)], some [(0, 1), (1, 2), (2, 3)]),
      (some [], some [(3, 4), (4, 5), (5, 6)])] := by decide +kernel
/-- Levels 50 and 20 (`--lod 50 20`): nothing at 20. -/
example : ((rounds dist1 exFirst exElems .segments [⟨50, [(0, 0), (1, 1)], true⟩, ⟨20, [(0, 0), (1, 1)], false⟩] exHeap).map
    (fun st => (st 0).voxels.map (fun v => (v.data 50, v.data 20)))) =
    some [(some [(0, 1), (1, 2), (2, 3)], none), (some [(3, 4), (4, 5), (5, 6)], none)] := by decide +kernel
/-- The triangles of a level that has segments are not filled in; after a reset they are. -/
example : (run dist1 exFirst (exElems 0) [.decode 20, .fill .segments, .fill .triangles, .decode 30] (exHeap 0)).map
    (fun o => o.voxels.map (fun v => v.data 20)) = some [some [(0, 1), (1, 2), (2, 3)], some []] := by decide +kernel
example : (run dist1 exFirst (exElems 0) [.decode 20, .fill .segments, .reset, .fill .triangles] (exHeap 0)).map
    (fun o => o.voxels.map (fun v => v.data 20)) = some [some [], some [(9, 9), (9, 9)]] := by decide +kernel

end TDP.Voxels.Session
