import Verif.EndToEnd.Aabb
/-! # C77: joins with AABB trees -/
namespace TDP.EndToEnd
open TDP.Boxes TDP.Join

/-- Every candidate has one voxel pair, of the two objects' only voxels (`O1`, `O2` tell whose voxel it is). -/
def OneEach (O1 O2 : Voxel → Wrapper) (w : Wrapper) (cs : List Cand) : Prop :=
  ∀ c ∈ cs, ∃ x, c.pairs = [x] ∧ O1 x.v1 = w ∧ O2 x.v2 = c.mesh

theorem flat_pairs_cands {O1 O2 : Voxel → Wrapper} : ∀ (es : List Entry), (∀ e ∈ es, OneEach O1 O2 e.mesh e.cands) →
    (flatPairs es).map some = (flatCands es).map (fun ec => ec.2.pairs.head?)
  | [], _ => rfl
  | e :: es, h => by
      have ih := flat_pairs_cands es (fun e he => h e (List.mem_cons_of_mem _ he))
      unfold flatPairs flatCands at ih ⊢
      rw [List.flatMap_cons, List.flatMap_cons, List.map_append, List.map_append, ih]
      congr 1
      have h0 := h e (List.mem_cons_self ..)
      generalize e.cands = cs at h0
      rw [List.map_map]
      induction cs with
      | nil => rfl
      | cons c cs ih2 =>
        obtain ⟨x, hx, _⟩ := h0 c (List.mem_cons_self ..)
        rw [List.flatMap_cons, List.map_append, ih2 (fun c hc => h0 c (List.mem_cons_of_mem _ hc))]
        simp [hx]

theorem flat_position {O1 O2 : Voxel → Wrapper} {es : List Entry} (h : ∀ e ∈ es, OneEach O1 O2 e.mesh e.cands) {k : Nat} {p : VPair}
    (hk : (flatPairs es)[k]? = some p) :
    ∃ e c, (flatCands es)[k]? = some (e, c) ∧ c.pairs = [p] ∧ O1 p.v1 = e.mesh ∧ O2 p.v2 = c.mesh := by
  have h1 : ((flatPairs es).map some)[k]? = some (some p) := by rw [List.getElem?_map, hk]; rfl
  rw [flat_pairs_cands es h, List.getElem?_map] at h1
  cases hc : (flatCands es)[k]? with
  | none => rw [hc] at h1; simp at h1
  | some ec =>
    obtain ⟨e, c⟩ := ec
    rw [hc] at h1
    simp only [Option.map_some, Option.some.injEq] at h1
    have hm := List.mem_of_getElem? hc
    unfold flatCands at hm
    simp only [List.mem_flatMap, List.mem_map, Prod.mk.injEq] at hm
    obtain ⟨e', he', c', hc', rfl, rfl⟩ := hm
    obtain ⟨x, hx, a, b⟩ := h _ he' _ hc'
    rw [hx] at h1
    simp only [List.head?_cons, Option.some.injEq] at h1
    subst h1
    exact ⟨e', c', rfl, hx, a, b⟩

theorem updPairs_single (d : RangeT) (x : VPair) : (updPairs d [x]).2 = [x] ∨ ((updPairs d [x]).1 = true ∧ (updPairs d [x]).2 = []) := by
  unfold updPairs
  by_cases h1 : d.gt x.dist = true
  · rw [if_pos h1]; exact Or.inl rfl
  · rw [if_neg h1]
    by_cases h2 : d.lt x.dist = true
    · rw [if_pos h2]; exact Or.inr ⟨rfl, rfl⟩
    · rw [if_neg h2]; exact Or.inl rfl

theorem updCands_single (d : RangeT) : ∀ cs : List Cand, (∀ c ∈ cs, ∃ x, c.pairs = [x]) → ∀ c ∈ (updCands d cs).2, c ∈ cs
  | [], _, c, hc => hc
  | y :: cs, h, c, hc => by
      have ih := updCands_single d cs (fun c hc => h c (List.mem_cons_of_mem _ hc))
      unfold updCands at hc
      by_cases h1 : d.gt y.distance = true
      · rw [if_pos h1] at hc; exact hc
      · rw [if_neg h1] at hc
        by_cases h2 : d.lt y.distance = true
        · rw [if_pos h2] at hc; exact List.mem_cons_of_mem _ (ih c hc)
        · rw [if_neg h2] at hc
          obtain ⟨x, hx⟩ := h y (List.mem_cons_self ..)
          have hy : ∀ z ∈ y.pairs, z ∈ y.pairs := fun _ h => h
          simp only at hc
          rcases updPairs_single d x with e | ⟨e1, e2⟩
          · have e' : ({ y with pairs := (updPairs d y.pairs).2 } : Cand) = y := by rw [hx, e, ← hx]
            rw [e'] at hc
            by_cases h3 : (updPairs d y.pairs).1 = false
            · rw [if_pos h3] at hc; exact hc
            · rw [if_neg h3, if_neg (by rw [hx, e]; simp)] at hc
              rcases List.mem_cons.1 hc with rfl | hc
              · exact List.mem_cons_self ..
              · exact List.mem_cons_of_mem _ (ih c hc)
          · rw [if_neg (by rw [hx, e1]; simp), if_pos (by rw [hx, e2]; rfl)] at hc
            exact List.mem_cons_of_mem _ (ih c hc)

theorem oneEach_updCands {O1 O2 : Voxel → Wrapper} {w : Wrapper} {cs : List Cand} (d : RangeT) (h : OneEach O1 O2 w cs) :
    OneEach O1 O2 w (updCands d cs).2 :=
  fun c hc => h c (updCands_single d cs (fun c hc => by obtain ⟨x, hx, _⟩ := h c hc; exact ⟨x, hx⟩) c hc)

theorem oneEach_same {O1 O2 : Voxel → Wrapper} {w : Wrapper} {cs cs' : List Cand} (h : OneEach O1 O2 w cs)
    (hs : List.Forall₂ Join.SameC cs cs') : OneEach O1 O2 w cs' := by
  intro c' hc'
  obtain ⟨c, hc, s1, _, s3⟩ := (forall₂_mem hs).1 c' hc'
  obtain ⟨x, hx, a, b⟩ := h c hc
  rw [hx] at s3
  obtain ⟨y, l, hd, tl, e⟩ := List.forall₂_cons_left_iff.1 s3
  rw [List.forall₂_nil_left_iff] at tl
  subst tl
  exact ⟨y, e, by rw [hd.1]; exact a, by rw [hd.2, s1]; exact b⟩

theorem nnEntries_oneEach {O1 O2 : Voxel → Wrapper} (top : Bool) (sized : VPair → Bool) (dist : Nat → ℚ) :
    ∀ (es : List Entry) (i : Nat) (mn : WithTop ℚ), (∀ e ∈ es, OneEach O1 O2 e.mesh e.cands) →
    ∀ e ∈ (nnEntries top sized dist i mn es).1, OneEach O1 O2 e.mesh e.cands
  | [], _, _, h => h
  | e :: es, i, mn, h => by
      intro e' he'
      simp only [nnEntries] at he'
      rcases List.mem_cons.1 he' with rfl | he'
      · exact oneEach_updCands _ (oneEach_same (h e (List.mem_cons_self ..)) (nnCands_index top sized dist e.cands _).2)
      · exact nnEntries_oneEach top sized dist es _ _ (fun e he => h e (List.mem_cons_of_mem _ he)) e' he'

theorem nnStep_oneEach {O1 O2 : Voxel → Wrapper} {top : Bool} {r : Round} {dist : Nat → ℚ} {s : NNState}
    (h : ∀ e ∈ s.opened, OneEach O1 O2 e.mesh e.cands) (h2 : ∀ e ∈ s.opened, 1 < e.cands.length) :
    ∀ e ∈ (nnStep top r dist s).opened, OneEach O1 O2 e.mesh e.cands ∧ 1 < e.cands.length := by
  unfold nnStep
  by_cases h1 : (flatPairs s.opened).length = 0
  · rw [if_pos h1]; exact fun e he => ⟨h e he, h2 e he⟩
  · rw [if_neg h1]
    by_cases h3 : segmentPairs r s.opened = 0
    · rw [if_pos h3]; exact fun e he => ⟨h e he, h2 e he⟩
    · rw [if_neg h3]
      intro e he
      simp only [dropDecided, List.mem_filter, decide_eq_true_eq] at he
      exact ⟨nnEntries_oneEach top r.sized dist s.opened 0 s.maxNear h e he.1, by omega⟩

/-- Filtering objects that have one voxel each. -/
theorem mbbNN_oneEach (F : Fp) {O1 O2 : Voxel → Wrapper} {tile2 : Int → Wrapper} {w : Wrapper} {a : Voxel} (hw : w.voxels = [a])
    (ha : O1 a = w) (ht : ∀ i, ∃ b, (tile2 i).voxels = [b] ∧ O2 b = tile2 i) (ids : List (Int × Range)) :
    OneEach O1 O2 w (mbbNN F tile2 w ids).cands := by
  unfold mbbNN
  simp only
  generalize skipDup Prod.fst (-1) ids = l
  have key : ∀ (l : List (Int × Range)) (cs : List Cand), OneEach O1 O2 w cs → OneEach O1 O2 w (l.foldl (nnCand F tile2 w) cs) := by
    intro l
    induction l with
    | nil => intro cs h; exact h
    | cons p l ih =>
      intro cs h
      refine ih _ ?_
      unfold nnCand
      simp only
      by_cases h1 : (updCands (ofRange p.2) cs).1 = true
      · rw [if_pos h1]
        obtain ⟨b, hb, hO⟩ := ht p.1
        have hv : voxelPairs w (tile2 p.1) = [(a, b)] := by unfold voxelPairs; rw [hw, hb]; rfl
        rw [hv]
        simp only [List.foldl_cons, List.foldl_nil, nnVoxel, updPairs, if_true, List.nil_append]
        have h2 := oneEach_updCands (ofRange p.2) h
        have h3 := oneEach_updCands (ofRange (a.box.distance F b.box)) h2
        by_cases h4 : (updCands (ofRange (a.box.distance F b.box)) (updCands (ofRange p.2) cs).2).1 = true
        · rw [if_pos h4, if_pos (by simp)]
          intro c hc
          rcases List.mem_append.1 hc with hc | hc
          · exact h3 c hc
          · rw [List.mem_singleton] at hc
            subst hc
            exact ⟨_, rfl, ha, hO⟩
        · rw [if_neg h4, if_neg (by simp)]
          exact h3
      · rw [if_neg h1]
        exact oneEach_updCands _ h
  exact key l [] (by intro c hc; simp at hc)

/-- One level. -/
theorem aabbNN_step {D : List Seg → Pt ℚ → ℚ} (hD : Exact D) {O1 O2 : Voxel → Wrapper} {P U : Voxel → Voxel → Prop} {m : ℚ}
    {w1 w : Wrapper} {a b : Voxel} (hP : P a b) {top : Bool} {V : View} (hv : ∀ w, V.verts w ≠ []) (he : ∀ i, V.edges i ≠ [])
    (hU : ∀ x y, U x y → ∀ d, VertexEdge (V.verts (O1 x)) (V.edges (O2 y).id) d → m ≤ d)
    (htop : top = true → ∀ x y, P x y → VertexEdge (V.verts (O1 x)) (V.edges (O2 y).id) m) {s : NNState × Trees}
    (h1 : ∀ e ∈ s.1.opened, OneEach O1 O2 e.mesh e.cands) (h2 : ∀ e ∈ s.1.opened, 1 < e.cands.length) (h3 : ∀ i, s.2 i = none)
    (htr : Tracked P U m w1 w a b s.1) :
    (∀ e ∈ (aabbNN D top V s).1.opened, OneEach O1 O2 e.mesh e.cands) ∧ (∀ e ∈ (aabbNN D top V s).1.opened, 1 < e.cands.length) ∧
    (∀ i, (aabbNN D top V s).2 i = none) ∧ Tracked P U m w1 w a b (aabbNN D top V s).1 := by
  unfold aabbNN
  simp only
  by_cases g1 : (flatPairs s.1.opened).length = 0
  · rw [if_pos g1]; exact ⟨h1, h2, h3, htr⟩
  · rw [if_neg g1]
    by_cases g2 : segmentPairs ⟨V.size, fun _ _ => 0⟩ s.1.opened = 0
    · rw [if_pos g2]; exact ⟨h1, h2, h3, htr⟩
    · rw [if_neg g2]
      simp only
      obtain ⟨c1, _, c3⟩ := aabbCalc_spec hD true V.edges V.verts s.2 s.1.opened (fun e _ => ⟨hv _, fun c _ => he _⟩) (fun i _ => h3 i)
      have hs := nnStep_oneEach (O1 := O1) (O2 := O2) (top := top) (r := ⟨V.size, fun _ _ => 0⟩)
        (dist := fun i => ((aabbCalc true D V.edges V.verts s.2 s.1.opened).1 i).untopD 0) h1 h2
      refine ⟨fun e he => (hs e he).1, fun e he => (hs e he).2, fun i => c3 i (h3 i) (Or.inl rfl), ?_⟩
      refine tracked_step hP ?_ htr
      intro k p hp hUp _
      obtain ⟨e, c, hk, _, o1, o2⟩ := flat_position h1 hp
      obtain ⟨v, ev, hve⟩ := c1 h2 k e c hk
      rw [Nat.zero_add]
      show m ≤ ((aabbCalc true D V.edges V.verts s.2 s.1.opened).1 k).untopD 0 ∧ (top = true → P p.v1 p.v2 →
        ((aabbCalc true D V.edges V.verts s.2 s.1.opened).1 k).untopD 0 ≤ m)
      rw [ev, WithTop.untopD_coe]
      rw [← o1, ← o2] at hve
      exact ⟨hU _ _ hUp v hve, fun ht hPp => le_of_eq (hve.unique (htop ht _ _ hPp))⟩

/-- C77 (nearest neighbour with `--aabb`). All objects have one voxel (as after `disable_innerpart`). Let `p` be an object found by the index for `w1`, and
`m` the smallest squared distance from a vertex of `w1` to an edge of `p` at the highest requested level; assume no other
candidate is nearer in this sense at any requested level, and that the boxes' ranges are right. Then after any number of levels `p` is
still listed for `w1`, or `w1` was decided and `p` is the answer. Trees cached in the meshes are never out of date. -/
theorem C77_nearest_kept (D : List Seg → Pt ℚ → ℚ) (hD : Exact D) (F : Fp) (tile2 : Int → Wrapper) (O1 O2 : Voxel → Wrapper)
    (ht2 : ∀ i, (tile2 i).id = i ∧ ∃ b, (tile2 i).voxels = [b] ∧ O2 b = tile2 i)
    (es : List Entry) (hes : ∀ e ∈ es, ∃ w ids v, w.voxels = [v] ∧ O1 v = w ∧ e = mbbNN F tile2 w ids)
    (w1 : Wrapper) (a : Voxel) (hw1 : w1.voxels = [a]) (ha : O1 a = w1)
    (ids0 ids : List (Int × Range)) (hsort : SortedBy Prod.fst ids0 ids) (hpos : ∀ p ∈ ids0, 0 ≤ p.1)
    (hmem : mbbNN F tile2 w1 ids ∈ es)
    (lods : List Nat) (views : Nat → View)
    (hv : ∀ lod ∈ lods, (∀ w, (views lod).verts w ≠ []) ∧ ∀ i, (views lod).edges i ≠ [])
    (p : Int × Range) (hp : p ∈ ids0) (m : ℚ)
    (hm : VertexEdge ((views (lods.getLastD 0)).verts w1) ((views (lods.getLastD 0)).edges p.1) m)
    (hnear : ∀ lod ∈ lods, ∀ p' ∈ ids0, ∀ d, VertexEdge ((views lod).verts w1) ((views lod).edges p'.1) d → m ≤ d)
    (hlow : p.2.mindist ≤ m ∧ ∀ v1 ∈ w1.voxels, ∀ v2 ∈ (tile2 p.1).voxels, (v1.box.distance F v2.box).mindist ≤ m)
    (hrng : ∀ p' ∈ ids0, p'.1 = p.1 → p'.2 = p.2)
    (hhigh : ∀ p' ∈ ids0, m ≤ p'.2.maxdist ∧ ∀ v1 ∈ w1.voxels, ∀ v2 ∈ (tile2 p'.1).voxels, m ≤ (v1.box.distance F v2.box).maxdist) :
    (∃ e ∈ (aabbNearest D lods views es).1.opened, e.mesh = w1 ∧ ∃ c ∈ e.cands, c.mesh = tile2 p.1) ∨
    (∃ e ∈ (aabbNearest D lods views es).1.decided, e.mesh = w1 ∧ ∃ c, e.cands = [c] ∧ c.mesh = tile2 p.1) := by
  obtain ⟨b, hb, hbO⟩ := (ht2 p.1).2
  have hvox : ∀ i, b ∈ (tile2 i).voxels → i = p.1 := by
    intro i hi
    obtain ⟨b', hb', hO'⟩ := (ht2 i).2
    rw [hb', List.mem_singleton] at hi
    subst hi
    rw [hO'] at hbO
    rw [← (ht2 i).1, hbO, (ht2 p.1).1]
  obtain ⟨b1, b2⟩ := mbbNN_keeps F tile2 w1 ids0 ids hsort hpos (fun x y => x = a ∧ y = b) m
    (by
      intro p' hp' v1 h1 v2 h2
      refine ⟨?_, (hhigh p' hp').2 v1 h1 v2 h2⟩
      rintro ⟨rfl, rfl⟩
      exact hlow.2 _ h1 _ (by rw [hb]; exact List.mem_singleton.2 rfl))
    (by
      intro p' hp'
      refine ⟨?_, (hhigh p' hp').1⟩
      rintro v1 _ v2 h2 ⟨_, rfl⟩
      rw [hrng p' hp' (hvox _ h2)]
      exact hlow.1) p hp a b (by rw [hw1]; exact List.mem_singleton.2 rfl) (by rw [hb]; exact List.mem_singleton.2 rfl) ⟨rfl, rfl⟩
  have main : ∀ (ls : List Nat) (s : NNState × Trees), (∀ l ∈ ls, l ∈ lods) →
      (∀ e ∈ s.1.opened, OneEach O1 O2 e.mesh e.cands) → (∀ e ∈ s.1.opened, 1 < e.cands.length) → (∀ i, s.2 i = none) →
      Tracked (fun x y => x = a ∧ y = b) (Considered tile2 w1 ids0) m w1 (tile2 p.1) a b s.1 →
      Tracked (fun x y => x = a ∧ y = b) (Considered tile2 w1 ids0) m w1 (tile2 p.1) a b
        (ls.foldl (fun s lod => aabbNN D (lod == lods.getLastD 0) (views lod) s) s).1 := by
    intro ls
    induction ls with
    | nil => intro s _ _ _ _ h; exact h
    | cons l ls ih =>
      intro s hl s1 s2 s3 htr
      obtain ⟨q1, q2, q3, q4⟩ := aabbNN_step hD (O1 := O1) (O2 := O2) (P := fun x y => x = a ∧ y = b)
        (U := Considered tile2 w1 ids0) ⟨rfl, rfl⟩ (top := l == lods.getLastD 0)
        (hv l (hl l (List.mem_cons_self ..))).1 (hv l (hl l (List.mem_cons_self ..))).2 (by
          rintro x y ⟨hx, p', hp', hy⟩ d hd
          rw [hw1, List.mem_singleton] at hx
          subst hx
          obtain ⟨b', hb', hO'⟩ := (ht2 p'.1).2
          rw [hb', List.mem_singleton] at hy
          subst hy
          rw [ha, hO', (ht2 p'.1).1] at hd
          exact hnear l (hl l (List.mem_cons_self ..)) p' hp' d hd) (by
          rintro ht x y ⟨rfl, rfl⟩
          have : l = lods.getLastD 0 := by simpa using ht
          rw [this, ha, hbO, (ht2 p.1).1]
          exact hm) s1 s2 s3 htr
      exact ih _ (fun l' h' => hl l' (List.mem_cons_of_mem _ h')) q1 q2 q3 q4
  have start : ∀ e ∈ es, OneEach O1 O2 e.mesh e.cands := by
    intro e he
    obtain ⟨w, ids, v, hw, hO, rfl⟩ := hes e he
    exact mbbNN_oneEach F hw hO (fun i => (ht2 i).2) ids
  have htr := main lods (dropDecided ⟨es, [], 0⟩, fun _ => none) (fun _ h => h)
    (fun e he => start e (List.mem_of_mem_filter he))
    (fun e he => by
      simp only [dropDecided, List.mem_filter, decide_eq_true_eq] at he
      omega)
    (fun _ => rfl)
    (tracked_drop (s := ⟨es, [], 0⟩) ⟨⟨_, List.mem_append_left _ hmem, rfl, b1, b2⟩, by simp⟩)
  rcases tracked_result htr with ⟨e, he, e1, c, hc, e2, _⟩ | h
  · exact Or.inl ⟨e, he, e1, c, hc, e2⟩
  · exact Or.inr h

/-! ## Within -/

theorem wiCands_length (top : Bool) (L : ℚ) (sized : VPair → Bool) (dist : Nat → ℚ) : ∀ (cs : List Cand) (st : Nat × Bool),
    (wiCands top L sized dist st cs).2.length = cs.length
  | [], _ => rfl
  | c :: cs, st => by
      unfold wiCands
      by_cases h : (!st.2) = true
      · rw [if_pos h]; simp [wiCands_length top L sized dist cs]
      · rw [if_neg h]; simp [wiCands_length top L sized dist cs]

theorem wiEntries_length (top : Bool) (L : ℚ) (sized : VPair → Bool) (dist : Nat → ℚ) : ∀ (es : List Entry) (i : Nat),
    (∀ e ∈ es, 1 < e.cands.length) → ∀ e ∈ wiEntries top L sized dist i es, 1 < e.cands.length
  | [], _, _ => by intro e he; simp [wiEntries] at he
  | e :: es, i, h => by
      intro e' he'
      unfold wiEntries at he'
      rcases List.mem_cons.1 he' with rfl | he'
      · simp only [wiCands_length]; exact h e (List.mem_cons_self ..)
      · exact wiEntries_length top L sized dist es _ (fun e he => h e (List.mem_cons_of_mem _ he)) e' he'

/-- C77 (within with `--aabb`, partial). If every object has at least two candidates at the start, then at every level each candidate's
distance is the smallest squared distance from a vertex of the object to an edge of the candidate, both at this level. Missing: an
object with one candidate (see the counterexample). -/
theorem C77_within_distances_partial (D : List Seg → Pt ℚ → ℚ) (hD : Exact D) (limit : ℚ) (top : Nat) (views : Nat → View)
    (hv : ∀ lod, (∀ w, (views lod).verts w ≠ []) ∧ ∀ i, (views lod).edges i ≠ [])
    (es : List Entry) (hes : ∀ e ∈ es, 1 < e.cands.length) (before : List Nat) (lod : Nat) (s : List Entry × Trees)
    (hs : s = before.foldl (fun s lod => aabbWithin D (lod == top) limit (views lod) s) (es, fun _ => none)) :
    ∀ (k : Nat) (e : Entry) (c : Cand), (flatCands s.1)[k]? = some (e, c) →
      ∃ v : ℚ, (aabbCalc false D (views lod).edges (views lod).verts s.2 s.1).1 k = v ∧
        VertexEdge ((views lod).verts e.mesh) ((views lod).edges c.mesh.id) v := by
  have key : ∀ (ls : List Nat) (s : List Entry × Trees), (∀ e ∈ s.1, 1 < e.cands.length) → (∀ i, s.2 i = none) →
      (∀ e ∈ (ls.foldl (fun s lod => aabbWithin D (lod == top) limit (views lod) s) s).1, 1 < e.cands.length) ∧
      (∀ i, (ls.foldl (fun s lod => aabbWithin D (lod == top) limit (views lod) s) s).2 i = none) := by
    intro ls
    induction ls with
    | nil => intro s h1 h2; exact ⟨h1, h2⟩
    | cons l ls ih =>
      intro s h1 h2
      rw [List.foldl_cons]
      have hstep : (∀ e ∈ (aabbWithin D (l == top) limit (views l) s).1, 1 < e.cands.length) ∧
          (∀ i, (aabbWithin D (l == top) limit (views l) s).2 i = none) := by
        unfold aabbWithin
        simp only
        by_cases g1 : (flatPairs s.1).length = 0
        · rw [if_pos g1]; exact ⟨h1, h2⟩
        · rw [if_neg g1]
          by_cases g2 : segmentPairs ⟨(views l).size, fun _ _ => 0⟩ s.1 = 0
          · rw [if_pos g2]; exact ⟨h1, h2⟩
          · rw [if_neg g2]
            simp only
            obtain ⟨_, _, c3⟩ := aabbCalc_spec hD false (views l).edges (views l).verts s.2 s.1
              (fun e _ => ⟨(hv l).1 _, fun c _ => (hv l).2 _⟩) (fun i _ => h2 i)
            refine ⟨?_, fun i => c3 i (h2 i) (Or.inr h1)⟩
            intro e he
            unfold wiStep at he
            rw [if_neg g1, if_neg g2] at he
            exact wiEntries_length _ _ _ _ s.1 0 h1 e (List.mem_of_mem_filter he)
      exact ih _ hstep.1 hstep.2
  obtain ⟨k1, k2⟩ := key before (es, fun _ => none) hes (fun _ => rfl)
  rw [← hs] at k1 k2
  exact (aabbCalc_spec hD false (views lod).edges (views lod).verts s.2 s.1 (fun e _ => ⟨(hv lod).1 _, fun c _ => (hv lod).2 _⟩)
    (fun i _ => k2 i)).1 k1

/-! ## A tree that keeps the contract -/

/-- Squared distance from a point to a segment. -/
def ptSeg (p : Pt ℚ) (s : Seg) : ℚ :=
  let uu := dist2 s.p s.q
  let w := (p 0 - s.p 0) * (s.q 0 - s.p 0) + (p 1 - s.p 1) * (s.q 1 - s.p 1) + (p 2 - s.p 2) * (s.q 2 - s.p 2)
  dist2 p (s.pt (max 0 (min 1 (w / uu))))

/-- To several segments. -/
def treeDist : List Seg → Pt ℚ → ℚ
  | [], _ => 0
  | [s], p => ptSeg p s
  | s :: t :: ss, p => min (ptSeg p s) (treeDist (t :: ss) p)

theorem ptSeg_le (p : Pt ℚ) (s : Seg) (t : ℚ) (h0 : 0 ≤ t) (h1 : t ≤ 1) : ptSeg p s ≤ dist2 p (s.pt t) := by
  unfold ptSeg
  simp only
  obtain ⟨uu, huu⟩ : ∃ uu, dist2 s.p s.q = uu := ⟨_, rfl⟩
  obtain ⟨w, hw⟩ : ∃ w, (p 0 - s.p 0) * (s.q 0 - s.p 0) + (p 1 - s.p 1) * (s.q 1 - s.p 1) + (p 2 - s.p 2) * (s.q 2 - s.p 2) = w := ⟨_, rfl⟩
  rw [huu, hw]
  have expand : ∀ x, dist2 p (s.pt x) = dist2 p s.p - 2 * x * w + x ^ 2 * uu := by
    intro x
    rw [← huu, ← hw]
    simp only [dist2, Seg.pt]; ring
  rw [expand, expand]
  have hpos : 0 ≤ uu := by rw [← huu]; unfold dist2; positivity
  rcases hpos.lt_or_eq with hp | hz
  · by_cases a : w / uu ≤ 0
    · rw [max_eq_left (le_trans (min_le_right _ _) a)]
      have : w ≤ 0 := by
        by_contra hc
        exact absurd (div_pos (not_le.1 hc) hp) (not_lt.2 a)
      nlinarith [mul_nonneg h0 (neg_nonneg.2 this), mul_nonneg (sq_nonneg t) hpos]
    · have a' := not_le.1 a
      by_cases b : 1 ≤ w / uu
      · rw [min_eq_left b, max_eq_right zero_le_one]
        have : uu ≤ w := by rwa [le_div_iff₀ hp, one_mul] at b
        nlinarith [mul_nonneg (sub_nonneg.2 h1) (sub_nonneg.2 this), mul_nonneg (sq_nonneg (1 - t)) hpos]
      · have b' := le_of_lt (not_le.1 b)
        rw [min_eq_right b', max_eq_right (le_of_lt a')]
        have e : w = (w / uu) * uu := by field_simp
        obtain ⟨y, hy⟩ : ∃ y, w / uu = y := ⟨_, rfl⟩
        rw [hy] at e ⊢
        rw [e]
        nlinarith [mul_nonneg (sq_nonneg (t - y)) hpos]
  · have hw0 : w = 0 := by
      rw [← huu] at hz
      unfold dist2 at hz
      have x0 : s.p 0 - s.q 0 = 0 := by nlinarith [sq_nonneg (s.p 0 - s.q 0), sq_nonneg (s.p 1 - s.q 1), sq_nonneg (s.p 2 - s.q 2)]
      have x1 : s.p 1 - s.q 1 = 0 := by nlinarith [sq_nonneg (s.p 0 - s.q 0), sq_nonneg (s.p 1 - s.q 1), sq_nonneg (s.p 2 - s.q 2)]
      have x2 : s.p 2 - s.q 2 = 0 := by nlinarith [sq_nonneg (s.p 0 - s.q 0), sq_nonneg (s.p 1 - s.q 1), sq_nonneg (s.p 2 - s.q 2)]
      rw [← hw, show s.q 0 = s.p 0 by linarith, show s.q 1 = s.p 1 by linarith, show s.q 2 = s.p 2 by linarith]; ring
    rw [← hz, hw0]; simp

theorem ptSeg_mem (p : Pt ℚ) (s : Seg) : ∃ t : ℚ, 0 ≤ t ∧ t ≤ 1 ∧ ptSeg p s = dist2 p (s.pt t) :=
  ⟨_, le_max_left _ _, max_le zero_le_one (min_le_left _ _), rfl⟩

/-- The contract can be met. -/
theorem treeDist_exact : Exact treeDist := by
  have one : ∀ p s, VertexEdge [p] [s] (ptSeg p s) := by
    intro p s
    constructor
    · obtain ⟨t, h⟩ := ptSeg_mem p s
      exact ⟨p, List.mem_singleton.2 rfl, s, List.mem_singleton.2 rfl, t, h⟩
    · rintro x ⟨p', hp', s', hs', t, h0, h1, rfl⟩
      rw [List.mem_singleton] at hp' hs'
      subst hp'; subst hs'
      exact ptSeg_le _ _ t h0 h1
  intro ss p
  induction ss with
  | nil => intro h; exact absurd rfl h
  | cons s ss ih =>
    intro _
    cases ss with
    | nil => exact one p s
    | cons t ss =>
      have h2 := ih (by simp)
      have h1 := one p s
      show VertexEdge [p] (s :: t :: ss) (min (ptSeg p s) (treeDist (t :: ss) p))
      constructor
      · rcases le_total (ptSeg p s) (treeDist (t :: ss) p) with h | h
        · rw [min_eq_left h]
          obtain ⟨q, hq, s', hs', x⟩ := h1.1
          rw [List.mem_singleton] at hs'; subst hs'
          exact ⟨q, hq, s', List.mem_cons_self .., x⟩
        · rw [min_eq_right h]
          obtain ⟨q, hq, s', hs', x⟩ := h2.1
          exact ⟨q, hq, s', List.mem_cons_of_mem _ hs', x⟩
      · rintro x ⟨q, hq, s', hs', r⟩
        rcases List.mem_cons.1 hs' with rfl | hs'
        · exact le_trans (min_le_left _ _) (h1.2 ⟨q, hq, s', List.mem_singleton.2 rfl, r⟩)
        · exact le_trans (min_le_right _ _) (h2.2 ⟨q, hq, s', hs', r⟩)

/-! ## Counterexamples -/

namespace ExAabb
open TDP.Kernels
/-- Any box. -/
def bx (l h : ℚ) : Box ℚ := ⟨fun _ => l, fun _ => h⟩
/-- The six edges of a tetrahedron. -/
def tetra (a b c d : Pt ℚ) : List Seg := [⟨a, b⟩, ⟨a, c⟩, ⟨a, d⟩, ⟨b, c⟩, ⟨b, d⟩, ⟨c, d⟩]
/-- The object whose neighbours are sought. -/
def wA : Wrapper := ⟨0, bx (-2) 2, [⟨10, bx (-2) 2⟩]⟩
/-- Its vertices; one edge runs from (-2,0,0) to (2,0,0). -/
def vertsA : List (Pt ℚ) := [pt3 (-2) 0 0, pt3 2 0 0, pt3 2 1 2, pt3 2 (-1) 2]
/-- Object 1 touches it: one edge runs from (0,-2,0) to (0,2,0). -/
def edgesB : List Seg := tetra (pt3 0 (-2) 0) (pt3 0 2 0) (pt3 (1/2) 0 (-2)) (pt3 (-1/2) 0 (-2))
/-- Object 2 is one unit away. -/
def edgesC : List Seg := tetra (pt3 3 0 0) (pt3 4 0 0) (pt3 4 1 2) (pt3 4 (-1) 2)
/-- What every level shows. -/
def V : View := ⟨fun _ => vertsA, fun i => if i = 1 then edgesB else edgesC, fun _ => 6⟩
/-- Addresses of voxels. -/
def adr (i : Int) : Nat := 20 + 2 * i.natAbs + (if i < 0 then 1 else 0)
/-- Back. -/
def unadr (n : Nat) : Int := if n % 2 = 0 then ((n - 20) / 2 : Nat) else -((n - 20) / 2 : Nat)
/-- The two other objects. -/
def w2 (i : Int) : Wrapper := ⟨i, bx (-2) 4, [⟨adr i, bx (-2) 4⟩]⟩
/-- The range of a pair. -/
def pr (i : Int) : VPair := ⟨⟨10, bx (-2) 2⟩, ⟨adr i, bx (-2) 4⟩, ⟨0, 100⟩, false⟩
/-- The entry after filtering. -/
def entry : Entry := ⟨wA, [⟨w2 1, ⟨0, 100⟩, [pr 1]⟩, ⟨w2 2, ⟨0, 100⟩, [pr 2]⟩]⟩

/-- C77 counterexample. With `--aabb` an object that touches the given one is dropped, and one that is a unit away is the answer:
only vertices of the first object are compared with edges of the second. -/
theorem C77_counterexample_nearest :
    (pt3 (-2) 0 0 ∈ vertsA ∧ pt3 2 0 0 ∈ vertsA ∧ (⟨pt3 0 (-2) 0, pt3 0 2 0⟩ : Seg) ∈ edgesB ∧
      dist2 ((⟨pt3 (-2) 0 0, pt3 2 0 0⟩ : Seg).pt (1/2)) ((⟨pt3 0 (-2) 0, pt3 0 2 0⟩ : Seg).pt (1/2)) = 0) ∧
    (aabbNearest treeDist [100] (fun _ => V) [entry]).1.decided.map (fun e => e.cands.map (fun c => c.mesh.id)) = [[2]] ∧
    (∀ s ∈ edgesC, 3 ≤ s.p 0 ∧ 3 ≤ s.q 0) ∧ ∀ p ∈ vertsA, p 0 ≤ 2 := by
  refine ⟨⟨by simp [vertsA], by simp [vertsA], by simp [edgesB, tetra], by decide +kernel⟩, by decide +kernel, ?_, ?_⟩
  · intro s hs
    fin_cases hs <;> decide +kernel
  · intro p hp
    fin_cases hp <;> decide +kernel

/-- C77 counterexample. `within` with `--aabb` and limit 10: an object with one candidate is done (taken for within) whatever the
distance: here the squared distance is 10000. -/
theorem C77_counterexample_within (D : List Seg → Pt ℚ → ℚ) (hD : Exact D) :
    (aabbWithin D true 10 ⟨fun _ => [pt3 0 0 0], fun _ => [⟨pt3 100 0 0, pt3 100 1 0⟩], fun _ => 1⟩
      ([⟨wA, [⟨w2 1, ⟨0, 0⟩, [pr 1]⟩]⟩], fun _ => none)).1 = [] ∧
    VertexEdge [pt3 0 0 0] [⟨pt3 100 0 0, pt3 100 1 0⟩] 10000 := by
  constructor
  · rfl
  · constructor
    · exact ⟨_, List.mem_singleton.2 rfl, _, List.mem_singleton.2 rfl, 0, le_refl _, zero_le_one, by decide +kernel⟩
    · rintro x ⟨p, hp, s, hs, t, h0, h1, rfl⟩
      rw [List.mem_singleton] at hp hs
      subst hp; subst hs
      simp [dist2, Seg.pt, pt3]
      nlinarith

/-- The hypotheses of the nearest-neighbour theorem are met, the answer being found by the trees. -/
example : (∃ e ∈ (aabbNearest treeDist [50, 100] (fun _ => V) [mbbNN Fp.exact w2 wA [(1, ⟨0, 100⟩), (2, ⟨0, 100⟩)]]).1.opened,
      e.mesh = wA ∧ ∃ c ∈ e.cands, c.mesh = w2 2) ∨
    (∃ e ∈ (aabbNearest treeDist [50, 100] (fun _ => V) [mbbNN Fp.exact w2 wA [(1, ⟨0, 100⟩), (2, ⟨0, 100⟩)]]).1.decided,
      e.mesh = wA ∧ ∃ c, e.cands = [c] ∧ c.mesh = w2 2) := by
  have comb : ∀ ss : List Seg, ss ≠ [] → VertexEdge vertsA ss
      (min (treeDist ss (pt3 (-2) 0 0)) (min (treeDist ss (pt3 2 0 0)) (min (treeDist ss (pt3 2 1 2)) (treeDist ss (pt3 2 (-1) 2))))) :=
    fun ss h => vertexEdge_cons (treeDist_exact ss _ h) (vertexEdge_cons (treeDist_exact ss _ h)
      (vertexEdge_cons (treeDist_exact ss _ h) (treeDist_exact ss _ h)))
  have e2 : VertexEdge vertsA edgesC 1 := by
    have := comb edgesC (by simp [edgesC, tetra])
    rwa [show min (treeDist edgesC (pt3 (-2) 0 0)) (min (treeDist edgesC (pt3 2 0 0)) (min (treeDist edgesC (pt3 2 1 2))
      (treeDist edgesC (pt3 2 (-1) 2)))) = 1 by decide +kernel] at this
  have e1 : VertexEdge vertsA edgesB (min (treeDist edgesB (pt3 (-2) 0 0)) (min (treeDist edgesB (pt3 2 0 0))
      (min (treeDist edgesB (pt3 2 1 2)) (treeDist edgesB (pt3 2 (-1) 2))))) := comb edgesB (by simp [edgesB, tetra])
  refine C77_nearest_kept treeDist treeDist_exact Fp.exact w2 (fun _ => wA) (fun v => w2 (unadr v.addr))
    ?_ _ ?_ wA ⟨10, bx (-2) 2⟩ rfl rfl [(1, ⟨0, 100⟩), (2, ⟨0, 100⟩)] _ ⟨List.Perm.refl _, by simp⟩ (by simp)
    (List.mem_singleton.2 rfl) [50, 100] (fun _ => V) ?_ (2, ⟨0, 100⟩) (by simp) 1 e2 ?_ ?_ ?_ ?_
  · intro i
    refine ⟨rfl, _, rfl, ?_⟩
    simp only
    congr 1
    unfold unadr adr
    by_cases h : i < 0
    · rw [if_pos h, if_neg (by omega)]; omega
    · rw [if_neg h, if_pos (by omega)]; omega
  · intro e he
    rw [List.mem_singleton] at he
    subst he
    exact ⟨wA, _, _, rfl, rfl, rfl⟩
  · intro lod _
    refine ⟨fun w => by simp [V, vertsA], fun i => ?_⟩
    simp only [V]
    by_cases h : i = 1
    · rw [if_pos h]; simp [edgesB, tetra]
    · rw [if_neg h]; simp [edgesC, tetra]
  · intro lod _ p' hp' d hd
    simp only [List.mem_cons, List.not_mem_nil, or_false] at hp'
    rcases hp' with rfl | rfl
    · have : d = _ := hd.unique e1
      rw [this]; decide +kernel
    · exact le_of_eq (e2.unique hd)
  · refine ⟨by norm_num, ?_⟩
    intro v1 h1 v2 h2
    simp only [wA, w2, List.mem_singleton] at h1 h2
    subst h1; subst h2; decide +kernel
  · simp
  · intro p' hp'
    simp only [List.mem_cons, List.not_mem_nil, or_false] at hp'
    rcases hp' with rfl | rfl
    all_goals
      refine ⟨by norm_num, ?_⟩
      intro v1 h1 v2 h2
      simp only [wA, w2, List.mem_singleton] at h1 h2
      subst h1; subst h2; decide +kernel

/-- Both candidates pass the filter; the trees decide. -/
example : (mbbNN Fp.exact w2 wA [(1, ⟨0, 100⟩), (2, ⟨0, 100⟩)]).cands.length = 2 ∧
    (aabbNearest treeDist [50, 100] (fun _ => V) [mbbNN Fp.exact w2 wA [(1, ⟨0, 100⟩), (2, ⟨0, 100⟩)]]).1.decided.map
      (fun e => e.cands.map (fun c => c.mesh.id)) = [[2]] := by decide +kernel

/-- The hypotheses of the theorem about `within` are met by this entry, at two levels. -/
example : ∃ v : ℚ, (aabbCalc false treeDist V.edges V.verts (aabbWithin treeDist false (1/2) V ([entry], fun _ => none)).2
      (aabbWithin treeDist false (1/2) V ([entry], fun _ => none)).1).1 1 = v ∧ VertexEdge vertsA edgesC v := by
  have h := C77_within_distances_partial treeDist treeDist_exact (1/2) 100 (fun _ => V) (fun lod => ⟨fun w => by simp [V, vertsA], fun i => by
      simp only [V]
      by_cases h : i = 1
      · rw [if_pos h]; simp [edgesB, tetra]
      · rw [if_neg h]; simp [edgesC, tetra]⟩) [entry] (by simp [entry]) [50] 100 _ rfl 1
  have hc : ((flatCands (aabbWithin treeDist false (1/2) V ([entry], fun _ => none)).1)[1]?).map (fun x => x.2.mesh.id) = some 2 := by decide +kernel
  cases hx : (flatCands (aabbWithin treeDist false (1/2) V ([entry], fun _ => none)).1)[1]? with
  | none => rw [hx] at hc; simp at hc
  | some ec =>
    rw [hx] at hc
    obtain ⟨e, c⟩ := ec
    have hid : c.mesh.id = 2 := by simpa using hc
    have := h e c hx
    rw [hid] at this
    exact this
end ExAabb

end TDP.EndToEnd
