import Verif.Fixer.Holes
import Mathlib.Data.List.Rotate
/-! C83: what `fill_holes` makes of a mesh. -/
namespace TDP.Fixer

theorem mem_edges_iff (faces : List (List Nat)) (a b : Nat) : (a, b) ∈ faces.flatMap faceEdges ↔ Edge faces a b := by
  rw [List.mem_flatMap]
  unfold Edge
  simp only [mem_faceEdges_iff]

theorem faceEdges_fst (f : List Nat) : (faceEdges f).map Prod.fst = f := by
  unfold faceEdges
  rw [List.map_map]
  apply List.ext_getElem
  · simp
  · intro i h1 h2
    simp [h2]

theorem faceEdges_snd (f : List Nat) : (faceEdges f).map Prod.snd = f.rotate 1 := by
  unfold faceEdges
  rw [List.map_map]
  apply List.ext_getElem
  · simp
  · intro i h1 h2
    rw [List.getElem_rotate]
    have : (i + 1) % f.length < f.length := Nat.mod_lt _ (by rw [List.length_rotate] at h2; omega)
    simp [this]

theorem faceEdges_length (f : List Nat) : (faceEdges f).length = f.length := by simp [faceEdges]

theorem faceEdges_get {f : List Nat} {i : Nat} (h : i < f.length) : (faceEdges f)[i]? = some (f.getD i 0, f.getD ((i + 1) % f.length) 0) := by
  simp [faceEdges, h]

theorem get_eq_iff {f g : List Nat} {i j : Nat} (hi : i < f.length) (hj : j < g.length) :
    (f.getD i 0 = g.getD j 0) ↔ f[i]? = g[j]? := by
  rw [getD_lt hi, getD_lt hj, List.getElem?_eq_getElem hi, List.getElem?_eq_getElem hj, Option.some.injEq]

theorem once_iff (faces : List (List Nat)) : Once faces ↔ (faces.flatMap faceEdges).Nodup := by
  have hmod : ∀ {f : List Nat} {i : Nat}, i < f.length → (i + 1) % f.length < f.length := fun h => Nat.mod_lt _ (by omega)
  rw [List.nodup_flatMap]
  constructor
  · intro h
    constructor
    · intro f hf
      obtain ⟨s, hs, rfl⟩ := List.mem_iff_getElem.1 hf
      have hs' : faces[s]? = some faces[s] := List.getElem?_eq_getElem hs
      rw [List.nodup_iff_injective_getElem]
      rintro ⟨i, hi⟩ ⟨j, hj⟩ he
      rw [faceEdges_length] at hi hj
      have e1 := faceEdges_get hi
      have e2 := faceEdges_get hj
      rw [List.getElem?_eq_getElem (by rw [faceEdges_length]; exact hi), Option.some.injEq] at e1
      rw [List.getElem?_eq_getElem (by rw [faceEdges_length]; exact hj), Option.some.injEq] at e2
      simp only at he
      rw [e1, e2, Prod.mk.injEq, get_eq_iff hi hj, get_eq_iff (hmod hi) (hmod hj)] at he
      exact Fin.ext (h s s i j _ _ hs' hs' hi hj he.1 he.2).2
    · rw [List.pairwise_iff_getElem]
      intro s t hs ht hst e h1 h2
      obtain ⟨i, hi, he1⟩ := List.mem_iff_getElem.1 h1
      obtain ⟨j, hj, he2⟩ := List.mem_iff_getElem.1 h2
      rw [faceEdges_length] at hi hj
      have e1 := faceEdges_get hi
      have e2 := faceEdges_get hj
      rw [List.getElem?_eq_getElem (by rw [faceEdges_length]; exact hi), Option.some.injEq, he1] at e1
      rw [List.getElem?_eq_getElem (by rw [faceEdges_length]; exact hj), Option.some.injEq, he2, e1, Prod.mk.injEq, get_eq_iff hi hj, get_eq_iff (hmod hi) (hmod hj)] at e2
      have := (h s t i j _ _ (List.getElem?_eq_getElem hs) (List.getElem?_eq_getElem ht) hi hj e2.1 e2.2).1
      omega
  · rintro ⟨h1, h2⟩ s t i j f g hs ht hi hj ha hb
    rw [← get_eq_iff hi hj] at ha
    rw [← get_eq_iff (hmod hi) (hmod hj)] at hb
    have e1 := faceEdges_get hi
    have e2 := faceEdges_get hj
    rw [← ha, ← hb] at e2
    have m1 := List.mem_of_getElem? e1
    have m2 := List.mem_of_getElem? e2
    obtain ⟨hs', rfl⟩ := List.getElem?_eq_some_iff.1 hs
    obtain ⟨ht', rfl⟩ := List.getElem?_eq_some_iff.1 ht
    rw [List.pairwise_iff_getElem] at h2
    rcases Nat.lt_trichotomy s t with h | h | h
    · exact absurd m2 (fun h' => h2 s t hs' ht' h m1 h')
    · subst h
      refine ⟨rfl, ?_⟩
      have hn := h1 _ (List.getElem_mem hs')
      obtain ⟨hi', e1⟩ := List.getElem?_eq_some_iff.1 e1
      obtain ⟨hj', e2⟩ := List.getElem?_eq_some_iff.1 e2
      exact (hn.getElem_inj_iff).1 (e1.trans e2.symm)
    · exact absurd m1 (fun h' => h2 t s ht' hs' h m2 h')

/-! ### As many boundary edges begin at a vertex as end there -/

theorem ends_perm (faces : List (List Nat)) : ((faces.flatMap faceEdges).map Prod.fst).Perm ((faces.flatMap faceEdges).map Prod.snd) := by
  induction faces with
  | nil => exact .nil
  | cons f faces ih =>
    rw [List.flatMap_cons, List.map_append, List.map_append]
    refine List.Perm.append ?_ ih
    rw [faceEdges_fst, faceEdges_snd]
    exact (List.rotate_perm f 1).symm

theorem filter_split {A : Type} (p q : A → Bool) (l : List A) :
    (l.filter p).length = (l.filter (fun x => p x && q x)).length + (l.filter (fun x => p x && !q x)).length := by
  induction l with
  | nil => rfl
  | cons x l ih =>
    simp only [List.filter_cons]
    cases p x <;> cases q x <;> simp [ih] <;> omega

theorem balance (E : List (Nat × Nat)) (hn : E.Nodup) (hp : (E.map Prod.fst).Perm (E.map Prod.snd)) (v : Nat) :
    (E.filter (fun e => decide (e.1 = v) && decide (e.swap ∉ E))).length = (E.filter (fun e => decide (e.2 = v) && decide (e.swap ∉ E))).length := by
  have h1 : (E.filter (fun e => decide (e.1 = v))).length = (E.filter (fun e => decide (e.2 = v))).length := by
    have := hp.countP_eq (fun x => decide (x = v))
    rw [List.countP_map, List.countP_map, List.countP_eq_length_filter, List.countP_eq_length_filter] at this
    exact this
  have h2 : (E.filter (fun e => decide (e.1 = v) && !decide (e.swap ∉ E))).length = (E.filter (fun e => decide (e.2 = v) && !decide (e.swap ∉ E))).length := by
    have : ((E.filter (fun e => decide (e.1 = v) && !decide (e.swap ∉ E))).map Prod.swap).Perm (E.filter (fun e => decide (e.2 = v) && !decide (e.swap ∉ E))) := by
      rw [List.perm_ext_iff_of_nodup]
      · rintro ⟨a, b⟩
        simp only [List.mem_map, List.mem_filter, Bool.and_eq_true, decide_eq_true_eq, Bool.not_eq_true', decide_eq_false_iff_not, not_not, Prod.exists,
          Prod.swap_prod_mk, Prod.mk.injEq]
        constructor
        · rintro ⟨x, y, ⟨h1, h2, h3⟩, rfl, rfl⟩
          exact ⟨h3, h2, h1⟩
        · rintro ⟨h1, h2, h3⟩
          exact ⟨b, a, ⟨h3, h2, h1⟩, rfl, rfl⟩
      · exact (hn.filter _).map Prod.swap_injective
      · exact hn.filter _
    have := this.length_eq
    rwa [List.length_map] at this
  have h3 := filter_split (fun e : Nat × Nat => decide (e.1 = v)) (fun e => decide (e.swap ∉ E)) E
  have h4 := filter_split (fun e : Nat × Nat => decide (e.2 = v)) (fun e => decide (e.swap ∉ E)) E
  omega

theorem boundary_balance {faces : List (List Nat)} (h1 : Once faces) (hfan : ∀ a b c, Boundary faces a b → Boundary faces a c → b = c) :
    (∀ a b c, Boundary faces a c → Boundary faces b c → a = b) ∧ (∀ a b, Boundary faces a b → (∃ c, Boundary faces b c) ∧ ∃ c, Boundary faces c a) := by
  have hn := (once_iff faces).1 h1
  have hb := balance _ hn (ends_perm faces)
  obtain ⟨E, hE⟩ : ∃ E, faces.flatMap faceEdges = E := ⟨_, rfl⟩
  have hB : ∀ a b, Boundary faces a b ↔ (a, b) ∈ E ∧ (b, a) ∉ E := by
    intro a b
    unfold Boundary
    rw [← mem_edges_iff, ← mem_edges_iff, hE]
  rw [hE] at hb hn
  have hout : ∀ v, (E.filter (fun e => decide (e.1 = v) && decide (e.swap ∉ E))).length ≤ 1 := by
    intro v
    by_contra hlt
    obtain ⟨x, y, l, hl⟩ : ∃ x y l, E.filter (fun e => decide (e.1 = v) && decide (e.swap ∉ E)) = x :: y :: l := by
      match h : E.filter (fun e => decide (e.1 = v) && decide (e.swap ∉ E)) with
      | [] => rw [h] at hlt; simp at hlt
      | [x] => rw [h] at hlt; simp at hlt
      | x :: y :: l => exact ⟨x, y, l, h⟩
    have hnd := hn.filter (fun e => decide (e.1 = v) && decide (e.swap ∉ E))
    have hx : x ∈ E.filter (fun e => decide (e.1 = v) && decide (e.swap ∉ E)) := by rw [hl]; simp
    have hy : y ∈ E.filter (fun e => decide (e.1 = v) && decide (e.swap ∉ E)) := by rw [hl]; simp
    rw [hl] at hnd
    obtain ⟨x1, x2⟩ := x
    obtain ⟨y1, y2⟩ := y
    simp only [List.mem_filter, Bool.and_eq_true, decide_eq_true_eq, Prod.swap_prod_mk] at hx hy
    obtain ⟨hx1, rfl, hx3⟩ := hx
    obtain ⟨hy1, rfl, hy3⟩ := hy
    have := hfan _ _ _ ((hB _ _).2 ⟨hx1, hx3⟩) ((hB _ _).2 ⟨hy1, hy3⟩)
    subst this
    simp at hnd
  have hin1 : ∀ v a, Boundary faces a v → (a, v) ∈ E.filter (fun e => decide (e.2 = v) && decide (e.swap ∉ E)) := by
    intro v a h
    simpa [List.mem_filter] using (hB a v).1 h
  have hout1 : ∀ v b, Boundary faces v b → (v, b) ∈ E.filter (fun e => decide (e.1 = v) && decide (e.swap ∉ E)) := by
    intro v b h
    simpa [List.mem_filter] using (hB v b).1 h
  refine ⟨?_, ?_⟩
  · intro a b c ha hb'
    have h1 := hin1 c a ha
    have h2 := hin1 c b hb'
    have hle := hout c
    rw [hb c] at hle
    obtain ⟨L, hL⟩ : ∃ L, E.filter (fun e => decide (e.2 = c) && decide (e.swap ∉ E)) = L := ⟨_, rfl⟩
    rw [hL] at h1 h2 hle
    match L, hle, h1, h2 with
    | [x], _, h1, h2 =>
      rw [List.mem_singleton] at h1 h2
      have := h1.trans h2.symm
      exact (Prod.mk.inj this).1
  · intro a b hab
    constructor
    · have h1 := List.length_pos_of_mem (hin1 b a hab)
      rw [← hb b] at h1
      obtain ⟨⟨x, y⟩, hx⟩ := List.exists_mem_of_length_pos h1
      simp only [List.mem_filter, Bool.and_eq_true, decide_eq_true_eq, Prod.swap_prod_mk] at hx
      obtain ⟨hx1, rfl, hx3⟩ := hx
      exact ⟨y, (hB _ _).2 ⟨hx1, hx3⟩⟩
    · have h1 := List.length_pos_of_mem (hout1 a b hab)
      rw [hb a] at h1
      obtain ⟨⟨x, y⟩, hx⟩ := List.exists_mem_of_length_pos h1
      simp only [List.mem_filter, Bool.and_eq_true, decide_eq_true_eq, Prod.swap_prod_mk] at hx
      obtain ⟨hx1, rfl, hx3⟩ := hx
      exact ⟨x, (hB _ _).2 ⟨hx1, hx3⟩⟩

/-! ### The maps of the program -/

theorem connectMap_sound (S : List (Nat × Nat)) : ∀ (c : Nat → Option Nat) (v a : Nat), connectMap S c v = some a → (a, v) ∈ S ∨ c v = some a := by
  induction S with
  | nil => intro c v a h; exact .inr h
  | cons e S ih =>
    intro c v a h
    rcases ih _ _ _ h with h | h
    · exact .inl (List.mem_cons_of_mem _ h)
    · by_cases hv : v = e.2
      · rw [if_pos hv, Option.some.injEq] at h
        left
        rw [← h, hv]
        exact List.mem_cons_self
      · rw [if_neg hv] at h; exact .inr h

theorem connectMap_total (S : List (Nat × Nat)) : ∀ (c : Nat → Option Nat) (v a : Nat), ((a, v) ∈ S ∨ c v = some a) → ∃ a', connectMap S c v = some a' := by
  induction S with
  | nil =>
    rintro c v a (h | h)
    · exact absurd h (by simp)
    · exact ⟨a, h⟩
  | cons e S ih =>
    intro c v a h
    by_cases hv : v = e.2
    · exact ih _ v e.1 (.inr (by rw [if_pos hv]))
    · rcases h with h | h
      · rcases List.mem_cons.1 h with rfl | h
        · exact absurd rfl hv
        · exact ih _ v a (.inl h)
      · exact ih _ v a (.inr (by rw [if_neg hv]; exact h))

theorem mem_boundaryKeys (S : List (Nat × Nat)) : ∀ (ks : List Nat) (x : Nat), x ∈ boundaryKeys S ks ↔ x ∈ ks ∨ ∃ e ∈ S, x = e.1 ∨ x = e.2 := by
  induction S with
  | nil => simp [boundaryKeys]
  | cons e S ih =>
    intro ks x
    rw [boundaryKeys, ih, mem_insertKey, mem_insertKey]
    simp only [List.mem_cons, exists_eq_or_imp]
    generalize (∃ e ∈ S, x = e.1 ∨ x = e.2) = Q
    tauto

theorem mem_single {P : Type} {m : Poly P} (hc : m.Current) (a b : Nat) : (a, b) ∈ singleEdges m.edges ↔ Boundary m.faces a b := by
  unfold singleEdges Boundary
  rw [List.mem_filter, decide_eq_true_eq, hc, hc]

/-- Everything about `fill_holes` on a mesh with a current table; it reads the table only. -/
theorem fill_core {P : Type} (m : Poly P) (hc : m.Current) :
    ∃ (K : Nat) (new : List (List Nat)), (∀ m' : Poly P, m'.edges = m.edges → ∀ fuel, K ≤ fuel → fillHoles fuel m' = some (new.foldl addFace m')) ∧
      (∀ g ∈ new, g ≠ [] ∧ g.Nodup ∧ ∀ a b, Follows g a b → Boundary m.faces b a) ∧ new.Pairwise (fun g h => ∀ x ∈ g, x ∉ h) ∧
      (Once m.faces → (∀ a b c, Boundary m.faces a b → Boundary m.faces a c → b = c) → ∀ a b, Boundary m.faces a b → ∃ g ∈ new, Follows g b a) := by
  by_cases h0 : singleEdges m.edges = []
  · refine ⟨0, [], ?_, by simp, List.Pairwise.nil, ?_⟩
    · intro m' he fuel _
      unfold fillHoles
      rw [he, if_pos h0]; rfl
    · intro _ _ a b hab
      rw [← mem_single hc, h0] at hab
      exact absurd hab (by simp)
  · obtain ⟨c, hcdef⟩ : ∃ c, connectMap (singleEdges m.edges) (fun _ => none) = c := ⟨_, rfl⟩
    obtain ⟨keys, hkdef⟩ : ∃ k, boundaryKeys (singleEdges m.edges) [] = k := ⟨_, rfl⟩
    have hsound : ∀ v a, c v = some a → Boundary m.faces a v := by
      intro v a h
      rw [← hcdef] at h
      rcases connectMap_sound _ _ _ _ h with h | h
      · exact (mem_single hc _ _).1 h
      · exact absurd h (by simp)
    have htotal : ∀ a v, Boundary m.faces a v → ∃ a', c v = some a' := by
      intro a v h
      rw [← hcdef]
      exact connectMap_total _ _ v a (.inl ((mem_single hc _ _).2 h))
    have hkeys : ∀ x, x ∈ keys ↔ ∃ y, Boundary m.faces x y ∨ Boundary m.faces y x := by
      intro x
      rw [← hkdef, mem_boundaryKeys]
      simp only [List.not_mem_nil, false_or, Prod.exists]
      constructor
      · rintro ⟨a, b, h, rfl | rfl⟩
        · exact ⟨b, .inl ((mem_single hc _ _).1 h)⟩
        · exact ⟨a, .inr ((mem_single hc _ _).1 h)⟩
      · rintro ⟨y, h | h⟩
        · exact ⟨x, y, (mem_single hc _ _).2 h, .inl rfl⟩
        · exact ⟨y, x, (mem_single hc _ _).2 h, .inr rfl⟩
    obtain ⟨K, r, hK, r1, r2, r3⟩ := holeFaces_spec c keys (fun a b h => (hkeys b).2 ⟨a, .inl (hsound _ _ h)⟩) _ [] [] rfl List.nodup_nil
      (by simp) (by simp) List.Pairwise.nil (by simp)
    refine ⟨K, r, ?_, ?_, r2, ?_⟩
    · intro m' he fuel hf
      unfold fillHoles
      rw [he, if_neg h0, hcdef, hkdef, hK fuel fuel hf hf]
    · intro g hg
      obtain ⟨⟨a1, a2, a3⟩, _⟩ := r1 g hg
      exact ⟨a1, a2, fun a b h => hsound _ _ (a3 a b h)⟩
    · intro hone hfan a b hab
      obtain ⟨hin, hdeg⟩ := boundary_balance hone hfan
      have hp : Perfect c keys := by
        refine ⟨?_, ?_⟩
        · intro x hx
          obtain ⟨y, h | h⟩ := (hkeys x).1 hx
          · obtain ⟨z, hz⟩ := (hdeg x y h).2
            exact htotal z x hz
          · exact htotal y x h
        · intro x _ x' _ y h1 h2
          exact hfan y x x' (hsound _ _ h1) (hsound _ _ h2)
      obtain ⟨g, hg, hbg⟩ := r3 hp b ((hkeys b).2 ⟨a, .inr hab⟩)
      obtain ⟨⟨_, _, a3⟩, _⟩ := r1 g hg
      obtain ⟨i, hi, rfl⟩ := List.mem_iff_getElem.1 hbg
      have hm : (i + 1) % g.length < g.length := Nat.mod_lt _ (by omega)
      have hfol : Follows g g[i] g[(i + 1) % g.length] := ⟨i, List.getElem?_eq_getElem hi, List.getElem?_eq_getElem hm⟩
      have h1 := hsound _ _ (a3 _ _ hfol)
      have : g[(i + 1) % g.length] = a := hin _ _ _ h1 hab
      rw [this] at hfol
      exact ⟨g, hg, hfol⟩

theorem edge_append (fs gs : List (List Nat)) (a b : Nat) : Edge (fs ++ gs) a b ↔ Edge fs a b ∨ Edge gs a b := by
  unfold Edge
  simp only [List.mem_append, or_and_right, exists_or]

/-- C83. On every mesh with a current table of edges `fill_holes` ends. It keeps the points and the faces and adds faces behind them, each of them
a closed polygon with at least three different corners that runs backwards along boundary edges of the mesh; no two of them share a corner. The
table of edges stays current. -/
theorem C83_loops {P : Type} (m : Poly P) (hc : m.Current) :
    ∃ K m', (∀ fuel, K ≤ fuel → fillHoles fuel m = some m') ∧ m'.points = m.points ∧ m'.Current ∧ (m.Valid → m'.Valid) ∧
      ∃ new, m'.faces = m.faces ++ new ∧ (∀ g ∈ new, 3 ≤ g.length ∧ g.Nodup ∧ ∀ a b, Follows g a b → Boundary m.faces b a) ∧
        new.Pairwise (fun g h => ∀ x ∈ g, x ∉ h) := by
  obtain ⟨K, new, hK, h1, h2, _⟩ := fill_core m hc
  obtain ⟨f1, f2, f3⟩ := foldl_addFace new m
  refine ⟨K, _, hK m rfl, f1, ?_, ?_, new, f2, ?_, h2⟩
  · intro a b
    rw [f3, f2, edge_append, hc]
    unfold Edge
    simp only [mem_faceEdges_iff]
  · intro hv f hf
    rw [f2, List.mem_append] at hf
    rw [f1]
    rcases hf with hf | hf
    · exact hv f hf
    · obtain ⟨a1, _, a3⟩ := h1 f hf
      refine ⟨a1, ?_⟩
      intro v hvf
      obtain ⟨x, _, hx⟩ := pred_of_mem hvf
      obtain ⟨⟨g, hg, hfol⟩, _⟩ := a3 x v hx
      exact (hv g hg).2 v (mem_faceEdges ((mem_faceEdges_iff _ _ _).2 hfol)).1
  · intro g hg
    obtain ⟨a1, a2, a3⟩ := h1 g hg
    refine ⟨?_, a2, a3⟩
    match g, a1, a3 with
    | [x], _, a3 =>
      have := a3 x x ⟨0, by simp, by simp⟩
      exact absurd this.1 this.2
    | [x, y], _, a3 =>
      have h1 := a3 x y ⟨0, by simp, by simp⟩
      have h2 := a3 y x ⟨1, by simp, by simp⟩
      exact absurd h1.1 h2.2
    | _ :: _ :: _ :: _, _, _ => simp

/-- C83. If no directed edge is used twice and at most one boundary edge begins at each point, the filled mesh is closed: every directed edge is
used once, and so is its reverse. -/
theorem C83_closed {P : Type} (m : Poly P) (hc : m.Current) (hone : Once m.faces)
    (hfan : ∀ a b c, Boundary m.faces a b → Boundary m.faces a c → b = c) :
    ∃ K m', (∀ fuel, K ≤ fuel → fillHoles fuel m = some m') ∧ Closed m'.faces ∧ Once m'.faces := by
  obtain ⟨K, new, hK, h1, h2, h3⟩ := fill_core m hc
  obtain ⟨_, f2, _⟩ := foldl_addFace new m
  refine ⟨K, _, hK m rfl, ?_, ?_⟩
  · rw [f2]
    intro a b hab
    rw [edge_append] at hab ⊢
    rcases hab with hab | ⟨g, hg, hfol⟩
    · by_cases hba : Edge m.faces b a
      · exact .inl hba
      · exact .inr (h3 hone hfan a b ⟨hab, hba⟩)
    · exact .inl ((h1 g hg).2.2 a b hfol).1
  · rw [f2, once_iff, List.flatMap_append, List.nodup_append]
    refine ⟨(once_iff _).1 hone, ?_, ?_⟩
    · rw [List.nodup_flatMap]
      constructor
      · intro g hg
        have : ((faceEdges g).map Prod.fst).Nodup := by rw [faceEdges_fst]; exact (h1 g hg).2.1
        exact List.Nodup.of_map _ this
      · refine h2.imp ?_
        rintro g h hd ⟨a, b⟩ ha hb
        exact hd a (mem_faceEdges ha).1 (mem_faceEdges hb).1
    · rintro ⟨a, b⟩ ha ⟨a', b'⟩ hb he
      cases he
      rw [mem_edges_iff] at ha
      obtain ⟨g, hg, hfol⟩ := (mem_edges_iff _ _ _).1 hb
      exact ((h1 g hg).2.2 a b hfol).2 ha

/-! ### Examples -/

/-- A mesh made by adding faces. -/
def build {P : Type} (pts : List P) (fs : List (List Nat)) : Poly P := fs.foldl addFace ⟨pts, [], []⟩

theorem build_current {P : Type} (pts : List P) (fs : List (List Nat)) : (build pts fs).Current := by
  obtain ⟨_, f2, f3⟩ := foldl_addFace fs (⟨pts, [], []⟩ : Poly P)
  intro a b
  unfold build
  rw [f3, f2]
  simp [Edge, mem_faceEdges_iff]

theorem build_faces {P : Type} (pts : List P) (fs : List (List Nat)) : (build pts fs).faces = fs := by
  obtain ⟨_, f2, _⟩ := foldl_addFace fs (⟨pts, [], []⟩ : Poly P)
  simpa [build] using f2

/-- A cube without two opposite faces. -/
def tube : List (List Nat) := [[0, 1, 5, 4], [1, 2, 6, 5], [2, 3, 7, 6], [3, 0, 4, 7]]

example : (fillHoles 20 (build (List.range 8) tube)).map (·.faces) = some (tube ++ [[0, 3, 2, 1], [4, 5, 6, 7]]) := by decide +kernel

theorem tube_once : Once tube := by
  rw [once_iff]; decide

theorem tube_fan : ∀ a b c, Boundary tube a b → Boundary tube a c → b = c := by
  have h : ∀ e ∈ tube.flatMap faceEdges, ∀ e' ∈ tube.flatMap faceEdges, e.swap ∉ tube.flatMap faceEdges → e'.swap ∉ tube.flatMap faceEdges → e.1 = e'.1 → e.2 = e'.2 := by
    decide
  rintro a b c ⟨h1, h2⟩ ⟨h3, h4⟩
  rw [← mem_edges_iff] at h1 h2 h3 h4
  exact h (a, b) h1 (a, c) h3 h2 h4 rfl

/-- The hypotheses of `C83_closed` are met. -/
example : ∃ m' : Poly Nat, ∃ K, (∀ fuel, K ≤ fuel → fillHoles fuel (build (List.range 8) tube) = some m') ∧ Closed m'.faces := by
  obtain ⟨K, m', h1, h2, _⟩ := C83_closed (build (List.range 8) tube) (build_current _ _) (by rw [build_faces]; exact tube_once)
    (by rw [build_faces]; exact tube_fan)
  exact ⟨m', K, h1, h2⟩

/-- C83 needs the hypothesis on boundary edges: of two triangles that share one point only the second is closed by a new face. -/
theorem C83_counterexample_fan : (fillHoles 20 (build (List.range 5) [[0, 1, 2], [0, 3, 4]])).map (·.faces) = some [[0, 1, 2], [0, 3, 4], [0, 4, 3]] ∧
    ¬ Closed [[0, 1, 2], [0, 3, 4], [0, 4, 3]] := by
  refine ⟨by decide +kernel, ?_⟩
  intro h
  have h1 : Edge [[0, 1, 2], [0, 3, 4], [0, 4, 3]] 0 1 := by rw [← mem_edges_iff]; decide
  have h2 := h _ _ h1
  rw [← mem_edges_iff] at h2
  exact absurd h2 (by decide)

/-- After merging, the table of edges is not that of the faces: a tetrahedron whose point 4 repeats point 0 is closed once it is merged, but then gets a
face with a repeated point, and is no longer a surface (the edge from 0 to 2 is used twice). -/
theorem C83_counterexample_merge :
    (mergeVertex (build [10, 11, 12, 13, 10] [[0, 1, 2], [0, 3, 1], [1, 3, 2], [4, 2, 3]])).map (·.faces) = some [[0, 1, 2], [0, 3, 1], [1, 3, 2], [0, 2, 3]] ∧
    Closed [[0, 1, 2], [0, 3, 1], [1, 3, 2], [0, 2, 3]] ∧ Once [[0, 1, 2], [0, 3, 1], [1, 3, 2], [0, 2, 3]] ∧
    ((mergeVertex (build [10, 11, 12, 13, 10] [[0, 1, 2], [0, 3, 1], [1, 3, 2], [4, 2, 3]])).bind (fillHoles 20)).map (·.faces) =
      some [[0, 1, 2], [0, 3, 1], [1, 3, 2], [0, 2, 3], [0, 2, 4, 3]] ∧
    ¬ Once [[0, 1, 2], [0, 3, 1], [1, 3, 2], [0, 2, 3], [0, 2, 4, 3]] ∧ ¬ Closed [[0, 1, 2], [0, 3, 1], [1, 3, 2], [0, 2, 3], [0, 2, 4, 3]] := by
  refine ⟨by decide +kernel, ?_, by rw [once_iff]; decide, by decide +kernel, by rw [once_iff]; decide, ?_⟩
  · have h : ∀ e ∈ [[0, 1, 2], [0, 3, 1], [1, 3, 2], [0, 2, 3]].flatMap faceEdges, e.swap ∈ [[0, 1, 2], [0, 3, 1], [1, 3, 2], [0, 2, 3]].flatMap faceEdges := by decide
    intro a b hab
    rw [← mem_edges_iff] at hab ⊢
    exact h _ hab
  · intro h
    have h1 : Edge [[0, 1, 2], [0, 3, 1], [1, 3, 2], [0, 2, 3], [0, 2, 4, 3]] 2 4 := by rw [← mem_edges_iff]; decide
    have h2 := h _ _ h1
    rw [← mem_edges_iff] at h2
    exact absurd h2 (by decide)

end TDP.Fixer
