import Verif.Fixer.Depart
/-! C82, C83: merging equal points and filling holes. -/
namespace TDP.Fixer

/-! ## C82: merge_vertex -/

/-- `j` is the first point equal to point `k`. -/
def IsFirst {P : Type} (pts : List P) (k j : Nat) : Prop := pts[j]? = pts[k]? ∧ ∀ w < j, pts[w]? ≠ pts[k]?

theorem vidMap_spec {P : Type} [DecidableEq P] (ps : List P) : ∀ (pre : List P) (seen : List (P × Nat)) (vid : List Nat), vid.length = pre.length →
    (∀ p j, seen.lookup p = some j ↔ (pre[j]? = some p ∧ ∀ w < j, pre[w]? ≠ some p)) →
    (∀ k < pre.length, ∃ j, vid[k]? = some j ∧ IsFirst (pre ++ ps) k j) →
    (vidMap ps pre.length seen vid).length = (pre ++ ps).length ∧
      ∀ k < (pre ++ ps).length, ∃ j, (vidMap ps pre.length seen vid)[k]? = some j ∧ IsFirst (pre ++ ps) k j := by
  induction ps with
  | nil => intro pre seen vid h1 _ h3; simpa [vidMap, h1] using h3
  | cons p ps ih =>
    intro pre seen vid h1 h2 h3
    have hsplit : pre ++ p :: ps = (pre ++ [p]) ++ ps := by simp
    have hat : (pre ++ p :: ps)[pre.length]? = some p := by simp
    have hlt : ∀ w < pre.length, (pre ++ p :: ps)[w]? = pre[w]? := fun w hw => List.getElem?_append_left hw
    cases e : seen.lookup p with
    | none =>
      have hno : ∀ w < pre.length, pre[w]? ≠ some p := by
        intro w
        induction w using Nat.strong_induction_on with
        | _ w ihw =>
        intro hw h
        have := (h2 p w).2 ⟨h, fun u hu => ihw u hu (by omega)⟩
        rw [e] at this
        exact absurd this (by simp)
      have := ih (pre ++ [p]) ((p, pre.length) :: seen) (vid ++ [pre.length]) (by simp [h1]) (by
        intro p' j
        rw [List.lookup_cons]
        by_cases hp : p' = p
        · subst hp
          simp only [beq_self_eq_true, Option.some.injEq]
          constructor
          · rintro rfl
            refine ⟨by simp, ?_⟩
            intro w hw
            rw [List.getElem?_append_left hw]; exact hno w hw
          · rintro ⟨ha, hb⟩
            rcases Nat.lt_trichotomy j pre.length with h | h | h
            · rw [List.getElem?_append_left h] at ha; exact absurd ha (hno j h)
            · exact h.symm
            · exact absurd (by simp) (hb pre.length h)
        · have hb : (p' == p) = false := by simpa using hp
          simp only [hb]
          have hw : ∀ w : Nat, (pre ++ [p])[w]? = some p' ↔ pre[w]? = some p' := by
            intro w
            rcases Nat.lt_trichotomy w pre.length with h | h | h
            · rw [List.getElem?_append_left h]
            · subst h; simp [Ne.symm hp]
            · rw [List.getElem?_eq_none (by simp; omega), List.getElem?_eq_none (by omega)]
          rw [h2, hw]
          constructor
          · rintro ⟨ha, hb⟩; exact ⟨ha, fun w hw' h => hb w hw' ((hw w).1 h)⟩
          · rintro ⟨ha, hb⟩; exact ⟨ha, fun w hw' h => hb w hw' ((hw w).2 h)⟩) (by
        intro k hk
        rw [List.length_append, List.length_singleton] at hk
        rw [← hsplit]
        by_cases hk2 : k < pre.length
        · obtain ⟨j, hj, hf⟩ := h3 k hk2
          exact ⟨j, by rw [List.getElem?_append_left (by omega)]; exact hj, hf⟩
        · have : k = pre.length := by omega
          subst this
          refine ⟨pre.length, by simp [← h1], rfl, ?_⟩
          intro w hw
          rw [hat, hlt w hw]; exact hno w hw)
      rw [List.length_append, List.length_singleton] at this
      rw [hsplit, vidMap, e]
      exact this
    | some j =>
      obtain ⟨hj1, hj2⟩ := (h2 p j).1 e
      have hjl : j < pre.length := (List.getElem?_eq_some_iff.1 hj1).1
      have := ih (pre ++ [p]) seen (vid ++ [j]) (by simp [h1]) (by
        intro p' i
        rw [h2]
        constructor
        · rintro ⟨ha, hb⟩
          have hil : i < pre.length := (List.getElem?_eq_some_iff.1 ha).1
          refine ⟨by rw [List.getElem?_append_left hil]; exact ha, ?_⟩
          intro w hw
          rw [List.getElem?_append_left (by omega)]; exact hb w hw
        · rintro ⟨ha, hb⟩
          rcases Nat.lt_trichotomy i pre.length with h | h | h
          · rw [List.getElem?_append_left h] at ha
            refine ⟨ha, fun w hw => ?_⟩
            have := hb w hw
            rwa [List.getElem?_append_left (by omega)] at this
          · subst h
            rw [List.getElem?_concat_length, Option.some.injEq] at ha
            subst ha
            have := hb j hjl
            rw [List.getElem?_append_left hjl] at this
            exact absurd hj1 this
          · rw [List.getElem?_eq_none (by simp; omega)] at ha; exact absurd ha (by simp)) (by
        intro k hk
        rw [List.length_append, List.length_singleton] at hk
        rw [← hsplit]
        by_cases hk2 : k < pre.length
        · obtain ⟨i, hi, hf⟩ := h3 k hk2
          exact ⟨i, by rw [List.getElem?_append_left (by omega)]; exact hi, hf⟩
        · have : k = pre.length := by omega
          subst this
          refine ⟨j, by simp [← h1], ?_, ?_⟩
          · rw [hat, hlt j hjl]; exact hj1
          · intro w hw
            rw [hat, hlt w (by omega)]; exact hj2 w hw)
      rw [List.length_append, List.length_singleton] at this
      rw [hsplit, vidMap, e]
      exact this

/-- C82. Merging keeps the points, their number, and where every corner of every face is; afterwards every corner is named by the first point at
its place, so corners at the same place have the same number. The table of edges still is the one from before. -/
theorem C82_merge {P : Type} [DecidableEq P] (m : Poly P) (hv : m.Valid) :
    ∃ m', mergeVertex m = some m' ∧ m'.points = m.points ∧ m'.solid = m.solid ∧ m'.edges = m.edges ∧ m'.Valid ∧
      (∀ f ∈ m'.faces, ∀ v ∈ f, ∀ w < v, m'.points[w]? ≠ m'.points[v]?) ∧
      (∀ f ∈ m'.faces, ∀ g ∈ m'.faces, ∀ v ∈ f, ∀ w ∈ g, m'.points[v]? = m'.points[w]? → v = w) := by
  obtain ⟨hl, hs⟩ := vidMap_spec m.points [] [] [] rfl (by simp) (by simp)
  simp only [List.nil_append, List.length_nil] at hl hs
  obtain ⟨vid, hvid⟩ : ∃ x, vidMap m.points 0 [] [] = x := ⟨_, rfl⟩
  rw [hvid] at hl hs
  have e1 : m.faces.mapM (fun f => f.mapM (fun v => vid[v]?)) = some (m.faces.map (fun f => f.map (fun v => vid.getD v 0))) := by
    have : ∀ fs : List (List Nat), (∀ f ∈ fs, ∀ v ∈ f, v < vid.length) →
        fs.mapM (fun f => f.mapM (fun v => vid[v]?)) = some (fs.map (fun f => f.map (fun v => vid.getD v 0))) := by
      intro fs
      induction fs with
      | nil => intro _; rfl
      | cons f fs ih =>
        intro h
        rw [List.mapM_cons, mapM_pid vid f (h f List.mem_cons_self), ih (fun g hg => h g (List.mem_cons_of_mem _ hg))]; rfl
    exact this m.faces (fun f hf v hvf => by rw [hl]; exact (hv f hf).2 v hvf)
  have hfirst : ∀ f ∈ m.faces, ∀ v ∈ f, IsFirst m.points v (vid.getD v 0) := by
    intro f hf v hvf
    obtain ⟨j, h1, h2⟩ := hs v ((hv f hf).2 v hvf)
    rw [List.getD_eq_getElem?_getD, h1]; exact h2
  have hmin : ∀ f ∈ m.faces.map (fun f => f.map (fun v => vid.getD v 0)), ∀ v ∈ f, ∀ w < v, m.points[w]? ≠ m.points[v]? := by
    intro f' hf' v' hv'
    obtain ⟨f, hf, rfl⟩ := List.mem_map.1 hf'
    obtain ⟨v, hvf, rfl⟩ := List.mem_map.1 hv'
    obtain ⟨h1, h2⟩ := hfirst f hf v hvf
    intro w hw
    rw [h1]; exact h2 w hw
  refine ⟨{ m with faces := m.faces.map (fun f => f.map (fun v => vid.getD v 0)) }, ?_, rfl, ?_, rfl, ?_, hmin, ?_⟩
  · unfold mergeVertex
    rw [hvid, e1]
  · unfold Poly.solid
    rw [List.map_map]
    apply List.map_congr_left
    intro f hf
    rw [Function.comp, List.map_map]
    apply List.map_congr_left
    intro v hvf
    exact (hfirst f hf v hvf).1
  · intro f' hf'
    obtain ⟨f, hf, rfl⟩ := List.mem_map.1 hf'
    refine ⟨by simpa using (hv f hf).1, ?_⟩
    intro v' hv'
    obtain ⟨v, hvf, rfl⟩ := List.mem_map.1 hv'
    have h1 := (hfirst f hf v hvf).1
    rw [List.getElem?_eq_getElem ((hv f hf).2 v hvf)] at h1
    exact (List.getElem?_eq_some_iff.1 h1).1
  · intro f hf g hg v hvf w hwg he
    rcases Nat.lt_trichotomy v w with h | h | h
    · exact absurd he (hmin g hg w hwg v h)
    · exact h
    · exact absurd he.symm (hmin f hf v hvf w h)

/-- C82. If no two points are equal, merging changes nothing. -/
theorem C82_distinct {P : Type} [DecidableEq P] (m : Poly P) (hv : m.Valid) (hd : m.points.Nodup) : mergeVertex m = some m := by
  obtain ⟨m', e, h1, h2, h3, h4, _, _⟩ := C82_merge m hv
  rw [e, Option.some.injEq]
  have hf : m'.faces = m.faces := by
    unfold Poly.solid at h2
    rw [h1] at h2
    have key : ∀ (l₁ l₂ : List Nat), (∀ v ∈ l₁, v < m.points.length) → (∀ v ∈ l₂, v < m.points.length) →
        l₁.map (fun v => m.points[v]?) = l₂.map (fun v => m.points[v]?) → l₁ = l₂ := by
      intro l₁
      induction l₁ with
      | nil => intro l₂ _ _ h; cases l₂ with
        | nil => rfl
        | cons => simp at h
      | cons a l₁ ih =>
        intro l₂ ha hb h
        cases l₂ with
        | nil => simp at h
        | cons b l₂ =>
          rw [List.map_cons, List.map_cons, List.cons.injEq] at h
          have h1 := ha a List.mem_cons_self
          have h2 := hb b List.mem_cons_self
          rw [List.getElem?_eq_getElem h1, List.getElem?_eq_getElem h2, Option.some.injEq] at h
          rw [(hd.getElem_inj_iff).1 h.1, ih l₂ (fun v hv => ha v (List.mem_cons_of_mem _ hv)) (fun v hv => hb v (List.mem_cons_of_mem _ hv)) h.2]
    have hA : ∀ f ∈ m'.faces, ∀ v ∈ f, v < m.points.length := by
      intro f hf v hvf
      have := (h4 f hf).2 v hvf
      rwa [h1] at this
    have hB : ∀ f ∈ m.faces, ∀ v ∈ f, v < m.points.length := fun f hf => (hv f hf).2
    revert h2 hA hB
    generalize m'.faces = l₁
    generalize m.faces = l₂
    intro h2 hA hB
    induction l₁ generalizing l₂ with
    | nil => cases l₂ with
      | nil => rfl
      | cons => simp at h2
    | cons a l₁ ih =>
      cases l₂ with
      | nil => simp at h2
      | cons b l₂ =>
        rw [List.map_cons, List.map_cons, List.cons.injEq] at h2
        rw [key a b (hA a List.mem_cons_self) (hB b List.mem_cons_self) h2.1,
          ih l₂ h2.2 (fun f hf => hA f (List.mem_cons_of_mem _ hf)) (fun f hf => hB f (List.mem_cons_of_mem _ hf))]
  cases m'; cases m
  simp only at h1 h3 hf
  subst h1 h3 hf
  rfl

example : mergeVertex (⟨[7, 8, 7, 9, 8], [[0, 1, 3], [2, 4, 3]], []⟩ : Poly Nat) = some ⟨[7, 8, 7, 9, 8], [[0, 1, 3], [0, 1, 3]], []⟩ := by decide

/-! ## C83: fill_holes

### Specification -/

/-- `b` follows `a` in a face of the mesh. -/
def Edge (faces : List (List Nat)) (a b : Nat) : Prop := ∃ f ∈ faces, Follows f a b

/-- A boundary edge: one side has a face, the other has not. -/
def Boundary (faces : List (List Nat)) (a b : Nat) : Prop := Edge faces a b ∧ ¬ Edge faces b a

/-- No directed edge is used twice: neither by two faces nor by one face at two places. -/
def Once (faces : List (List Nat)) : Prop :=
  ∀ (s t i j : Nat) (f g : List Nat), faces[s]? = some f → faces[t]? = some g → i < f.length → j < g.length →
    f[i]? = g[j]? → f[(i + 1) % f.length]? = g[(j + 1) % g.length]? → s = t ∧ i = j

/-- Every edge has a face on both sides. -/
def Closed (faces : List (List Nat)) : Prop := ∀ a b, Edge faces a b → Edge faces b a

/-- The table of edges is that of the faces. -/
def Poly.Current {P : Type} (m : Poly P) : Prop := ∀ a b, (a, b) ∈ m.edges ↔ Edge m.faces a b

/-! ### The walk along a boundary -/

/-- Each vertex of the list is connected to the next. -/
def Chain (c : Nat → Option Nat) (g : List Nat) : Prop := ∀ (i a b : Nat), g[i]? = some a → g[i + 1]? = some b → c a = some b

theorem walk_spec (c : Nat → Option Nat) (keys : List Nat) (hc : ∀ a b, c a = some b → b ∈ keys) :
    ∀ (u : Nat) (curv : Nat) (f done : List Nat), keys.length - done.length = u → done.Nodup → (∀ x ∈ done, x ∈ keys) →
      curv ∈ keys → curv ∉ done → (∀ x ∈ f, x ∈ done) → (f ++ [curv]).Nodup → Chain c (f ++ [curv]) →
      ∃ K r g z done', (∀ k, K ≤ k → walk c k curv f done = some (r, done')) ∧ done'.Nodup ∧ (∀ x ∈ done', x ∈ keys) ∧
        (∀ x, x ∈ done' ↔ x ∈ done ∨ x ∈ g) ∧ (∀ x ∈ g, x ∈ f ∨ x ∉ done) ∧ g.Nodup ∧ Chain c g ∧ (f ++ [curv]) <+: g ∧ g.getLast? = some z ∧
        ((r = some g ∧ c z = g.head?) ∨ (r = none ∧ (c z = none ∨ ∃ y ∈ done', c z = some y ∧ some y ≠ g.head?))) := by
  intro u
  induction u using Nat.strong_induction_on with
  | _ u ih =>
  intro curv f done hu hnd hsub hk hcd hf hfn hch
  have hnd' : (curv :: done).Nodup := List.nodup_cons.2 ⟨hcd, hnd⟩
  have hsub' : ∀ x ∈ curv :: done, x ∈ keys := by
    intro x hx
    rcases List.mem_cons.1 hx with rfl | h
    · exact hk
    · exact hsub x h
  have hmem : ∀ x, x ∈ curv :: done ↔ x ∈ done ∨ x ∈ f ++ [curv] := by
    intro x
    rw [List.mem_cons, List.mem_append, List.mem_singleton]
    constructor
    · rintro (h | h)
      · exact .inr (.inr h)
      · exact .inl h
    · rintro (h | h | h)
      · exact .inr h
      · exact .inr (hf x h)
      · exact .inl h
  have hnew : ∀ x ∈ f ++ [curv], x ∈ f ∨ x ∉ done := by
    intro x hx
    rcases List.mem_append.1 hx with h | h
    · exact .inl h
    · rw [List.mem_singleton] at h; exact .inr (h ▸ hcd)
  cases e : c curv with
  | none =>
    refine ⟨1, none, f ++ [curv], curv, curv :: done, ?_, hnd', hsub', hmem, hnew, hfn, hch, List.prefix_rfl, by simp, .inr ⟨rfl, .inl e⟩⟩
    intro k hkk
    obtain ⟨k, rfl⟩ : ∃ j, k = j + 1 := ⟨k - 1, by omega⟩
    simp only [walk, e]
  | some nxt =>
    by_cases hn : nxt ∈ curv :: done
    · by_cases hh : some nxt = (f ++ [curv]).head?
      · refine ⟨1, some (f ++ [curv]), f ++ [curv], curv, curv :: done, ?_, hnd', hsub', hmem, hnew, hfn, hch, List.prefix_rfl, by simp, .inl ⟨rfl, by rw [e, hh]⟩⟩
        intro k hkk
        obtain ⟨k, rfl⟩ : ∃ j, k = j + 1 := ⟨k - 1, by omega⟩
        simp only [walk, e, if_pos hn, if_pos hh]
      · refine ⟨1, none, f ++ [curv], curv, curv :: done, ?_, hnd', hsub', hmem, hnew, hfn, hch, List.prefix_rfl, by simp, .inr ⟨rfl, .inr ⟨nxt, hn, e, hh⟩⟩⟩
        intro k hkk
        obtain ⟨k, rfl⟩ : ∃ j, k = j + 1 := ⟨k - 1, by omega⟩
        simp only [walk, e, if_pos hn, if_neg hh]
    · have hlen : (curv :: done).length ≤ keys.length := (hnd'.subperm hsub').length_le
      have hf' : ∀ x ∈ f ++ [curv], x ∈ curv :: done := fun x hx => (hmem x).2 (.inr hx)
      obtain ⟨K, r, g, z, done', hw, a1, a2, a3, a4, a5, a6, a7, a8, a9⟩ := ih (keys.length - (curv :: done).length) (by rw [List.length_cons] at hlen ⊢; omega) nxt
        (f ++ [curv]) (curv :: done) rfl hnd' hsub' (hc _ _ e) hn hf' (by
          rw [List.nodup_append]
          refine ⟨hfn, List.nodup_singleton _, ?_⟩
          intro a ha b hb
          rw [List.mem_singleton] at hb
          rintro rfl
          exact hn (hb ▸ hf' _ ha)) (by
          intro i a b ha hb
          by_cases hi : i + 1 < (f ++ [curv]).length
          · rw [List.getElem?_append_left (by omega)] at ha
            rw [List.getElem?_append_left hi] at hb
            exact hch i a b ha hb
          · have hl : (f ++ [curv]).length = f.length + 1 := by simp
            have hi2 : i + 1 < ((f ++ [curv]) ++ [nxt]).length := (List.getElem?_eq_some_iff.1 hb).1
            rw [List.length_append, List.length_singleton, hl] at hi2
            have : i = f.length := by omega
            subst this
            rw [List.getElem?_append_left (by omega)] at ha
            have hb' : ((f ++ [curv]) ++ [nxt])[f.length + 1]? = some nxt := by
              have := List.getElem?_concat_length (l := f ++ [curv]) (a := nxt)
              rwa [hl] at this
            rw [hb'] at hb
            have ha' : (f ++ [curv])[f.length]? = some curv := List.getElem?_concat_length
            rw [ha'] at ha
            cases ha; cases hb
            exact e)
      refine ⟨K + 1, r, g, z, done', ?_, a1, a2, ?_, ?_, a5, a6, (List.prefix_append _ _).trans a7, a8, a9⟩
      · intro k hkk
        obtain ⟨k, rfl⟩ : ∃ j, k = j + 1 := ⟨k - 1, by omega⟩
        simp only [walk, e, if_neg hn]
        exact hw k (by omega)
      · intro x
        rw [a3, hmem]
        constructor
        · rintro ((h | h) | h)
          · exact .inl h
          · exact .inr ((List.prefix_append _ _).trans a7 |>.subset h)
          · exact .inr h
        · rintro (h | h)
          · exact .inl (.inl h)
          · exact .inr h
      · intro x hx
        rcases a4 x hx with h | h
        · exact hnew x h
        · exact .inr (fun hd => h (List.mem_cons_of_mem _ hd))

/-- A closed walk. -/
def Loop (c : Nat → Option Nat) (g : List Nat) : Prop := g ≠ [] ∧ g.Nodup ∧ ∀ a b, Follows g a b → c a = some b

theorem loop_of_walk {c : Nat → Option Nat} {g : List Nat} {z : Nat} (h0 : g ≠ []) (h1 : g.Nodup) (h2 : Chain c g) (h3 : g.getLast? = some z)
    (h4 : c z = g.head?) : Loop c g := by
  refine ⟨h0, h1, ?_⟩
  rintro a b ⟨i, ha, hb⟩
  have hi : i < g.length := (List.getElem?_eq_some_iff.1 ha).1
  by_cases hi2 : i + 1 < g.length
  · rw [Nat.mod_eq_of_lt hi2] at hb
    exact h2 i a b ha hb
  · have he : i + 1 = g.length := by omega
    rw [he, Nat.mod_self] at hb
    rw [List.getLast?_eq_getElem?, show g.length - 1 = i by omega, ha] at h3
    cases h3
    rw [h4, List.head?_eq_getElem?, hb]

/-- Connections are total on the keys and no two keys are connected to the same. -/
def Perfect (c : Nat → Option Nat) (keys : List Nat) : Prop :=
  (∀ a ∈ keys, ∃ b, c a = some b) ∧ ∀ a ∈ keys, ∀ a' ∈ keys, ∀ b, c a = some b → c a' = some b → a = a'

theorem pred_of_mem {g : List Nat} {y : Nat} (h : y ∈ g) : ∃ x ∈ g, Follows g x y := by
  obtain ⟨i, hi, rfl⟩ := List.mem_iff_getElem.1 h
  cases i with
  | zero =>
    refine ⟨g[g.length - 1]'(by omega), List.getElem_mem _, g.length - 1, List.getElem?_eq_getElem _, ?_⟩
    rw [show g.length - 1 + 1 = g.length by omega, Nat.mod_self]
    exact List.getElem?_eq_getElem _
  | succ i =>
    refine ⟨g[i], List.getElem_mem _, i, List.getElem?_eq_getElem _, ?_⟩
    rw [Nat.mod_eq_of_lt hi]
    exact List.getElem?_eq_getElem _

theorem holeFaces_spec (c : Nat → Option Nat) (keys : List Nat) (hc : ∀ a b, c a = some b → b ∈ keys) :
    ∀ (u : Nat) (done : List Nat) (acc : List (List Nat)), keys.length - done.length = u → done.Nodup → (∀ x ∈ done, x ∈ keys) →
      (∀ g ∈ acc, Loop c g ∧ ∀ x ∈ g, x ∈ done) → acc.Pairwise (fun g h => ∀ x ∈ g, x ∉ h) →
      (Perfect c keys → ∀ x ∈ done, ∃ g ∈ acc, x ∈ g) →
      ∃ K r, (∀ d k, K ≤ d → K ≤ k → holeFaces c keys d k done acc = some r) ∧ (∀ g ∈ r, Loop c g ∧ ∀ x ∈ g, x ∈ keys) ∧
        r.Pairwise (fun g h => ∀ x ∈ g, x ∉ h) ∧ (Perfect c keys → ∀ x ∈ keys, ∃ g ∈ r, x ∈ g) := by
  intro u
  induction u using Nat.strong_induction_on with
  | _ u ih =>
  intro done acc hu hnd hsub hacc hdis hper
  cases e : keys.find? (fun k => decide (k ∉ done)) with
  | none =>
    refine ⟨1, acc, ?_, fun g hg => ⟨(hacc g hg).1, fun x hx => hsub x ((hacc g hg).2 x hx)⟩, hdis, ?_⟩
    · intro d k _ hk
      obtain ⟨k, rfl⟩ : ∃ j, k = j + 1 := ⟨k - 1, by omega⟩
      simp only [holeFaces, e]
    · intro hp x hx
      have := List.find?_eq_none.1 e x hx
      simp only [decide_eq_true_eq, not_not] at this
      exact hper hp x this
  | some curv =>
    have hcd : curv ∉ done := by simpa using List.find?_some e
    have hk : curv ∈ keys := List.mem_of_find?_eq_some e
    obtain ⟨K, r, g, z, done', hw, a1, a2, a3, a4, a5, a6, a7, a8, a9⟩ := walk_spec c keys hc _ curv [] done rfl hnd hsub hk hcd (by simp)
      (by simp) (by intro i a b _ hb; simp at hb)
    have hcg : curv ∈ g := a7.subset (by simp)
    have hg0 : g ≠ [] := by rintro rfl; exact absurd hcg (by simp)
    have hgd : ∀ x ∈ g, x ∉ done := fun x hx => (a4 x hx).resolve_left (by simp)
    have hlen : (curv :: done).Subperm done' := (List.nodup_cons.2 ⟨hcd, hnd⟩).subperm (by
      intro x hx
      rcases List.mem_cons.1 hx with rfl | h
      · exact (a3 x).2 (.inr hcg)
      · exact (a3 x).2 (.inl h))
    have hlen1 := hlen.length_le
    have hlen2 : done'.length ≤ keys.length := (a1.subperm a2).length_le
    rw [List.length_cons] at hlen1
    have hz : z ∈ g := List.mem_of_getLast? a8
    rcases a9 with ⟨hr, hl⟩ | ⟨hr, hl⟩
    · have hloop := loop_of_walk hg0 a5 a6 a8 hl
      obtain ⟨K', r', hw', b1, b2, b3⟩ := ih (keys.length - done'.length) (by omega) done' (acc ++ [g]) rfl a1 a2 (by
          intro h hh
          rcases List.mem_append.1 hh with h1 | h1
          · exact ⟨(hacc h h1).1, fun x hx => (a3 x).2 (.inl ((hacc h h1).2 x hx))⟩
          · rw [List.mem_singleton] at h1; subst h1
            exact ⟨hloop, fun x hx => (a3 x).2 (.inr hx)⟩) (by
          rw [List.pairwise_append]
          refine ⟨hdis, List.pairwise_singleton _ _, ?_⟩
          intro h hh g' hg' x hx
          rw [List.mem_singleton] at hg'; subst hg'
          exact fun hxg => hgd x hxg ((hacc h hh).2 x hx)) (by
          intro hp x hx
          rcases (a3 x).1 hx with h | h
          · obtain ⟨g', h1, h2⟩ := hper hp x h
            exact ⟨g', List.mem_append_left _ h1, h2⟩
          · exact ⟨g, by simp, h⟩)
      refine ⟨max K K' + 1, r', ?_, b1, b2, b3⟩
      intro d k hd hkk
      obtain ⟨k, rfl⟩ : ∃ j, k = j + 1 := ⟨k - 1, by omega⟩
      simp only [holeFaces, e, hw d (by omega), hr]
      exact hw' d k (by omega) (by omega)
    · have hnp : ¬ Perfect c keys := by
        intro hp
        rcases hl with hl | ⟨y, hy, hzy, hyh⟩
        · obtain ⟨b, hb⟩ := hp.1 z (a2 z ((a3 z).2 (.inr hz)))
          rw [hl] at hb; exact absurd hb (by simp)
        · have hzk := a2 z ((a3 z).2 (.inr hz))
          rcases (a3 y).1 hy with h | h
          · obtain ⟨g', h1, h2⟩ := hper hp y h
            obtain ⟨x, hx1, hx2⟩ := pred_of_mem h2
            have hxd := (hacc g' h1).2 x hx1
            have := hp.2 x (hsub x hxd) z hzk y ((hacc g' h1).1.2.2 x y hx2) hzy
            subst this
            exact hgd x hz hxd
          · obtain ⟨i, hi, he⟩ := List.mem_iff_getElem.1 h
            cases i with
            | zero => exact hyh (by rw [List.head?_eq_getElem?, List.getElem?_eq_getElem hi, he])
            | succ i =>
              have h1 : c g[i] = some y := a6 i g[i] y (List.getElem?_eq_getElem (by omega)) (by rw [List.getElem?_eq_getElem hi, he])
              have h2 := hp.2 g[i] (a2 _ ((a3 _).2 (.inr (List.getElem_mem _)))) z hzk y h1 hzy
              rw [List.getLast?_eq_getElem?, List.getElem?_eq_getElem (by omega), Option.some.injEq] at a8
              rw [← a8] at h2
              have := (a5.getElem_inj_iff).1 h2
              omega
      obtain ⟨K', r', hw', b1, b2, b3⟩ := ih (keys.length - done'.length) (by omega) done' acc rfl a1 a2
        (fun h hh => ⟨(hacc h hh).1, fun x hx => (a3 x).2 (.inl ((hacc h hh).2 x hx))⟩) hdis (fun hp => absurd hp hnp)
      refine ⟨max K K' + 1, r', ?_, b1, b2, b3⟩
      intro d k hd hkk
      obtain ⟨k, rfl⟩ : ∃ j, k = j + 1 := ⟨k - 1, by omega⟩
      simp only [holeFaces, e, hw d (by omega), hr]
      exact hw' d k (by omega) (by omega)

end TDP.Fixer
