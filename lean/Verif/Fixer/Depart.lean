import Verif.Fixer.Model
import Mathlib.Logic.Relation
import Mathlib.Data.List.Nodup
import Mathlib.Data.List.NodupEquivFin
import Mathlib.Data.List.Perm.Subperm
import Mathlib.Tactic.Ring
/-! C81: `depart` splits a mesh into its connected components. -/
namespace TDP.Fixer

/-! ## Specification -/

/-- Two points are corners of one face. -/
def Touch (faces : List (List Nat)) (a b : Nat) : Prop := ∃ f ∈ faces, a ∈ f ∧ b ∈ f

/-- Two points are connected by a chain of faces. -/
def Connected (faces : List (List Nat)) : Nat → Nat → Prop := Relation.ReflTransGen (Touch faces)

/-- The faces of a mesh as lists of points, not of numbers. -/
def Poly.solid {P : Type} (m : Poly P) : List (List (Option P)) := m.faces.map fun f => f.map fun v => m.points[v]?

/-- `b` follows `a` in the closed polygon `f`. -/
def Follows (f : List Nat) (a b : Nat) : Prop := ∃ i, f[i]? = some a ∧ f[(i + 1) % f.length]? = some b

/-- Every face has a corner and all corners are points of the mesh. -/
def Poly.Valid {P : Type} (m : Poly P) : Prop := ∀ f ∈ m.faces, f ≠ [] ∧ ∀ v ∈ f, v < m.points.length

/-! ## Keys of maps -/

theorem mem_insertKey {K : Type} [DecidableEq K] (le : K → K → Prop) [DecidableRel le] (x y : K) (l : List K) :
    y ∈ insertKey le x l ↔ y = x ∨ y ∈ l := by
  unfold insertKey
  by_cases h : x ∈ l
  · rw [if_pos h]
    constructor
    · exact Or.inr
    · rintro (rfl | h') <;> assumption
  · rw [if_neg h, List.mem_orderedInsert]

theorem insertKey_nodup {K : Type} [DecidableEq K] (le : K → K → Prop) [DecidableRel le] (x : K) (l : List K) (h : l.Nodup) :
    (insertKey le x l).Nodup := by
  unfold insertKey
  by_cases hx : x ∈ l
  · rw [if_pos hx]; exact h
  · rw [if_neg hx]
    exact (List.perm_orderedInsert le x l).nodup_iff.2 (List.nodup_cons.2 ⟨hx, h⟩)

theorem insertKey_sorted (x : Nat) (l : List Nat) (h : l.Pairwise (· < ·)) : (insertKey (· ≤ ·) x l).Pairwise (· < ·) := by
  have hn : (insertKey (· ≤ ·) x l).Nodup := insertKey_nodup _ x l (h.imp (fun h => Nat.ne_of_lt h))
  have hs : (insertKey (· ≤ ·) x l).Pairwise (· ≤ ·) := by
    unfold insertKey
    by_cases hx : x ∈ l
    · rw [if_pos hx]; exact h.imp (fun h => Nat.le_of_lt h)
    · rw [if_neg hx]
      exact (h.imp (fun h => Nat.le_of_lt h)).orderedInsert x l
  exact (hs.and hn).imp (fun h => Nat.lt_of_le_of_ne h.1 h.2)

theorem insertKey_length {K : Type} [DecidableEq K] (le : K → K → Prop) [DecidableRel le] (x : K) (l : List K) (h : x ∉ l) :
    (insertKey le x l).length = l.length + 1 := by
  unfold insertKey
  rw [if_neg h, (List.perm_orderedInsert le x l).length_eq, List.length_cons]

theorem length_le_of_lt {l : List Nat} {n : Nat} (hn : l.Nodup) (hl : ∀ x ∈ l, x < n) : l.length ≤ n := by
  have : l.Subperm (List.range n) := hn.subperm (fun x hx => List.mem_range.2 (hl x hx))
  simpa using this.length_le

theorem sorted_ext {l₁ l₂ : List Nat} (h₁ : l₁.Pairwise (· < ·)) (h₂ : l₂.Pairwise (· < ·)) (h : ∀ x, x ∈ l₁ ↔ x ∈ l₂) : l₁ = l₂ := by
  have hp : l₁.Perm l₂ := (List.perm_ext_iff_of_nodup (h₁.imp (fun h => Nat.ne_of_lt h)) (h₂.imp (fun h => Nat.ne_of_lt h))).2 h
  exact hp.eq_of_pairwise (fun a b _ _ h1 h2 => absurd (Nat.lt_trans h1 h2) (Nat.lt_irrefl _)) h₁ h₂

theorem length_lt_of_subset {l₁ l₂ : List Nat} (h₁ : l₁.Nodup) (hs : ∀ x ∈ l₁, x ∈ l₂) (h₂ : l₂.Nodup) (a : Nat)
    (ha : a ∈ l₂) (ha' : a ∉ l₁) : l₁.length < l₂.length := by
  have : (a :: l₁).Subperm l₂ := (List.nodup_cons.2 ⟨ha', h₁⟩).subperm (by
    intro x hx
    rcases List.mem_cons.1 hx with rfl | h
    · exact ha
    · exact hs x h)
  have := this.length_le
  rw [List.length_cons] at this
  omega

/-! ## Edges of faces -/

theorem getD_lt {l : List Nat} {i : Nat} (h : i < l.length) (d : Nat) : l.getD i d = l[i] := by
  simp [List.getD_eq_getElem?_getD, List.getElem?_eq_getElem h]

theorem mem_faceEdges {f : List Nat} {a b : Nat} (h : (a, b) ∈ faceEdges f) : a ∈ f ∧ b ∈ f := by
  unfold faceEdges at h
  rw [List.mem_map] at h
  obtain ⟨i, hi, he⟩ := h
  rw [List.mem_range] at hi
  have hi' : (i + 1) % f.length < f.length := Nat.mod_lt _ (by omega)
  simp only [Prod.mk.injEq, getD_lt hi, getD_lt hi'] at he
  rw [← he.1, ← he.2]
  exact ⟨List.getElem_mem _, List.getElem_mem _⟩

theorem faceEdge_next {f : List Nat} {i : Nat} (h : i + 1 < f.length) : (f[i], f[i + 1]) ∈ faceEdges f := by
  unfold faceEdges
  rw [List.mem_map]
  refine ⟨i, List.mem_range.2 (by omega), ?_⟩
  rw [Nat.mod_eq_of_lt h, getD_lt h, getD_lt (by omega : i < f.length)]

/-! ## connections -/

theorem connectEdges_spec (es : List (Nat × Nat)) : ∀ conn : List (List Nat), (∀ e ∈ es, e.1 < conn.length ∧ e.2 < conn.length) →
    ∃ conn', connectEdges es conn = some conn' ∧ conn'.length = conn.length ∧
      ∀ a b, b ∈ conn'.getD a [] ↔ b ∈ conn.getD a [] ∨ (a, b) ∈ es ∨ (b, a) ∈ es := by
  have push : ∀ (conn : List (List Nat)) (x y : Nat), x < conn.length → ∃ conn', pushAt conn x y = some conn' ∧ conn'.length = conn.length ∧
      ∀ a b, b ∈ conn'.getD a [] ↔ b ∈ conn.getD a [] ∨ (a = x ∧ b = y) := by
    intro conn x y hx
    refine ⟨conn.set x (conn[x] ++ [y]), by simp [pushAt, List.getElem?_eq_getElem hx], by simp, ?_⟩
    intro a b
    simp only [List.getD_eq_getElem?_getD, List.getElem?_set]
    by_cases h : x = a
    · subst h
      simp [hx]
    · simp [h, Ne.symm h]
  induction es with
  | nil => intro conn _; exact ⟨conn, rfl, rfl, by simp⟩
  | cons e es ih =>
    intro conn h
    obtain ⟨h1, h2⟩ := h e List.mem_cons_self
    obtain ⟨c1, e1, l1, m1⟩ := push conn e.1 e.2 h1
    obtain ⟨c2, e2, l2, m2⟩ := push c1 e.2 e.1 (by omega)
    obtain ⟨c3, e3, l3, m3⟩ := ih c2 (fun x hx => by rw [l2, l1]; exact h x (List.mem_cons_of_mem _ hx))
    refine ⟨c3, by simp only [connectEdges, e1, e2, e3], by omega, ?_⟩
    intro a b
    rw [m3, m2, m1, List.mem_cons, List.mem_cons]
    obtain ⟨x, y⟩ := e
    simp only [Prod.mk.injEq]
    tauto

/-! ## One component -/

theorem mem_pushNew (cur : List Nat) (ps st : List Nat) (x : Nat) : x ∈ pushNew cur ps st ↔ x ∈ st ∨ (x ∈ ps ∧ x ∉ cur) := by
  induction ps generalizing st with
  | nil => simp [pushNew]
  | cons p ps ih =>
    rw [pushNew, ih]
    by_cases h : p ∈ cur
    · rw [if_pos h, List.mem_cons]
      constructor
      · rintro (h1 | h1)
        · exact .inl h1
        · exact .inr ⟨.inr h1.1, h1.2⟩
      · rintro (h1 | ⟨rfl | h1, h2⟩)
        · exact .inl h1
        · exact absurd h h2
        · exact .inr ⟨h1, h2⟩
    · rw [if_neg h, List.mem_cons, List.mem_cons]
      constructor
      · rintro ((rfl | h1) | h1)
        · exact .inr ⟨.inl rfl, h⟩
        · exact .inl h1
        · exact .inr ⟨.inr h1.1, h1.2⟩
      · rintro (h1 | ⟨rfl | h1, h2⟩)
        · exact .inl (.inr h1)
        · exact .inl (.inl rfl)
        · exact .inr ⟨h1, h2⟩

theorem countP_pushNew (cur : List Nat) (ps st : List Nat) :
    (pushNew cur ps st).countP (fun x => decide (x ∈ cur)) = st.countP (fun x => decide (x ∈ cur)) := by
  induction ps generalizing st with
  | nil => rfl
  | cons p ps ih =>
    rw [pushNew, ih]
    by_cases h : p ∈ cur
    · rw [if_pos h]
    · rw [if_neg h, List.countP_cons]; simp [h]

/-- What the loop over the stack does: it ends, and reaches exactly what is reachable. -/
theorem dfs_spec (conn : List (List Nat)) (n : Nat) (hlen : conn.length = n) (hr : ∀ a b, b ∈ conn.getD a [] → b < n) :
    ∀ (u v : Nat) (st cur : List Nat) (added : List Bool), n - cur.length = u → st.countP (fun x => decide (x ∈ cur)) = v →
      cur.Pairwise (· < ·) → (∀ x ∈ cur, x < n) → (∀ x ∈ st, x < n) → added.length = n → (∀ x ∈ cur, added[x]? = some true) →
      (∀ x ∈ cur, ∀ y ∈ conn.getD x [], y ∈ cur ∨ y ∈ st) →
      ∃ K cur' added', (∀ k, K ≤ k → dfs conn k st cur added = some (cur', added')) ∧ cur'.Pairwise (· < ·) ∧ (∀ x ∈ cur', x < n) ∧
        (∀ x ∈ cur, x ∈ cur') ∧ (∀ x ∈ st, x ∈ cur') ∧ (∀ x ∈ cur', ∀ y ∈ conn.getD x [], y ∈ cur') ∧
        (∀ x ∈ cur', x ∈ cur ∨ ∃ s ∈ st, Relation.ReflTransGen (fun a b => b ∈ conn.getD a []) s x) ∧ added'.length = n ∧
        (∀ x < n, added'[x]? = some true ↔ (added[x]? = some true ∨ x ∈ cur')) := by
  intro u
  induction u using Nat.strong_induction_on with
  | _ u ihu =>
  intro v
  induction v using Nat.strong_induction_on with
  | _ v ihv =>
  intro st cur added hu hv hsort hcur hst hadd hca hcl
  cases st with
  | nil =>
    refine ⟨0, cur, added, fun k _ => by cases k <;> rfl, hsort, hcur, fun x h => h, by simp, ?_, fun x h => .inl h, hadd, ?_⟩
    · intro x hx y hy
      rcases hcl x hx y hy with h | h
      · exact h
      · exact absurd h (by simp)
    · intro x _
      exact ⟨.inl, fun h => h.elim id (hca x)⟩
  | cons s st =>
    have hs : s < n := hst s List.mem_cons_self
    obtain ⟨nb, hnb⟩ : ∃ nb, conn[s]? = some nb := ⟨_, List.getElem?_eq_getElem (by omega)⟩
    have hnb' : conn.getD s [] = nb := by simp [List.getD_eq_getElem?_getD, hnb]
    have hsort' := insertKey_sorted s cur hsort
    have hmem := fun y => mem_insertKey (· ≤ ·) s y cur
    obtain ⟨cur1, hc1⟩ : ∃ c, insertKey (· ≤ ·) s cur = c := ⟨_, rfl⟩
    rw [hc1] at hsort'
    simp only [hc1] at hmem
    have hcur1 : ∀ x ∈ cur1, x < n := by
      intro x hx
      rcases (hmem x).1 hx with rfl | h
      · exact hs
      · exact hcur x h
    have hst1 : ∀ x ∈ pushNew cur1 nb st, x < n := by
      intro x hx
      rcases (mem_pushNew _ _ _ _).1 hx with h | h
      · exact hst x (List.mem_cons_of_mem _ h)
      · exact hr s x (hnb' ▸ h.1)
    have hadd1 : (added.set s true).length = n := by simp [hadd]
    have haddv : ∀ x < n, (added.set s true)[x]? = some true ↔ (added[x]? = some true ∨ x = s) := by
      intro x hx
      rw [List.getElem?_set]
      by_cases h : s = x
      · simp [h, hadd, hx]
      · simp [h, Ne.symm h]
    have hca1 : ∀ x ∈ cur1, (added.set s true)[x]? = some true := by
      intro x hx
      rw [haddv x (hcur1 x hx)]
      rcases (hmem x).1 hx with h | h
      · exact .inr h
      · exact .inl (hca x h)
    have hcl1 : ∀ x ∈ cur1, ∀ y ∈ conn.getD x [], y ∈ cur1 ∨ y ∈ pushNew cur1 nb st := by
      intro x hx y hy
      by_cases h : y ∈ cur1
      · exact .inl h
      · right
        rw [mem_pushNew]
        rcases (hmem x).1 hx with rfl | h'
        · exact .inr ⟨hnb' ▸ hy, h⟩
        · rcases hcl x h' y hy with h2 | h2
          · exact absurd ((hmem y).2 (.inr h2)) h
          · rcases List.mem_cons.1 h2 with rfl | h2
            · exact absurd ((hmem y).2 (.inl rfl)) h
            · exact .inl h2
    have key : ∃ K cur' added', (∀ k, K ≤ k → dfs conn k (pushNew cur1 nb st) cur1 (added.set s true) = some (cur', added')) ∧ cur'.Pairwise (· < ·) ∧ (∀ x ∈ cur', x < n) ∧
        (∀ x ∈ cur1, x ∈ cur') ∧ (∀ x ∈ pushNew cur1 nb st, x ∈ cur') ∧ (∀ x ∈ cur', ∀ y ∈ conn.getD x [], y ∈ cur') ∧
        (∀ x ∈ cur', x ∈ cur1 ∨ ∃ s ∈ pushNew cur1 nb st, Relation.ReflTransGen (fun a b => b ∈ conn.getD a []) s x) ∧ added'.length = n ∧
        (∀ x < n, added'[x]? = some true ↔ ((added.set s true)[x]? = some true ∨ x ∈ cur')) := by
      by_cases h : s ∈ cur
      · have he : cur1 = cur := by rw [← hc1]; unfold insertKey; rw [if_pos h]
        have hlt : (pushNew cur1 nb st).countP (fun x => decide (x ∈ cur1)) < v := by
          rw [countP_pushNew, he]
          rw [List.countP_cons] at hv
          simp [h] at hv
          omega
        exact ihv _ hlt _ cur1 _ (by rw [he]; exact hu) rfl hsort' hcur1 hst1 hadd1 hca1 hcl1
      · have hl : cur1.length = cur.length + 1 := by rw [← hc1]; exact insertKey_length _ s cur h
        have hl2 : cur1.length ≤ n := length_le_of_lt (hsort'.imp (fun h => Nat.ne_of_lt h)) hcur1
        exact ihu (n - cur1.length) (by omega) _ _ cur1 _ rfl rfl hsort' hcur1 hst1 hadd1 hca1 hcl1
    obtain ⟨K, cur', added', hk, r1, r2, r3, r4, r5, r6, r7, r8⟩ := key
    refine ⟨K + 1, cur', added', ?_, r1, r2, fun x hx => r3 x ((hmem x).2 (.inr hx)), ?_, r5, ?_, r7, ?_⟩
    · intro k hkk
      obtain ⟨k, rfl⟩ : ∃ j, k = j + 1 := ⟨k - 1, by omega⟩
      simp only [dfs, hc1, hnb]
      exact hk k (by omega)
    · intro x hx
      rcases List.mem_cons.1 hx with rfl | hx
      · exact r3 x ((hmem x).2 (.inl rfl))
      · exact r4 x ((mem_pushNew _ _ _ _).2 (.inl hx))
    · intro x hx
      rcases r6 x hx with h | ⟨t, ht, hp⟩
      · rcases (hmem x).1 h with rfl | h
        · exact .inr ⟨x, List.mem_cons_self, .refl⟩
        · exact .inl h
      · rcases (mem_pushNew _ _ _ _).1 ht with h | h
        · exact .inr ⟨t, List.mem_cons_of_mem _ h, hp⟩
        · exact .inr ⟨s, List.mem_cons_self, .head (hnb' ▸ h.1) hp⟩
    · intro x hx
      rw [r8 x hx, haddv x hx]
      constructor
      · rintro ((h | h) | h)
        · exact .inl h
        · exact .inr (h ▸ r3 s ((hmem s).2 (.inl rfl)))
        · exact .inr h
      · rintro (h | h)
        · exact .inl (.inl h)
        · exact .inr h

/-! ## All components -/

theorem firstFree_spec (added : List Bool) :
    (firstFree added = none ↔ ∀ x < added.length, added[x]? = some true) ∧
      ∀ s, firstFree added = some s → s < added.length ∧ added[s]? ≠ some true := by
  unfold firstFree
  constructor
  · rw [List.findIdx?_eq_none_iff]
    constructor
    · intro h x hx
      have := h added[x] (List.getElem_mem hx)
      rw [List.getElem?_eq_getElem hx]
      cases e : added[x] with
      | true => rfl
      | false => rw [e] at this; simp at this
    · intro h b hb
      obtain ⟨x, hx, rfl⟩ := List.mem_iff_getElem.1 hb
      have := h x hx
      rw [List.getElem?_eq_getElem hx, Option.some.injEq] at this
      simp [this]
  · intro s hs
    rw [List.findIdx?_eq_some_iff_getElem] at hs
    obtain ⟨h1, h2, _⟩ := hs
    refine ⟨h1, ?_⟩
    rw [List.getElem?_eq_getElem h1]
    simpa using h2

/-- The classes found: sorted lists, each all that is reachable from one of its members. -/
def Classes (n : Nat) (R : Nat → Nat → Prop) (ccg : List (List Nat)) : Prop :=
  ccg.Pairwise (fun c d => ∀ x ∈ c, x ∉ d) ∧
    ∀ c ∈ ccg, c.Pairwise (· < ·) ∧ ∃ s < n, ∀ x, x ∈ c ↔ Relation.ReflTransGen R s x

theorem components_spec (conn : List (List Nat)) (n : Nat) (hlen : conn.length = n) (hr : ∀ a b, b ∈ conn.getD a [] → b < n)
    (hsym : ∀ a b, b ∈ conn.getD a [] → a ∈ conn.getD b []) :
    ∀ (u : Nat) (added : List Bool) (ccg : List (List Nat)), (added.countP (fun b => !b)) = u → added.length = n →
      Classes n (fun a b => b ∈ conn.getD a []) ccg → (∀ x < n, added[x]? = some true ↔ ∃ c ∈ ccg, x ∈ c) →
      ∃ K r, (∀ d k, K ≤ d → K ≤ k → components conn d k added ccg = some r) ∧ Classes n (fun a b => b ∈ conn.getD a []) r ∧
        ∀ x < n, ∃ c ∈ r, x ∈ c := by
  intro u
  induction u using Nat.strong_induction_on with
  | _ u ih =>
  intro added ccg hu hadd hcl hac
  obtain ⟨hf0, hf1⟩ := firstFree_spec added
  cases e : firstFree added with
  | none =>
    refine ⟨1, ccg, ?_, hcl, fun x hx => (hac x hx).1 (hf0.1 e x (by omega))⟩
    intro d k _ hk
    obtain ⟨k, rfl⟩ : ∃ j, k = j + 1 := ⟨k - 1, by omega⟩
    simp only [components, e]
  | some seed =>
    obtain ⟨hs, hsn⟩ := hf1 seed e
    rw [hadd] at hs
    obtain ⟨K, cur, added', hk, r1, r2, _, r4, r5, r6, r7, r8⟩ := dfs_spec conn n hlen hr _ _ [seed] [] added rfl rfl List.Pairwise.nil
      (by simp) (by simpa using hs) hadd (by simp) (by simp)
    have hmem : ∀ x, x ∈ cur ↔ Relation.ReflTransGen (fun a b => b ∈ conn.getD a []) seed x := by
      intro x
      constructor
      · intro hx
        rcases r6 x hx with h | ⟨t, ht, hp⟩
        · exact absurd h (by simp)
        · rw [List.mem_singleton] at ht; exact ht ▸ hp
      · intro hp
        induction hp with
        | refl => exact r4 seed (by simp)
        | tail _ h2 ih => exact r5 _ ih _ h2
    have hdis : ∀ c ∈ ccg, ∀ x ∈ c, x ∉ cur := by
      intro c hc x hx hxc
      obtain ⟨_, s, _, hs2⟩ := hcl.2 c hc
      have h1 := (hmem x).1 hxc
      have h2 : Relation.ReflTransGen (fun a b => b ∈ conn.getD a []) x seed := by
        haveI : Std.Symm (fun a b => b ∈ conn.getD a []) := ⟨hsym⟩
        exact (Relation.ReflTransGen.symmetric (r := fun a b => b ∈ conn.getD a [])).symm _ _ h1
      have h3 : seed ∈ c := (hs2 seed).2 (((hs2 x).1 hx).trans h2)
      exact hsn ((hac seed hs).2 ⟨c, hc, h3⟩)
    have hcl' : Classes n (fun a b => b ∈ conn.getD a []) (ccg ++ [cur]) := by
      constructor
      · rw [List.pairwise_append]
        refine ⟨hcl.1, List.pairwise_singleton _ _, ?_⟩
        intro c hc d hd x hx
        rw [List.mem_singleton] at hd
        exact hd ▸ hdis c hc x hx
      · intro c hc
        rcases List.mem_append.1 hc with h | h
        · exact hcl.2 c h
        · rw [List.mem_singleton] at h; subst h
          exact ⟨r1, seed, hs, hmem⟩
    have hac' : ∀ x < n, added'[x]? = some true ↔ ∃ c ∈ ccg ++ [cur], x ∈ c := by
      intro x hx
      rw [r8 x hx, hac x hx]
      constructor
      · rintro (⟨c, h1, h2⟩ | h)
        · exact ⟨c, List.mem_append_left _ h1, h2⟩
        · exact ⟨cur, by simp, h⟩
      · rintro ⟨c, h1, h2⟩
        rcases List.mem_append.1 h1 with h | h
        · exact .inl ⟨c, h, h2⟩
        · rw [List.mem_singleton] at h; exact .inr (h ▸ h2)
    have hlt : added'.countP (fun b => !b) < u := by
      have hcount : ∀ l : List Bool, l.countP (fun b => !b) = ((List.range l.length).filter (fun x => decide (l[x]? ≠ some true))).length := by
        intro l
        induction l with
        | nil => rfl
        | cons b l ih =>
          rw [List.countP_cons, ih, List.length_cons, List.range_succ_eq_map, List.filter_cons, List.filter_map]
          cases b <;> simp [Function.comp_def]
      rw [← hu, hcount, hcount, r7, hadd]
      refine length_lt_of_subset ?_ ?_ ?_ seed ?_ ?_
      all_goals first | skip
      · exact List.Nodup.filter _ List.nodup_range
      · intro x hx
        rw [List.mem_filter, List.mem_range, decide_eq_true_eq] at hx ⊢
        exact ⟨hx.1, fun h => hx.2 ((r8 x hx.1).2 (.inl h))⟩
      · exact List.Nodup.filter _ List.nodup_range
      · rw [List.mem_filter, List.mem_range, decide_eq_true_eq]; exact ⟨hs, hsn⟩
      · intro h
        rw [List.mem_filter, decide_eq_true_eq] at h
        exact h.2 ((r8 seed hs).2 (.inr ((hmem seed).2 .refl)))
    obtain ⟨K', r, hK', hr1, hr2⟩ := ih _ hlt added' (ccg ++ [cur]) rfl r7 hcl' hac'
    refine ⟨max K K' + 1, r, ?_, hr1, hr2⟩
    intro d k hd hkk
    obtain ⟨k, rfl⟩ : ∃ j, k = j + 1 := ⟨k - 1, by omega⟩
    simp only [components, e, hk d (by omega)]
    exact hK' d k (by omega) (by omega)

/-! ## Points -/

theorem placePoints_spec {P : Type} (points : List P) (i : Nat) (as : List Nat) : ∀ (s : Maps P) (q : Poly P), s.polys[i]? = some q → as.Nodup →
    (∀ a ∈ as, a < points.length) → s.pid.length = points.length → s.cg.length = points.length →
    ∃ s', placePoints points i as s = some s' ∧ s'.polys = s.polys.set i { q with points := q.points ++ as.filterMap (points[·]?) } ∧
      s'.pid.length = points.length ∧ s'.cg.length = points.length ∧
      (∀ x, x ∉ as → s'.pid[x]? = s.pid[x]? ∧ s'.cg[x]? = s.cg[x]?) ∧
      (∀ j x, as[j]? = some x → s'.pid[x]? = some (q.points.length + j) ∧ s'.cg[x]? = some i) := by
  induction as with
  | nil =>
    intro s q hq _ _ h1 h2
    refine ⟨s, rfl, ?_, h1, h2, fun x _ => ⟨rfl, rfl⟩, by simp⟩
    simp only [List.filterMap_nil, List.append_nil]
    apply List.ext_getElem?
    intro j
    rw [List.getElem?_set]
    by_cases h : i = j
    · subst h
      have : i < s.polys.length := (List.getElem?_eq_some_iff.1 hq).1
      simp only [this, if_true, hq]
    · simp [h]
  | cons a as ih =>
    intro s q hq hn hlt h1 h2
    have ha : a < points.length := hlt a List.mem_cons_self
    have hi : i < s.polys.length := (List.getElem?_eq_some_iff.1 hq).1
    obtain ⟨hna, hn'⟩ := List.nodup_cons.1 hn
    obtain ⟨s', e, p1, p2, p3, p4, p5⟩ := ih
      { polys := s.polys.set i { q with points := q.points ++ [points[a]] }
        pid := s.pid.set a q.points.length
        cg := s.cg.set a i } { q with points := q.points ++ [points[a]] } (by simp [hi]) hn'
      (fun x hx => hlt x (List.mem_cons_of_mem _ hx)) (by simp [h1]) (by simp [h2])
    refine ⟨s', ?_, ?_, p2, p3, ?_, ?_⟩
    · rw [placePoints, hq, List.getElem?_eq_getElem ha]; exact e
    · rw [p1]
      simp [List.set_set, List.getElem?_eq_getElem ha]
    · intro x hx
      rw [List.mem_cons, not_or] at hx
      obtain ⟨q1, q2⟩ := p4 x hx.2
      rw [q1, q2]
      simp [Ne.symm hx.1]
    · intro j x hx
      cases j with
      | zero =>
        simp only [List.getElem?_cons_zero, Option.some.injEq] at hx
        subst hx
        obtain ⟨q1, q2⟩ := p4 a hna
        rw [q1, q2]
        simp [h1, h2, ha]
      | succ j =>
        rw [List.getElem?_cons_succ] at hx
        obtain ⟨q1, q2⟩ := p5 j x hx
        refine ⟨?_, q2⟩
        rw [q1, List.length_append, List.length_singleton]
        congr 1; omega

theorem placeAll_spec {P : Type} (points : List P) (cs : List (List Nat)) : ∀ (i : Nat) (s : Maps P), s.polys.length = i + cs.length →
    (∀ j, i ≤ j → j < i + cs.length → s.polys[j]? = some (Poly.new P)) → cs.Pairwise (fun c d => ∀ x ∈ c, x ∉ d) →
    (∀ c ∈ cs, c.Nodup ∧ ∀ a ∈ c, a < points.length) → s.pid.length = points.length → s.cg.length = points.length →
    ∃ s', placeAll points i cs s = some s' ∧ s'.polys.length = i + cs.length ∧ (∀ j < i, s'.polys[j]? = s.polys[j]?) ∧
      (∀ j c, cs[j]? = some c → s'.polys[i + j]? = some ⟨c.filterMap (points[·]?), [], []⟩) ∧
      s'.pid.length = points.length ∧ s'.cg.length = points.length ∧
      (∀ x, (∀ c ∈ cs, x ∉ c) → s'.pid[x]? = s.pid[x]? ∧ s'.cg[x]? = s.cg[x]?) ∧
      (∀ (j : Nat) (c : List Nat) (t x : Nat), cs[j]? = some c → c[t]? = some x → s'.pid[x]? = some t ∧ s'.cg[x]? = some (i + j)) := by
  induction cs with
  | nil =>
    intro i s h0 _ _ _ h1 h2
    exact ⟨s, rfl, h0, fun _ _ => rfl, by simp, h1, h2, fun _ _ => ⟨rfl, rfl⟩, by simp⟩
  | cons c cs ih =>
    intro i s h0 hnew hp hc h1 h2
    rw [List.length_cons] at h0 hnew
    obtain ⟨hp1, hp2⟩ := List.pairwise_cons.1 hp
    obtain ⟨s1, e1, a1, a2, a3, a4, a5⟩ := placePoints_spec points i c s (Poly.new P) (hnew i (by omega) (by omega)) (hc c List.mem_cons_self).1
      (hc c List.mem_cons_self).2 h1 h2
    have hp' : s1.polys = s.polys.set i ⟨c.filterMap (points[·]?), [], []⟩ := by rw [a1]; rfl
    obtain ⟨s2, e2, b1, b2, b3, b4, b5, b6, b7⟩ := ih (i + 1) s1 (by rw [hp', List.length_set]; omega)
      (by
        intro j hj hj2
        rw [hp', List.getElem?_set_ne (by omega)]
        exact hnew j (by omega) (by omega)) hp2 (fun d hd => hc d (List.mem_cons_of_mem _ hd)) a2 a3
    refine ⟨s2, by simp only [placeAll, e1, e2], by rw [List.length_cons]; omega, ?_, ?_, b4, b5, ?_, ?_⟩
    · intro j hj
      rw [b2 j (by omega), hp', List.getElem?_set_ne (by omega)]
    · intro j d hd
      cases j with
      | zero =>
        simp only [List.getElem?_cons_zero, Option.some.injEq] at hd
        subst hd
        rw [Nat.add_zero, b2 i (by omega), hp', List.getElem?_set_self (by omega)]
      | succ j =>
        rw [List.getElem?_cons_succ] at hd
        rw [show i + (j + 1) = i + 1 + j by omega]
        exact b3 j d hd
    · intro x hx
      obtain ⟨q1, q2⟩ := b6 x (fun d hd => hx d (List.mem_cons_of_mem _ hd))
      obtain ⟨q3, q4⟩ := a4 x (hx c List.mem_cons_self)
      exact ⟨q1.trans q3, q2.trans q4⟩
    · intro j d t x hd ht
      cases j with
      | zero =>
        simp only [List.getElem?_cons_zero, Option.some.injEq] at hd
        subst hd
        have hxc : x ∈ c := List.mem_of_getElem? ht
        obtain ⟨q1, q2⟩ := b6 x (fun d hd => hp1 d hd x hxc)
        obtain ⟨q3, q4⟩ := a5 t x ht
        refine ⟨?_, ?_⟩
        · rw [q1, q3]; simp [Poly.new]
        · rw [q2, q4, Nat.add_zero]
      | succ j =>
        rw [List.getElem?_cons_succ] at hd
        rw [show i + (j + 1) = i + 1 + j by omega]
        exact b7 j d t x hd ht

/-! ## Faces -/

theorem foldl_insertKey_mem {K : Type} [DecidableEq K] (le : K → K → Prop) [DecidableRel le] (es : List K) (l : List K) (x : K) :
    x ∈ es.foldl (fun es e => insertKey le e es) l ↔ x ∈ l ∨ x ∈ es := by
  induction es generalizing l with
  | nil => simp
  | cons e es ih => rw [List.foldl_cons, ih, mem_insertKey, List.mem_cons]; tauto

theorem foldl_addFace {P : Type} (fs : List (List Nat)) (q : Poly P) :
    (fs.foldl addFace q).points = q.points ∧ (fs.foldl addFace q).faces = q.faces ++ fs ∧
      ∀ e, e ∈ (fs.foldl addFace q).edges ↔ e ∈ q.edges ∨ ∃ f ∈ fs, e ∈ faceEdges f := by
  induction fs generalizing q with
  | nil => simp
  | cons f fs ih =>
    obtain ⟨h1, h2, h3⟩ := ih (addFace q f)
    refine ⟨by rw [List.foldl_cons, h1]; rfl, by rw [List.foldl_cons, h2]; simp [addFace], ?_⟩
    intro e
    rw [List.foldl_cons, h3]
    simp only [addFace, foldl_insertKey_mem, List.mem_cons, exists_eq_or_imp]
    tauto

theorem mapM_pid (pid : List Nat) (f : List Nat) (h : ∀ v ∈ f, v < pid.length) : f.mapM (fun v => pid[v]?) = some (f.map (fun v => pid.getD v 0)) := by
  induction f with
  | nil => rfl
  | cons v f ih =>
    rw [List.mapM_cons, ih (fun x hx => h x (List.mem_cons_of_mem _ hx))]
    have : pid[v]? = some (pid.getD v 0) := by
      rw [List.getElem?_eq_getElem (h v List.mem_cons_self), getD_lt (h v List.mem_cons_self)]
    rw [this]; rfl

theorem placeFaces_spec {P : Type} (pid cg : List Nat) (fs : List (List Nat)) : ∀ polys : List (Poly P),
    (∀ f ∈ fs, f ≠ [] ∧ ∀ v ∈ f, v < pid.length ∧ v < cg.length ∧ cg.getD v 0 < polys.length) →
    ∃ polys', placeFaces pid cg fs polys = some polys' ∧ polys'.length = polys.length ∧
      ∀ i, polys'[i]? = polys[i]?.map (fun q =>
        ((fs.filter (fun f => decide (cg.getD (f.headD 0) 0 = i))).map (fun f => f.map (fun v => pid.getD v 0))).foldl addFace q) := by
  induction fs with
  | nil => intro polys _; exact ⟨polys, rfl, rfl, by simp⟩
  | cons f fs ih =>
    intro polys h
    obtain ⟨h1, h2⟩ := h f List.mem_cons_self
    cases f with
    | nil => exact absurd rfl h1
    | cons v f =>
    obtain ⟨hv1, hv2, hv3⟩ := h2 v List.mem_cons_self
    obtain ⟨c, hc⟩ : ∃ c, cg.getD v 0 = c := ⟨_, rfl⟩
    have hcv : cg[v]? = some c := by rw [List.getElem?_eq_getElem hv2, ← hc, getD_lt hv2]
    rw [hc] at hv3
    obtain ⟨q, hq⟩ : ∃ q, polys[c]? = some q := ⟨_, List.getElem?_eq_getElem hv3⟩
    have e1 : placeFace pid cg (v :: f) polys = some (polys.set c (addFace q ((v :: f).map (fun v => pid.getD v 0)))) := by
      unfold placeFace
      rw [mapM_pid pid (v :: f) (fun x hx => (h2 x hx).1)]
      simp only [List.head?_cons, hcv, hq]
    obtain ⟨p', e2, l2, g2⟩ := ih (polys.set c (addFace q ((v :: f).map (fun v => pid.getD v 0)))) (by
      intro g hg
      rw [List.length_set]
      exact h g (List.mem_cons_of_mem _ hg))
    refine ⟨p', by simp only [placeFaces, e1, e2], by rw [l2, List.length_set], ?_⟩
    intro i
    rw [g2 i, List.filter_cons]
    simp only [List.headD_cons, hc]
    by_cases hi : c = i
    · subst hi
      rw [List.getElem?_set_self hv3, hq]
      simp
    · simp [hi]

/-! ## Connection through faces -/

theorem reach_iff {n : Nat} {faces : List (List Nat)} {conn : List (List Nat)} (hm : ∀ a b, b ∈ conn.getD a [] ↔ b ∈ (List.replicate n ([] : List Nat)).getD a [] ∨
      (a, b) ∈ faces.flatMap faceEdges ∨ (b, a) ∈ faces.flatMap faceEdges) (a b : Nat) :
    Relation.ReflTransGen (fun a b => b ∈ conn.getD a []) a b ↔ Connected faces a b := by
  have hm' : ∀ a b, b ∈ conn.getD a [] ↔ (∃ f ∈ faces, (a, b) ∈ faceEdges f) ∨ (∃ f ∈ faces, (b, a) ∈ faceEdges f) := by
    intro a b
    rw [hm, List.mem_flatMap, List.mem_flatMap]
    have : b ∉ (List.replicate n ([] : List Nat)).getD a [] := by
      rw [List.getD_eq_getElem?_getD, List.getElem?_replicate]
      by_cases h : a < n <;> simp [h]
    rw [or_iff_right this]
  haveI : Std.Symm (fun a b => b ∈ conn.getD a []) := ⟨fun a b h => by
    have h : b ∈ conn.getD a [] := h
    show a ∈ conn.getD b []
    rw [hm'] at h ⊢
    exact h.symm⟩
  have hsy : ∀ {a b}, Relation.ReflTransGen (fun a b => b ∈ conn.getD a []) a b → Relation.ReflTransGen (fun a b => b ∈ conn.getD a []) b a := by
    intro a b h
    exact (Relation.ReflTransGen.symmetric (r := fun a b => b ∈ conn.getD a [])).symm _ _ h
  constructor
  · intro h
    induction h with
    | refl => exact .refl
    | tail _ h2 ih =>
      refine Relation.ReflTransGen.tail ih ?_
      rcases (hm' _ _).1 h2 with ⟨f, hf, he⟩ | ⟨f, hf, he⟩
      · exact ⟨f, hf, mem_faceEdges he⟩
      · exact ⟨f, hf, (mem_faceEdges he).symm⟩
  · intro h
    induction h with
    | refl => exact .refl
    | tail _ h2 ih =>
      refine ih.trans ?_
      obtain ⟨f, hf, h3, h4⟩ := h2
      have hz : ∀ (i : Nat) (hi : i < f.length), Relation.ReflTransGen (fun a b => b ∈ conn.getD a []) (f[0]'(by omega)) f[i] := by
        intro i
        induction i with
        | zero => intro _; exact .refl
        | succ i ihi =>
          intro hi
          exact (ihi (by omega)).tail ((hm' _ _).2 (.inl ⟨f, hf, faceEdge_next hi⟩))
      obtain ⟨i, hi, rfl⟩ := List.mem_iff_getElem.1 h3
      obtain ⟨j, hj, rfl⟩ := List.mem_iff_getElem.1 h4
      exact (hsy (hz i hi)).trans (hz j hj)

theorem mem_faceEdges_iff (f : List Nat) (a b : Nat) : (a, b) ∈ faceEdges f ↔ Follows f a b := by
  unfold faceEdges Follows
  rw [List.mem_map]
  constructor
  · rintro ⟨i, hi, he⟩
    rw [List.mem_range] at hi
    have hi' : (i + 1) % f.length < f.length := Nat.mod_lt _ (by omega)
    simp only [Prod.mk.injEq, getD_lt hi, getD_lt hi'] at he
    exact ⟨i, by rw [List.getElem?_eq_getElem hi, he.1], by rw [List.getElem?_eq_getElem hi', he.2]⟩
  · rintro ⟨i, h1, h2⟩
    obtain ⟨hi, h1⟩ := List.getElem?_eq_some_iff.1 h1
    obtain ⟨hi', h2⟩ := List.getElem?_eq_some_iff.1 h2
    exact ⟨i, List.mem_range.2 hi, by rw [getD_lt hi, getD_lt hi', h1, h2]⟩

/-! ## C81 -/

/-- C81. For every mesh whose faces refer to its points, `depart` ends (after some number of rounds of its loops) and makes one mesh for each
class of connected points. The points of a mesh are the points of its class, in their order; its faces are all faces of the mesh
with corners in the class, in their order, at the same points; and its table of edges is that of its faces. -/
theorem C81_components {P : Type} (m : Poly P) (hv : m.Valid) :
    ∃ K qs, (∀ fuel, K ≤ fuel → depart fuel m = some qs) ∧ ∃ label : Nat → Nat,
      (∀ a b, a < m.points.length → b < m.points.length → (label a = label b ↔ Connected m.faces a b)) ∧
      (∀ a < m.points.length, label a < qs.length) ∧ (∀ i < qs.length, ∃ a < m.points.length, label a = i) ∧
      ∀ i q, qs[i]? = some q →
        q.points = ((List.range m.points.length).filter (fun a => decide (label a = i))).filterMap (m.points[·]?) ∧
        q.solid = (m.faces.filter (fun f => decide (∀ v ∈ f, label v = i))).map (fun f => f.map (fun v => m.points[v]?)) ∧
        q.Valid ∧ ∀ a b, (a, b) ∈ q.edges ↔ ∃ f ∈ q.faces, Follows f a b := by
  obtain ⟨n, hn⟩ : ∃ n, m.points.length = n := ⟨_, rfl⟩
  obtain ⟨conn, ec, lc, mc⟩ := connectEdges_spec (m.faces.flatMap faceEdges) (List.replicate n []) (by
    intro e he
    obtain ⟨f, hf, he⟩ := List.mem_flatMap.1 he
    have h1 := mem_faceEdges (f := f) (a := e.1) (b := e.2) he
    rw [List.length_replicate, ← hn]
    exact ⟨(hv f hf).2 _ h1.1, (hv f hf).2 _ h1.2⟩)
  rw [List.length_replicate] at lc
  have hreach := reach_iff mc
  have hmc : ∀ a b, b ∈ conn.getD a [] ↔ (a, b) ∈ m.faces.flatMap faceEdges ∨ (b, a) ∈ m.faces.flatMap faceEdges := by
    intro a b
    rw [mc]
    have : b ∉ (List.replicate n ([] : List Nat)).getD a [] := by
      rw [List.getD_eq_getElem?_getD, List.getElem?_replicate]
      by_cases h : a < n <;> simp [h]
    rw [or_iff_right this]
  have hedge : ∀ a b, (a, b) ∈ m.faces.flatMap faceEdges → a < n ∧ b < n := by
    intro a b he
    obtain ⟨f, hf, he⟩ := List.mem_flatMap.1 he
    have h1 := mem_faceEdges he
    rw [← hn]
    exact ⟨(hv f hf).2 _ h1.1, (hv f hf).2 _ h1.2⟩
  obtain ⟨K, ccg, hK, ⟨hdis, hcls⟩, hcov⟩ := components_spec conn n lc (by
      intro a b h
      rcases (hmc a b).1 h with h | h
      · exact (hedge _ _ h).2
      · exact (hedge _ _ h).1) (by
      intro a b h
      rw [hmc] at h ⊢
      exact h.symm) _ (List.replicate n false) [] rfl (by simp) ⟨List.Pairwise.nil, by simp⟩ (by
      intro x hx
      simp [hx])
  have hclt : ∀ c ∈ ccg, ∀ x ∈ c, x < n := by
    intro c hc x hx
    obtain ⟨_, s, hs, hs2⟩ := hcls c hc
    have := (hs2 x).1 hx
    clear hx
    induction this with
    | refl => exact hs
    | tail _ h2 _ =>
      rcases (hmc _ _).1 h2 with h | h
      · exact (hedge _ _ h).2
      · exact (hedge _ _ h).1
  obtain ⟨s, es, b1, _, b3, b4, b5, _, b7⟩ := placeAll_spec m.points ccg 0
    { polys := List.replicate ccg.length (Poly.new P)
      pid := List.replicate n 0
      cg := List.replicate n 0 } (by simp) (by
        intro j _ hj
        rw [Nat.zero_add] at hj
        simp [hj]) hdis (by
        intro c hc
        exact ⟨(hcls c hc).1.imp (fun h => Nat.ne_of_lt h), fun a ha => by rw [hn]; exact hclt c hc a ha⟩) (by simp [hn]) (by simp [hn])
  rw [hn] at b4 b5
  rw [Nat.zero_add] at b1
  -- the label of a point
  have hlab : ∀ x < n, ∃ (j : Nat) (c : List Nat) (t : Nat), ccg[j]? = some c ∧ c[t]? = some x ∧ s.pid.getD x 0 = t ∧ s.cg.getD x 0 = j := by
    intro x hx
    obtain ⟨c, hc, hxc⟩ := hcov x hx
    obtain ⟨j, hj, rfl⟩ := List.mem_iff_getElem.1 hc
    obtain ⟨t, ht, rfl⟩ := List.mem_iff_getElem.1 hxc
    have h1 : ccg[j]? = some ccg[j] := List.getElem?_eq_getElem hj
    have h2 : (ccg[j])[t]? = some (ccg[j])[t] := List.getElem?_eq_getElem ht
    obtain ⟨q1, q2⟩ := b7 j _ t _ h1 h2
    refine ⟨j, _, t, h1, h2, ?_, ?_⟩
    · rw [List.getD_eq_getElem?_getD, q1]; rfl
    · rw [List.getD_eq_getElem?_getD, q2, Nat.zero_add]; rfl
  have hmemlab : ∀ (x : Nat) (j : Nat) (c : List Nat), ccg[j]? = some c → (x ∈ c ↔ x < n ∧ s.cg.getD x 0 = j) := by
    intro x j c hc
    constructor
    · intro hx
      refine ⟨hclt c (List.mem_of_getElem? hc) x hx, ?_⟩
      obtain ⟨t, ht, he⟩ := List.mem_iff_getElem.1 hx
      obtain ⟨_, q2⟩ := b7 j c t x hc (by rw [List.getElem?_eq_getElem ht, he])
      rw [List.getD_eq_getElem?_getD, q2, Nat.zero_add]; rfl
    · rintro ⟨hx, hj⟩
      obtain ⟨j', c', t, h1, h2, _, h4⟩ := hlab x hx
      have : j' = j := h4.symm.trans hj
      subst this
      rw [hc] at h1
      cases h1
      exact List.mem_of_getElem? h2
  have hsame : ∀ a b, a < n → b < n → (s.cg.getD a 0 = s.cg.getD b 0 ↔ Connected m.faces a b) := by
    intro a b ha hb
    obtain ⟨j, c, t, h1, h2, _, h4⟩ := hlab a ha
    obtain ⟨_, r, hr, hr2⟩ := hcls c (List.mem_of_getElem? h1)
    have hac := (hr2 a).1 (List.mem_of_getElem? h2)
    have hsy : Connected m.faces a r := by
      haveI : Std.Symm (Touch m.faces) := ⟨fun a b ⟨f, h1, h2, h3⟩ => ⟨f, h1, h3, h2⟩⟩
      exact (Relation.ReflTransGen.symmetric (r := Touch m.faces)).symm _ _ ((hreach _ _).1 hac)
    constructor
    · intro he
      have hbc : b ∈ c := (hmemlab b j c h1).2 ⟨hb, by rw [← he, h4]⟩
      exact hsy.trans ((hreach _ _).1 ((hr2 b).1 hbc))
    · intro he
      have hbc : b ∈ c := (hr2 b).2 (hac.trans ((hreach _ _).2 he))
      rw [h4, ((hmemlab b j c h1).1 hbc).2]
  have hlabl : ∀ a < n, s.cg.getD a 0 < ccg.length := by
    intro a ha
    obtain ⟨j, c, t, h1, _, _, h4⟩ := hlab a ha
    rw [h4]
    exact (List.getElem?_eq_some_iff.1 h1).1
  obtain ⟨qs, eq, lq, gq⟩ := placeFaces_spec s.pid s.cg m.faces s.polys (by
    intro f hf
    refine ⟨(hv f hf).1, ?_⟩
    intro v hvf
    have := (hv f hf).2 v hvf
    rw [hn] at this
    rw [b4, b5, b1]
    exact ⟨this, this, hlabl v this⟩)
  rw [b1] at lq
  refine ⟨K, qs, ?_, fun a => s.cg.getD a 0, ?_, ?_, ?_, ?_⟩
  · intro fuel hf
    unfold depart connections
    rw [hn, ec]
    simp only [hK fuel fuel hf hf, es]
    exact eq
  · rw [hn]; exact hsame
  · rw [hn, lq]; exact hlabl
  · rw [hn, lq]
    intro i hi
    obtain ⟨_, r, hr, hr2⟩ := hcls ccg[i] (List.getElem_mem hi)
    exact ⟨r, hr, ((hmemlab r i _ (List.getElem?_eq_getElem hi)).1 ((hr2 r).2 .refl)).2⟩
  · intro i q hq
    have hi : i < ccg.length := by rw [← lq]; exact (List.getElem?_eq_some_iff.1 hq).1
    have hci : ccg[i]? = some ccg[i] := List.getElem?_eq_getElem hi
    have hp := b3 i _ hci
    rw [Nat.zero_add] at hp
    rw [gq i, hp, Option.map_some, Option.some.injEq] at hq
    obtain ⟨f1, f2, f3⟩ := foldl_addFace ((m.faces.filter (fun f => decide (s.cg.getD (f.headD 0) 0 = i))).map (fun f => f.map (fun v => s.pid.getD v 0)))
      (⟨ccg[i].filterMap (m.points[·]?), [], []⟩ : Poly P)
    rw [hq] at f1 f2 f3
    rw [List.nil_append] at f2
    have hpts : ccg[i] = (List.range n).filter (fun a => decide (s.cg.getD a 0 = i)) := by
      apply sorted_ext (hcls _ (List.getElem_mem hi)).1
      · exact List.Pairwise.filter _ (List.pairwise_lt_range)
      · intro x
        rw [hmemlab x i _ hci, List.mem_filter, List.mem_range, decide_eq_true_eq]
    have hlen : ∀ l : List Nat, (∀ x ∈ l, x < n) → ∀ t : Nat, (l.filterMap (m.points[·]?))[t]? = l[t]?.bind (m.points[·]?) := by
      intro l
      induction l with
      | nil => intro _ t; rfl
      | cons x l ih =>
        intro h t
        have hx : x < m.points.length := by rw [hn]; exact h x List.mem_cons_self
        rw [List.filterMap_cons, List.getElem?_eq_getElem hx]
        cases t with
        | zero => simp [List.getElem?_eq_getElem hx]
        | succ t => simpa using ih (fun y hy => h y (List.mem_cons_of_mem _ hy)) t
    have hface : ∀ f ∈ m.faces, (s.cg.getD (f.headD 0) 0 = i ↔ ∀ v ∈ f, s.cg.getD v 0 = i) := by
      intro f hf
      obtain ⟨h1, h2⟩ := hv f hf
      cases f with
      | nil => exact absurd rfl h1
      | cons v0 f =>
        rw [List.headD_cons]
        constructor
        · intro h v hvf
          rw [← h]
          rw [hn] at h2
          exact ((hsame v v0 (h2 v hvf) (h2 v0 List.mem_cons_self)).2 (.single ⟨_, hf, hvf, List.mem_cons_self⟩))
        · intro h
          exact h v0 List.mem_cons_self
    have hfilt : m.faces.filter (fun f => decide (s.cg.getD (f.headD 0) 0 = i)) = m.faces.filter (fun f => decide (∀ v ∈ f, s.cg.getD v 0 = i)) := by
      apply List.filter_congr
      intro f hf
      exact decide_eq_decide.2 (hface f hf)
    have hvert : ∀ f ∈ m.faces, (∀ v ∈ f, s.cg.getD v 0 = i) → ∀ v ∈ f, q.points[s.pid.getD v 0]? = m.points[v]? ∧ s.pid.getD v 0 < q.points.length := by
      intro f hf hl v hvf
      have hvn : v < m.points.length := (hv f hf).2 v hvf
      obtain ⟨j, c, t, h1, h2, h3, h4⟩ := hlab v (by rw [← hn]; exact hvn)
      have : j = i := h4.symm.trans (hl v hvf)
      subst this
      rw [hci] at h1
      cases h1
      have h5 : q.points[s.pid.getD v 0]? = m.points[v]? := by
        rw [f1, h3]
        show (ccg[j].filterMap (m.points[·]?))[t]? = _
        rw [hlen _ (hclt _ (List.getElem_mem hi)) t, h2]; rfl
      refine ⟨h5, ?_⟩
      rw [List.getElem?_eq_getElem hvn] at h5
      exact (List.getElem?_eq_some_iff.1 h5).1
    refine ⟨?_, ?_, ?_, ?_⟩
    · rw [f1, hn, ← hpts]
    · rw [← hfilt]
      unfold Poly.solid
      rw [f2, List.map_map]
      apply List.map_congr_left
      intro f hf
      obtain ⟨hf1, hf2⟩ := List.mem_filter.1 hf
      rw [decide_eq_true_eq] at hf2
      rw [Function.comp, List.map_map]
      apply List.map_congr_left
      intro v hvf
      exact (hvert f hf1 ((hface f hf1).1 hf2) v hvf).1
    · intro g hg
      rw [f2, List.mem_map] at hg
      obtain ⟨f, hf, rfl⟩ := hg
      obtain ⟨hf1, hf2⟩ := List.mem_filter.1 hf
      rw [decide_eq_true_eq] at hf2
      refine ⟨by simpa using (hv f hf1).1, ?_⟩
      intro w hw
      obtain ⟨v, hvf, rfl⟩ := List.mem_map.1 hw
      exact (hvert f hf1 ((hface f hf1).1 hf2) v hvf).2
    · intro a b
      rw [f3, f2]
      simp only [List.not_mem_nil, false_or, mem_faceEdges_iff]

/-! A mesh of two separate parts, the first interleaved with the second. -/

def exMesh : Poly Nat := ⟨[10, 11, 12, 13, 14, 15], [[0, 2, 4], [1, 3, 5], [4, 2, 0]], []⟩

example : exMesh.Valid := by
  unfold Poly.Valid exMesh
  decide

example : depart 20 exMesh = some [⟨[10, 12, 14], [[0, 1, 2], [2, 1, 0]], [(0, 1), (0, 2), (1, 0), (1, 2), (2, 0), (2, 1)]⟩,
    ⟨[11, 13, 15], [[0, 1, 2]], [(0, 1), (1, 2), (2, 0)]⟩] := by decide +kernel

end TDP.Fixer
