import Verif.Voxels.Model
import Verif.Boxes.Lemmas
import Mathlib.Data.List.Basic
/-! Choosing the nearest core; copying elements; growing boxes. -/
namespace TDP.Voxels
open TDP.Boxes

variable {α δ : Type} [LinearOrder α] [BoundedOrder α] [LinearOrder δ] [OrderTop δ]

/-- Core number `j` is the first of the nearest cores of `p`. -/
def FirstNearest (dist : Pt α → Pt α → δ) (cores : List (Pt α)) (p : Pt α) (j : Nat) : Prop :=
  ∃ c, cores[j]? = some c ∧ (∀ (k : Nat) c', cores[k]? = some c' → dist c p ≤ dist c' p) ∧
    ∀ (k : Nat) c', k < j → cores[k]? = some c' → dist c p < dist c' p

omit [LinearOrder α] [BoundedOrder α] [OrderTop δ] in
theorem FirstNearest.unique {dist : Pt α → Pt α → δ} {cores : List (Pt α)} {p : Pt α} {j k : Nat}
    (h1 : FirstNearest dist cores p j) (h2 : FirstNearest dist cores p k) : j = k := by
  obtain ⟨c, a1, a2, a3⟩ := h1
  obtain ⟨d, b1, b2, b3⟩ := h2
  rcases Nat.lt_trichotomy j k with h | h | h
  · exact absurd (a2 k d b1) (not_le.mpr (b3 j c h a1))
  · exact h
  · exact absurd (b2 j c a1) (not_le.mpr (a3 k d h b1))

omit [LinearOrder α] [BoundedOrder α] [OrderTop δ] in
theorem nearestLoop_some (dist : Pt α → Pt α → δ) (p : Pt α) (cs pre : List (Pt α)) (g : Nat) (m : δ)
    (hg : FirstNearest dist pre p g) (hm : ∃ c, pre[g]? = some c ∧ m = dist c p) :
    ∃ j, nearestLoop dist p cs pre.length (some g) m = some j ∧ FirstNearest dist (pre ++ cs) p j := by
  induction cs generalizing pre g m with
  | nil => exact ⟨g, rfl, by rw [List.append_nil]; exact hg⟩
  | cons c cs ih =>
    obtain ⟨d, d1, rfl⟩ := hm
    have dlt : g < pre.length := (List.getElem?_eq_some_iff.mp d1).1
    rw [nearestLoop]
    have hassoc : pre ++ c :: cs = (pre ++ [c]) ++ cs := by simp
    split
    · rename_i hlt
      have := ih (pre ++ [c]) pre.length (dist c p) ?_ ⟨c, by simp, rfl⟩
      · rw [List.length_append, List.length_singleton] at this
        rw [hassoc]; exact this
      · obtain ⟨d', a1, a2, a3⟩ := hg
        rw [d1] at a1; cases a1
        refine ⟨c, by simp, ?_, ?_⟩
        · intro k c' hk
          rcases Nat.lt_trichotomy k pre.length with h | h | h
          · rw [List.getElem?_append_left h] at hk
            exact le_of_lt (lt_of_lt_of_le hlt (a2 k c' hk))
          · subst h
            simp at hk; rw [hk]
          · rw [List.getElem?_eq_none (by simp; omega)] at hk; cases hk
        · intro k c' hk hk2
          rw [List.getElem?_append_left hk] at hk2
          exact lt_of_lt_of_le hlt (a2 k c' hk2)
    · rename_i hlt
      have := ih (pre ++ [c]) g (dist d p) ?_ ⟨d, by rw [List.getElem?_append_left dlt]; exact d1, rfl⟩
      · rw [List.length_append, List.length_singleton] at this
        rw [hassoc]; exact this
      · obtain ⟨d', a1, a2, a3⟩ := hg
        rw [d1] at a1; cases a1
        refine ⟨d, by rw [List.getElem?_append_left dlt]; exact d1, ?_, ?_⟩
        · intro k c' hk
          rcases Nat.lt_trichotomy k pre.length with h | h | h
          · rw [List.getElem?_append_left h] at hk
            exact a2 k c' hk
          · subst h
            simp at hk; rw [← hk]; exact not_lt.mp hlt
          · rw [List.getElem?_eq_none (by simp; omega)] at hk; cases hk
        · intro k c' hk hk2
          rw [List.getElem?_append_left (by omega)] at hk2
          exact a3 k c' hk hk2

omit [LinearOrder α] [BoundedOrder α] in
theorem nearest_spec (dist : Pt α → Pt α → δ) (cores : List (Pt α)) (p : Pt α) (hne : cores ≠ [])
    (hfin : ∀ c ∈ cores, dist c p < ⊤) : ∃ j, nearest dist cores p = some j ∧ FirstNearest dist cores p j := by
  cases cores with
  | nil => exact absurd rfl hne
  | cons c cs =>
    unfold nearest
    rw [nearestLoop, if_pos (hfin c List.mem_cons_self)]
    refine nearestLoop_some dist p cs [c] 0 _ ⟨c, rfl, ?_, ?_⟩ ⟨c, rfl, rfl⟩
    · intro k c' hk
      cases k with
      | zero => simp at hk; rw [hk]
      | succ k => simp at hk
    · intro k c' hk; omega

theorem mapM_some {A B : Type} (l : List A) (f : A → Option B) (g : A → B) (h : ∀ x ∈ l, f x = some (g x)) :
    l.mapM f = some (l.map g) := by
  induction l with
  | nil => rfl
  | cons x l ih =>
    rw [List.mapM_cons, h x List.mem_cons_self, ih (fun y hy => h y (List.mem_cons_of_mem _ hy))]
    rfl

theorem copy_spec {E : Type} (L : List (Nat × E)) (bufs : List (Nat × List E))
    (hlt : ∀ x ∈ L, x.1 < bufs.length)
    (hcap : ∀ j (h : j < bufs.length), bufs[j].2.length + (L.map (·.1)).count j ≤ bufs[j].1) :
    ∃ bufs', L.foldlM copyOne bufs = some bufs' ∧ bufs'.length = bufs.length ∧
      ∀ j (h : j < bufs.length) (h' : j < bufs'.length),
        bufs'[j].2 = bufs[j].2 ++ (L.filter (fun x => x.1 == j)).map (·.2) := by
  induction L generalizing bufs with
  | nil => exact ⟨bufs, rfl, rfl, by simp⟩
  | cons x L ih =>
    have hx := hlt x List.mem_cons_self
    have hc := hcap x.1 hx
    rw [List.map_cons, List.count_cons_self] at hc
    have hstep : copyOne bufs x = some (bufs.set x.1 (bufs[x.1].1, bufs[x.1].2 ++ [x.2])) := by
      unfold copyOne
      rw [List.getElem?_eq_getElem hx]
      simp only
      rw [if_pos (by omega)]
    obtain ⟨b', h1, h2, h3⟩ := ih (bufs.set x.1 (bufs[x.1].1, bufs[x.1].2 ++ [x.2]))
      (fun y hy => by rw [List.length_set]; exact hlt y (List.mem_cons_of_mem _ hy))
      (by
        intro j hj
        rw [List.length_set] at hj
        rw [List.getElem_set]
        have hcj := hcap j hj
        rw [List.map_cons] at hcj
        split
        · rename_i e; subst e
          rw [List.count_cons_self] at hcj
          simp only [List.length_append, List.length_singleton]; omega
        · rename_i e
          rw [List.count_cons_of_ne e] at hcj
          exact hcj)
    refine ⟨b', ?_, by rw [h2, List.length_set], ?_⟩
    · rw [List.foldlM_cons, hstep]
      exact h1
    · intro j hj hj'
      rw [h3 j (by rw [List.length_set]; exact hj), List.getElem_set]
      split
      · rename_i e; subst e
        rw [List.filter_cons_of_pos (by simp)]
        simp
      · rename_i e
        rw [List.filter_cons_of_neg (by simpa using e)]

theorem filter_map_snd {E : Type} (elems : List E) (gf : E → Nat) (j : Nat) :
    ((elems.map (fun e => (gf e, e))).filter (fun x => x.1 == j)).map (·.2) = elems.filter (fun e => gf e == j) := by
  induction elems with
  | nil => rfl
  | cons e es ih =>
    rw [List.map_cons]
    by_cases h : gf e == j
    · rw [List.filter_cons_of_pos (by simpa using h), List.filter_cons_of_pos (p := fun e => gf e == j) h, List.map_cons, ih]
    · rw [List.filter_cons_of_neg (by simpa using h), List.filter_cons_of_neg (p := fun e => gf e == j) h, ih]

theorem zip_map_self {A B : Type} (l : List A) (f : A → B) : (l.map f).zip l = l.map (fun x => (f x, x)) := by
  induction l with
  | nil => rfl
  | cons x l ih => rw [List.map_cons, List.zip_cons_cons, ih, List.map_cons]

/-! ### First minimum as an element -/

section First
variable {A : Type}

/-- The first element with the least key. -/
def firstMin (key : A → δ) (acc : Option A) (l : List A) : Option A :=
  l.foldl (fun a x => match a with
    | none => some x
    | some a => if key x < key a then some x else some a) acc

omit [OrderTop δ] in
theorem firstMin_filter (key : A → δ) (P : A → Bool) (l : List A) (o o' : Option A)
    (h : o' = o ∨ ∃ a, o = some a ∧ P a = false ∧ ∀ b, o' = some b → key a ≤ key b) (m : A)
    (hm : firstMin key o l = some m) (hP : P m = true) : firstMin key o' (l.filter P) = some m := by
  induction l generalizing o o' with
  | nil =>
    rcases h with rfl | ⟨a, rfl, ha, _⟩
    · exact hm
    · simp only [firstMin, List.foldl_nil, Option.some.injEq] at hm
      rw [hm, hP] at ha; cases ha
  | cons x l ih =>
    unfold firstMin at hm ih ⊢
    rw [List.foldl_cons] at hm
    rcases h with rfl | ⟨a, rfl, ha, hb⟩
    · by_cases hx : P x
      · rw [List.filter_cons_of_pos hx, List.foldl_cons]
        exact ih _ _ (Or.inl rfl) hm
      · rw [List.filter_cons_of_neg hx]
        have hxf : P x = false := by simpa using hx
        refine ih _ _ ?_ hm
        cases o' with
        | none => exact Or.inr ⟨x, rfl, hxf, fun b hb => by cases hb⟩
        | some a =>
          simp only
          split
          · rename_i hlt
            exact Or.inr ⟨x, rfl, hxf, fun b hb => by cases hb; exact le_of_lt hlt⟩
          · exact Or.inl rfl
    · simp only at hm
      by_cases hx : P x
      · rw [List.filter_cons_of_pos hx, List.foldl_cons]
        refine ih _ _ ?_ hm
        by_cases hlt : key x < key a
        · rw [if_pos hlt]
          cases o' with
          | none => exact Or.inl rfl
          | some b =>
            simp only
            rw [if_pos (lt_of_lt_of_le hlt (hb b rfl))]
            exact Or.inl rfl
        · rw [if_neg hlt]
          refine Or.inr ⟨a, rfl, ha, ?_⟩
          intro b hb'
          cases o' with
          | none => simp only [Option.some.injEq] at hb'; rw [← hb']; exact not_lt.mp hlt
          | some c =>
            simp only at hb'
            split at hb'
            · cases hb'; exact not_lt.mp hlt
            · cases hb'; exact hb _ rfl
      · rw [List.filter_cons_of_neg hx]
        have hxf : P x = false := by simpa using hx
        refine ih _ _ ?_ hm
        by_cases hlt : key x < key a
        · rw [if_pos hlt]
          exact Or.inr ⟨x, rfl, hxf, fun b hb' => le_of_lt (lt_of_lt_of_le hlt (hb b hb'))⟩
        · rw [if_neg hlt]
          exact Or.inr ⟨a, rfl, ha, hb⟩

end First

omit [LinearOrder α] [BoundedOrder α] [OrderTop δ] in
theorem firstMin_append {A : Type} (key : A → δ) (acc : Option A) (l k : List A) :
    firstMin key acc (l ++ k) = firstMin key (firstMin key acc l) k := by
  unfold firstMin; rw [List.foldl_append]

omit [LinearOrder α] [BoundedOrder α] [OrderTop δ] in
theorem firstMin_keep {A : Type} (key : A → δ) (a : A) (l : List A) (h : ∀ x ∈ l, key a ≤ key x) :
    firstMin key (some a) l = some a := by
  induction l with
  | nil => rfl
  | cons x l ih =>
    unfold firstMin at ih ⊢
    rw [List.foldl_cons]
    simp only
    rw [if_neg (not_lt.mpr (h x List.mem_cons_self))]
    exact ih (fun y hy => h y (List.mem_cons_of_mem _ hy))

omit [LinearOrder α] [BoundedOrder α] [OrderTop δ] in
theorem firstMin_before {A : Type} (key : A → δ) (a : A) (acc : Option A) (l : List A)
    (h : ∀ x ∈ l, key a < key x) (ha : ∀ b, acc = some b → key a < key b) :
    ∀ b, firstMin key acc l = some b → key a < key b := by
  induction l generalizing acc with
  | nil => exact ha
  | cons x l ih =>
    unfold firstMin at ih ⊢
    rw [List.foldl_cons]
    apply ih _ (fun y hy => h y (List.mem_cons_of_mem _ hy))
    intro b hb
    have hx := h x List.mem_cons_self
    cases acc with
    | none => cases hb; exact hx
    | some c =>
      simp only at hb
      split at hb
      · cases hb; exact hx
      · cases hb; exact ha _ rfl

omit [LinearOrder α] [BoundedOrder α] [OrderTop δ] in
theorem firstMin_of_nearest {A : Type} (dist : Pt α → Pt α → δ) (core : A → Pt α) (l : List A) (p : Pt α) (j : Nat)
    (h : FirstNearest dist (l.map core) p j) :
    ∃ a, l[j]? = some a ∧ firstMin (fun a => dist (core a) p) none l = some a := by
  obtain ⟨c, h1, h2, h3⟩ := h
  rw [List.getElem?_map] at h1
  cases hl : l[j]? with
  | none => rw [hl] at h1; cases h1
  | some a =>
    rw [hl] at h1
    simp only [Option.map_some, Option.some.injEq] at h1
    refine ⟨a, rfl, ?_⟩
    obtain ⟨hj, ha⟩ := List.getElem?_eq_some_iff.mp hl
    have hsplit : l = l.take j ++ a :: l.drop (j + 1) := by
      rw [← ha, List.getElem_cons_drop, List.take_append_drop]
    have hb := firstMin_before (fun a => dist (core a) p) a none (l.take j) (by
      intro x hx
      obtain ⟨k, hk, hxk⟩ := List.mem_iff_getElem.mp hx
      rw [List.length_take] at hk
      rw [List.getElem_take] at hxk
      have := h3 k (core x) (by omega) (by rw [List.getElem?_map, List.getElem?_eq_getElem (by omega), hxk]; rfl)
      rw [← h1] at this; exact this) (fun b hb => by cases hb)
    rw [hsplit, firstMin_append]
    have hstep : firstMin (fun a => dist (core a) p) (firstMin (fun a => dist (core a) p) none (l.take j)) (a :: l.drop (j + 1))
        = firstMin (fun a => dist (core a) p) (some a) (l.drop (j + 1)) := by
      generalize firstMin (fun a => dist (core a) p) none (l.take j) = o at hb
      unfold firstMin
      rw [List.foldl_cons]
      cases o with
      | none => rfl
      | some b => simp only; rw [if_pos (hb b rfl)]
    rw [hstep]
    apply firstMin_keep
    intro x hx
    obtain ⟨k, hk, hxk⟩ := List.mem_iff_getElem.mp hx
    rw [List.length_drop] at hk
    rw [List.getElem_drop] at hxk
    have := h2 (j + 1 + k) (core x) (by rw [List.getElem?_map, List.getElem?_eq_getElem (by omega), hxk]; rfl)
    rw [← h1] at this; exact this

/-! ### Growing boxes -/

omit [BoundedOrder α] in
theorem addPt_mem (b : Box α) (p : Pt α) : (b.addPt p).Mem p := upd_in b (Upd.pt p)

omit [BoundedOrder α] in
theorem addPt_le (b : Box α) (p : Pt α) : b.Le (b.addPt p) := upd_le b (Upd.pt p)

omit [BoundedOrder α] in
theorem mem_mono {b c : Box α} (h : b.Le c) {p : Pt α} (hp : b.Mem p) : c.Mem p :=
  fun i => ⟨le_trans (h i).1 (hp i).1, le_trans (hp i).2 (h i).2⟩

/-- Cores agree, boxes and sizes have only grown. -/
def Grown (vs ws : List (Gen α)) : Prop :=
  ws.map (·.core) = vs.map (·.core) ∧
  ∀ (j : Nat) (v w : Gen α), vs[j]? = some v → ws[j]? = some w → v.box.Le w.box ∧ v.size ≤ w.size

omit [BoundedOrder α] in
theorem Grown.refl (vs : List (Gen α)) : Grown vs vs :=
  ⟨rfl, fun j v w h1 h2 => by rw [h1] at h2; cases h2; exact ⟨Box.Le.refl _, Nat.le_refl _⟩⟩

omit [BoundedOrder α] in
theorem Grown.trans {us vs ws : List (Gen α)} (h1 : Grown us vs) (h2 : Grown vs ws) : Grown us ws := by
  refine ⟨h2.1.trans h1.1, ?_⟩
  intro j u w hu hw
  have hlen : vs.length = us.length := by
    have := congrArg List.length h1.1; simpa using this
  have hj : j < vs.length := by rw [hlen]; exact (List.getElem?_eq_some_iff.mp hu).1
  have hv : vs[j]? = some vs[j] := List.getElem?_eq_getElem hj
  obtain ⟨a1, a2⟩ := h1.2 j u _ hu hv
  obtain ⟨b1, b2⟩ := h2.2 j _ w hv hw
  exact ⟨Box.Le.trans a1 b1, Nat.le_trans a2 b2⟩

omit [BoundedOrder α] in
theorem addVertex_spec (dist : Pt α → Pt α → δ) (vs : List (Gen α)) (p : Pt α) (hne : vs ≠ [])
    (hfin : ∀ v ∈ vs, dist v.core p < ⊤) : ∃ ws g w, addVertex dist vs p = some ws ∧ Grown vs ws ∧
      FirstNearest dist (vs.map (·.core)) p g ∧ ws[g]? = some w ∧ w.box.Mem p ∧ 0 < w.size := by
  obtain ⟨g, h1, h2⟩ := nearest_spec dist (vs.map (·.core)) p (by simpa using hne)
    (fun c hc => by obtain ⟨v, hv, rfl⟩ := List.mem_map.mp hc; exact hfin v hv)
  obtain ⟨a, ha, _⟩ := firstMin_of_nearest dist (·.core) vs p g h2
  obtain ⟨hg, _⟩ := List.getElem?_eq_some_iff.mp ha
  refine ⟨vs.set g ⟨a.core, a.box.addPt p, a.size + 1⟩, g, ⟨a.core, a.box.addPt p, a.size + 1⟩, ?_, ⟨?_, ?_⟩, h2, ?_, ?_, ?_⟩
  · unfold addVertex; rw [h1]; simp only [ha]
  · apply List.ext_getElem?
    intro j
    rw [List.getElem?_map, List.getElem?_map, List.getElem?_set]
    by_cases e : g = j
    · subst e; rw [if_pos rfl, if_pos hg, ha]; rfl
    · rw [if_neg e]
  · intro j v w hv hw
    rw [List.getElem?_set] at hw
    by_cases e : g = j
    · subst e
      rw [if_pos rfl, if_pos hg] at hw
      rw [ha] at hv
      cases hv; cases hw
      exact ⟨addPt_le _ _, by simp⟩
    · rw [if_neg e, hv] at hw
      cases hw
      exact ⟨Box.Le.refl _, Nat.le_refl _⟩
  · rw [List.getElem?_set, if_pos rfl, if_pos hg]
  · exact addPt_mem _ _
  · simp

omit [BoundedOrder α] in
theorem addVertices_spec (dist : Pt α → Pt α → δ) (verts : List (Pt α)) (vs : List (Gen α)) (hne : vs ≠ [])
    (hfin : ∀ v ∈ vs, ∀ p ∈ verts, dist v.core p < ⊤) :
    ∃ ws, verts.foldlM (addVertex dist) vs = some ws ∧ Grown vs ws ∧
      ∀ p ∈ verts, ∃ g w, FirstNearest dist (ws.map (·.core)) p g ∧ ws[g]? = some w ∧ w.box.Mem p ∧ 0 < w.size := by
  induction verts generalizing vs with
  | nil => exact ⟨vs, rfl, Grown.refl vs, by simp⟩
  | cons p verts ih =>
    obtain ⟨us, g, w, h1, h2, h3, h4, h5, h6⟩ := addVertex_spec dist vs p hne
      (fun v hv => hfin v hv p List.mem_cons_self)
    have hmem : ∀ u ∈ us, ∃ v ∈ vs, v.core = u.core := by
      intro u hu
      have : u.core ∈ vs.map (·.core) := by rw [← h2.1]; exact List.mem_map.mpr ⟨u, hu, rfl⟩
      exact List.mem_map.mp this
    obtain ⟨ws, k1, k2, k3⟩ := ih us
      (by intro e; subst e; have := h2.1; simp at this; exact hne this)
      (fun u hu q hq => by
        obtain ⟨v, hv, e⟩ := hmem u hu
        rw [← e]; exact hfin v hv q (List.mem_cons_of_mem _ hq))
    refine ⟨ws, ?_, h2.trans k2, ?_⟩
    · rw [List.foldlM_cons, h1]; exact k1
    · intro q hq
      rcases List.mem_cons.mp hq with rfl | hq
      · have hlen : ws.length = us.length := by have := congrArg List.length k2.1; simpa using this
        have hg : g < ws.length := by rw [hlen]; exact (List.getElem?_eq_some_iff.mp h4).1
        obtain ⟨b1, b2⟩ := k2.2 g w _ h4 (List.getElem?_eq_getElem hg)
        refine ⟨g, ws[g], ?_, List.getElem?_eq_getElem hg, mem_mono b1 h5, by omega⟩
        rw [k2.1, h2.1]; exact h3
      · exact k3 q hq

theorem boundingBox_mem (verts : List (Pt α)) : ∀ p ∈ verts, (boundingBox verts).Mem p := by
  have h : boundingBox verts = (verts.map Upd.pt).foldl Box.upd emptyBox := by
    unfold boundingBox; rw [List.foldl_map]; rfl
  intro p hp
  rw [h]
  exact foldl_in emptyBox _ (Upd.pt p) (List.mem_map.mpr ⟨p, hp, rfl⟩)

theorem pointDist_eq (F : Fp) (p q : Pt ℚ) : pointDist F p q = ptDist F p q := by
  have h : ∀ t : Fin 3, F.rnd (q t - p t) * F.rnd (q t - p t) = F.rnd (p t - q t) * F.rnd (p t - q t) := by
    intro t
    have : q t - p t = -(p t - q t) := by rw [neg_sub]
    rw [this, F.neg, neg_mul_neg]
  unfold pointDist ptDist
  simp only [h]

end TDP.Voxels
