import Verif.Octree.Model
import Verif.Boxes.Lemmas
/-! What an octree stores. -/
namespace TDP.Octree
open TDP.Boxes

theorem seq8_eq {A : Type} {f : Fin 8 → Option A} {g : Fin 8 → A} : seq8 f = some g ↔ ∀ i, f i = some (g i) := by
  unfold seq8
  constructor
  · intro h
    split at h
    · rename_i hs
      intro i
      injection h with h
      rw [← h]; simp
    · cases h
  · intro h
    have hs : ∀ i, (f i).isSome = true := fun i => by rw [h i]; rfl
    rw [dif_pos hs]
    congr 1
    funext i
    simp [h i]

variable {α : Type} [LinearOrder α]

/-- Total size. -/
def sizes (L : List (Obj α)) : Nat := (L.map (·.size)).sum

/-- The node stores exactly the objects `L`, in this order, down to the leaves. -/
def Holds (mid : α → α → α) : Node α → List (Obj α) → Prop
  | .leaf _ size _ objs, L => objs = L ∧ size = sizes L
  | .inner b size _ c, L => size = sizes L ∧ L ≠ [] ∧
      ∀ i, (c i).box = octant mid b i ∧ Holds mid (c i) (L.filter (fun o => (octant mid b i).intersect o.box))

theorem sizes_append (L M : List (Obj α)) : sizes (L ++ M) = sizes L + sizes M := by
  simp [sizes]

theorem filter_snoc (p : Obj α → Bool) (L : List (Obj α)) (o : Obj α) :
    (L ++ [o]).filter p = if p o then L.filter p ++ [o] else L.filter p := by
  rw [List.filter_append]
  by_cases h : p o = true
  · rw [if_pos h, List.filter_cons_of_pos h]; rfl
  · rw [if_neg h, List.filter_cons_of_neg h]; simp

theorem add_holds (mid : α → α → α) (tile : Nat) (n : Nat) : ∀ (o : Obj α) (t t' : Node α) (L : List (Obj α)),
    add mid tile n o t = some t' → Holds mid t L → 0 < o.size → (∀ v ∈ L, 0 < v.size) →
    Holds mid t' (L ++ [o]) ∧ t'.box = t.box := by
  induction n with
  | zero => intro o t t' L h; cases h
  | succ n ih =>
    intro o t t' L h hL ho hs
    cases t with
    | leaf b size can objs =>
      obtain ⟨rfl, hsz⟩ := hL
      have hsz' : size + o.size = sizes (objs ++ [o]) := by rw [hsz, sizes_append]; simp [sizes]
      rw [add] at h
      split at h
      · injection h with h; subst h
        exact ⟨⟨rfl, hsz'⟩, rfl⟩
      · split at h
        · split at h
          · cases h
          · rename_i c hc
            split at h
            · injection h with h; subst h
              exact ⟨⟨rfl, hsz'⟩, rfl⟩
            · injection h with h; subst h
              refine ⟨⟨hsz', by simp, ?_⟩, rfl⟩
              have hpos : ∀ v ∈ objs ++ [o], 0 < v.size := by
                intro v hv
                rcases List.mem_append.mp hv with hv | hv
                · exact hs v hv
                · rw [List.mem_singleton.mp hv]; exact ho
              have key : ∀ (M : List (Obj α)) (c0 c1 : Fin 8 → Node α) (P : List (Obj α)),
                  (∀ v ∈ M, 0 < v.size) → (∀ v ∈ P, 0 < v.size) →
                  (∀ i, (c0 i).box = octant mid b i ∧
                    Holds mid (c0 i) (P.filter (fun o => (octant mid b i).intersect o.box))) →
                  M.foldlM (fun (c : Fin 8 → Node α) v =>
                    seq8 (fun i => if (octant mid b i).intersect v.box then add mid tile n v (c i) else some (c i)))
                    c0 = some c1 →
                  ∀ i, (c1 i).box = octant mid b i ∧
                    Holds mid (c1 i) ((P ++ M).filter (fun o => (octant mid b i).intersect o.box)) := by
                intro M
                induction M with
                | nil =>
                  intro c0 c1 P _ _ h0 hf
                  rw [List.foldlM_nil] at hf
                  injection hf with hf
                  subst hf
                  simpa using h0
                | cons v M ihM =>
                  intro c0 c1 P hM hP h0 hf
                  rw [List.foldlM_cons] at hf
                  cases hq : seq8 (fun i => if (octant mid b i).intersect v.box then add mid tile n v (c0 i)
                      else some (c0 i)) with
                  | none => rw [hq] at hf; cases hf
                  | some c2 =>
                    rw [hq] at hf
                    have hc2 := seq8_eq.mp hq
                    have := ihM c2 c1 (P ++ [v]) (fun x hx => hM x (List.mem_cons_of_mem _ hx)) (by
                        intro x hx
                        rcases List.mem_append.mp hx with hx | hx
                        · exact hP x hx
                        · rw [List.mem_singleton.mp hx]; exact hM v List.mem_cons_self) (by
                        intro i
                        obtain ⟨a1, a2⟩ := h0 i
                        have hci := hc2 i
                        rw [filter_snoc]
                        by_cases hv : (octant mid b i).intersect v.box = true
                        · rw [if_pos hv] at hci
                          rw [if_pos hv]
                          obtain ⟨b1, b2⟩ := ih v (c0 i) (c2 i) _ hci a2 (hM v List.mem_cons_self)
                            (fun x hx => hP x (List.mem_filter.mp hx).1)
                          exact ⟨by rw [b2]; exact a1, b1⟩
                        · rw [if_neg hv] at hci
                          rw [if_neg hv]
                          injection hci with hci
                          rw [← hci]
                          exact ⟨a1, a2⟩) hf
                    simpa using this
              have := key (objs ++ [o]) (fun i => newNode (octant mid b i)) c [] hpos (by simp)
                (fun i => ⟨rfl, rfl, rfl⟩) hc
              simpa using this
        · injection h with h; subst h
          exact ⟨⟨rfl, hsz'⟩, rfl⟩
    | inner b size lost c =>
      obtain ⟨hsz, hne, hch⟩ := hL
      rw [add] at h
      have hpos : 0 < size := by
        rw [hsz]
        cases L with
        | nil => exact absurd rfl hne
        | cons v L => have := hs v List.mem_cons_self; simp [sizes]; omega
      rw [if_neg (by omega)] at h
      cases hq : seq8 (fun i => if (octant mid b i).intersect o.box then add mid tile n o (c i) else some (c i)) with
      | none => rw [hq] at h; cases h
      | some c2 =>
        rw [hq] at h
        injection h with h; subst h
        have hc2 := seq8_eq.mp hq
        refine ⟨⟨by rw [hsz, sizes_append]; simp [sizes], by simp, ?_⟩, rfl⟩
        intro i
        obtain ⟨a1, a2⟩ := hch i
        have hci := hc2 i
        rw [filter_snoc]
        by_cases hv : (octant mid b i).intersect o.box = true
        · rw [if_pos hv] at hci
          rw [if_pos hv]
          obtain ⟨b1, b2⟩ := ih o (c i) (c2 i) _ hci a2 ho (fun x hx => hs x (List.mem_filter.mp hx).1)
          exact ⟨by rw [b2]; exact a1, b1⟩
        · rw [if_neg hv] at hci
          rw [if_neg hv]
          injection hci with hci
          rw [← hci]
          exact ⟨a1, a2⟩

theorem adds_holds (mid : α → α → α) (tile fuel : Nat) (M L : List (Obj α)) (t t' : Node α)
    (h : M.foldlM (fun n v => add mid tile fuel v n) t = some t') (hL : Holds mid t L)
    (hM : ∀ v ∈ M, 0 < v.size) (hs : ∀ v ∈ L, 0 < v.size) : Holds mid t' (L ++ M) ∧ t'.box = t.box := by
  induction M generalizing L t with
  | nil => rw [List.foldlM_nil] at h; injection h with h; subst h; simpa using hL
  | cons v M ih =>
    rw [List.foldlM_cons] at h
    cases hq : add mid tile fuel v t with
    | none => rw [hq] at h; cases h
    | some t1 =>
      rw [hq] at h
      obtain ⟨a1, a2⟩ := add_holds mid tile fuel v t t1 L hq hL (hM v List.mem_cons_self) hs
      obtain ⟨b1, b2⟩ := ih (L ++ [v]) t1 h a1 (fun x hx => hM x (List.mem_cons_of_mem _ hx)) (by
        intro x hx
        rcases List.mem_append.mp hx with hx | hx
        · exact hs x hx
        · rw [List.mem_singleton.mp hx]; exact hM v List.mem_cons_self)
      exact ⟨by simpa using b1, by rw [b2, a2]⟩

theorem rootBox_contains (o : Obj α) (os : List (Obj α)) : ∀ v ∈ o :: os, v.box.Le (rootBox o os) := by
  unfold rootBox
  have e : ∀ (b : Box α), os.foldl (fun b v => b.addBox v.box) b = (os.map (fun v => Upd.box v.box)).foldl Box.upd b := by
    intro b; rw [List.foldl_map]; rfl
  rw [e]
  intro v hv
  rcases List.mem_cons.mp hv with rfl | hv
  · exact foldl_le _ _
  · exact foldl_in o.box (os.map (fun v => Upd.box v.box)) (.box v.box) (List.mem_map.mpr ⟨v, hv, rfl⟩)

theorem rootBox_least (o : Obj α) (os : List (Obj α)) (c : Box α) (h : ∀ v ∈ o :: os, v.box.Le c) :
    (rootBox o os).Le c := by
  unfold rootBox
  have e : ∀ (b : Box α), os.foldl (fun b v => b.addBox v.box) b = (os.map (fun v => Upd.box v.box)).foldl Box.upd b := by
    intro b; rw [List.foldl_map]; rfl
  rw [e]
  apply foldl_least
  · exact h o List.mem_cons_self
  · intro u hu
    obtain ⟨v, hv, rfl⟩ := List.mem_map.mp hu
    exact h v (List.mem_cons_of_mem _ hv)

theorem build_holds (mid : α → α → α) (tile fuel : Nat) (o : Obj α) (os : List (Obj α)) (t : Node α)
    (h : build mid tile fuel o os = some t) (hs : ∀ v ∈ o :: os, 0 < v.size) :
    Holds mid t (o :: os) ∧ t.box = rootBox o os := by
  have := adds_holds mid tile fuel (o :: os) [] _ t h ⟨rfl, rfl⟩ hs (by simp)
  simpa [newNode, Node.box] using this

/-- Choosing a child by one bit per axis. -/
theorem exists_octant (f : Fin 3 → Bool) : ∃ i : Fin 8, ∀ a : Fin 3, i.val.testBit a.val = f a := by
  have h : ∀ x y z : Bool, ∃ i : Fin 8, i.val.testBit 0 = x ∧ i.val.testBit 1 = y ∧ i.val.testBit 2 = z := by decide
  obtain ⟨i, h0, h1, h2⟩ := h (f 0) (f 1) (f 2)
  exact ⟨i, forall3.mpr ⟨h0, h1, h2⟩⟩

/-- Some child of `b` meets the object and contains the given point of it. -/
theorem octant_point (mid : α → α → α) (b : Box α) (o : Box α) (p : Pt α) (ho : o.Solid)
    (hb : b.Mem p) (hp : o.Mem p) (hi : b.intersect o = true) :
    ∃ i, (octant mid b i).Mem p ∧ (octant mid b i).intersect o = true := by
  rw [intersect_iff] at hi
  obtain ⟨i, hbit⟩ := exists_octant (fun a => decide (mid (b.min a) (b.max a) < p a ∨
    (mid (b.min a) (b.max a) = p a ∧ mid (b.min a) (b.max a) ≤ o.min a)))
  have key : ∀ a, ((octant mid b i).min a ≤ p a ∧ p a ≤ (octant mid b i).max a) ∧
      (octant mid b i).min a < o.max a ∧ o.min a < (octant mid b i).max a := by
    intro a
    have h1 := hb a
    have h2 := hp a
    have h3 := hi a
    have h4 := ho a
    unfold octant
    simp only [hbit a]
    by_cases hd : (mid (b.min a) (b.max a) < p a ∨ (mid (b.min a) (b.max a) = p a ∧ mid (b.min a) (b.max a) ≤ o.min a))
    · rw [if_pos (by simpa using hd), if_pos (by simpa using hd)]
      rcases hd with hd | ⟨hd1, hd2⟩
      · exact ⟨⟨le_of_lt hd, h1.2⟩, lt_of_lt_of_le hd h2.2, h3.2⟩
      · exact ⟨⟨le_of_eq hd1, h1.2⟩, lt_of_le_of_lt hd2 h4, h3.2⟩
    · rw [if_neg (by simpa using hd), if_neg (by simpa using hd)]
      push Not at hd
      refine ⟨⟨h1.1, hd.1⟩, h3.1, ?_⟩
      rcases lt_or_eq_of_le hd.1 with h | h
      · exact lt_of_le_of_lt h2.1 h
      · exact hd.2 h.symm
  exact ⟨i, fun a => (key a).1, (intersect_iff _ _).mpr (fun a => (key a).2)⟩

/-- Some child of `b` meets the object and the query box. -/
theorem octant_region (mid : α → α → α) (b o q : Box α) (ho : o.Solid) (hoq : o.intersect q = true)
    (hbo : b.intersect o = true) (hbq : b.intersect q = true) (hq : q.Solid) :
    ∃ i, (octant mid b i).intersect o = true ∧ (octant mid b i).intersect q = true := by
  rw [intersect_iff] at hoq hbo hbq
  obtain ⟨i, hbit⟩ := exists_octant (fun a => decide (mid (b.min a) (b.max a) ≤ max (o.min a) (q.min a)))
  have key : ∀ a, ((octant mid b i).min a < o.max a ∧ o.min a < (octant mid b i).max a) ∧
      (octant mid b i).min a < q.max a ∧ q.min a < (octant mid b i).max a := by
    intro a
    have h1 := hoq a
    have h2 := hbo a
    have h3 := hbq a
    unfold octant
    simp only [hbit a]
    by_cases hd : mid (b.min a) (b.max a) ≤ max (o.min a) (q.min a)
    · rw [if_pos (by simpa using hd), if_pos (by simpa using hd)]
      exact ⟨⟨lt_of_le_of_lt hd (max_lt (ho a) h1.2), h2.2⟩, lt_of_le_of_lt hd (max_lt h1.1 (hq a)), h3.2⟩
    · rw [if_neg (by simpa using hd), if_neg (by simpa using hd)]
      push Not at hd
      rw [max_lt_iff] at hd
      exact ⟨⟨h2.1, hd.1⟩, h3.1, hd.2⟩
  exact ⟨i, (intersect_iff _ _).mpr (fun a => (key a).1), (intersect_iff _ _).mpr (fun a => (key a).2)⟩

/-- An object inside a box meets it. -/
theorem intersect_of_le {b o : Box α} (ho : o.Solid) (h : o.Le b) : b.intersect o = true := by
  rw [intersect_iff]
  exact fun i => ⟨lt_of_le_of_lt (h i).1 (ho i), lt_of_lt_of_le (ho i) (h i).2⟩

/-- Two boxes of which the second meets the inner one. -/
theorem intersect_mono {b o q : Box α} (h : o.Le b) (hq : o.intersect q = true) : b.intersect q = true := by
  rw [intersect_iff] at hq ⊢
  exact fun i => ⟨lt_of_le_of_lt (h i).1 (hq i).1, lt_of_lt_of_le (hq i).2 (h i).2⟩

end TDP.Octree
