import Verif.Octree.Queries
/-!
# C25: which leaves may stay heavier than the leaf size (octree.cpp:31-102)
-/
namespace TDP.Octree
open TDP.Boxes

variable {α : Type} [LinearOrder α]

/-- The weight of some objects. -/
def weight (objs : List (Obj α)) : Nat := (objs.map (·.size)).sum

/-- What the eight children would weigh together: each object as often as there are eighths its box meets. -/
def splitWeight (mid : α → α → α) (b : Box α) (objs : List (Obj α)) : Nat :=
  (objs.map (fun v => (List.finRange 8).countP (fun i => (octant mid b i).intersect v.box) * v.size)).sum

theorem sum_ite (p : Fin 8 → Bool) (s : Nat) (l : List (Fin 8)) :
    (l.map (fun i => if p i then s else 0)).sum = l.countP p * s := by
  induction l with
  | nil => simp
  | cons x l ih =>
    rw [List.map_cons, List.sum_cons, ih, List.countP_cons]
    by_cases h : p x = true
    · rw [if_pos h, if_pos h, Nat.add_mul, Nat.one_mul, Nat.add_comm]
    · rw [if_neg h, if_neg h, Nat.zero_add, Nat.add_zero]

theorem childrenSize_eq (mid : α → α → α) (b : Box α) (objs : List (Obj α)) : childrenSize mid b objs = splitWeight mid b objs := by
  unfold childrenSize splitWeight
  congr 1
  apply List.map_congr_left
  intro v _
  exact sum_ite (fun i => (octant mid b i).intersect v.box) v.size _

theorem weight_snoc (l : List (Obj α)) (o : Obj α) : weight (l ++ [o]) = weight l + o.size := by simp [weight]

/-- At some earlier time the objects in the leaf weighed more than `tile`, and splitting it would have given children of at least twice the
weight (less two). -/
def Refused (mid : α → α → α) (tile : Nat) (b : Box α) (objs : List (Obj α)) : Prop :=
  ∃ k ≤ objs.length, tile < weight (objs.take k) ∧ 2 * weight (objs.take k) ≤ splitWeight mid b (objs.take k) + 2

theorem Refused.snoc {mid : α → α → α} {tile : Nat} {b : Box α} {objs : List (Obj α)} (h : Refused mid tile b objs) (o : Obj α) :
    Refused mid tile b (objs ++ [o]) := by
  obtain ⟨k, hk, h1, h2⟩ := h
  refine ⟨k, by rw [List.length_append]; omega, ?_, ?_⟩ <;> rw [List.take_append_of_le_length hk] <;> assumption

/-- The invariant. -/
def Weighed (mid : α → α → α) (tile : Nat) : Node α → Prop
  | .leaf b size can objs => size = weight objs ∧ (∀ v ∈ objs, 0 < v.size) ∧
      (weight objs ≤ tile ∨ objs.length ≤ 1 ∨ Refused mid tile b objs) ∧ (can = false → Refused mid tile b objs)
  | .inner _ _ _ c => ∀ i, Weighed mid tile (c i)

theorem weighed_new (mid : α → α → α) (tile : Nat) (b : Box α) : Weighed mid tile (newNode b) :=
  ⟨rfl, by simp, .inr (.inl (by simp)), fun h => absurd h (by decide)⟩

theorem seq8_some {A : Type} {f : Fin 8 → Option A} {c : Fin 8 → A} (h : seq8 f = some c) (i : Fin 8) : f i = some (c i) := by
  unfold seq8 at h
  by_cases hs : ∀ i, (f i).isSome = true
  · rw [dif_pos hs] at h
    rw [← Option.some.inj h, Option.some_get]
  · rw [dif_neg hs] at h; simp at h

theorem foldlM_inv {A B : Type} (P : A → Prop) (f : A → B → Option A) :
    ∀ (l : List B) (a r : A), P a → (∀ a b r, b ∈ l → P a → f a b = some r → P r) → l.foldlM f a = some r → P r
  | [], a, r, ha, _, h => by
    simp only [List.foldlM_nil] at h
    exact Option.some.inj h ▸ ha
  | b :: l, a, r, ha, hf, h => by
    rw [List.foldlM_cons] at h
    obtain ⟨a', h1, h2⟩ := Option.bind_eq_some_iff.1 h
    exact foldlM_inv P f l a' r (hf a b a' List.mem_cons_self ha h1) (fun a b r hb => hf a b r (List.mem_cons_of_mem _ hb)) h2

theorem add_weighed (mid : α → α → α) (tile : Nat) (fuel : Nat) :
    ∀ (o : Obj α) (n r : Node α), 0 < o.size → Weighed mid tile n → add mid tile fuel o n = some r → Weighed mid tile r := by
  induction fuel with
  | zero => intro o n r _ _ h; simp [add] at h
  | succ fuel ih =>
    intro o n r ho hn h
    have kids : ∀ (b : Box α) (v : Obj α) (c c' : Fin 8 → Node α), 0 < v.size → (∀ i, Weighed mid tile (c i)) →
        seq8 (fun i => if (octant mid b i).intersect v.box then add mid tile fuel v (c i) else some (c i)) = some c' →
        ∀ i, Weighed mid tile (c' i) := by
      intro b v c c' hv hc hs i
      have := seq8_some hs i
      by_cases hi : (octant mid b i).intersect v.box = true
      · rw [if_pos hi] at this; exact ih v _ _ hv (hc i) this
      · rw [if_neg hi] at this; exact Option.some.inj this ▸ hc i
    cases n with
    | leaf b size can objs =>
      obtain ⟨h1, h2, h3, h4⟩ := hn
      have hw : size + o.size = weight (objs ++ [o]) := by rw [weight_snoc, h1]
      have hpos : ∀ v ∈ objs ++ [o], 0 < v.size := by
        intro v hv
        rcases List.mem_append.1 hv with hv | hv
        · exact h2 v hv
        · rw [List.mem_singleton.1 hv]; exact ho
      unfold add at h
      dsimp only at h
      by_cases e : size + o.size = o.size
      · rw [if_pos e] at h
        obtain rfl := Option.some.inj h
        have hobj : objs = [] := by
          cases objs with
          | nil => rfl
          | cons v l =>
            have := h2 v List.mem_cons_self
            simp only [weight, List.map_cons, List.sum_cons] at h1
            omega
        exact ⟨hw, hpos, .inr (.inl (by rw [hobj]; simp)), fun hc => (h4 hc).snoc o⟩
      · rw [if_neg e] at h
        by_cases hsp : size + o.size > tile ∧ can = true
        · rw [if_pos hsp] at h
          split at h
          · exact absurd h (by simp)
          · rename_i c hc
            by_cases hch : childrenSize mid b (objs ++ [o]) ≥ 2 * (size + o.size - 1)
            · rw [if_pos hch] at h
              obtain rfl := Option.some.inj h
              have hr : Refused mid tile b (objs ++ [o]) := by
                refine ⟨(objs ++ [o]).length, le_refl _, ?_, ?_⟩ <;> rw [List.take_length, ← hw]
                · exact hsp.1
                · rw [← childrenSize_eq]; omega
              exact ⟨hw, hpos, .inr (.inr hr), fun _ => hr⟩
            · rw [if_neg hch] at h
              obtain rfl := Option.some.inj h
              show ∀ i, Weighed mid tile (c i)
              refine foldlM_inv (fun c : Fin 8 → Node α => ∀ i, Weighed mid tile (c i)) _ (objs ++ [o]) _ c
                (fun i => weighed_new mid tile _) ?_ hc
              intro a v r hv ha hr
              exact kids b v a r (hpos v hv) ha hr
        · rw [if_neg hsp] at h
          obtain rfl := Option.some.inj h
          refine ⟨hw, hpos, ?_, ?_⟩
          · by_cases ht : size + o.size ≤ tile
            · exact .inl (hw ▸ ht)
            · cases can with
              | true => exact absurd ⟨by omega, rfl⟩ hsp
              | false => exact .inr (.inr ((h4 rfl).snoc o))
          · intro hc
            refine (h4 ?_).snoc o
            split at hc
            · exact absurd hc (by simp)
            · exact hc
    | inner b size objs c =>
      unfold add at h
      dsimp only at h
      by_cases e : size + o.size = o.size
      · rw [if_pos e] at h
        obtain rfl := Option.some.inj h
        exact hn
      · rw [if_neg e] at h
        obtain ⟨c', h1, h2⟩ := Option.map_eq_some_iff.1 h
        obtain rfl := h2
        exact kids b o c c' ho hn h1

theorem leaves_weighed {mid : α → α → α} {tile : Nat} : ∀ (n : Node α), Weighed mid tile n → ∀ l ∈ leaves n,
    weight l.2 ≤ tile ∨ l.2.length ≤ 1 ∨ Refused mid tile l.1 l.2
  | .leaf b size can objs, h, l, hl => by
    simp only [leaves, List.mem_singleton] at hl
    subst hl
    exact h.2.2.1
  | .inner b size objs c, h, l, hl => by
    simp only [leaves, List.mem_flatMap] at hl
    obtain ⟨i, -, hi⟩ := hl
    exact leaves_weighed (c i) (h i) l hi

/-- **C25 (weight of the leaves).** A leaf is heavier than the leaf size only if it holds one object, or if cutting it in eight was once found
not to help: its first objects weighed more than the leaf size, and counted once for each eighth they meet at least twice that (less two). -/
theorem C25_heavy_leaves (mid : α → α → α) (tile fuel : Nat) (o : Obj α) (os : List (Obj α)) (t : Node α)
    (ht : build mid tile fuel o os = some t) (hs : ∀ v ∈ o :: os, 0 < v.size) :
    ∀ l ∈ leaves t, (l.2.map (·.size)).sum ≤ tile ∨ l.2.length ≤ 1 ∨
      ∃ k ≤ l.2.length, tile < ((l.2.take k).map (·.size)).sum ∧
        2 * ((l.2.take k).map (·.size)).sum ≤
          ((l.2.take k).map (fun v => (List.finRange 8).countP (fun i => (octant mid l.1 i).intersect v.box) * v.size)).sum + 2 := by
  unfold build at ht
  exact leaves_weighed t (foldlM_inv (Weighed mid tile) _ (o :: os) _ t (weighed_new mid tile _)
    (fun a v r hv ha hr => add_weighed mid tile fuel v a r (hs v hv) ha hr) ht)

/-- So if no object meets more than one eighth of any box, and the leaf size is at least 2, no leaf with several objects is heavier than the
leaf size. -/
theorem C25_light_leaves (mid : α → α → α) (tile fuel : Nat) (o : Obj α) (os : List (Obj α)) (t : Node α)
    (ht : build mid tile fuel o os = some t) (hs : ∀ v ∈ o :: os, 0 < v.size) (h2 : 2 ≤ tile)
    (hone : ∀ l ∈ leaves t, ∀ v ∈ l.2, (List.finRange 8).countP (fun i => (octant mid l.1 i).intersect v.box) ≤ 1) :
    ∀ l ∈ leaves t, (l.2.map (·.size)).sum ≤ tile ∨ l.2.length ≤ 1 := by
  intro l hl
  rcases C25_heavy_leaves mid tile fuel o os t ht hs l hl with h | h | ⟨k, -, h3, h4⟩
  · exact .inl h
  · exact .inr h
  · exfalso
    have : ∀ L : List (Obj α), (∀ v ∈ L, v ∈ l.2) →
        (L.map (fun v => (List.finRange 8).countP (fun i => (octant mid l.1 i).intersect v.box) * v.size)).sum ≤ (L.map (·.size)).sum := by
      intro L
      induction L with
      | nil => simp
      | cons v L ih =>
        intro hL
        have a := ih (fun w hw => hL w (List.mem_cons_of_mem _ hw))
        have b := Nat.mul_le_mul_right v.size (hone l hl v (hL v List.mem_cons_self))
        simp only [List.map_cons, List.sum_cons]
        omega
    have := this (l.2.take k) (fun v hv => List.mem_of_mem_take hv)
    omega

end TDP.Octree
