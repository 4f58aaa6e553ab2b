import Verif.Fill.Model
import Verif.Codec.Props
/-! # Properties C65, C66: the segments and triangles of a decoded mesh -/
namespace TDP.Fill
open TDP.Boxes TDP.EndToEnd TDP.Codec TDP.Kernels

section
variable {m : Mesh (Pt ℚ)} {edges facets : List Nat}

theorem edges_card {P : Type} {m : Mesh P} {edges : List Nat} (hm : m.h.WF) (he : EdgeEnum m edges) : m.darts.card = 2 * edges.length := by
  have hd : Disjoint edges.toFinset (edges.map m.opp).toFinset := by
    rw [Finset.disjoint_left]
    intro x hx hy
    rw [List.mem_toFinset] at hx hy
    obtain ⟨y, hz, rfl⟩ := List.mem_map.1 hy
    rcases he.one _ (he.mem y hz) with h | h
    · exact h.2 hx
    · exact h.1 hz
  have hu : m.darts = edges.toFinset ∪ (edges.map m.opp).toFinset := by
    ext x
    rw [Finset.mem_union, List.mem_toFinset, List.mem_toFinset, List.mem_map]
    constructor
    · intro hx
      rcases he.one x hx with h | h
      · exact Or.inl h.1
      · exact Or.inr ⟨_, h.2, hm.opp_opp x hx⟩
    · rintro (h | ⟨y, hy, rfl⟩)
      · exact he.mem x h
      · exact hm.opp_mem y (he.mem y hy)
  have hn : (edges.map m.opp).Nodup := by
    refine (List.nodup_map_iff_inj_on he.nodup).2 ?_
    intro x hx y hy h
    have := congrArg m.opp h
    exact (hm.opp_opp x (he.mem x hx)).symm.trans (this.trans (hm.opp_opp y (he.mem y hy)))
  rw [hu, Finset.card_union_of_disjoint hd, List.toFinset_card_of_nodup he.nodup, List.toFinset_card_of_nodup hn, List.length_map]
  omega

theorem segOf_q {F : Fp} {d : Nat} (hF : ∀ z, F.rnd z = z) (h : m.pos (m.vert d) ≠ m.pos (m.src d)) : (segOf F m d).q = m.pos (m.src d) := by
  funext i
  unfold segOf
  by_cases hi : i = 2
  · subst hi; simp only [if_true, if_neg h, mul_zero, add_zero, hF]
  · simp only [if_neg hi]

/-- C65. `fill_segments` writes six floats for every edge, as many as the buffer holds. For every edge of a closed mesh there
is one position in the output (found from either of its halfedges), and what is there are the positions of the two ends of the
edge, unless these are equal: then the second one is moved in z by 0.1. No segment is a point (if adding 0.1 is not lost in
rounding). Stored coordinates are not changed by rounding (`hr`). -/
theorem C65_segments (F : Fp) (hm : m.h.WF) (he : EdgeEnum m edges)
    (hr : ∀ d ∈ m.darts, F.rnd (m.pos (m.vert d) 2) = m.pos (m.vert d) 2) :
    (fillSegments F m edges).length = 6 * sizeOfEdges m ∧
    (∀ d ∈ m.darts, ∃! k : Nat, edges[k]? = some d ∨ edges[k]? = some (m.opp d)) ∧
    (∀ (k d : Nat), edges[k]? = some d → ∀ i : Fin 3,
      (fillSegments F m edges)[6 * k + i.val]? = some (m.pos (m.vert d) i) ∧
      (m.pos (m.vert d) ≠ m.pos (m.vert (m.opp d)) →
        (fillSegments F m edges)[6 * k + 3 + i.val]? = some (m.pos (m.vert (m.opp d)) i)) ∧
      (m.pos (m.vert d) = m.pos (m.vert (m.opp d)) →
        (fillSegments F m edges)[6 * k + 3 + i.val]? =
          some (if i = 2 then F.rnd (m.pos (m.vert d) 2 + 1 / 10) else m.pos (m.vert d) i))) ∧
    ((∀ d ∈ m.darts, F.rnd (m.pos (m.vert d) 2 + 1 / 10) ≠ m.pos (m.vert d) 2) → ∀ s ∈ segments F m edges, s.p ≠ s.q) := by
  have hblock : ∀ (l : List Seg) (k : Nat) (s : Seg), l[k]? = some s → ∀ j, j < 6 →
      (l.flatMap Seg.floats)[6 * k + j]? = s.floats[j]? := by
    intro l
    induction l with
    | nil => intro k s h; simp at h
    | cons a l ih =>
      intro k s h j hj
      rw [List.flatMap_cons]
      cases k with
      | zero =>
        simp only [List.getElem?_cons_zero, Option.some.injEq] at h
        subst h
        rw [List.getElem?_append_left (by show 6 * 0 + j < 6; omega)]
        congr 1; omega
      | succ k =>
        rw [List.getElem?_cons_succ] at h
        rw [List.getElem?_append_right (by show 6 ≤ _; omega)]
        rw [← ih k s h j hj]
        congr 1
        show 6 * (k + 1) + j - 6 = 6 * k + j
        omega
  refine ⟨?_, ?_, ?_, ?_⟩
  · have : (fillSegments F m edges).length = 6 * edges.length := by
      unfold fillSegments segments
      rw [List.length_flatMap]
      have : (edges.map (segOf F m)).map (fun s => s.floats.length) = List.replicate edges.length 6 := by
        rw [List.map_map]
        exact List.eq_replicate_iff.2 ⟨by simp, by intro b hb; obtain ⟨d, _, rfl⟩ := List.mem_map.1 hb; rfl⟩
      rw [this, List.sum_replicate, smul_eq_mul, Nat.mul_comm]
    rw [this]
    unfold sizeOfEdges
    rw [edges_card hm he]
    omega
  · intro d hd
    have uniq : ∀ x, x ∈ edges → ∃! k : Nat, edges[k]? = some x := by
      intro x hx
      obtain ⟨k, hk, rfl⟩ := List.mem_iff_getElem.1 hx
      refine ⟨k, List.getElem?_eq_getElem hk, ?_⟩
      intro j hj
      obtain ⟨hj1, hj2⟩ := List.getElem?_eq_some_iff.1 hj
      exact (List.Nodup.getElem_inj_iff he.nodup).1 hj2
    have none' : ∀ x, x ∉ edges → ∀ k : Nat, edges[k]? ≠ some x := by
      intro x hx k hk
      exact hx (List.mem_of_getElem? hk)
    rcases he.one d hd with ⟨h1, h2⟩ | ⟨h1, h2⟩
    · obtain ⟨k, hk, hu⟩ := uniq d h1
      exact ⟨k, Or.inl hk, fun j hj => hu j (hj.resolve_right (none' _ h2 j))⟩
    · obtain ⟨k, hk, hu⟩ := uniq _ h2
      exact ⟨k, Or.inr hk, fun j hj => hu j (hj.resolve_left (none' _ h1 j))⟩
  · intro k d hk i
    have hd := he.mem d (List.mem_of_getElem? hk)
    have hs : (segments F m edges)[k]? = some (segOf F m d) := by
      unfold segments; rw [List.getElem?_map, hk]; rfl
    have hb := hblock _ k _ hs
    have ho := hr (m.opp d) (hm.opp_mem d hd)
    refine ⟨?_, ?_, ?_⟩
    · unfold fillSegments
      rw [hb i.val (by omega)]
      fin_cases i <;> rfl
    · intro h
      unfold fillSegments
      rw [show 6 * k + 3 + i.val = 6 * k + (3 + i.val) by omega, hb (3 + i.val) (by omega)]
      fin_cases i
      · rfl
      · rfl
      · show some (F.rnd (_ + (1 / 10) * (if _ then 1 else 0))) = _
        rw [if_neg h, mul_zero, add_zero, ho]
        rfl
    · intro h
      unfold fillSegments
      rw [show 6 * k + 3 + i.val = 6 * k + (3 + i.val) by omega, hb (3 + i.val) (by omega)]
      fin_cases i
      · rw [h]; rfl
      · rw [h]; rfl
      · show some (F.rnd (_ + (1 / 10) * (if _ then 1 else 0))) = _
        rw [if_pos h, mul_one, h]
        rfl
  · intro hp s hs h
    obtain ⟨d, hd, rfl⟩ := List.mem_map.1 hs
    have hd := he.mem d hd
    have h2 := congrFun h 2
    by_cases hq : m.pos (m.vert d) = m.pos (m.vert (m.opp d))
    · have : m.pos (m.vert d) 2 = F.rnd (m.pos (m.vert (m.opp d)) 2 + (1 / 10) *
        (if m.pos (m.vert d) = m.pos (m.vert (m.opp d)) then 1 else 0)) := h2
      rw [if_pos hq, mul_one, ← hq] at this
      exact hp d hd this.symm
    · refine hq (h.trans ?_)
      funext i
      unfold segOf
      by_cases hi : i = 2
      · simp only [if_pos hi, if_neg hq, mul_zero, add_zero, hi]
        exact hr _ (hm.opp_mem d hd)
      · simp only [if_neg hi]

end
end TDP.Fill
