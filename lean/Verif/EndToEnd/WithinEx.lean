import Verif.EndToEnd.Within
import Verif.EndToEnd.NearestEx
/-! A run of the within join exists whenever the index can be built; a concrete pair of tiles. -/
namespace TDP.EndToEnd
open TDP.Boxes TDP.Join TDP.Kernels TDP.Gpu

theorem withinRounds_exist (threads : Nat) (heap : Nat → Voxel → List Seg) (D : ℚ) (top : Nat) : ∀ (lods : List Nat) (s : List Entry),
    ∃ s', WithinRounds (.cpu threads) heap D top lods s s'
  | [], s => ⟨s, .nil s⟩
  | l :: lods, s => by
      have h1 : ∃ s1, WithinRound (.cpu threads) (heap l) D (l == top) s s1 :=
        ⟨_, _, fun _ _ => ⟨_, fun _ => 0, List.Perm.refl _, _, interleaving_sequential _, rfl⟩, rfl⟩
      obtain ⟨s1, h1⟩ := h1
      obtain ⟨s2, h2⟩ := withinRounds_exist threads heap D top lods s1
      exact ⟨s2, .cons h1 h2⟩

theorem withinFilter_exists (D : ℚ) (tree : Octree.Node ℚ) (tile2 : Int → Wrapper) :
    ∀ tile1 : List (Object Seg), ∃ es, WithinFilter D tree tile2 tile1 es
  | [] => ⟨[], .nil⟩
  | a :: os => by
      obtain ⟨es, h⟩ := withinFilter_exists D tree tile2 os
      obtain ⟨s, hs⟩ := sorted_exists_pairs (Octree.queryWithin Fp.exact a.obj D tree)
      by_cases hq : (mbbWithin Fp.exact D tile2 a.w s).cands = []
      · exact ⟨es, .skip hs hq h⟩
      · exact ⟨_, .keep hs hq h⟩

/-- Non-vacuity: the join runs whenever the index can be built. -/
theorem withinJoin_exists (threads : Nat) (mid : ℚ → ℚ → ℚ) (heap : Nat → Voxel → List Seg) (D : ℚ) (tile1 : List (Object Seg))
    (o : Object Seg) (os : List (Object Seg)) (tile2 : Int → Wrapper) (lods : List Nat) (fuel : Nat)
    (ht : (Octree.build mid 400 fuel o.obj (os.map Object.obj)).isSome) :
    ∃ start final, WithinJoin (.cpu threads) mid heap D tile1 o os tile2 lods start final := by
  obtain ⟨tree, ht⟩ := Option.isSome_iff_exists.1 ht
  obtain ⟨es, h1⟩ := withinFilter_exists D tree tile2 tile1
  obtain ⟨es', h2⟩ := withinRounds_exist threads heap D (lods.getLastD 0) lods es
  exact ⟨es, es', fuel, tree, ht, h1, h2⟩

/-! Two objects whose boxes are both near an object of the second tile; the segments of one of them are not. -/
namespace ExWithin
open ExNN (cub sg ob oq on)
def o5 : Object Seg := ob 4 1 4 6 5 6
def tile2 (i : Int) : Wrapper := ⟨i, on.w.box, on.w.voxels⟩
def heap (_ : Nat) (v : Voxel) : List Seg := if v.addr = 1 then [sg 0 1] else if v.addr = 2 then [sg 2 3] else [sg 5 6]
def allV : List Voxel := [⟨1, cub 0 1⟩, ⟨2, cub 2 3⟩, ⟨4, cub 4 6⟩]

theorem cases_ob {x : Object Seg} (h : x ∈ [oq, o5] ++ [on]) : x = oq ∨ x = o5 ∨ x = on := by simpa using h

theorem setting : Setting 6 (fun _ _ => 0) Seg.p heap [oq, o5] on [] tile2 [50, 100] allV where
  ids := fun _ => rfl
  tile := by
    intro b hb
    have : b = on := by simpa using hb
    subst this
    exact ⟨rfl, by decide⟩
  solid := by
    intro b hb
    rcases cases_ob hb with rfl | rfl | rfl <;> intro i <;> simp [oq, o5, on, ob, cub] <;> norm_num
  voxels := by
    intro b hb
    rcases cases_ob hb with rfl | rfl | rfl <;> simp [oq, on, o5, ob, allV]
  filled := by
    intro lod _ b hb
    rcases cases_ob hb with rfl | rfl | rfl
    all_goals
      refine ⟨⟨[⟨_, cub 0 0, fun _ => none, fun _ => none⟩], _, rfl, rfl, by simp, rfl, ?_⟩, ?_⟩
      · simp [Voxels.Voxel.set, oq, on, o5, ob, heap]
      · intro c _ e _; exact WithTop.coe_lt_top _
  fits := by
    intro lod _
    refine ⟨?_, by simp [heap, allV]⟩
    intro v hv v' hv' h
    simp [allV] at hv hv'
    rcases hv with rfl | rfl | rfl <;> rcases hv' with rfl | rfl | rfl <;> simp at h ⊢

def mid (a b : ℚ) : ℚ := (a + b) / 2
theorem built : (Octree.build mid 400 10 on.obj []).isSome = true := by decide +kernel
def tree : Octree.Node ℚ := (Octree.build mid 400 10 on.obj []).get built

theorem sorted_one {l : List (Int × Range)} (h : l.length = 1) : SortedBy Prod.fst l l := by
  obtain ⟨a, rfl⟩ := List.length_eq_one_iff.1 h
  exact ⟨List.Perm.refl _, by simp⟩

def e1 : Entry := mbbWithin Fp.exact 4 tile2 oq.w (Octree.queryWithin Fp.exact oq.obj 4 tree)
def e2 : Entry := mbbWithin Fp.exact 4 tile2 o5.w (Octree.queryWithin Fp.exact o5.obj 4 tree)

/-- With squared limit 4, the object whose segment is at squared distance 3 is found, the one at squared distance 12 is left,
with any number of threads. -/
example (threads : Nat) (ht : 1 ≤ threads) : ∃ final,
    WithinJoin (.cpu threads) mid heap 4 [oq, o5] on [] tile2 [50, 100] [e1, e2] final ∧
    (∀ e ∈ final, e.mesh ≠ oq.w) ∧ ∃ e ∈ final, e.mesh = o5.w := by
  obtain ⟨final, hr⟩ := withinRounds_exist threads heap 4 100 [50, 100] [e1, e2]
  have hl1 : (Octree.queryWithin Fp.exact oq.obj 4 tree).length = 1 := by decide +kernel
  have hl2 : (Octree.queryWithin Fp.exact o5.obj 4 tree).length = 1 := by decide +kernel
  have hc1 : e1.cands.length = 1 := by decide +kernel
  have hc2 : e2.cands.length = 1 := by decide +kernel
  have h : WithinJoin (.cpu threads) mid heap 4 [oq, o5] on [] tile2 [50, 100] [e1, e2] final :=
    ⟨10, tree, (Option.some_get built).symm,
      .keep (sorted_one hl1) (by intro h; have := congrArg List.length h; exact absurd (hc1.symm.trans this) (by decide))
        (.keep (sorted_one hl2) (by intro h; have := congrArg List.length h; exact absurd (hc2.symm.trans this) (by decide)) .nil), hr⟩
  have hne : oq.w ≠ o5.w := by intro h; have := congrArg Wrapper.id h; exact absurd this (by decide)
  obtain ⟨_, c1, c2⟩ := C68_within_partial ht setting (by
      intro lod _ x hx s hs
      rcases cases_ob hx with rfl | rfl | rfl <;> simp [oq, on, o5, ob] at hs <;> subst hs <;> intro h <;>
        have := congrFun h 0 <;> simp [sg] at this <;> norm_num at this) (by
      intro lod _ v hv
      simp [allV] at hv
      rcases hv with rfl | rfl | rfl <;> simp [heap]) h (by
      intro e he c hc
      have : e.cands.length = 1 := by
        have : e = e1 ∨ e = e2 := by simpa using he
        rcases this with rfl | rfl
        · exact hc1
        · exact hc2
      obtain ⟨y, hy⟩ := List.length_eq_one_iff.1 this
      rw [hy] at hc
      simp at hc)
  refine ⟨final, h, ?_, ?_⟩
  · intro e he hm
    obtain ⟨a, ha, e1', hn, hc⟩ := c2 e he
    have haq : a = oq := by
      have : a = oq ∨ a = o5 := by simpa using ha
      rcases this with rfl | rfl
      · rfl
      · exact absurd (hm.symm.trans e1') hne
    subst haq
    obtain ⟨c, hcm⟩ := List.exists_mem_of_ne_nil _ hn
    obtain ⟨b, hb, _, _, hd⟩ := hc c hcm
    have hbo : b = on := by simpa using hb
    subst hbo
    have := hd 50 (by simp) (by
      intro x hx v hv s hs
      have : x = oq ∨ x = on := by simpa using hx
      rcases this with rfl | rfl <;> simp [oq, on, ob] at hv <;> subst hv <;> simp [heap] at hs <;> subst hs <;>
        refine ⟨fun i => ?_, fun i => ?_⟩ <;> simp [cub, sg] <;> norm_num) (sg 0 1) (by simp [oq, ob]) (sg 2 3) (by simp [on, ob])
    exact absurd this (by decide +kernel)
  · by_contra hno
    have hno' : ∀ e' ∈ final, e'.mesh ≠ e2.mesh := fun e' he' hm => hno ⟨e', he', hm⟩
    obtain ⟨a, ha, ea, b, hb, _, lod, _, s, hs, t, ht', v, hv, hseg, _⟩ := c1 e2 (by simp) hno'
    have hao : a = o5 := by
      have : a = oq ∨ a = o5 := by simpa using ha
      rcases this with rfl | rfl
      · exact absurd ea.symm hne
      · rfl
    have hbo : b = on := by simpa using hb
    subst hao hbo
    simp [o5, on, ob] at hs ht'
    subst hs ht'
    have h12 : segD (sg 5 6) (sg 2 3) = ((12 : ℚ) : WithTop ℚ) := by decide +kernel
    rw [h12, WithTop.coe_inj] at hseg
    subst hseg
    norm_num at hv

end ExWithin
end TDP.EndToEnd
