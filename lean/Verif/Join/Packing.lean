import Verif.Join.Model
import Mathlib.Tactic.Linarith
import Mathlib.Data.List.Perm.Subperm
import Mathlib.Algebra.BigOperators.Group.List.Basic
import Mathlib.Algebra.Order.BigOperators.Group.List
/-!
# C33: packing a batch
-/
namespace TDP.Join
open TDP.Boxes TDP.Octree

/-- The map lays the voxels out one after the other from offset `n0`. -/
def Laid (size : Voxel → Nat) : Nat → VMap → Prop
  | _, [] => True
  | n, e :: es => e.2 = (n, size e.1) ∧ Laid size (n + size e.1) es

theorem laid_append (size : Voxel → Nat) : ∀ (m : VMap) (n : Nat) (v : Voxel), Laid size n m →
    Laid size n (m ++ [(v, (n + (m.map (fun e => size e.1)).sum, size v))])
  | [], n, v, _ => by simp [Laid]
  | e :: es, n, v, h => by
      refine ⟨h.1, ?_⟩
      have := laid_append size es (n + size e.1) v h.2
      simpa [Nat.add_assoc] using this

theorem laid_mem (size : Voxel → Nat) : ∀ (m : VMap) (n : Nat), Laid size n m → ∀ e ∈ m,
    e.2.2 = size e.1 ∧ n ≤ e.2.1 ∧ e.2.1 + size e.1 ≤ n + (m.map (fun e => size e.1)).sum
  | [], _, _, _, h => by simp at h
  | x :: xs, n, hl, e, h => by
      obtain ⟨h1, h2⟩ := hl
      simp only [List.map_cons, List.sum_cons]
      rcases List.mem_cons.1 h with rfl | h
      · rw [h1]; simp
      · have := laid_mem size xs _ h2 e h
        omega

theorem laid_disjoint (size : Voxel → Nat) : ∀ (m : VMap) (n : Nat), Laid size n m →
    m.Pairwise (fun a b => a.2.1 + size a.1 ≤ b.2.1)
  | [], _, _ => List.Pairwise.nil
  | x :: xs, n, hl => by
      obtain ⟨h1, h2⟩ := hl
      refine List.pairwise_cons.2 ⟨?_, laid_disjoint size xs _ h2⟩
      intro e he
      have := (laid_mem size xs _ h2 e he).2.1
      rw [h1]
      exact this

/-- Invariant of the map under construction; `vs` lists (at least) all voxels of the batch. -/
structure MInv (size : Voxel → Nat) (vs : List Voxel) (st : VMap × Nat) : Prop where
  laid : Laid size 0 st.1
  total : st.2 = (st.1.map (fun e => size e.1)).sum
  nodup : (st.1.map (fun e => e.1.addr)).Nodup
  sub : ∀ e ∈ st.1, e.1 ∈ vs

theorem find_none {m : VMap} {v : Voxel} : m.find v = none ↔ ∀ e ∈ m, e.1.addr ≠ v.addr := by
  unfold VMap.find
  simp

theorem find_some {m : VMap} {v : Voxel} {x : Nat × Nat} (h : m.find v = some x) :
    ∃ e ∈ m, e.1.addr = v.addr ∧ e.2 = x := by
  unfold VMap.find at h
  rw [Option.map_eq_some_iff] at h
  obtain ⟨e, he, hx⟩ := h
  have h1 := List.find?_some he
  exact ⟨e, List.mem_of_find?_eq_some he, by simpa using h1, hx⟩

theorem sum_le_of_nodup (size : Voxel → Nat) (vs : List Voxel) (m : VMap)
    (hn : (m.map (fun e => e.1.addr)).Nodup) (hs : ∀ e ∈ m, e.1 ∈ vs) :
    (m.map (fun e => size e.1)).sum ≤ (vs.map size).sum := by
  have hnd : (m.map (fun e => e.1)).Nodup := by
    have : m.map (fun e => e.1.addr) = (m.map (fun e => e.1)).map (fun v => v.addr) := by simp
    rw [this] at hn
    exact List.Nodup.of_map _ hn
  have hsub : (m.map (fun e => e.1)) ⊆ vs := by
    intro v hv
    obtain ⟨e, he, rfl⟩ := List.mem_map.1 hv
    exact hs e he
  have hp : (m.map (fun e => e.1)).Subperm vs := List.subperm_of_subset hnd hsub
  obtain ⟨l, hl, hsl⟩ := hp
  have h1 : (l.map size).sum ≤ (vs.map size).sum := List.Sublist.sum_le_sum (hsl.map size) (by simp)
  have h2 : (l.map size).sum = (m.map (fun e => size e.1)).sum := by
    rw [(hl.map size).sum_eq]; simp [Function.comp_def]
  omega

theorem addVoxel_inv {size : Voxel → Nat} {vs : List Voxel} (hb : (vs.map size).sum < 2^32) {st : VMap × Nat}
    (h : MInv size vs st) (v : Voxel) (hv : v ∈ vs) :
    MInv size vs (addVoxel size st v) ∧ (∃ e ∈ (addVoxel size st v).1, e.1.addr = v.addr) ∧
    (∀ e ∈ st.1, e ∈ (addVoxel size st v).1) ∧ (∀ e ∈ (addVoxel size st v).1, e ∈ st.1 ∨ e.1 = v) := by
  unfold addVoxel
  cases hf : st.1.find v with
  | some x =>
    obtain ⟨e, he, ha, _⟩ := find_some hf
    exact ⟨h, ⟨e, he, ha⟩, fun _ h => h, fun _ h => Or.inl h⟩
  | none =>
    have hnone := find_none.1 hf
    have hnd : ((st.1 ++ [(v, (st.2, size v))]).map (fun e => e.1.addr)).Nodup := by
      rw [List.map_append, List.nodup_append]
      refine ⟨h.nodup, by simp, ?_⟩
      intro a ha b hb
      obtain ⟨e, he, rfl⟩ := List.mem_map.1 ha
      simp only [List.map_cons, List.map_nil, List.mem_singleton] at hb
      rw [hb]
      exact hnone e he
    have hsub : ∀ e ∈ st.1 ++ [(v, (st.2, size v))], e.1 ∈ vs := by
      intro e he
      rcases List.mem_append.1 he with he | he
      · exact h.sub e he
      · rw [List.mem_singleton] at he; subst he; exact hv
    have hsum := sum_le_of_nodup size vs _ hnd hsub
    rw [List.map_append, List.sum_append] at hsum
    simp only [List.map_cons, List.map_nil, List.sum_cons, List.sum_nil, Nat.add_zero] at hsum
    refine ⟨⟨?_, ?_, hnd, hsub⟩, ?_, ?_, ?_⟩
    · have := laid_append size st.1 0 v h.laid
      rw [Nat.zero_add, ← h.total] at this
      exact this
    · show (st.2 + size v) % 2^32 = _
      rw [List.map_append, List.sum_append]
      simp only [List.map_cons, List.map_nil, List.sum_cons, List.sum_nil, Nat.add_zero]
      rw [Nat.mod_eq_of_lt (by rw [h.total]; omega), h.total]
    · exact ⟨_, List.mem_append_right _ (List.mem_singleton.2 rfl), rfl⟩
    · intro e he; exact List.mem_append_left _ he
    · intro e he
      rcases List.mem_append.1 he with he | he
      · exact Or.inl he
      · rw [List.mem_singleton] at he; subst he; exact Or.inr rfl

theorem voxelMap_inv {size : Voxel → Nat} {vs : List Voxel} (hb : (vs.map size).sum < 2^32) :
    ∀ (ps : List VPair) (st : VMap × Nat), MInv size vs st → (∀ p ∈ ps, p.v1 ∈ vs ∧ p.v2 ∈ vs) →
    MInv size vs (ps.foldl (fun st p => addVoxel size (addVoxel size st p.v1) p.v2) st) ∧
    (∀ e ∈ st.1, e ∈ (ps.foldl (fun st p => addVoxel size (addVoxel size st p.v1) p.v2) st).1) ∧
    (∀ p ∈ ps, (∃ e ∈ (ps.foldl (fun st p => addVoxel size (addVoxel size st p.v1) p.v2) st).1, e.1.addr = p.v1.addr) ∧
      ∃ e ∈ (ps.foldl (fun st p => addVoxel size (addVoxel size st p.v1) p.v2) st).1, e.1.addr = p.v2.addr) ∧
    (∀ e ∈ (ps.foldl (fun st p => addVoxel size (addVoxel size st p.v1) p.v2) st).1,
      e ∈ st.1 ∨ ∃ p ∈ ps, e.1 = p.v1 ∨ e.1 = p.v2)
  | [], st, h, _ => ⟨h, fun _ h => h, by simp, fun _ h => Or.inl h⟩
  | p :: ps, st, h, hv => by
      obtain ⟨v1, v2⟩ := hv p (List.mem_cons_self ..)
      obtain ⟨a1, a2, a3, a4⟩ := addVoxel_inv hb h p.v1 v1
      obtain ⟨b1, b2, b3, b4⟩ := addVoxel_inv hb a1 p.v2 v2
      obtain ⟨c1, c2, c3, c4⟩ := voxelMap_inv hb ps _ b1 (fun q hq => hv q (List.mem_cons_of_mem _ hq))
      simp only [List.foldl_cons]
      refine ⟨c1, fun e he => c2 e (b3 e (a3 e he)), ?_, ?_⟩
      · intro q hq
        rcases List.mem_cons.1 hq with rfl | hq
        · obtain ⟨e, he, hea⟩ := a2
          obtain ⟨f, hf, hfa⟩ := b2
          exact ⟨⟨e, c2 e (b3 e he), hea⟩, ⟨f, c2 f hf, hfa⟩⟩
        · exact c3 q hq
      · intro e he
        rcases c4 e he with h | ⟨q, hq, h⟩
        · rcases b4 e h with h | h
          · rcases a4 e h with h | h
            · exact Or.inl h
            · exact Or.inr ⟨p, List.mem_cons_self .., Or.inl h⟩
          · exact Or.inr ⟨p, List.mem_cons_self .., Or.inr h⟩
        · exact Or.inr ⟨q, List.mem_cons_of_mem _ hq, h⟩

/-- Copying does not touch positions outside of its target. -/
theorem fill_outside (k : Nat) (dat : Voxel → List ℚ) : ∀ (m : VMap) (b : Buf) (i : Nat),
    (∀ e ∈ m, ¬ (e.2.1 * k % 2^32 ≤ i ∧ i < e.2.1 * k % 2^32 + (dat e.1).length)) →
    m.foldl (fun b e => blit b (e.2.1 * k % 2^32) (dat e.1)) b i = b i
  | [], _, _, _ => rfl
  | e :: es, b, i, h => by
      rw [List.foldl_cons, fill_outside k dat es _ i (fun x hx => h x (List.mem_cons_of_mem _ hx))]
      unfold blit
      rw [if_neg (h e (List.mem_cons_self ..))]

theorem fill_inside (k : Nat) (dat : Voxel → List ℚ) : ∀ (m : VMap) (b : Buf) (e : Voxel × (Nat × Nat)) (j : Nat),
    e ∈ m → m.Pairwise (fun x y => x.2.1 * k % 2^32 + (dat x.1).length ≤ y.2.1 * k % 2^32 ∨
      y.2.1 * k % 2^32 + (dat y.1).length ≤ x.2.1 * k % 2^32) → j < (dat e.1).length →
    m.foldl (fun b e => blit b (e.2.1 * k % 2^32) (dat e.1)) b (e.2.1 * k % 2^32 + j) = (dat e.1)[j]?
  | [], _, _, _, h, _, _ => by simp at h
  | x :: xs, b, e, j, h, hp, hj => by
      obtain ⟨h1, h2⟩ := List.pairwise_cons.1 hp
      rw [List.foldl_cons]
      by_cases hx : e ∈ xs
      · exact fill_inside k dat xs _ e j hx h2 hj
      · rcases List.mem_cons.1 h with rfl | h
        · rw [fill_outside k dat xs]
          · unfold blit
            rw [if_pos ⟨by omega, by omega⟩]
            congr 1; omega
          · intro y hy
            have := h1 y hy
            omega
        · exact absurd h hx

/-- C33. `ps` are the voxel pairs of a batch (all candidates flattened), `k` the number of floats per element,
`dat v` the floats of voxel `v` at the level of detail, `vs` any list of distinct voxels containing the batch's.
Distinct voxels have distinct addresses, and the buffer has less than 2^32 floats. Then for every order in which
the map is walked (`m'`): each voxel is stored once, every pair's two slices hold exactly the floats of its two
voxels, and they lie inside the allocated buffer of `k * total` floats. -/
theorem C33_packing (k : Nat) (size : Voxel → Nat) (dat : Voxel → List ℚ) (ps : List VPair) (vs : List Voxel)
    (haddr : ∀ v ∈ vs, ∀ v' ∈ vs, v.addr = v'.addr → v = v')
    (hvs : ∀ p ∈ ps, p.v1 ∈ vs ∧ p.v2 ∈ vs)
    (hlen : ∀ v ∈ vs, (dat v).length = size v * k)
    (hk : 1 ≤ k) (hfit : (vs.map size).sum * k < 2^32)
    (m' : VMap) (hm' : m'.Perm (voxelMap size ps).1) :
    ((voxelMap size ps).1.map (fun e => e.1.addr)).Nodup ∧
    (∀ v, (∃ e ∈ (voxelMap size ps).1, e.1 = v) ↔ ∃ p ∈ ps, v = p.v1 ∨ v = p.v2) ∧
    ∀ p ∈ ps,
      let q := offsetSize (voxelMap size ps).1 p
      slice (fillBuf k dat m') k q.1 q.2.1 = (dat p.v1).map some ∧
      slice (fillBuf k dat m') k q.2.2.1 q.2.2.2 = (dat p.v2).map some ∧
      q.1 * k + q.2.1 * k ≤ (voxelMap size ps).2 * k ∧ q.2.2.1 * k + q.2.2.2 * k ≤ (voxelMap size ps).2 * k := by
  have hb : (vs.map size).sum < 2^32 := lt_of_le_of_lt (Nat.le_mul_of_pos_right _ hk) hfit
  obtain ⟨c1, _, c3, c4⟩ := voxelMap_inv hb ps ([], 0) ⟨trivial, rfl, by simp, by simp⟩ hvs
  change MInv size vs (voxelMap size ps) at c1
  change ∀ p ∈ ps, (∃ e ∈ (voxelMap size ps).1, e.1.addr = p.v1.addr) ∧
    ∃ e ∈ (voxelMap size ps).1, e.1.addr = p.v2.addr at c3
  change ∀ e ∈ (voxelMap size ps).1, _ at c4
  generalize hM : voxelMap size ps = st at *
  have hsum := sum_le_of_nodup size vs st.1 c1.nodup c1.sub
  have hbound : (st.1.map (fun e => size e.1)).sum * k < 2^32 := lt_of_le_of_lt (Nat.mul_le_mul_right k hsum) hfit
  -- offsets do not wrap
  have hoff : ∀ e ∈ st.1, e.2.1 * k % 2^32 = e.2.1 * k ∧ (dat e.1).length = size e.1 * k ∧ e.2.2 = size e.1 ∧
      e.2.1 * k + size e.1 * k ≤ st.2 * k := by
    intro e he
    obtain ⟨g1, _, g3⟩ := laid_mem size st.1 0 c1.laid e he
    rw [Nat.zero_add] at g3
    have h3 := Nat.mul_le_mul_right k g3
    rw [Nat.add_mul] at h3
    refine ⟨Nat.mod_eq_of_lt (by omega), hlen _ (c1.sub e he), g1, ?_⟩
    rw [c1.total]; exact h3
  have hdis : m'.Pairwise (fun x y => x.2.1 * k % 2^32 + (dat x.1).length ≤ y.2.1 * k % 2^32 ∨
      y.2.1 * k % 2^32 + (dat y.1).length ≤ x.2.1 * k % 2^32) := by
    refine (List.Perm.pairwise_iff (fun {a b} h => h.symm) hm').2 ?_
    refine List.Pairwise.imp_of_mem ?_ (laid_disjoint size st.1 0 c1.laid)
    intro a b ha hb' h
    left
    rw [(hoff a ha).1, (hoff b hb').1, (hoff a ha).2.1, ← Nat.add_mul]
    exact Nat.mul_le_mul_right k h
  have hslice : ∀ v ∈ vs, (∃ e ∈ st.1, e.1.addr = v.addr) →
      let a := (st.1.find v).getD (0, 0)
      slice (fillBuf k dat m') k a.1 a.2 = (dat v).map some ∧ a.1 * k + a.2 * k ≤ st.2 * k := by
    intro v hv hex
    cases hf : st.1.find v with
    | none =>
      obtain ⟨e, he, ha⟩ := hex
      exact absurd ha (find_none.1 hf e he)
    | some x =>
      obtain ⟨e, he, ha, rfl⟩ := find_some hf
      have hev : e.1 = v := haddr _ (c1.sub e he) _ hv ha
      obtain ⟨o1, o2, o3, o4⟩ := hoff e he
      simp only [Option.getD_some]
      refine ⟨?_, by rw [o3]; exact o4⟩
      apply List.ext_getElem?
      intro j
      unfold slice
      by_cases hj : j < size e.1 * k
      · rw [List.getElem?_map, List.getElem?_range (by rw [o3]; exact hj), List.getElem?_map]
        have := fill_inside k dat m' (fun _ => none) e j (hm'.mem_iff.2 he) hdis (by rw [o2]; exact hj)
        simp only [Option.map_some]
        unfold fillBuf
        rw [this, hev]
        rw [List.getElem?_eq_getElem (by rw [← hev, o2]; exact hj)]
        rfl
      · rw [List.getElem?_eq_none (by simp [o3]; omega), List.getElem?_eq_none (by
          rw [List.length_map, ← hev, o2]; omega)]
  refine ⟨c1.nodup, ?_, ?_⟩
  · intro v
    constructor
    · rintro ⟨e, he, rfl⟩
      rcases c4 e he with h | h
      · simp at h
      · exact h
    · rintro ⟨p, hp, hor⟩
      obtain ⟨⟨e, he, ea⟩, ⟨f, hf, fa⟩⟩ := c3 p hp
      obtain ⟨p1, p2⟩ := hvs p hp
      rcases hor with rfl | rfl
      · exact ⟨e, he, haddr _ (c1.sub e he) _ p1 ea⟩
      · exact ⟨f, hf, haddr _ (c1.sub f hf) _ p2 fa⟩
  · intro p hp
    obtain ⟨p1, p2⟩ := hvs p hp
    obtain ⟨e1, e2⟩ := c3 p hp
    obtain ⟨s1, s2⟩ := hslice _ p1 e1
    obtain ⟨t1, t2⟩ := hslice _ p2 e2
    exact ⟨s1, t1, s2, t2⟩

/-- Three voxels in two pairs sharing one, two elements of six floats in the first. -/
example :
    let bx : Box ℚ := ⟨fun _ => 0, fun _ => 1⟩
    let v : Nat → Voxel := fun a => ⟨a, bx⟩
    let size : Voxel → Nat := fun v => if v.addr = 7 then 2 else 1
    let dat : Voxel → List ℚ := fun v => (List.range (size v * 6)).map (fun i => ((v.addr * 100 + i : Nat) : ℚ))
    let ps : List VPair := [⟨v 7, v 3, ⟨0, 0⟩, false⟩, ⟨v 7, v 5, ⟨0, 0⟩, false⟩]
    ps.map (offsetSize (voxelMap size ps).1) = [(0, 2, 2, 1), (0, 2, 3, 1)] ∧
    slice (fillBuf 6 dat (voxelMap size ps).1) 6 3 1 = [some 500, some 501, some 502, some 503, some 504, some 505] := by
  decide +kernel

end TDP.Join
