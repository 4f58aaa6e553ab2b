import Verif.EndToEnd.FromFilesEx
import Verif.EndToEnd.NearestEx
import Mathlib.Analysis.Real.Sqrt
/-! # C109: from the two input files of meshes to the nearest neighbours -/
namespace TDP.FromFiles
open TDP.Codec TDP.Quant TDP.Tile TDP.Bytes TDP.Conc TDP.Conc.Compress TDP.Pipeline TDP.EndToEnd TDP.Kernels TDP.Fill TDP.Boxes TDP.Join

variable {α : Type} [LinearOrder α] [BoundedOrder α]

/-- The Euclidean distance. -/
noncomputable def eDist (p p' : P3) : ℝ := Real.sqrt ((dist2 p p' : ℚ) : ℝ)

/-- Moving two points by at most `E` per axis in all changes their distance by at most `√3 E`. -/
theorem eDist_moved {x x' p p' : P3} {E E' : ℚ} (h : ∀ y, |x y - p y| ≤ E) (h' : ∀ y, |x' y - p' y| ≤ E') :
    eDist p p' ≤ eDist x x' + Real.sqrt 3 * ((E + E' : ℚ) : ℝ) := by
  have hE : 0 ≤ E := (abs_nonneg _).trans (h 0)
  have hE' : 0 ≤ E' := (abs_nonneg _).trans (h' 0)
  set S : ℝ := ((E + E' : ℚ) : ℝ) with hS
  have hS0 : 0 ≤ S := by rw [hS]; exact_mod_cast add_nonneg hE hE'
  -- the differences
  let a : Fin 3 → ℝ := fun y => ((x y - x' y : ℚ) : ℝ)
  let e : Fin 3 → ℝ := fun y => (((p y - p' y) - (x y - x' y) : ℚ) : ℝ)
  have he : ∀ y, |e y| ≤ S := by
    intro y
    have h1 := abs_le.1 (h y)
    have h2 := abs_le.1 (h' y)
    have : |(p y - p' y) - (x y - x' y)| ≤ E + E' := abs_le.2 ⟨by linarith, by linarith⟩
    rw [hS]
    simp only [e]
    exact_mod_cast this
  have hsq : ∀ y, e y ^ 2 ≤ S ^ 2 := fun y => by rw [← sq_abs]; exact pow_le_pow_left₀ (abs_nonneg _) (he y) 2
  have hA : ((dist2 x x' : ℚ) : ℝ) = a 0 ^ 2 + a 1 ^ 2 + a 2 ^ 2 := by simp only [dist2, a]; push_cast; ring
  have hP : ((dist2 p p' : ℚ) : ℝ) = (a 0 + e 0) ^ 2 + (a 1 + e 1) ^ 2 + (a 2 + e 2) ^ 2 := by simp only [dist2, a, e]; push_cast; ring
  set N : ℝ := eDist x x' with hN
  have hN0 : 0 ≤ N := Real.sqrt_nonneg _
  have hN2 : N ^ 2 = a 0 ^ 2 + a 1 ^ 2 + a 2 ^ 2 := by
    rw [hN, eDist, Real.sq_sqrt, hA]
    rw [hA]; positivity
  have h3 : Real.sqrt 3 ^ 2 = 3 := Real.sq_sqrt (by norm_num)
  have h30 : 0 ≤ Real.sqrt 3 := Real.sqrt_nonneg _
  have hdot : a 0 * e 0 + a 1 * e 1 + a 2 * e 2 ≤ N * (Real.sqrt 3 * S) := by
    apply le_of_sq_le_sq ?_ (by positivity)
    have c : (a 0 * e 0 + a 1 * e 1 + a 2 * e 2) ^ 2 ≤ (a 0 ^ 2 + a 1 ^ 2 + a 2 ^ 2) * (e 0 ^ 2 + e 1 ^ 2 + e 2 ^ 2) := by
      nlinarith [sq_nonneg (a 0 * e 1 - a 1 * e 0), sq_nonneg (a 0 * e 2 - a 2 * e 0), sq_nonneg (a 1 * e 2 - a 2 * e 1)]
    have : (N * (Real.sqrt 3 * S)) ^ 2 = (a 0 ^ 2 + a 1 ^ 2 + a 2 ^ 2) * (3 * S ^ 2) := by rw [mul_pow, mul_pow, h3, hN2]
    rw [this]
    exact c.trans (mul_le_mul_of_nonneg_left (by linarith [hsq 0, hsq 1, hsq 2]) (by positivity))
  unfold eDist
  rw [hP]
  refine Real.sqrt_le_iff.2 ⟨by positivity, ?_⟩
  have : (N + Real.sqrt 3 * S) ^ 2 = (a 0 ^ 2 + a 1 ^ 2 + a 2 ^ 2) + 2 * (N * (Real.sqrt 3 * S)) + 3 * S ^ 2 := by
    rw [add_sq, hN2, mul_pow, h3]; ring
  rw [this]
  nlinarith [hsq 0, hsq 1, hsq 2]

open Classical in
/-- How far a point of a decoded edge may be from the edge on the line, per axis: half a step, and 0.1 more if quantisation made a point of
the edge. -/
noncomputable def slack (i : Input) (collapsed : Prop) : ℚ := halfStep i + if collapsed then 1 / 10 else 0

/-- **C109 (partial).** Compress two files of meshes (any number of workers, any schedule), open what the tool leaves as two tiles, and run the
nearest-neighbour join without a GPU, with any number of threads. The objects of each tile are the lines of its file in some order (which
gives their numbers), and for every such order the following holds for all objects number `j` of the first and `j'` of the second
tile that are not one object in memory. Let `m` be the squared distance the kernel finds for some two edges of them at the highest level, and let it find no smaller
one for the two at any level asked for. If, on the lines, at every level asked for, every edge of mesh `j` is farther from every edge of every
other mesh of the second file than `√m`, by more than what quantisation can change (√3 times the slack of both), then object `j'` is still
among the candidates of `j` at the end, and is the answer if `j` is decided.
Missing (as for C64): needs that boxes contain their edges and that the upper ends of the ranges of boxes are not below `m` (C20, C32); the kernel
is exact only as in C36. -/
theorem C109_files_to_nearest_partial {S1 S2 : Pipeline.Setting} {fc1 fc2 : FloatCode α} {lines1 lines2 : List Input}
    {file1 file2 : List Nat} {t1 t2 : Tile α} (h1 : Opened S1 fc1 lines1 file1 t1) (h2 : Opened S2 fc2 lines2 file2 t2)
    {env : Env P3} (he : env.Ok) {lods : List Nat} {tile1 : List (Object Seg)} {o : Object Seg} {os : List (Object Seg)}
    (ho1 : HeldSeg S1 env file1 t1 lods tile1) (ho2 : HeldSeg S2 env file2 t2 lods (o :: os))
    {dist : Pt ℚ → Pt ℚ → WithTop ℚ} {heap : Nat → Join.Voxel → List Seg} {tile2 : Int → Join.Wrapper} {vs : List Join.Voxel}
    (hs : EndToEnd.Setting 6 dist Seg.p heap tile1 o os tile2 lods vs)
    (hlen : ∀ lod ∈ lods, ∀ v ∈ vs, (heap lod v).length ≤ 10000)
    {threads : Nat} (ht : 1 ≤ threads) {mid : ℚ → ℚ → ℚ} {final : NNState}
    (h : NNJoin (.cpu threads) mid heap tile1 o os tile2 lods final) {top : Nat} (htop : lods.getLast? = some top) :
    (∃ order1 order2 : List Input, order1.Perm lines1 ∧ order2.Perm lines2 ∧ Numbered S1 file1 t1 order1 ∧ Numbered S2 file2 t2 order2) ∧
      ∀ order1 order2 : List Input, Numbered S1 file1 t1 order1 → Numbered S2 file2 t2 order2 → ∀ q ∈ tile1, ∀ b ∈ o :: os, b.ptr ≠ q.ptr → ∀ (j : Nat) (i : Input), q.w.id = j → order1[j]? = some i → ∀ m : ℚ,
        (∃ s ∈ q.elems top, ∃ t ∈ b.elems top, segD s t = m) →
        (∀ lod ∈ lods, ∀ s ∈ q.elems lod, ∀ t ∈ b.elems lod, (m : WithTop ℚ) ≤ segD s t) →
        (∀ x ∈ o :: os, x ≠ b → x.ptr ≠ q.ptr → ∀ (k : Nat) (i' : Input), x.w.id = k → order2[k]? = some i' → ∀ lod ∈ lods,
          ∀ p p' c c', OnEdge S1 i lod c p → OnEdge S2 i' lod c' p' →
            Real.sqrt (m : ℝ) + Real.sqrt 3 * ((slack i c + slack i' c' : ℚ) : ℝ) ≤ eDist p p') →
        (∀ x ∈ tile1 ++ (o :: os), (∀ s ∈ x.elems top, x.w.box.Mem s.p ∧ x.w.box.Mem s.q) ∧
          ∀ v ∈ x.w.voxels, ∀ s ∈ heap top v, v.box.Mem s.p ∧ v.box.Mem s.q) →
        (∀ x ∈ o :: os, x.ptr ≠ q.ptr → m ≤ (x.w.box.distance Fp.exact q.w.box).maxdist ∧
          ∀ v1 ∈ q.w.voxels, ∀ v2 ∈ x.w.voxels, m ≤ (v1.box.distance Fp.exact v2.box).maxdist) →
        (∃ e ∈ final.opened, e.mesh.id = j ∧ ∃ c ∈ e.cands, c.mesh.id = b.w.id) ∨
        (∃ e ∈ final.decided, e.mesh.id = j ∧ ∃ c, e.cands = [c] ∧ c.mesh.id = b.w.id) := by
  obtain ⟨order1, p1, l1, d1⟩ := opened_spec h1
  obtain ⟨order2, p2, l2, d2⟩ := opened_spec h2
  refine ⟨⟨order1, order2, p1, p2, ⟨l1, d1⟩, l2, d2⟩, ?_⟩
  clear p1 l1 d1 p2 l2 d2 order1 order2
  rintro order1 order2 ⟨l1, d1⟩ ⟨l2, d2⟩
  have hnd : ∀ lod ∈ lods, ∀ x ∈ tile1 ++ (o :: os), ∀ s ∈ x.elems lod, s.p ≠ s.q := by
    intro lod hl x hx s hs
    rcases List.mem_append.1 hx with hx | hx
    · obtain ⟨j, i, j1, j2, j3⟩ := heldSeg_spec he l1 d1 ho1 hx
      exact (j3 lod hl s hs).1
    · obtain ⟨j, i, j1, j2, j3⟩ := heldSeg_spec he l2 d2 ho2 hx
      exact (j3 lod hl s hs).1
  intro q hq b hb hbq j i hj hi m hm hself hfar hbox hmax
  have hnear : ∀ lod ∈ lods, ∀ x ∈ o :: os, x.ptr ≠ q.ptr → ∀ s ∈ q.elems lod, ∀ t ∈ x.elems lod, (m : WithTop ℚ) ≤ segD s t := by
    intro lod hl x hx hxq s hs' t ht'
    by_cases hxb : x = b
    · subst hxb; exact hself lod hl s hs' t ht'
    · obtain ⟨j0, i0, a1, a2, a3⟩ := heldSeg_spec he l1 d1 ho1 hq
      obtain ⟨k, i', b1, b2, b3⟩ := heldSeg_spec he l2 d2 ho2 hx
      obtain rfl : j0 = j := by rw [a1] at hj; exact_mod_cast hj
      obtain rfl := Option.some.inj (a2.symm.trans hi)
      obtain ⟨v, hv, u, w, u0, u1, w0, w1, hat⟩ := segD_attained (hnd lod hl q (List.mem_append_left _ hq) s hs')
        (hnd lod hl x (List.mem_append_right _ hx) t ht')
      obtain ⟨p, c, q1, q2⟩ := (a3 lod hl s hs').2 u u0 u1
      obtain ⟨p', c', r1, r2⟩ := (b3 lod hl t ht').2 w w0 w1
      have hd := hfar x hx hxb hxq k i' b1 b2 lod hl p p' c c' q1 r1
      have hmv := eDist_moved (E := slack i0 c) (E' := slack i' c') q2 r2
      have hle : Real.sqrt (m : ℝ) ≤ eDist (s.pt u) (t.pt w) := by linarith
      unfold eDist at hle
      rw [← hat] at hle
      have hv0 : 0 ≤ v := by rw [hat]; unfold dist2; positivity
      have : (m : ℝ) ≤ (v : ℝ) := (Real.sqrt_le_sqrt_iff (by exact_mod_cast hv0)).1 hle
      rw [hv]
      exact_mod_cast this
  rcases C64_nearest_kept_partial ht hs hnd hlen h q hq b hb hbq top htop m hm hnear hbox hmax with ⟨e, e1, e2, c, c1, c2⟩ | ⟨e, e1, e2, c, c1, c2⟩
  · exact Or.inl ⟨e, e1, by rw [e2, hj], c, c1, by rw [c2]⟩
  · exact Or.inr ⟨e, e1, by rw [e2, hj], c, c1, by rw [c2]⟩

end TDP.FromFiles
