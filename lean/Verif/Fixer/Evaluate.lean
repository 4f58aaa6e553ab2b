import Verif.Fixer.Model
import Mathlib.Data.Sym.Sym2
import Mathlib.Algebra.Order.BigOperators.Group.Finset
/-!
# C83: the numbers reported by the mesh fixer (src/test/fixer.cpp:397-408)
-/
namespace TDP.Fixer

theorem faceEdges_length (f : List Nat) : (faceEdges f).length = f.length := by simp [faceEdges]

theorem sum_lengths (fs : List (List Nat)) : (fs.map List.length).sum = (fs.flatMap faceEdges).length := by
  induction fs with
  | nil => rfl
  | cons f fs ih => rw [List.map_cons, List.sum_cons, List.flatMap_cons, List.length_append, faceEdges_length, ih]

/-- **C83 (what is reported).** In a mesh without holes (each directed side belongs to one face only, and the opposite one to another
face's), the numbers reported are those of the points, the faces and the sides without direction. -/
theorem C83_evaluate {P : Type} (m : Poly P) (hnd : (m.faces.flatMap faceEdges).Nodup)
    (hclosed : ∀ a b, (a, b) ∈ m.faces.flatMap faceEdges → (b, a) ∈ m.faces.flatMap faceEdges ∧ a ≠ b) :
    evaluate m = (m.points.length, m.faces.length,
      ((m.faces.flatMap faceEdges).map (fun e => s(e.1, e.2))).toFinset.card) := by
  unfold evaluate
  rw [sum_lengths]
  obtain ⟨l, hl⟩ : ∃ l, m.faces.flatMap faceEdges = l := ⟨_, rfl⟩
  rw [hl] at hnd hclosed ⊢
  have hc : l.length = 2 * (l.map (fun e => s(e.1, e.2))).toFinset.card := by
    have e1 : l.length = l.toFinset.card := (List.toFinset_card_of_nodup hnd).symm
    have e2 : (l.map (fun e => s(e.1, e.2))).toFinset = l.toFinset.image (fun e => s(e.1, e.2)) := by
      ext x; simp
    rw [e1, e2, Finset.card_eq_sum_card_image (fun e : Nat × Nat => s(e.1, e.2)), Finset.sum_const_nat (m := 2), Nat.mul_comm]
    intro x hx
    rw [Finset.mem_image] at hx
    obtain ⟨⟨a, b⟩, hab, rfl⟩ := hx
    rw [List.mem_toFinset] at hab
    have h := hclosed a b hab
    have : (l.toFinset.filter (fun e => s(e.1, e.2) = s(a, b))) = {(a, b), (b, a)} := by
      ext ⟨c, d⟩
      simp only [Finset.mem_filter, List.mem_toFinset, Finset.mem_insert, Finset.mem_singleton, Sym2.eq_iff, Prod.mk.injEq]
      constructor
      · rintro ⟨-, h⟩; exact h
      · rintro (⟨rfl, rfl⟩ | ⟨rfl, rfl⟩)
        · exact ⟨hab, .inl ⟨rfl, rfl⟩⟩
        · exact ⟨h.1, .inr ⟨rfl, rfl⟩⟩
    rw [this, Finset.card_pair]
    intro e
    injection e with e1 e2
    exact h.2 e1
  rw [hc, Nat.mul_div_cancel_left _ (by decide)]

/-- A tetrahedron: four points, four faces, six sides. -/
example : evaluate (⟨[0, 1, 2, 3], [[0, 1, 2], [0, 3, 1], [1, 3, 2], [2, 3, 0]], []⟩ : Poly Nat) = (4, 4, 6) ∧
    ([[0, 1, 2], [0, 3, 1], [1, 3, 2], [2, 3, 0]].flatMap faceEdges).Nodup := by decide +kernel

/-- After merging equal points the points nobody uses any more are still counted: the reported `V` does not change. -/
theorem C83_evaluate_merged {P : Type} [DecidableEq P] (m m' : Poly P) (h : mergeVertex m = some m') :
    (evaluate m').1 = m.points.length := by
  unfold mergeVertex at h
  cases hf : m.faces.mapM (fun f => f.mapM (fun v => (vidMap m.points 0 [] [])[v]?)) with
  | none => rw [hf] at h; exact absurd h (by simp)
  | some fs => rw [hf] at h; injection h with h; subst h; rfl

/-- Two triangles of a square, with the diagonal's points doubled: four points are used after merging, six are reported. -/
example : ((mergeVertex (⟨[0, 1, 2, 0, 2, 3], [[0, 1, 2], [3, 4, 5]], []⟩ : Poly Nat)).map
    (fun m => (m.faces, (evaluate m).1))) = some ([[0, 1, 2], [0, 2, 5]], 6) := by decide +kernel

end TDP.Fixer
