import Verif.Codec.Object
import Verif.Lod.Props
/-! Histories of level-of-detail requests on an opened object. -/
namespace TDP.Codec
open TDP.Traversal TDP.Blocks TDP.BaseMesh TDP.Stream Function

variable {P : Type}

theorem complete_le (F : Fp) (n : Nat) (s t : Lod.St) (h : Lod.complete F n s = some t) (hs : s.curOp ≤ n) :
    s.curOp ≤ t.curOp ∧ t.curOp ≤ n := by
  unfold Lod.complete at h
  split at h
  · simp only [Option.some.injEq] at h
    subst h; exact ⟨le_refl _, hs⟩
  · split at h
    · rename_i hlt
      have := complete_le F n _ t h (by simp only; omega)
      simp only at this
      omega
    · exact absurd h (by simp)
termination_by n - s.curOp

theorem refines_add (geo : Geo P Vec) (env : Env P) (n v0 v1 : Nat) (a b : Nat) (m : Mesh P) (data : List Nat) :
    refines geo env n v0 v1 (a + b) m data =
      (refines geo env n v0 v1 a m data).bind (fun x => refines geo env n v0 v1 b x.1 x.2) := by
  induction a generalizing m data with
  | zero => simp [refines]
  | succ a ih =>
    rw [show a + 1 + b = (a + b) + 1 by omega, refines, refines]
    cases refine geo env n v0 v1 m data with
    | none => rfl
    | some x => exact ih x.1 x.2

theorem completeObj_of (F : Fp) (grid : Header → Grid P) (env : Env P) (n : Nat) (o : Obj P) (t : Lod.St)
    (h : Lod.complete F o.nbDec o.lod = some t) (hs : o.lod.curOp ≤ o.nbDec) (N : Mesh P) (rest : List Nat)
    (hr : refines (grid o.hd).geo env n 0 1 (t.curOp - o.lod.curOp) o.m o.rest = some (N, rest)) :
    completeObj F grid env n o = some ⟨N, o.hd, o.nbDec, rest, t⟩ := by
  have hle := (complete_le F _ _ _ h hs).1
  unfold Lod.complete at h
  unfold completeObj
  split at h
  · rename_i hd
    rw [if_pos hd]
    simp only [Option.some.injEq] at h
    rw [← h, Nat.sub_self, refines] at hr
    simp only [Option.some.injEq, Prod.mk.injEq] at hr
    rw [← hr.1, ← hr.2, ← h]
  · rename_i hd
    rw [if_neg hd]
    split at h
    · rename_i hlt
      rw [if_pos hlt]
      have hle' := (complete_le F _ _ _ h (by simp only; omega)).1
      simp only at hle'
      rw [show t.curOp - o.lod.curOp = (t.curOp - (o.lod.curOp + 1)) + 1 by omega, refines] at hr
      cases hx : refine (grid o.hd).geo env n 0 1 o.m o.rest with
      | none => rw [hx] at hr; exact absurd hr (by simp)
      | some x =>
        rw [hx] at hr
        simp only [Option.bind_eq_bind, Option.bind_some] at hr
        exact completeObj_of F grid env n ⟨x.1, o.hd, o.nbDec, x.2, ⟨o.lod.curOp + 1, o.lod.pct⟩⟩ t h hlt N rest hr
    · exact absurd h (by simp)
termination_by o.nbDec - o.lod.curOp

/-- Requests decode as many levels as the level-of-detail control says. -/
theorem runObj_of (F : Fp) (grid : Header → Grid P) (env : Env P) (n : Nat) (o0 : Obj P)
    (hall : ∀ k ≤ o0.nbDec, ∃ N rest, refines (grid o0.hd).geo env n 0 1 k o0.m o0.rest = some (N, rest)) (ps : List Int)
    (o : Obj P) (h1 : o.hd = o0.hd) (h2 : o.nbDec = o0.nbDec) (hs : o.lod.curOp ≤ o0.nbDec)
    (h3 : refines (grid o0.hd).geo env n 0 1 o.lod.curOp o0.m o0.rest = some (o.m, o.rest)) (t : Lod.St)
    (h : Lod.run F o0.nbDec ps o.lod = some t) :
    ∃ o', runObj F grid env n ps o = some o' ∧ o'.hd = o0.hd ∧ o'.nbDec = o0.nbDec ∧ o'.lod = t ∧ t.curOp ≤ o0.nbDec ∧
      refines (grid o0.hd).geo env n 0 1 t.curOp o0.m o0.rest = some (o'.m, o'.rest) := by
  induction ps generalizing o with
  | nil =>
    simp only [Lod.run, Option.some.injEq] at h
    subst h
    exact ⟨o, rfl, h1, h2, rfl, hs, h3⟩
  | cons p ps ih =>
    simp only [Lod.run, Option.bind_eq_bind, Option.bind_eq_some_iff] at h
    obtain ⟨u, hu, hrun⟩ := h
    have hadv : ∃ o2, advanceObj F grid env n p o = some o2 ∧ o2.hd = o0.hd ∧ o2.nbDec = o0.nbDec ∧ o2.lod = u ∧
        u.curOp ≤ o0.nbDec ∧ refines (grid o0.hd).geo env n 0 1 u.curOp o0.m o0.rest = some (o2.m, o2.rest) := by
      unfold Lod.advanceTo at hu
      unfold advanceObj
      split at hu
      · rename_i hg
        rw [if_pos hg]
        simp only [Option.some.injEq] at hu
        subst hu
        exact ⟨o, rfl, h1, h2, rfl, hs, h3⟩
      · rename_i hg
        rw [if_neg hg]
        have hle := complete_le F _ _ _ hu hs
        simp only at hle
        obtain ⟨N, rest, hN⟩ := hall u.curOp hle.2
        have hN' := hN
        rw [show u.curOp = o.lod.curOp + (u.curOp - o.lod.curOp) by omega, refines_add, h3, Option.bind_some] at hN
        refine ⟨⟨N, o.hd, o.nbDec, rest, u⟩, ?_, h1, h2, rfl, hle.2, hN'⟩
        exact completeObj_of F grid env n { o with lod := ⟨o.lod.curOp, Lod.toUnsigned p⟩ } u (by rw [h2]; exact hu)
          (by rw [h2]; exact hs) N rest (by rw [h1]; exact hN)
    obtain ⟨o2, a1, a2, a3, a4, a5, a6⟩ := hadv
    obtain ⟨o', b1, b2⟩ := ih o2 a2 a3 (by rw [a4]; exact a5) (by rw [a4]; exact a6) (by rw [a4]; exact hrun)
    exact ⟨o', by rw [runObj, a1]; exact b1, b2⟩

end TDP.Codec
