import Mathlib.Algebra.BigOperators.Group.Finset.Basic
import Mathlib.Algebra.BigOperators.Fin
import Mathlib.Algebra.Order.BigOperators.Group.Finset
import Mathlib.Data.Fintype.Basic
import Mathlib.Logic.Function.Basic
import Mathlib.Algebra.Order.Group.Multiset
/-!
# Interleaving semantics

A program is a step relation on states; an execution is any sequence of steps, so every schedule of the threads is
covered. Memory is sequentially consistent: every step reads and writes the shared state atomically. A mutex is an
`Option` of its holder; locking is a step possible only when it is free.
-/
namespace TDP.Conc

/-- Reachable from `s0` by any sequence of steps. -/
inductive Reach {S : Type} (step : S → S → Prop) (s0 : S) : S → Prop
  | init : Reach step s0 s0
  | step {s s'} : Reach step s0 s → step s s' → Reach step s0 s'

theorem Reach.inv {S : Type} {step : S → S → Prop} {s0 : S} (I : S → Prop) (h0 : I s0)
    (hs : ∀ s s', I s → step s s' → I s') {s : S} (h : Reach step s0 s) : I s := by
  induction h with
  | init => exact h0
  | step _ hst ih => exact hs _ _ ih hst

theorem Reach.trans {S : Type} {step : S → S → Prop} {a b c : S} (h : Reach step a b) (h' : Reach step b c) : Reach step a c := by
  induction h' with
  | init => exact h
  | step _ hst ih => exact Reach.step ih hst

theorem Reach.single {S : Type} {step : S → S → Prop} {a b : S} (h : step a b) : Reach step a b := Reach.step Reach.init h

section
variable {n : Nat} {A : Type}

/-- One thread moves on. -/
abbrev upd (pc : Fin n → A) (t : Fin n) (x : A) : Fin n → A := Function.update pc t x

theorem upd_same (pc : Fin n → A) (t : Fin n) (x : A) : upd pc t x t = x := Function.update_self ..
theorem upd_ne (pc : Fin n → A) {t u : Fin n} (x : A) (h : u ≠ t) : upd pc t x u = pc u := Function.update_of_ne h ..

/-- The lock is held exactly by the threads in a holding state. -/
def LockInv (holds : A → Prop) (pc : Fin n → A) (lock : Option (Fin n)) : Prop := ∀ t, holds (pc t) ↔ lock = some t

theorem LockInv.keep {holds : A → Prop} {pc : Fin n → A} {lock : Option (Fin n)} (h : LockInv holds pc lock) {t : Fin n} {x : A}
    (hx : holds x ↔ holds (pc t)) : LockInv holds (upd pc t x) lock := by
  intro u
  by_cases hu : u = t
  · subst hu; rw [upd_same, hx]; exact h u
  · rw [upd_ne _ _ hu]; exact h u

theorem LockInv.acquire {holds : A → Prop} {pc : Fin n → A} (h : LockInv holds pc none) {t : Fin n} {x : A}
    (hx : holds x) : LockInv holds (upd pc t x) (some t) := by
  intro u
  by_cases hu : u = t
  · subst hu; rw [upd_same]; simp [hx]
  · rw [upd_ne _ _ hu, h u]; simp [Ne.symm hu]

theorem LockInv.release {holds : A → Prop} {pc : Fin n → A} {lock : Option (Fin n)} (h : LockInv holds pc lock) {t : Fin n} {x : A}
    (ht : holds (pc t)) (hx : ¬ holds x) : LockInv holds (upd pc t x) none := by
  intro u
  by_cases hu : u = t
  · subst hu; rw [upd_same]; simp [hx]
  · rw [upd_ne _ _ hu, h u, (h t).1 ht]; simp [Ne.symm hu]

theorem LockInv.unique {holds : A → Prop} {pc : Fin n → A} {lock : Option (Fin n)} (h : LockInv holds pc lock) {t u : Fin n}
    (ht : holds (pc t)) (hu : holds (pc u)) : t = u := by
  have := (h t).1 ht
  rw [(h u).1 hu] at this
  exact (Option.some.inj this).symm

/-- How a sum over the threads changes when one moves on. -/
theorem sum_upd {M : Type} [AddCommMonoid M] (f : A → M) (pc : Fin n → A) (t : Fin n) (x : A) :
    (∑ u, f (upd pc t x u)) + f (pc t) = (∑ u, f (pc u)) + f x := by
  rw [← Finset.add_sum_erase Finset.univ (fun u => f (upd pc t x u)) (Finset.mem_univ t),
    ← Finset.add_sum_erase Finset.univ (fun u => f (pc u)) (Finset.mem_univ t), upd_same]
  have : ∑ u ∈ Finset.univ.erase t, f (upd pc t x u) = ∑ u ∈ Finset.univ.erase t, f (pc u) := by
    apply Finset.sum_congr rfl
    intro u hu
    rw [upd_ne _ _ (Finset.ne_of_mem_erase hu)]
  rw [this]
  ac_rfl

/-- The conserved quantity: what threads have in their hands plus the rest. -/
theorem sum_upd_conserve {M : Type} [AddCommMonoid M] [IsCancelAdd M] (f : A → M) (pc : Fin n → A) (t : Fin n) (x : A) {a b c : M}
    (h : a + ∑ u, f (pc u) = c) (e : b + f x = a + f (pc t)) : b + ∑ u, f (upd pc t x u) = c := by
  have := sum_upd f pc t x
  have h2 : (b + ∑ u, f (upd pc t x u)) + f (pc t) = c + f (pc t) := by
    rw [add_assoc, this, ← h, add_comm (∑ u, f (pc u)) (f x), ← add_assoc, e]
    ac_rfl
  exact add_right_cancel h2

theorem sum_zero_of_forall {M : Type} [AddCommMonoid M] (f : A → M) (pc : Fin n → A) (h : ∀ t, f (pc t) = 0) : ∑ u, f (pc u) = 0 :=
  Finset.sum_eq_zero (fun u _ => h u)

theorem sum_upd_lt (f : A → Nat) (pc : Fin n → A) (t : Fin n) (x : A) {a b : Nat} (e : b + f x < a + f (pc t)) :
    b + ∑ u, f (upd pc t x u) < a + ∑ u, f (pc u) := by
  have := sum_upd f pc t x
  omega
end
end TDP.Conc
