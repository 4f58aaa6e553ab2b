import Verif.Codec.Split
/-! A coarse mesh, its refinement by center vertices, and the removal of edges, and isomorphisms of all that. -/
namespace TDP.Codec
open TDP.Traversal Function

variable {P : Type}

/-- The same mesh up to the names of halfedges, facets and vertices. -/
structure Iso (φ : Nat → Nat) (M N : Mesh P) : Prop where
  mem : ∀ d ∈ M.darts, φ d ∈ N.darts
  inj : ∀ d ∈ M.darts, ∀ e ∈ M.darts, φ d = φ e → d = e
  surj : ∀ x ∈ N.darts, ∃ d ∈ M.darts, φ d = x
  next : ∀ d ∈ M.darts, φ (M.next d) = N.next (φ d)
  opp : ∀ d ∈ M.darts, φ (M.opp d) = N.opp (φ d)
  vert : ∀ d ∈ M.darts, ∀ e ∈ M.darts, M.vert d = M.vert e ↔ N.vert (φ d) = N.vert (φ e)
  pos : ∀ d ∈ M.darts, N.pos (N.vert (φ d)) = M.pos (M.vert d)

theorem Iso.iterate {φ : Nat → Nat} {M N : Mesh P} (i : Iso φ M N) (hM : M.h.WF) {d : Nat} (hd : d ∈ M.darts) (k : Nat) :
    N.next^[k] (φ d) = φ (M.next^[k] d) := by
  induction k with
  | zero => rfl
  | succ k ih => rw [iterate_succ_apply', iterate_succ_apply', ih, ← i.next _ (iterate_mem hM.next_mem hd k)]

theorem Iso.face {φ : Nat → Nat} {M N : Mesh P} (i : Iso φ M N) (hM : M.h.WF) (hN : N.h.WF) {d e : Nat}
    (hd : d ∈ M.darts) (he : e ∈ M.darts) : M.face d = M.face e ↔ N.face (φ d) = N.face (φ e) := by
  have h1 := hM.face_iff d hd e he
  have h2 := hN.face_iff (φ d) (i.mem d hd) (φ e) (i.mem e he)
  change M.face d = M.face e ↔ _ at h1
  change N.face (φ d) = N.face (φ e) ↔ _ at h2
  rw [h1, h2]
  constructor
  · rintro ⟨k, hk⟩
    exact ⟨k, (i.iterate hM hd k).trans (congrArg φ hk)⟩
  · rintro ⟨k, hk⟩
    refine ⟨k, i.inj _ (iterate_mem hM.next_mem hd k) e he ?_⟩
    rw [← hk]; exact (i.iterate hM hd k).symm

/-- `R` is `K` with a new vertex `c f` in each facet `f` with `S f`, joined to all its vertices. -/
structure Refine (R K : Mesh P) (S : Nat → Prop) (c : Nat → Nat) : Prop where
  sub : ∀ d ∈ K.darts, d ∈ R.darts
  opp : ∀ d ∈ K.darts, R.opp d = K.opp d
  vert : ∀ d ∈ K.darts, R.vert d = K.vert d
  pos : ∀ d ∈ K.darts, R.pos (K.vert d) = K.pos (K.vert d)
  plain : ∀ d ∈ K.darts, ¬ S (K.face d) → R.next d = K.next d
  in_mem : ∀ d ∈ K.darts, S (K.face d) → R.next d ∈ R.darts
  in_new : ∀ d ∈ K.darts, S (K.face d) → R.next d ∉ K.darts
  out_mem : ∀ d ∈ K.darts, S (K.face d) → R.opp (R.next d) ∈ R.darts
  out_new : ∀ d ∈ K.darts, S (K.face d) → R.opp (R.next d) ∉ K.darts
  opp_opp : ∀ d ∈ K.darts, S (K.face d) → R.opp (R.opp (R.next d)) = R.next d
  out_next : ∀ d ∈ K.darts, S (K.face d) → R.next (R.opp (R.next d)) = K.next d
  close : ∀ d ∈ K.darts, S (K.face d) → R.next (R.next (K.next d)) = R.opp (R.next d)
  vout : ∀ d ∈ K.darts, S (K.face d) → R.vert (R.opp (R.next d)) = K.vert d
  vin : ∀ d ∈ K.darts, S (K.face d) → R.vert (R.next d) = c (K.face d)
  cinj : ∀ d ∈ K.darts, S (K.face d) → ∀ e ∈ K.darts, S (K.face e) → c (K.face d) = c (K.face e) → K.face d = K.face e
  cnew : ∀ d ∈ K.darts, S (K.face d) → ∀ e ∈ K.darts, K.vert e ≠ c (K.face d)
  cover : ∀ x ∈ R.darts, x ∉ K.darts → ∃ d ∈ K.darts, S (K.face d) ∧ (x = R.next d ∨ x = R.opp (R.next d))

namespace Refine
variable {R K : Mesh P} {S : Nat → Prop} {c : Nat → Nat} (r : Refine R K S c)
include r

theorem in_inj (hK : K.h.WF) {d e : Nat} (hd : d ∈ K.darts) (sd : S (K.face d)) (he : e ∈ K.darts) (se : S (K.face e))
    (h : R.next d = R.next e) : d = e := by
  have h1 := r.out_next d hd sd
  rw [h, r.out_next e he se] at h1
  exact (hK.next_inj _ he _ hd h1).symm

theorem out_inj (hK : K.h.WF) {d e : Nat} (hd : d ∈ K.darts) (sd : S (K.face d)) (he : e ∈ K.darts) (se : S (K.face e))
    (h : R.opp (R.next d) = R.opp (R.next e)) : d = e := by
  have h1 := r.out_next d hd sd
  rw [h, r.out_next e he se] at h1
  exact (hK.next_inj _ he _ hd h1).symm

theorem in_ne_out {d e : Nat} (hd : d ∈ K.darts) (sd : S (K.face d)) (he : e ∈ K.darts) (se : S (K.face e)) :
    R.next d ≠ R.opp (R.next e) := by
  intro h
  have h1 := r.vin d hd sd
  rw [h, r.vout e he se] at h1
  exact r.cnew d hd sd e he h1

theorem next_in (hK : K.h.WF) {d : Nat} (hd : d ∈ K.darts) (sd : S (K.face d)) :
    ∃ e ∈ K.darts, S (K.face e) ∧ K.next e = d ∧ R.next (R.next d) = R.opp (R.next e) := by
  obtain ⟨i, hi⟩ := exists_pre hK.next_mem hK.next_inj hd
  have he := iterate_mem hK.next_mem hd i
  have hf : K.face (K.next^[i] d) = K.face d := ((hK.face_iff d hd _ he).mpr ⟨i, rfl⟩).symm
  have se : S (K.face (K.next^[i] d)) := by rw [hf]; exact sd
  refine ⟨K.next^[i] d, he, se, hi, ?_⟩
  have h2 := r.close _ he se
  change K.next (K.next^[i] d) = d at hi
  rw [hi] at h2
  exact h2

theorem kinds {x : Nat} (hx : x ∈ R.darts) : x ∈ K.darts ∨ (∃ d ∈ K.darts, S (K.face d) ∧ x = R.next d) ∨
    (∃ d ∈ K.darts, S (K.face d) ∧ x = R.opp (R.next d)) := by
  by_cases h : x ∈ K.darts
  · exact Or.inl h
  · obtain ⟨d, hd, sd, h1 | h1⟩ := r.cover x hx h
    · exact Or.inr (Or.inl ⟨d, hd, sd, h1⟩)
    · exact Or.inr (Or.inr ⟨d, hd, sd, h1⟩)

theorem next_mem (hK : K.h.WF) : ∀ x ∈ R.darts, R.next x ∈ R.darts := by
  intro x hx
  rcases r.kinds hx with h | ⟨d, hd, sd, rfl⟩ | ⟨d, hd, sd, rfl⟩
  · by_cases s : S (K.face x)
    · exact r.in_mem x h s
    · rw [r.plain x h s]; exact r.sub _ (hK.next_mem x h)
  · obtain ⟨e, he, se, _, h1⟩ := r.next_in hK hd sd
    rw [h1]; exact r.out_mem e he se
  · rw [r.out_next d hd sd]; exact r.sub _ (hK.next_mem d hd)

theorem opp_mem (hK : K.h.WF) : ∀ x ∈ R.darts, R.opp x ∈ R.darts := by
  intro x hx
  rcases r.kinds hx with h | ⟨d, hd, sd, rfl⟩ | ⟨d, hd, sd, rfl⟩
  · rw [r.opp x h]; exact r.sub _ (hK.opp_mem x h)
  · exact r.out_mem d hd sd
  · rw [r.opp_opp d hd sd]; exact r.in_mem d hd sd

theorem opp_opp' (hK : K.h.WF) : ∀ x ∈ R.darts, R.opp (R.opp x) = x := by
  intro x hx
  rcases r.kinds hx with h | ⟨d, hd, sd, rfl⟩ | ⟨d, hd, sd, rfl⟩
  · rw [r.opp x h, r.opp _ (hK.opp_mem x h)]; exact hK.opp_opp x h
  · exact r.opp_opp d hd sd
  · rw [r.opp_opp d hd sd]

/-- The refinement of an isomorphic mesh, at the same facets with the same positions, is isomorphic. -/
theorem iso {R' N : Mesh P} {S' : Nat → Prop} {c' : Nat → Nat} (r' : Refine R' N S' c') {φ : Nat → Nat}
    (i : Iso φ K N) (hK : K.h.WF) (hN : N.h.WF) (hS : ∀ d ∈ K.darts, S' (N.face (φ d)) ↔ S (K.face d))
    (hp : ∀ d ∈ K.darts, S (K.face d) → R'.pos (c' (N.face (φ d))) = R.pos (c (K.face d))) :
    ∃ ψ, (∀ d ∈ K.darts, ψ d = φ d) ∧ Iso ψ R R' := by
  classical
  let ψ : Nat → Nat := fun x => if x ∈ K.darts then φ x
    else if h : ∃ d ∈ K.darts, S (K.face d) ∧ x = R.next d then R'.next (φ h.choose)
    else if h : ∃ d ∈ K.darts, S (K.face d) ∧ x = R.opp (R.next d) then R'.opp (R'.next (φ h.choose)) else 0
  have ψK : ∀ d ∈ K.darts, ψ d = φ d := fun d hd => by simp only [ψ, if_pos hd]
  have ψin : ∀ d ∈ K.darts, S (K.face d) → ψ (R.next d) = R'.next (φ d) := by
    intro d hd sd
    have h : ∃ e ∈ K.darts, S (K.face e) ∧ R.next d = R.next e := ⟨d, hd, sd, rfl⟩
    have e : h.choose = d := (r.in_inj hK hd sd h.choose_spec.1 h.choose_spec.2.1 h.choose_spec.2.2).symm
    simp only [ψ, if_neg (r.in_new d hd sd), dif_pos h, e]
  have ψout : ∀ d ∈ K.darts, S (K.face d) → ψ (R.opp (R.next d)) = R'.opp (R'.next (φ d)) := by
    intro d hd sd
    have h0 : ¬ ∃ e ∈ K.darts, S (K.face e) ∧ R.opp (R.next d) = R.next e := by
      rintro ⟨e, he, se, h⟩
      exact r.in_ne_out he se hd sd h.symm
    have h : ∃ e ∈ K.darts, S (K.face e) ∧ R.opp (R.next d) = R.opp (R.next e) := ⟨d, hd, sd, rfl⟩
    have e : h.choose = d := (r.out_inj hK hd sd h.choose_spec.1 h.choose_spec.2.1 h.choose_spec.2.2).symm
    simp only [ψ, if_neg (r.out_new d hd sd), dif_neg h0, dif_pos h, e]
  have sφ : ∀ d ∈ K.darts, S (K.face d) → S' (N.face (φ d)) := fun d hd sd => (hS d hd).mpr sd
  have kind : ∀ x ∈ R.darts, (x ∈ K.darts ∧ ψ x ∈ N.darts) ∨
      (∃ d ∈ K.darts, S (K.face d) ∧ x = R.next d ∧ ψ x = R'.next (φ d)) ∨
      (∃ d ∈ K.darts, S (K.face d) ∧ x = R.opp (R.next d) ∧ ψ x = R'.opp (R'.next (φ d))) := by
    intro x hx
    rcases r.kinds hx with h | ⟨d, hd, sd, rfl⟩ | ⟨d, hd, sd, rfl⟩
    · left; refine ⟨h, ?_⟩; rw [ψK x h]; exact i.mem x h
    · exact Or.inr (Or.inl ⟨d, hd, sd, rfl, ψin d hd sd⟩)
    · exact Or.inr (Or.inr ⟨d, hd, sd, rfl, ψout d hd sd⟩)
  have vk : ∀ x ∈ R.darts, (∃ e ∈ K.darts, R.vert x = K.vert e ∧ R'.vert (ψ x) = N.vert (φ e)) ∨
      (∃ d ∈ K.darts, S (K.face d) ∧ R.vert x = c (K.face d) ∧ R'.vert (ψ x) = c' (N.face (φ d))) := by
    intro x hx
    rcases r.kinds hx with h | ⟨d, hd, sd, rfl⟩ | ⟨d, hd, sd, rfl⟩
    · exact Or.inl ⟨x, h, r.vert x h, by rw [ψK x h]; exact r'.vert _ (i.mem x h)⟩
    · exact Or.inr ⟨d, hd, sd, r.vin d hd sd, by rw [ψin d hd sd]; exact r'.vin _ (i.mem d hd) (sφ d hd sd)⟩
    · exact Or.inl ⟨d, hd, r.vout d hd sd, by rw [ψout d hd sd]; exact r'.vout _ (i.mem d hd) (sφ d hd sd)⟩
  refine ⟨ψ, ψK, ?_, ?_, ?_, ?_, ?_, ?_, ?_⟩
  · intro x hx
    rcases r.kinds hx with h | ⟨d, hd, sd, rfl⟩ | ⟨d, hd, sd, rfl⟩
    · rw [ψK x h]; exact r'.sub _ (i.mem x h)
    · rw [ψin d hd sd]; exact r'.in_mem _ (i.mem d hd) (sφ d hd sd)
    · rw [ψout d hd sd]; exact r'.out_mem _ (i.mem d hd) (sφ d hd sd)
  · intro x hx y hy h
    rcases kind x hx with ⟨a, b⟩ | ⟨d, hd, sd, a, b⟩ | ⟨d, hd, sd, a, b⟩ <;>
      rcases kind y hy with ⟨a', b'⟩ | ⟨e, he, se, a', b'⟩ | ⟨e, he, se, a', b'⟩
    · rw [ψK x a, ψK y a'] at h; exact i.inj x a y a' h
    · rw [h, b'] at b; exact absurd b (r'.in_new _ (i.mem e he) (sφ e he se))
    · rw [h, b'] at b; exact absurd b (r'.out_new _ (i.mem e he) (sφ e he se))
    · rw [← h, b] at b'; exact absurd b' (r'.in_new _ (i.mem d hd) (sφ d hd sd))
    · rw [b, b'] at h
      rw [a, a', i.inj d hd e he (r'.in_inj hN (i.mem d hd) (sφ d hd sd) (i.mem e he) (sφ e he se) h)]
    · rw [b, b'] at h; exact absurd h (r'.in_ne_out (i.mem d hd) (sφ d hd sd) (i.mem e he) (sφ e he se))
    · rw [← h, b] at b'; exact absurd b' (r'.out_new _ (i.mem d hd) (sφ d hd sd))
    · rw [b, b'] at h; exact absurd h.symm (r'.in_ne_out (i.mem e he) (sφ e he se) (i.mem d hd) (sφ d hd sd))
    · rw [b, b'] at h
      rw [a, a', i.inj d hd e he (r'.out_inj hN (i.mem d hd) (sφ d hd sd) (i.mem e he) (sφ e he se) h)]
  · intro y hy
    rcases r'.kinds hy with h | ⟨d, hd, sd, rfl⟩ | ⟨d, hd, sd, rfl⟩
    · obtain ⟨e, he, rfl⟩ := i.surj y h
      exact ⟨e, r.sub e he, ψK e he⟩
    · obtain ⟨e, he, rfl⟩ := i.surj d hd
      have se := (hS e he).mp sd
      exact ⟨_, r.in_mem e he se, ψin e he se⟩
    · obtain ⟨e, he, rfl⟩ := i.surj d hd
      have se := (hS e he).mp sd
      exact ⟨_, r.out_mem e he se, ψout e he se⟩
  · intro x hx
    rcases r.kinds hx with h | ⟨d, hd, sd, rfl⟩ | ⟨d, hd, sd, rfl⟩
    · by_cases s : S (K.face x)
      · rw [ψin x h s, ψK x h]
      · rw [r.plain x h s, ψK _ (hK.next_mem x h), ψK x h, r'.plain _ (i.mem x h) (fun h' => s ((hS x h).mp h'))]
        exact i.next x h
    · obtain ⟨e, he, se, h1, h2⟩ := r.next_in hK hd sd
      rw [h2, ψout e he se, ψin d hd sd, ← h1, i.next e he, r'.close _ (i.mem e he) (sφ e he se)]
    · rw [r.out_next d hd sd, ψout d hd sd, ψK _ (hK.next_mem d hd), r'.out_next _ (i.mem d hd) (sφ d hd sd)]
      exact i.next d hd
  · intro x hx
    rcases r.kinds hx with h | ⟨d, hd, sd, rfl⟩ | ⟨d, hd, sd, rfl⟩
    · rw [r.opp x h, ψK _ (hK.opp_mem x h), ψK x h, r'.opp _ (i.mem x h)]; exact i.opp x h
    · rw [ψout d hd sd, ψin d hd sd]
    · rw [r.opp_opp d hd sd, ψout d hd sd, ψin d hd sd, r'.opp_opp _ (i.mem d hd) (sφ d hd sd)]
  · intro x hx y hy
    rcases vk x hx with ⟨d, hd, a, b⟩ | ⟨d, hd, sd, a, b⟩ <;>
      rcases vk y hy with ⟨e, he, a', b'⟩ | ⟨e, he, se, a', b'⟩ <;> rw [a, a', b, b']
    · exact i.vert d hd e he
    · constructor
      · intro h; exact absurd h (r.cnew e he se d hd)
      · intro h; exact absurd h (r'.cnew _ (i.mem e he) (sφ e he se) _ (i.mem d hd))
    · constructor
      · intro h; exact absurd h.symm (r.cnew d hd sd e he)
      · intro h; exact absurd h.symm (r'.cnew _ (i.mem d hd) (sφ d hd sd) _ (i.mem e he))
    · constructor
      · intro h
        rw [(i.face hK hN hd he).mp (r.cinj d hd sd e he se h)]
      · intro h
        rw [(i.face hK hN hd he).mpr (r'.cinj _ (i.mem d hd) (sφ d hd sd) _ (i.mem e he) (sφ e he se) h)]
  · intro x hx
    rcases vk x hx with ⟨d, hd, a, b⟩ | ⟨d, hd, sd, a, b⟩ <;> rw [a, b]
    · rw [r'.pos _ (i.mem d hd), r.pos d hd]; exact i.pos d hd
    · exact hp d hd sd

end Refine

/-- From `x`, go over the halfedges in `A` (they are erased) to the first that is not. -/
inductive Skip (next opp : Nat → Nat) (A : Nat → Prop) : Nat → Nat → Prop
  | stop (x : Nat) : ¬ A x → Skip next opp A x x
  | step (x y : Nat) : A x → Skip next opp A (next (opp x)) y → Skip next opp A x y

theorem Skip.det {next opp : Nat → Nat} {A : Nat → Prop} {x y z : Nat} (h : Skip next opp A x y)
    (h' : Skip next opp A x z) : y = z := by
  induction h with
  | stop x hx =>
    cases h' with
    | stop => rfl
    | step _ _ a _ => exact absurd a hx
  | step x y a _ ih =>
    cases h' with
    | stop _ hx => exact absurd a hx
    | step _ _ _ h => exact ih h

theorem Skip.last {next opp : Nat → Nat} {A : Nat → Prop} {x y : Nat} (h : Skip next opp A x y) : ¬ A y := by
  induction h with
  | stop x hx => exact hx
  | step x y a _ ih => exact ih

/-- `M` is `R` without the edges in `A`. -/
structure Skipped (M R : Mesh P) (A : Nat → Prop) : Prop where
  mem : ∀ d, d ∈ M.darts ↔ d ∈ R.darts ∧ ¬ A d
  opp : ∀ d ∈ M.darts, R.opp d = M.opp d
  vert : ∀ d ∈ M.darts, R.vert d = M.vert d
  pos : ∀ d ∈ M.darts, R.pos (M.vert d) = M.pos (M.vert d)
  next : ∀ d ∈ M.darts, Skip R.next R.opp A (R.next d) (M.next d)

theorem Skip.map {ψ : Nat → Nat} {R R' : Mesh P} (i : Iso ψ R R') (hn : ∀ x ∈ R.darts, R.next x ∈ R.darts)
    (ho : ∀ x ∈ R.darts, R.opp x ∈ R.darts) {A A' : Nat → Prop} (hA : ∀ x ∈ R.darts, A' (ψ x) ↔ A x) {x y : Nat}
    (hx : x ∈ R.darts) (h : Skip R.next R.opp A x y) : Skip R'.next R'.opp A' (ψ x) (ψ y) := by
  induction h with
  | stop x h1 => exact .stop _ (fun h => h1 ((hA x hx).mp h))
  | step x y a _ ih =>
    refine .step _ _ ((hA x hx).mpr a) ?_
    have := ih (hn _ (ho x hx))
    rwa [i.next _ (ho x hx), i.opp x hx] at this

/-- Erasing the same edges from isomorphic meshes. -/
theorem Skipped.iso {M R N' R' : Mesh P} {A A' : Nat → Prop} (s : Skipped M R A) (s' : Skipped N' R' A') {ψ : Nat → Nat}
    (i : Iso ψ R R') (hn : ∀ x ∈ R.darts, R.next x ∈ R.darts) (ho : ∀ x ∈ R.darts, R.opp x ∈ R.darts)
    (hA : ∀ x ∈ R.darts, A' (ψ x) ↔ A x) : Iso ψ M N' := by
  have sub : ∀ d ∈ M.darts, d ∈ R.darts := fun d hd => ((s.mem d).mp hd).1
  have mem : ∀ d ∈ M.darts, ψ d ∈ N'.darts := by
    intro d hd
    obtain ⟨h1, h2⟩ := (s.mem d).mp hd
    exact (s'.mem _).mpr ⟨i.mem d h1, fun h => h2 ((hA d h1).mp h)⟩
  refine ⟨mem, fun d hd e he => i.inj d (sub d hd) e (sub e he), ?_, ?_, ?_, ?_, ?_⟩
  · intro x hx
    obtain ⟨h1, h2⟩ := (s'.mem x).mp hx
    obtain ⟨d, hd, rfl⟩ := i.surj x h1
    exact ⟨d, (s.mem d).mpr ⟨hd, fun h => h2 ((hA d hd).mpr h)⟩, rfl⟩
  · intro d hd
    have h1 := Skip.map i hn ho hA (hn d (sub d hd)) (s.next d hd)
    rw [i.next d (sub d hd)] at h1
    exact h1.det (s'.next _ (mem d hd))
  · intro d hd
    rw [← s.opp d hd, i.opp d (sub d hd), s'.opp _ (mem d hd)]
  · intro d hd e he
    rw [← s.vert d hd, ← s.vert e he, ← s'.vert _ (mem d hd), ← s'.vert _ (mem e he)]
    exact i.vert d (sub d hd) e (sub e he)
  · intro d hd
    rw [← s'.pos _ (mem d hd), ← s'.vert _ (mem d hd), i.pos d (sub d hd), s.vert d hd, s.pos d hd]

end TDP.Codec
