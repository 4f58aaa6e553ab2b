import Verif.Codec.Props
/-! Bounds on the decoder's loops: a result does not change when the bound grows. -/
namespace TDP.Codec
open TDP.Traversal TDP.Blocks TDP.BaseMesh TDP.RangeCoder TDP.QsModel TDP.Stream

variable {P V : Type}

theorem readFacesLoop_mono {R S : Type} {m : HMesh Nat Nat} {read : R → Option (Option S × R)} (n : Nat) :
    ∀ {n' : Nat}, n ≤ n' → ∀ {q : List Nat} {flag : Nat → Flag} {res : Nat → Option S} {st : R} {x},
    readFacesLoop m read n q flag res st = some x → readFacesLoop m read n' q flag res st = some x := by
  induction n with
  | zero => intro n' _ q flag res st x h; simp [readFacesLoop] at h
  | succ n ih =>
    intro n' hn q flag res st x h
    obtain ⟨n', rfl⟩ : ∃ k, n' = k + 1 := ⟨n' - 1, by omega⟩
    cases q with
    | nil => simpa [readFacesLoop] using h
    | cons d q =>
      rw [readFacesLoop] at h ⊢
      split at h
      · rename_i hc
        rw [if_pos hc]
        exact ih (by omega) h
      · rename_i hc
        rw [if_neg hc]
        simp only [Option.bind_eq_bind, Option.bind_eq_some_iff] at h ⊢
        obtain ⟨a, ha, r, hr, he⟩ := h
        exact ⟨a, ha, r, ih (by omega) hr, he⟩

theorem readEdgesLoop_mono {R : Type} {m : HMesh Nat Nat} {read : R → Option (Bool × R)} {flag : Nat → Flag} {isNew : Nat → Bool} (n : Nat) :
    ∀ {n' : Nat}, n ≤ n' → ∀ {q : List Nat} {proc marked : Nat → Bool} {st : R} {x},
    readEdgesLoop m read flag isNew n q proc marked st = some x → readEdgesLoop m read flag isNew n' q proc marked st = some x := by
  induction n with
  | zero => intro n' _ q proc marked st x h; simp [readEdgesLoop] at h
  | succ n ih =>
    intro n' hn q proc marked st x h
    obtain ⟨n', rfl⟩ : ∃ k, n' = k + 1 := ⟨n' - 1, by omega⟩
    cases q with
    | nil => simpa [readEdgesLoop] using h
    | cons d q =>
      rw [readEdgesLoop] at h ⊢
      split at h
      · rename_i hc
        rw [if_pos hc]
        exact ih (by omega) h
      · rename_i hc
        rw [if_neg hc]
        simp only at h ⊢
        split at h
        · rename_i hd
          rw [if_pos hd]
          simp only [Option.bind_eq_bind, Option.bind_eq_some_iff] at h ⊢
          obtain ⟨a, ha, r, hr, he⟩ := h
          exact ⟨a, ha, r, ih (by omega) hr, he⟩
        · rename_i hd
          rw [if_neg hd]
          simp only [Option.bind_eq_bind, Option.bind_eq_some_iff] at h ⊢
          obtain ⟨r, hr, he⟩ := h
          exact ⟨r, ih (by omega) hr, he⟩

theorem insertLoop_mono {geo : Geo P V} {flag : Nat → Flag} {res : Nat → Option V} (n : Nat) :
    ∀ {n' : Nat}, n ≤ n' → ∀ {m : Mesh P} {proc : Nat → Bool} {q : List Nat} {x},
    insertLoop geo flag res n m proc q = some x → insertLoop geo flag res n' m proc q = some x := by
  induction n with
  | zero => intro n' _ m proc q x h; simp [insertLoop] at h
  | succ n ih =>
    intro n' hn m proc q x h
    obtain ⟨n', rfl⟩ : ∃ k, n' = k + 1 := ⟨n' - 1, by omega⟩
    cases q with
    | nil => simpa [insertLoop] using h
    | cons d q =>
      rw [insertLoop] at h ⊢
      split at h
      · rename_i hc
        rw [if_pos hc]
        exact ih (by omega) h
      · rename_i hc
        rw [if_neg hc]
        simp only at h ⊢
        split at h
        · rename_i hd
          rw [if_pos hd]
          cases hr : res (m.face d) with
          | none => rw [hr] at h; simp at h
          | some r =>
            rw [hr] at h
            exact ih (by omega) h
        · rename_i hd
          rw [if_neg hd]
          exact ih (by omega) h

theorem refine_mono {geo : Geo P Vec} {env : Env P} {n n' v0 v1 : Nat} (hn : n ≤ n') {m : Mesh P} {data : List Nat} {x}
    (h : refine geo env n v0 v1 m data = some x) : refine geo env n' v0 v1 m data = some x := by
  unfold refine at h ⊢
  simp only [Option.bind_eq_bind, Option.bind_eq_some_iff] at h ⊢
  obtain ⟨d, hd, h0, hh0, a, ha, b, hb, mg, hmg, mc, hmc, f, hf, d2, hd2, mc2, hmc2, d3, hd3, e, he, d4, hd4, m', hm', hx⟩ := h
  exact ⟨d, hd, h0, hh0, a, ha, b, hb, mg, hmg, mc, hmc, f, readFacesLoop_mono n hn hf, d2, hd2, mc2, hmc2, d3, hd3, e,
    readEdgesLoop_mono n hn he, d4, hd4, m', insertLoop_mono n hn hm', hx⟩

theorem completeObj_mono {F : Fp} {grid : Header → Grid P} {env : Env P} {n n' : Nat} (hn : n ≤ n') (o : Obj P) {x}
    (h : completeObj F grid env n o = some x) : completeObj F grid env n' o = some x := by
  unfold completeObj at h ⊢
  split at h
  · rename_i hc; rw [if_pos hc]; exact h
  · rename_i hc
    rw [if_neg hc]
    split at h
    · rename_i hd
      rw [if_pos hd]
      cases hr : refine (grid o.hd).geo env n 0 1 o.m o.rest with
      | none => rw [hr] at h; simp at h
      | some y =>
        rw [hr] at h
        rw [refine_mono hn hr]
        exact completeObj_mono hn ⟨y.1, o.hd, o.nbDec, y.2, ⟨o.lod.curOp + 1, o.lod.pct⟩⟩ h
    · exact absurd h (by simp)
termination_by o.nbDec - o.lod.curOp

theorem advanceObj_mono {F : Fp} {grid : Header → Grid P} {env : Env P} {n n' : Nat} (hn : n ≤ n') {lod : Int} {o : Obj P} {x}
    (h : advanceObj F grid env n lod o = some x) : advanceObj F grid env n' lod o = some x := by
  unfold advanceObj at h ⊢
  split at h
  · rename_i hc; rw [if_pos hc]; exact h
  · rename_i hc; rw [if_neg hc]; exact completeObj_mono hn _ h

theorem runObj_mono {F : Fp} {grid : Header → Grid P} {env : Env P} {n n' : Nat} (hn : n ≤ n') (ps : List Int) {o : Obj P} {x}
    (h : runObj F grid env n ps o = some x) : runObj F grid env n' ps o = some x := by
  induction ps generalizing o with
  | nil => exact h
  | cons p ps ih =>
    simp only [runObj, Option.bind_eq_bind, Option.bind_eq_some_iff] at h ⊢
    obtain ⟨a, ha, hb⟩ := h
    exact ⟨a, advanceObj_mono hn ha, ih hb⟩

theorem compressLevels_mono {geo : Geo P V} {convex : Mesh P → Nat → Bool} {init : Mesh P → Nat} {hit : Mesh P → Nat → Nat} {v0 v1 n n' : Nat}
    (hn : n ≤ n') (k : Nat) : ∀ {k' : Nat}, k ≤ k' → ∀ {m : Mesh P} {x}, compressLevels geo convex init hit v0 v1 n k m = some x →
    compressLevels geo convex init hit v0 v1 n' k' m = some x := by
  induction k with
  | zero => intro k' _ m x h; simp [compressLevels] at h
  | succ k ih =>
    intro k' hk m x h
    obtain ⟨k', rfl⟩ : ∃ j, k' = j + 1 := ⟨k' - 1, by omega⟩
    rw [compressLevels] at h ⊢
    simp only [Option.bind_eq_bind, Option.bind_eq_some_iff] at h ⊢
    obtain ⟨s, hs, h⟩ := h
    refine ⟨s, conquest_mono hn hs, ?_⟩
    split at h
    · rename_i hc; rw [if_pos hc]; exact h
    · rename_i hc
      rw [if_neg hc]
      simp only [Option.bind_eq_some_iff] at h ⊢
      obtain ⟨l, hl, r, hr, he⟩ := h
      exact ⟨l, codeLevel_mono hn hl, r, ih (by omega) hr, he⟩

end TDP.Codec
