import Verif.Codec.Level
/-! Every edge of the decimated mesh separates two facets, if that is so in the original one. -/
namespace TDP.Codec
open TDP.Traversal Function

variable {P : Type}

/-- Every edge separates two different facets. -/
def Mesh.Sep (m : Mesh P) : Prop := ∀ d ∈ m.darts, m.face (m.opp d) ≠ m.face d

theorem Skip.inv {next opp : Nat → Nat} {A : Nat → Prop} {x y : Nat} (h : Skip next opp A x y) (ha : A x) :
    Skip next opp A (next (opp x)) y := by
  cases h with
  | stop _ h => exact absurd ha h
  | step _ _ _ h => exact h

theorem Level.sep {M R K : Mesh P} {S : Nat → Prop} {c : Nat → Nat} {A : Nat → Prop} (L : Level M R K S c A)
    (hM : M.WF) (hK : K.WF) (hs : M.Sep)
    (hA : ∀ d ∈ K.darts, A d → A (K.opp d) ∧ (S (K.face d) ∨ S (K.face (K.opp d)))) : K.Sep := by
  have r := L.ref
  have sk := L.skip
  have nA : ∀ x ∈ R.darts, x ∉ K.darts → ¬ A x := fun x hx hk ha => hk (L.addK x hx ha)
  have inM : ∀ x ∈ R.darts, x ∉ K.darts → x ∈ M.darts := fun x hx hk => (sk.mem x).mpr ⟨hx, nA x hx hk⟩
  -- spokes to the same vertex are the same
  have spoke : ∀ a ∈ K.darts, ∀ b ∈ K.darts, S (K.face a) → K.face a = K.face b → K.vert a = K.vert b → a = b := by
    intro a ha b hb sa hf hv
    have sb : S (K.face b) := hf ▸ sa
    have ma := inM _ (r.out_mem a ha sa) (r.out_new a ha sa)
    have mb := inM _ (r.out_mem b hb sb) (r.out_new b hb sb)
    have ia := inM _ (r.in_mem a ha sa) (r.in_new a ha sa)
    have ib := inM _ (r.in_mem b hb sb) (r.in_new b hb sb)
    have src : ∀ x ∈ K.darts, S (K.face x) → R.opp (R.next x) ∈ M.darts → R.next x ∈ M.darts →
        M.src (R.opp (R.next x)) = c (K.face x) ∧ M.vert (R.opp (R.next x)) = K.vert x := by
      intro x hx sx m1 m2
      constructor
      · unfold Mesh.src
        rw [← sk.opp _ m1, r.opp_opp x hx sx, ← sk.vert _ m2, r.vin x hx sx]
      · rw [← sk.vert _ m1, r.vout x hx sx]
    have := hM.simple _ ma _ mb (by rw [(src a ha sa ma ia).1, (src b hb sb mb ib).1, hf])
      (by rw [(src a ha sa ma ia).2, (src b hb sb mb ib).2, hv])
    exact r.out_inj hK.h ha sa hb sb this
  intro d hd hf
  have ho := hK.opp_mem hd
  by_cases s : S (K.face d)
  · have one : ∀ x ∈ K.darts, S (K.face x) → K.face (K.opp x) = K.face x → K.next (K.opp x) = x := by
      intro x hx sx hfx
      obtain ⟨p, hp, e1, e2⟩ := hK.exists_prev hx
      have hxo := hK.opp_mem hx
      have hv : K.vert p = K.vert (K.opp x) := by
        rw [← hK.src_next p hp, e1]
      have := spoke p hp _ hxo (by rw [e2]; exact sx) (by rw [e2, hfx]) hv
      rw [← this]; exact e1
    have h1 := one d hd s hf
    have h2 := one _ ho (by rw [hf]; exact s) (by rw [hK.opp_opp hd, hf])
    rw [hK.opp_opp hd] at h2
    exact hK.deg3 d hd (by rw [h2, h1])
  · have so : ¬ S (K.face (K.opp d)) := by rw [hf]; exact s
    have nad : ¬ A d := fun h => by
      rcases (hA d hd h).2 with h1 | h1
      · exact s h1
      · exact so h1
    have nao : ¬ A (K.opp d) := fun h => by
      rcases (hA _ ho h).2 with h1 | h1
      · exact so h1
      · rw [hK.opp_opp hd] at h1; exact s h1
    have mem : ∀ x ∈ K.darts, ¬ A x → x ∈ M.darts := fun x hx h => (sk.mem x).mpr ⟨r.sub x hx, h⟩
    have fi : ∀ x ∈ M.darts, M.face (M.next x) = M.face x := fun x hx => hM.face_next hx
    -- along the facet
    have walk : ∀ j, ∃ w ∈ M.darts, M.face w = M.face d ∧ Skip R.next R.opp A (K.next^[j + 1] d) (M.next w) := by
      intro j
      induction j with
      | zero =>
        refine ⟨d, mem d hd nad, rfl, ?_⟩
        have := sk.next d (mem d hd nad)
        rwa [r.plain d hd s] at this
      | succ j ih =>
        obtain ⟨w, hw, hwf, hsk⟩ := ih
        generalize ha : K.next^[j + 1] d = a at hsk
        have ham : a ∈ K.darts := by rw [← ha]; exact iterate_mem hK.h.next_mem hd _
        have haf : K.face d = K.face a := (hK.h.face_iff d hd a ham).mpr ⟨j + 1, ha⟩
        have sa : ¬ S (K.face a) := by rw [← haf]; exact s
        rw [iterate_succ_apply', ha]
        have hnw := hM.next_mem hw
        by_cases hAa : A a
        · obtain ⟨hAo, hS⟩ := hA a ham hAa
          have so : S (K.face (K.opp a)) := hS.resolve_left sa
          have hao := hK.opp_mem ham
          obtain ⟨e, he, se, e1, e2⟩ := r.next_in hK.h hao so
          -- in
          have n1 : M.next w = R.next (K.opp a) := by
            refine hsk.det (.step _ _ hAa ?_)
            rw [r.opp a ham]
            exact .stop _ (nA _ (r.in_mem _ hao so) (r.in_new _ hao so))
          have m1 := inM _ (r.in_mem _ hao so) (r.in_new _ hao so)
          have n2 : M.next (R.next (K.opp a)) = R.opp (R.next e) := by
            refine (sk.next _ m1).det ?_
            rw [e2]
            exact .stop _ (nA _ (r.out_mem e he se) (r.out_new e he se))
          have m2 := inM _ (r.out_mem e he se) (r.out_new e he se)
          refine ⟨_, m2, ?_, ?_⟩
          · rw [← n2, fi _ m1, ← n1, fi _ hw, hwf]
          · have := sk.next _ m2
            rw [r.out_next e he se, e1] at this
            have h := this.inv hAo
            rwa [r.opp _ hao, hK.opp_opp ham, r.plain a ham sa] at h
        · have n1 : M.next w = a := hsk.det (.stop _ hAa)
          have hm := mem a ham hAa
          refine ⟨a, hm, ?_, ?_⟩
          · rw [← n1, fi _ hw, hwf]
          · have := sk.next a hm
            rwa [r.plain a ham sa] at this
    obtain ⟨i, hi⟩ := (hK.h.face_iff d hd _ ho).mp hf.symm
    cases i with
    | zero => exact hK.opp_ne hd hi.symm
    | succ j =>
      obtain ⟨w, hw, hwf, hsk⟩ := walk j
      have hi' : K.next^[j + 1] d = K.opp d := hi
      rw [hi'] at hsk
      have n1 : M.next w = K.opp d := hsk.det (.stop _ nao)
      refine hs d (mem d hd nad) ?_
      rw [← sk.opp d (mem d hd nad), r.opp d hd, ← n1, fi _ hw, hwf]

end TDP.Codec
