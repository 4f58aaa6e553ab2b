import Verif.Codec.Refine
import Verif.Codec.Erase
/-! How one level of the conquest relates the mesh it started from to the current mesh. -/
namespace TDP.Codec
open TDP.Traversal Function

variable {P : Type}

/-- `R` is the current mesh `K` with all removed vertices put back, and is the original mesh `M` with the added
edges. -/
structure Level (M R K : Mesh P) (S : Nat → Prop) (c : Nat → Nat) (A : Nat → Prop) : Prop where
  ref : Refine R K S c
  skip : Skipped M R A
  fresh : ∀ d ∈ R.darts, d < K.nd
  addK : ∀ d ∈ R.darts, A d → d ∈ K.darts

/-- The same cut in the refined mesh. -/
def cutR (R K : Mesh P) (h g : Nat) : Mesh P := splitFacet { R with nd := K.nd } h g

section
variable {M R K : Mesh P} {S S' : Nat → Prop} {c : Nat → Nat} {A : Nat → Prop} {h g : Nat}

theorem Level.split (L : Level M R K S c A) (cn : Corner K h g) (hns : ¬ S (K.face h))
    (hS : ∀ d ∈ K.darts, S' ((splitFacet K h g).face d) ↔ S (K.face d))
    (hS1 : ¬ S' (K.face h)) (hS2 : ¬ S' K.nf) :
    Level M (cutR R K h g) (splitFacet K h g) S' c (fun d => A d ∨ d = K.nd ∨ d = K.nd + 1) := by
  have r := L.ref
  have rnd : K.nd ∉ R.darts := fun hd => absurd (L.fresh _ hd) (by omega)
  have rnd' : K.nd + 1 ∉ R.darts := fun hd => absurd (L.fresh _ hd) (by omega)
  have hg' : ¬ S (K.face g) := by rw [cn.face_g]; exact hns
  have nh : (cutR R K h g).next h = K.nd := by simp [cutR, splitFacet]
  have ng : (cutR R K h g).next g = K.nd + 1 := by
    simp only [cutR, splitFacet, if_neg cn.h_ne_g.symm, if_true]
  have nnd : (cutR R K h g).next K.nd = K.next g := by
    simp only [cutR, splitFacet, if_neg cn.h_ne_nd.symm, if_neg cn.g_ne_nd.symm, if_true]
    exact r.plain g cn.hg hg'
  have nnd' : (cutR R K h g).next (K.nd + 1) = K.next h := by
    have h1 : K.nd + 1 ≠ K.nd := by omega
    simp only [cutR, splitFacet, if_neg cn.h_ne_nd'.symm, if_neg cn.g_ne_nd'.symm, if_neg h1, if_true]
    exact r.plain h cn.hh hns
  have nold : ∀ d ∈ R.darts, d ≠ h → d ≠ g → (cutR R K h g).next d = R.next d := by
    intro d hd h1 h2
    have h3 : d ≠ K.nd := fun e => rnd (e ▸ hd)
    have h4 : d ≠ K.nd + 1 := fun e => rnd' (e ▸ hd)
    simp only [cutR, splitFacet, if_neg h1, if_neg h2, if_neg h3, if_neg h4]
  have ond : (cutR R K h g).opp K.nd = K.nd + 1 := by simp [cutR, splitFacet]
  have ond' : (cutR R K h g).opp (K.nd + 1) = K.nd := by simp [cutR, splitFacet]
  have oold : ∀ d ∈ R.darts, (cutR R K h g).opp d = R.opp d := by
    intro d hd
    have h3 : d ≠ K.nd := fun e => rnd (e ▸ hd)
    have h4 : d ≠ K.nd + 1 := fun e => rnd' (e ▸ hd)
    simp only [cutR, splitFacet, if_neg h3, if_neg h4]
  have vnd : (cutR R K h g).vert K.nd = K.vert g := by
    rw [← r.vert g cn.hg]; simp [cutR, splitFacet]
  have vnd' : (cutR R K h g).vert (K.nd + 1) = K.vert h := by
    rw [← r.vert h cn.hh]; simp [cutR, splitFacet]
  have vold : ∀ d ∈ R.darts, (cutR R K h g).vert d = R.vert d := by
    intro d hd
    have h3 : d ≠ K.nd := fun e => rnd (e ▸ hd)
    have h4 : d ≠ K.nd + 1 := fun e => rnd' (e ▸ hd)
    simp only [cutR, splitFacet, if_neg h3, if_neg h4]
  have rmem : ∀ d, d ∈ (cutR R K h g).darts ↔ d = K.nd ∨ d = K.nd + 1 ∨ d ∈ R.darts := by
    intro d; simp [cutR, splitFacet]
  have ro : ∀ d ∈ R.darts, d ∈ (cutR R K h g).darts := fun d hd => (rmem d).mpr (Or.inr (Or.inr hd))
  have hpos : (cutR R K h g).pos = R.pos := rfl
  -- splittable halfedges of the new mesh
  have sp : ∀ d ∈ (splitFacet K h g).darts, S' ((splitFacet K h g).face d) →
      d ∈ K.darts ∧ S (K.face d) ∧ (splitFacet K h g).face d = K.face d ∧ d ≠ h ∧ d ≠ g := by
    intro d hd hs
    rcases (cn.mem_iff d).mp hd with e | e | hk
    · rw [e, cn.face_nd] at hs; exact absurd hs hS1
    · rw [e, cn.face_nd'] at hs; exact absurd hs hS2
    · have s1 := (hS d hk).mp hs
      have hne : K.face d ≠ K.face h := fun e => hns (e ▸ s1)
      exact ⟨hk, s1, cn.face_other hk hne, fun e => hne (by rw [e]), fun e => hne (by rw [e, cn.face_g])⟩
  have knew : ∀ x ∈ R.darts, x ∉ K.darts → x ∉ (splitFacet K h g).darts := by
    intro x hx hk
    rw [cn.mem_iff]
    rintro (e | e | e)
    · exact rnd (e ▸ hx)
    · exact rnd' (e ▸ hx)
    · exact hk e
  -- next of a splittable halfedge
  have spn : ∀ d ∈ K.darts, S (K.face d) → d ≠ h → d ≠ g → (cutR R K h g).next d = R.next d :=
    fun d hd _ h1 h2 => nold d (r.sub d hd) h1 h2
  have neK : ∀ x, x ∉ K.darts → x ≠ h ∧ x ≠ g := fun x hx => ⟨fun e => hx (e ▸ cn.hh), fun e => hx (e ▸ cn.hg)⟩
  have knext : ∀ d ∈ K.darts, d ≠ h → d ≠ g → (splitFacet K h g).next d = K.next d := fun d hd h1 h2 => cn.next_old hd h1 h2
  have ref : Refine (cutR R K h g) (splitFacet K h g) S' c := by
    refine ⟨?_, ?_, ?_, ?_, ?_, ?_, ?_, ?_, ?_, ?_, ?_, ?_, ?_, ?_, ?_, ?_, ?_⟩
    · intro d hd
      rcases (cn.mem_iff d).mp hd with e | e | hk
      · exact (rmem d).mpr (Or.inl e)
      · exact (rmem d).mpr (Or.inr (Or.inl e))
      · exact ro d (r.sub d hk)
    · intro d hd
      rcases (cn.mem_iff d).mp hd with e | e | hk
      · rw [e, ond, cn.opp_nd]
      · rw [e, ond', cn.opp_nd']
      · rw [oold d (r.sub d hk), cn.opp_old hk, r.opp d hk]
    · intro d hd
      rcases (cn.mem_iff d).mp hd with e | e | hk
      · rw [e, vnd, cn.vert_nd]
      · rw [e, vnd', cn.vert_nd']
      · rw [vold d (r.sub d hk), cn.vert_old hk, r.vert d hk]
    · intro d hd
      change R.pos _ = K.pos _
      rcases (cn.mem_iff d).mp hd with e | e | hk
      · rw [e, cn.vert_nd]; exact r.pos g cn.hg
      · rw [e, cn.vert_nd']; exact r.pos h cn.hh
      · rw [cn.vert_old hk]; exact r.pos d hk
    · intro d hd hs
      rcases (cn.mem_iff d).mp hd with e | e | hk
      · rw [e, nnd, cn.next_nd]
      · rw [e, nnd', cn.next_nd']
      · by_cases h1 : d = h
        · rw [h1, nh, cn.next_h]
        · by_cases h2 : d = g
          · rw [h2, ng, cn.next_g]
          · rw [nold d (r.sub d hk) h1 h2, cn.next_old hk h1 h2]
            exact r.plain d hk (fun s => hs ((hS d hk).mpr s))
    · intro d hd hs
      obtain ⟨hk, s, _, h1, h2⟩ := sp d hd hs
      rw [spn d hk s h1 h2]; exact ro _ (r.in_mem d hk s)
    · intro d hd hs
      obtain ⟨hk, s, _, h1, h2⟩ := sp d hd hs
      rw [spn d hk s h1 h2]; exact knew _ (r.in_mem d hk s) (r.in_new d hk s)
    · intro d hd hs
      obtain ⟨hk, s, _, h1, h2⟩ := sp d hd hs
      rw [spn d hk s h1 h2, oold _ (r.in_mem d hk s)]; exact ro _ (r.out_mem d hk s)
    · intro d hd hs
      obtain ⟨hk, s, _, h1, h2⟩ := sp d hd hs
      rw [spn d hk s h1 h2, oold _ (r.in_mem d hk s)]; exact knew _ (r.out_mem d hk s) (r.out_new d hk s)
    · intro d hd hs
      obtain ⟨hk, s, _, h1, h2⟩ := sp d hd hs
      rw [spn d hk s h1 h2, oold _ (r.in_mem d hk s), oold _ (r.out_mem d hk s)]; exact r.opp_opp d hk s
    · intro d hd hs
      obtain ⟨hk, s, _, h1, h2⟩ := sp d hd hs
      obtain ⟨e1, e2⟩ := neK _ (r.out_new d hk s)
      rw [spn d hk s h1 h2, oold _ (r.in_mem d hk s), nold _ (r.out_mem d hk s) e1 e2, knext d hk h1 h2]
      exact r.out_next d hk s
    · intro d hd hs
      obtain ⟨hk, s, _, h1, h2⟩ := sp d hd hs
      have hk2 := cn.wf.next_mem hk
      have s2 : S (K.face (K.next d)) := by rw [cn.wf.face_next hk]; exact s
      have hne : K.face (K.next d) ≠ K.face h := fun e => hns (e ▸ s2)
      have h1' : K.next d ≠ h := fun e => hne (by rw [e])
      have h2' : K.next d ≠ g := fun e => hne (by rw [e, cn.face_g])
      obtain ⟨e1, e2⟩ := neK _ (r.in_new _ hk2 s2)
      rw [spn d hk s h1 h2, oold _ (r.in_mem d hk s), knext d hk h1 h2, spn _ hk2 s2 h1' h2',
        nold _ (r.in_mem _ hk2 s2) e1 e2]
      exact r.close d hk s
    · intro d hd hs
      obtain ⟨hk, s, _, h1, h2⟩ := sp d hd hs
      rw [spn d hk s h1 h2, oold _ (r.in_mem d hk s), vold _ (r.out_mem d hk s), cn.vert_old hk]
      exact r.vout d hk s
    · intro d hd hs
      obtain ⟨hk, s, hf, h1, h2⟩ := sp d hd hs
      rw [spn d hk s h1 h2, vold _ (r.in_mem d hk s), hf]
      exact r.vin d hk s
    · intro d hd hs e he he2 hc
      obtain ⟨hk, s, hf, h1, h2⟩ := sp d hd hs
      obtain ⟨hk', s', hf', h1', h2'⟩ := sp e he he2
      rw [hf, hf'] at hc ⊢
      exact r.cinj d hk s e hk' s' hc
    · intro d hd hs e he
      obtain ⟨hk, s, hf, h1, h2⟩ := sp d hd hs
      rw [hf]
      rcases (cn.mem_iff e).mp he with e1 | e1 | hk'
      · rw [e1, cn.vert_nd]; exact r.cnew d hk s g cn.hg
      · rw [e1, cn.vert_nd']; exact r.cnew d hk s h cn.hh
      · rw [cn.vert_old hk']; exact r.cnew d hk s e hk'
    · intro x hx hxk
      rcases (rmem x).mp hx with e | e | hr
      · exact absurd ((cn.mem_iff x).mpr (Or.inl e)) hxk
      · exact absurd ((cn.mem_iff x).mpr (Or.inr (Or.inl e))) hxk
      · have hxk' : x ∉ K.darts := fun h => hxk ((cn.mem_iff x).mpr (Or.inr (Or.inr h)))
        obtain ⟨d, hd, s, hx2⟩ := r.cover x hr hxk'
        have hne : K.face d ≠ K.face h := fun e => hns (e ▸ s)
        have h1 : d ≠ h := fun e => hne (by rw [e])
        have h2 : d ≠ g := fun e => hne (by rw [e, cn.face_g])
        refine ⟨d, (cn.mem_iff d).mpr (Or.inr (Or.inr hd)), (hS d hd).mpr s, ?_⟩
        rw [spn d hd s h1 h2, oold _ (r.in_mem d hd s)]
        exact hx2
  refine ⟨ref, ?_, ?_, ?_⟩
  · have sk := L.skip
    have msub : ∀ d ∈ M.darts, d ∈ R.darts := fun d hd => ((sk.mem d).mp hd).1
    have rn := r.next_mem cn.wf.h
    have rop := r.opp_mem cn.wf.h
    -- from the old next to the new
    have mv : ∀ d ∈ R.darts, ∀ y, Skip (cutR R K h g).next (cutR R K h g).opp (fun d => A d ∨ d = K.nd ∨ d = K.nd + 1) (R.next d) y →
        Skip (cutR R K h g).next (cutR R K h g).opp (fun d => A d ∨ d = K.nd ∨ d = K.nd + 1) ((cutR R K h g).next d) y := by
      intro d hd y hy
      by_cases h1 : d = h
      · rw [h1, nh]
        refine .step _ _ (Or.inr (Or.inl rfl)) ?_
        rw [h1] at hy; rw [ond, nnd', ← r.plain h cn.hh hns]; exact hy
      · by_cases h2 : d = g
        · rw [h2, ng]
          refine .step _ _ (Or.inr (Or.inr rfl)) ?_
          rw [h2] at hy; rw [ond', nnd, ← r.plain g cn.hg hg']; exact hy
        · rw [nold d hd h1 h2]; exact hy
    have tr : ∀ x y, Skip R.next R.opp A x y → x ∈ R.darts →
        Skip (cutR R K h g).next (cutR R K h g).opp (fun d => A d ∨ d = K.nd ∨ d = K.nd + 1) x y := by
      intro x y hxy
      induction hxy with
      | stop x hx =>
        intro hr
        refine .stop _ ?_
        rintro (h1 | h1 | h1)
        · exact hx h1
        · exact rnd (h1 ▸ hr)
        · exact rnd' (h1 ▸ hr)
      | step x y a _ ih =>
        intro hr
        refine .step _ _ (Or.inl a) ?_
        rw [oold x hr]
        exact mv _ (rop x hr) _ (ih (rn _ (rop x hr)))
    refine ⟨?_, ?_, ?_, ?_, ?_⟩
    · intro d
      rw [sk.mem d, rmem d]
      constructor
      · rintro ⟨h1, h2⟩
        refine ⟨Or.inr (Or.inr h1), ?_⟩
        rintro (h3 | h3 | h3)
        · exact h2 h3
        · exact rnd (h3 ▸ h1)
        · exact rnd' (h3 ▸ h1)
      · rintro ⟨h1 | h1 | h1, h2⟩
        · exact absurd (Or.inr (Or.inl h1)) h2
        · exact absurd (Or.inr (Or.inr h1)) h2
        · exact ⟨h1, fun h3 => h2 (Or.inl h3)⟩
    · intro d hd; rw [oold d (msub d hd)]; exact sk.opp d hd
    · intro d hd; rw [vold d (msub d hd)]; exact sk.vert d hd
    · intro d hd; exact sk.pos d hd
    · intro d hd
      exact mv d (msub d hd) _ (tr _ _ (sk.next d hd) (rn d (msub d hd)))
  · intro d hd
    change d < K.nd + 2
    rcases (rmem d).mp hd with e | e | hr
    · omega
    · omega
    · have := L.fresh d hr; omega
  · intro d hd ha
    rw [cn.mem_iff]
    rcases ha with ha | ha | ha
    · rcases (rmem d).mp hd with e | e | hr
      · exact Or.inl e
      · exact Or.inr (Or.inl e)
      · exact Or.inr (Or.inr (L.addK d hr ha))
    · exact Or.inl ha
    · exact Or.inr (Or.inl ha)

/-- Removing a center vertex. -/
theorem Level.erase {c' : Nat → Nat} (L : Level M R K S c A) (st : Star K h)
    (hns : ∀ d ∈ K.darts, K.vert d = K.vert h → ¬ S (K.face d))
    (hadd : ∀ d ∈ K.darts, A d → K.vert d ≠ K.vert h ∧ K.src d ≠ K.vert h)
    (hS1 : S' (K.face h)) (hS : ∀ d ∈ K.darts, K.face d ≠ K.face h → (S' (K.face d) ↔ S (K.face d)))
    (hc1 : c' (K.face h) = K.vert h) (hc : ∀ f, f ≠ K.face h → c' f = c f) :
    Level M R (eraseCenter K h) S' c' A := by
  have r := L.ref
  have wf := st.wf
  -- facets of halfedges at the vertex are not split
  have nring : ∀ d ∈ K.darts, K.vert (K.next d) = K.vert h → ¬ S (K.face d) := by
    intro d hd hr
    have := hns _ (wf.next_mem hd) hr
    rwa [wf.face_next hd] at this
  have nout : ∀ d ∈ K.darts, K.src d = K.vert h → ¬ S (K.face d) := by
    intro d hd hr
    obtain ⟨h1, h2, h3⟩ := st.out_facts hd hr
    have m1 := wf.next_mem hd
    have := hns _ (wf.next_mem m1) h2
    rwa [wf.face_next m1, wf.face_next hd] at this
  -- the two kinds of halfedges left
  have kind : ∀ d ∈ (eraseCenter K h).darts, d ∈ K.darts ∧
      ((K.vert (K.next d) = K.vert h ∧ (eraseCenter K h).face d = K.face h ∧
        (eraseCenter K h).next d = K.next (K.opp (K.next d)) ∧ R.next d = K.next d) ∨
       (K.vert (K.next d) ≠ K.vert h ∧ (eraseCenter K h).face d = K.face d ∧ K.face d ≠ K.face h ∧
        (eraseCenter K h).next d = K.next d)) := by
    intro d hd
    have hk := st.mem_old hd
    refine ⟨hk, ?_⟩
    by_cases hr : K.vert (K.next d) = K.vert h
    · exact Or.inl ⟨hr, st.face_ring hk hr, st.next_ring hr, r.plain d hk (nring d hk hr)⟩
    · exact Or.inr ⟨hr, st.face_plain hd hr, st.face_plain_ne hd hr, st.next_plain hr⟩
  have keep : ∀ d ∈ K.darts, S (K.face d) → d ∈ (eraseCenter K h).darts ∧ (eraseCenter K h).face d = K.face d ∧
      K.face d ≠ K.face h ∧ (eraseCenter K h).next d = K.next d := by
    intro d hd s
    have hm : d ∈ (eraseCenter K h).darts := (st.mem_iff d).mpr ⟨hd, fun e => hns d hd e s, fun e => nout d hd e s⟩
    obtain ⟨_, h1 | h1⟩ := kind d hm
    · exact absurd s (nring d hd h1.1)
    · exact ⟨hm, h1.2.1, h1.2.2.1, h1.2.2.2⟩
  -- facts about a ring halfedge
  have ring : ∀ d ∈ K.darts, K.vert (K.next d) = K.vert h → R.next d = K.next d →
      R.opp (K.next d) = K.opp (K.next d) ∧ K.opp (K.next d) ∈ K.darts ∧ K.src (K.opp (K.next d)) = K.vert h ∧
      K.next (K.opp (K.next d)) ∈ (eraseCenter K h).darts ∧
      R.next (K.opp (K.next d)) = K.next (K.opp (K.next d)) ∧
      R.next (R.next (K.next (K.opp (K.next d)))) = K.opp (K.next d) := by
    intro d hd hr _
    have m1 := wf.next_mem hd
    obtain ⟨o1, o2⟩ := st.opp_in hd hr
    obtain ⟨f1, f2, f3⟩ := st.out_facts o1 o2
    have m2 := wf.next_mem o1
    refine ⟨r.opp _ m1, o1, o2, f1, r.plain _ o1 (nout _ o1 o2), ?_⟩
    rw [r.plain _ m2 (nring _ m2 f2), r.plain _ (wf.next_mem m2) (hns _ (wf.next_mem m2) f2), f3]
  have eopp : (eraseCenter K h).opp = K.opp := rfl
  have evert : (eraseCenter K h).vert = K.vert := rfl
  have sp : ∀ d ∈ K.darts, K.face d ≠ K.face h → S' (K.face d) → S (K.face d) := fun d hd hne s => (hS d hd hne).mp s
  refine ⟨⟨?_, ?_, ?_, ?_, ?_, ?_, ?_, ?_, ?_, ?_, ?_, ?_, ?_, ?_, ?_, ?_, ?_⟩, L.skip, L.fresh, ?_⟩
  · intro d hd; exact r.sub d (st.mem_old hd)
  · intro d hd; exact r.opp d (st.mem_old hd)
  · intro d hd; exact r.vert d (st.mem_old hd)
  · intro d hd; exact r.pos d (st.mem_old hd)
  · intro d hd hs
    obtain ⟨hk, ⟨_, hf, _⟩ | ⟨_, hf, hne, hn⟩⟩ := kind d hd
    · rw [hf] at hs; exact absurd hS1 hs
    · rw [hf] at hs; rw [hn]; exact r.plain d hk (fun s => hs ((hS d hk hne).mpr s))
  · intro d hd hs
    exact r.next_mem wf.h d (r.sub d (st.mem_old hd))
  · intro d hd hs
    obtain ⟨hk, ⟨hr, hf, _, hn⟩ | ⟨_, hf, hne, hn⟩⟩ := kind d hd
    · rw [hn, st.mem_iff]; exact fun hx => hx.2.1 hr
    · rw [hf] at hs; exact fun hx => r.in_new d hk (sp d hk hne hs) (st.mem_old hx)
  · intro d hd hs
    exact r.opp_mem wf.h _ (r.next_mem wf.h d (r.sub d (st.mem_old hd)))
  · intro d hd hs
    obtain ⟨hk, ⟨hr, hf, _, hn⟩ | ⟨_, hf, hne, hn⟩⟩ := kind d hd
    · obtain ⟨a1, a2, a3, _⟩ := ring d hk hr hn
      rw [hn, a1, st.mem_iff]; exact fun hx => hx.2.2 a3
    · rw [hf] at hs; exact fun hx => r.out_new d hk (sp d hk hne hs) (st.mem_old hx)
  · intro d hd hs
    exact r.opp_opp' wf.h _ (r.next_mem wf.h d (r.sub d (st.mem_old hd)))
  · intro d hd hs
    obtain ⟨hk, ⟨hr, hf, hn', hn⟩ | ⟨_, hf, hne, hn⟩⟩ := kind d hd
    · obtain ⟨a1, a2, a3, a4, a5, a6⟩ := ring d hk hr hn
      rw [hn, a1, a5, hn']
    · rw [hf] at hs; rw [hn]; exact r.out_next d hk (sp d hk hne hs)
  · intro d hd hs
    obtain ⟨hk, ⟨hr, hf, hn', hn⟩ | ⟨_, hf, hne, hn⟩⟩ := kind d hd
    · obtain ⟨a1, a2, a3, a4, a5, a6⟩ := ring d hk hr hn
      rw [hn, a1, hn', a6]
    · rw [hf] at hs; rw [hn]; exact r.close d hk (sp d hk hne hs)
  · intro d hd hs
    rw [evert]
    obtain ⟨hk, ⟨hr, hf, hn', hn⟩ | ⟨_, hf, hne, hn⟩⟩ := kind d hd
    · obtain ⟨a1, a2, a3, a4, a5, a6⟩ := ring d hk hr hn
      rw [hn, a1, r.vert _ a2]
      exact wf.src_next d hk
    · rw [hf] at hs; exact r.vout d hk (sp d hk hne hs)
  · intro d hd hs
    obtain ⟨hk, ⟨hr, hf, hn', hn⟩ | ⟨_, hf, hne, hn⟩⟩ := kind d hd
    · rw [hn, hf, hc1, r.vert _ (wf.next_mem hk), hr]
    · rw [hf] at hs ⊢; rw [hc _ hne]; exact r.vin d hk (sp d hk hne hs)
  · intro d hd hs e he hs2 hce
    obtain ⟨hk, ⟨hr, hf, hn', hn⟩ | ⟨_, hf, hne, hn⟩⟩ := kind d hd <;>
      obtain ⟨hk', ⟨hr', hf', _, _⟩ | ⟨_, hf', hne', _⟩⟩ := kind e he <;> rw [hf, hf'] at hce ⊢
    · rw [hf'] at hs2
      rw [hc1, hc _ hne'] at hce
      exact absurd hce (r.cnew e hk' (sp e hk' hne' hs2) h st.hh)
    · rw [hf] at hs
      rw [hc1, hc _ hne] at hce
      exact absurd hce.symm (r.cnew d hk (sp d hk hne hs) h st.hh)
    · rw [hf] at hs; rw [hf'] at hs2
      rw [hc _ hne, hc _ hne'] at hce
      exact r.cinj d hk (sp d hk hne hs) e hk' (sp e hk' hne' hs2) hce
  · intro d hd hs e he
    have he' := (st.mem_iff e).mp he
    rw [evert]
    obtain ⟨hk, ⟨hr, hf, hn', hn⟩ | ⟨_, hf, hne, hn⟩⟩ := kind d hd
    · rw [hf, hc1]; exact he'.2.1
    · rw [hf] at hs ⊢; rw [hc _ hne]; exact r.cnew d hk (sp d hk hne hs) e he'.1
  · intro x hx hxk
    by_cases hk : x ∈ K.darts
    · have main : ∀ y ∈ K.darts, K.vert y = K.vert h → ∃ d ∈ (eraseCenter K h).darts, S' ((eraseCenter K h).face d) ∧ R.next d = y := by
        intro y hy hv
        obtain ⟨i1, i2, i3⟩ := st.in_facts hy hv
        have hr : K.vert (K.next (K.next (K.next y))) = K.vert h := by rw [i2, hv]
        refine ⟨_, i3, ?_, ?_⟩
        · rw [st.face_ring (st.mem_old i3) hr]; exact hS1
        · rw [r.plain _ (st.mem_old i3) (nring _ (st.mem_old i3) hr), i2]
      by_cases hv : K.vert x = K.vert h
      · obtain ⟨d, hd, s, e⟩ := main x hk hv
        exact ⟨d, hd, s, Or.inl e.symm⟩
      · have hs : K.src x = K.vert h := by
          by_contra hs
          exact hxk ((st.mem_iff x).mpr ⟨hk, hv, hs⟩)
        obtain ⟨d, hd, s, e⟩ := main (K.opp x) (wf.opp_mem hk) hs
        refine ⟨d, hd, s, Or.inr ?_⟩
        rw [e, r.opp _ (wf.opp_mem hk), wf.opp_opp hk]
    · obtain ⟨d, hd, s, e⟩ := r.cover x hx hk
      obtain ⟨k1, k2, k3, k4⟩ := keep d hd s
      exact ⟨d, k1, by rw [k2]; exact (hS d hd k3).mpr s, e⟩
  · intro d hd ha
    have hk := L.addK d hd ha
    obtain ⟨h1, h2⟩ := hadd d hk ha
    exact (st.mem_iff d).mpr ⟨hk, h1, h2⟩

end

end TDP.Codec
