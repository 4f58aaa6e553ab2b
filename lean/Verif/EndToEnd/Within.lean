import Verif.EndToEnd.Nearest
/-!
# Property C68: the within join from the objects to the undecided objects
-/
namespace TDP.EndToEnd
open TDP.Boxes TDP.Join TDP.Kernels TDP.Gpu

/-- Specification: some segment of the one list and some of the other are closer than `D` (by the kernel). -/
def Closer (D : ℚ) (l1 l2 : List Seg) : Prop := ∃ s ∈ l1, ∃ t ∈ l2, segD s t < (D : WithTop ℚ)

/-- Smallest answer of the kernel. -/
def minD (l1 l2 : List Seg) : WithTop ℚ := (l1.flatMap (fun s => l2.map (segD s))).foldr min ⊤

theorem foldr_min_eq {l : List (WithTop ℚ)} {v : WithTop ℚ} (h1 : ∀ x ∈ l, v ≤ x) (h2 : v ∈ l) : l.foldr min ⊤ = v := by
  induction l with
  | nil => simp at h2
  | cons a l ih =>
    rw [List.foldr_cons]
    by_cases hm : v ∈ l
    · rw [ih (fun x hx => h1 x (List.mem_cons_of_mem _ hx)) hm]
      exact min_eq_right (h1 a (List.mem_cons_self ..))
    · rcases List.mem_cons.1 h2 with rfl | h2
      · refine min_eq_left ?_
        have : ∀ l : List (WithTop ℚ), (∀ x ∈ l, v ≤ x) → v ≤ l.foldr min ⊤ := by
          intro l
          induction l with
          | nil => intro _; exact le_top
          | cons b l ih' => intro h; exact le_min (h b (List.mem_cons_self ..)) (ih' (fun x hx => h x (List.mem_cons_of_mem _ hx)))
        exact this l (fun x hx => h1 x (List.mem_cons_of_mem _ hx))
      · exact absurd h2 hm

theorem minD_eq {l1 l2 : List Seg} {v : WithTop ℚ} (h1 : ∀ s ∈ l1, ∀ t ∈ l2, v ≤ segD s t) (h2 : ∃ s ∈ l1, ∃ t ∈ l2, segD s t = v) :
    minD l1 l2 = v := by
  refine foldr_min_eq ?_ ?_
  · intro x hx
    obtain ⟨s, hs, hx⟩ := List.mem_flatMap.1 hx
    obtain ⟨t, ht, rfl⟩ := List.mem_map.1 hx
    exact h1 s hs t ht
  · obtain ⟨s, hs, t, ht, e⟩ := h2
    exact List.mem_flatMap.2 ⟨s, hs, List.mem_map.2 ⟨t, ht, e⟩⟩

/-- The same pairs of voxels for the same object. -/
def SameC (c c' : Cand) : Prop := c'.mesh = c.mesh ∧
  ∀ v1 v2, (∃ x ∈ c'.pairs, x.v1 = v1 ∧ x.v2 = v2) ↔ ∃ x ∈ c.pairs, x.v1 = v1 ∧ x.v2 = v2

/-- The same object with the same pairs. -/
def Kept (e e' : Entry) : Prop := e'.mesh = e.mesh ∧ (∀ c' ∈ e'.cands, ∃ c ∈ e.cands, SameC c c') ∧
  ∀ c ∈ e.cands, ∃ c' ∈ e'.cands, SameC c c'

theorem SameC.refl (c : Cand) : SameC c c := ⟨rfl, fun _ _ => Iff.rfl⟩
theorem SameC.trans {a b c : Cand} (h : SameC a b) (h' : SameC b c) : SameC a c :=
  ⟨h'.1.trans h.1, fun v1 v2 => (h'.2 v1 v2).trans (h.2 v1 v2)⟩

theorem Kept.refl (e : Entry) : Kept e e := ⟨rfl, fun c hc => ⟨c, hc, .refl c⟩, fun c hc => ⟨c, hc, .refl c⟩⟩
theorem Kept.trans {a b c : Entry} (h : Kept a b) (h' : Kept b c) : Kept a c := by
  refine ⟨h'.1.trans h.1, ?_, ?_⟩
  · intro z hz
    obtain ⟨y, hy, i1⟩ := h'.2.1 z hz
    obtain ⟨x, hx, i2⟩ := h.2.1 y hy
    exact ⟨x, hx, i2.trans i1⟩
  · intro z hz
    obtain ⟨y, hy, i1⟩ := h.2.2 z hz
    obtain ⟨x, hx, i2⟩ := h'.2.2 y hy
    exact ⟨x, hx, i1.trans i2⟩

/-- No pair of the entry is closer than `D` when voxel `v` holds `heap v`. -/
def NoHit (D : ℚ) (heap : Voxel → List Seg) (e : Entry) : Prop := ∀ c ∈ e.cands, ∀ x ∈ c.pairs, ¬ Closer D (heap x.v1) (heap x.v2)

theorem Kept.noHit {e e' : Entry} (h : Kept e e') {D : ℚ} {heap : Voxel → List Seg} (hn : NoHit D heap e) : NoHit D heap e' := by
  intro c' hc' x hx
  obtain ⟨c, hc, _, i⟩ := h.2.1 c' hc'
  obtain ⟨y, hy, e1, e2⟩ := (i _ _).1 ⟨x, hx, rfl, rfl⟩
  rw [← e1, ← e2]
  exact hn c hc y hy

theorem Kept.noHit' {e e' : Entry} (h : Kept e e') {D : ℚ} {heap : Voxel → List Seg} (hn : NoHit D heap e') : NoHit D heap e := by
  intro c hc x hx
  obtain ⟨c', hc', _, i⟩ := h.2.2 c hc
  obtain ⟨y, hy, e1, e2⟩ := (i _ _).2 ⟨x, hx, rfl, rfl⟩
  rw [← e1, ← e2]
  exact hn c' hc' y hy

/-- Pairs are unmarked, not yet within the limit, and have property `Q`; those of all candidates but the last have `G`. -/
def WInv (D : ℚ) (Q G : Voxel → Voxel → Prop) (es : List Entry) : Prop :=
  ∀ e ∈ es, (∀ c ∈ e.cands.dropLast, ∀ x ∈ c.pairs, G x.v1 x.v2) ∧ ∀ c ∈ e.cands, ∀ x ∈ c.pairs, x.intersect = false ∧ D ≤ x.dist.maxdist ∧ Q x.v1 x.v2

theorem refine_lt {top : Bool} {r : Range} {d D : ℚ} (h : D ≤ r.maxdist) : (refine top r d).maxdist < D ↔ d < D := by
  unfold refine
  cases top
  · simp only [Bool.false_eq_true, if_false, min_lt_iff]
    exact ⟨fun x => x.resolve_left (not_lt.2 h), Or.inr⟩
  · simp

/-- One level. -/
theorem within_step {threads : Nat} (ht : 1 ≤ threads) {heap : Voxel → List Seg} {D : ℚ} {top : Bool} {es es' : List Entry}
    (vs : List Voxel) (hfits : Fits 6 heap vs) (hlen : ∀ v ∈ vs, (heap v).length ≤ 10000)
    {Q G : Voxel → Voxel → Prop} (hQ : ∀ a b, Q a b → a ∈ vs ∧ b ∈ vs ∧ ∀ s ∈ heap a ++ heap b, s.p ≠ s.q)
    (hG : ∀ a b, G a b → ¬ Closer D (heap a) (heap b)) (hinv : WInv D Q G es) (h : WithinRound (.cpu threads) heap D top es es') :
    WInv D Q G es' ∧ (∀ e' ∈ es', ∃ e ∈ es, Kept e e' ∧ NoHit D heap e) ∧ (∀ e ∈ es, NoHit D heap e → ∃ e' ∈ es', Kept e e') := by
  obtain ⟨d, hd, rfl⟩ := h
  have hmem : ∀ p ∈ flatPairs es, p.v1 ∈ vs ∧ p.v2 ∈ vs := by
    intro p hp
    obtain ⟨e, he, hx⟩ := List.mem_flatMap.1 hp
    obtain ⟨c, hc, hx⟩ := List.mem_flatMap.1 hx
    obtain ⟨a, b, _⟩ := hQ _ _ ((hinv e he).2 c hc p hx).2.2
    exact ⟨a, b⟩
  have triv : (∀ e ∈ es, NoHit D heap e) → WInv D Q G es ∧ (∀ e' ∈ es, ∃ e ∈ es, Kept e e' ∧ NoHit D heap e) ∧
      (∀ e ∈ es, NoHit D heap e → ∃ e' ∈ es, Kept e e') :=
    fun hn => ⟨hinv, fun e he => ⟨e, he, Kept.refl e, hn e he⟩, fun e he _ => ⟨e, he, Kept.refl e⟩⟩
  unfold wiStep
  by_cases h1 : (flatPairs es).length = 0
  · rw [if_pos h1]
    refine triv ?_
    intro e he c hc x hx
    have : x ∈ flatPairs es := List.mem_flatMap.2 ⟨e, he, List.mem_flatMap.2 ⟨c, hc, hx⟩⟩
    rw [List.length_eq_zero_iff.1 h1] at this
    simp at this
  rw [if_neg h1]
  by_cases h2 : segmentPairs ⟨fun v => (heap v).length, fun _ _ => 0⟩ es = 0
  · rw [if_pos h2]
    refine triv ?_
    rintro e he c hc x hx ⟨s, hs, t, ht', _⟩
    have hm : x ∈ flatPairs es := List.mem_flatMap.2 ⟨e, he, List.mem_flatMap.2 ⟨c, hc, hx⟩⟩
    have := List.sum_eq_zero_iff.1 h2 _ (List.mem_map.2 ⟨x, hm, rfl⟩)
    rcases Nat.mul_eq_zero.1 this with h | h
    · rw [List.length_eq_zero_iff.1 h] at hs; simp at hs
    · rw [List.length_eq_zero_iff.1 h] at ht'; simp at ht'
  rw [if_neg h2]
  have hc := hd h1 h2
  -- the kernel's answer as a function of the voxels
  let r : Round := ⟨fun v => (heap v).length, fun a b => (minD (heap a) (heap b)).untopD 0⟩
  have hal : ∀ (k : Nat) p, (flatPairs es)[k]? = some p → r.sized p = true → (d (0 + k)).untopD 0 = r.kernel p.v1 p.v2 ∧
      (r.kernel p.v1 p.v2 < D ↔ Closer D (heap p.v1) (heap p.v2)) := by
    intro k p hp hz
    simp only [Round.sized, Bool.and_eq_true, decide_eq_true_eq, r] at hz
    have hpm := List.mem_of_getElem? hp
    obtain ⟨e, he, hx⟩ := List.mem_flatMap.1 hpm
    obtain ⟨c, hc', hx⟩ := List.mem_flatMap.1 hx
    obtain ⟨q1, q2, q3⟩ := hQ _ _ ((hinv e he).2 c hc' p hx).2.2
    obtain ⟨v, e1, hle, s, hs, t, ht', hv, _⟩ := C63_distance_cpu ht hc vs hfits hmem k p hp
      (List.length_pos_iff.1 hz.1) (List.length_pos_iff.1 hz.2) (hlen _ q1) (hlen _ q2) q3
    have hm : minD (heap p.v1) (heap p.v2) = v := minD_eq hle ⟨s, hs, t, ht', hv⟩
    simp only [r]
    rw [Nat.zero_add, e1, hm]
    refine ⟨rfl, ?_⟩
    rw [WithTop.untopD_coe]
    constructor
    · intro h
      exact ⟨s, hs, t, ht', by rw [hv]; exact WithTop.coe_lt_coe.2 h⟩
    · rintro ⟨s', hs', t', ht'', h⟩
      exact WithTop.coe_lt_coe.1 (lt_of_le_of_lt (hle s' hs' t' ht'') h)
  have hclose : ∀ e ∈ es, ∀ c ∈ e.cands, ∀ x ∈ c.pairs, wiHit top D r x = true ↔ Closer D (heap x.v1) (heap x.v2) := by
    intro e he c hc' x hx
    have hxm : x ∈ flatPairs es := List.mem_flatMap.2 ⟨e, he, List.mem_flatMap.2 ⟨c, hc', hx⟩⟩
    obtain ⟨k, hk, hkx⟩ := List.mem_iff_getElem.1 hxm
    unfold wiHit
    by_cases hz : r.sized x = true
    · rw [hz, Bool.true_and, decide_eq_true_eq, refine_lt ((hinv e he).2 c hc' x hx).2.1]
      exact (hal k x (by rw [List.getElem?_eq_getElem hk, hkx]) hz).2
    · rw [Bool.not_eq_true] at hz
      rw [hz, Bool.false_and]
      refine ⟨fun h => absurd h (by decide), ?_⟩
      rintro ⟨s, hs, t, ht', _⟩
      simp only [Round.sized, Bool.and_eq_false_iff, decide_eq_false_iff_not, r] at hz
      rcases hz with h | h
      · exact absurd (List.length_pos_of_mem hs) h
      · exact absurd (List.length_pos_of_mem ht') h
  have hspec := wiEntries_spec top D r (fun i => (d i).untopD 0) es 0 (fun k p hp hz => (hal k p hp hz).1) (by
    intro e he c hc' x hx
    rw [← Bool.not_eq_true]
    intro hw
    exact hG _ _ ((hinv e he).1 c hc' x hx) ((hclose e he c (List.dropLast_subset _ hc') x hx).1 hw))
  have hrs : r.sized = Round.sized ⟨fun v => (heap v).length, fun _ _ => 0⟩ := rfl
  rw [hrs] at hspec
  -- consequences for one entry
  have hone : ∀ e e', e ∈ es → e'.mesh = e.mesh → List.Forall₂ (fun c c' => c'.mesh = c.mesh ∧ c'.distance = c.distance ∧
        List.Forall₂ (Updated top D r) c.pairs c'.pairs) e.cands e'.cands → Kept e e' ∧ (∀ c ∈ e'.cands.dropLast, ∀ x ∈ c.pairs, G x.v1 x.v2) ∧
        (NoHit D heap e → ∀ c' ∈ e'.cands, ∀ x' ∈ c'.pairs, x'.intersect = false ∧ D ≤ x'.dist.maxdist ∧ Q x'.v1 x'.v2) := by
    intro e e' he hm hF
    have hup : ∀ (x x' : VPair), Updated top D r x x' → x'.v1 = x.v1 ∧ x'.v2 = x.v2 := by
      rintro x x' (rfl | ⟨_, rfl⟩) <;> exact ⟨rfl, rfl⟩
    have hsame : ∀ (c c' : Cand), List.Forall₂ (Updated top D r) c.pairs c'.pairs → c'.mesh = c.mesh → SameC c c' := by
      intro c c' hP e1
      refine ⟨e1, ?_⟩
      intro v1 v2
      constructor
      · rintro ⟨x', hx', rfl, rfl⟩
        obtain ⟨x, hx, hu⟩ := (forall₂_mem hP).1 x' hx'
        exact ⟨x, hx, (hup x x' hu).1.symm, (hup x x' hu).2.symm⟩
      · rintro ⟨x, hx, rfl, rfl⟩
        obtain ⟨x', hx', hu⟩ := (forall₂_mem hP).2 x hx
        exact ⟨x', hx', (hup x x' hu).1, (hup x x' hu).2⟩
    refine ⟨⟨hm, ?_, ?_⟩, ?_, ?_⟩
    · intro c' hc'
      obtain ⟨c, hc, e1, _, hP⟩ := (forall₂_mem hF).1 c' hc'
      exact ⟨c, hc, hsame c c' hP e1⟩
    · intro c hc
      obtain ⟨c', hc', e1, _, hP⟩ := (forall₂_mem hF).2 c hc
      exact ⟨c', hc', hsame c c' hP e1⟩
    · intro c' hc' x' hx'
      have hF' := List.forall₂_take (e.cands.length - 1) hF
      rw [← List.dropLast_eq_take, hF.length_eq, ← List.dropLast_eq_take] at hF'
      obtain ⟨c, hc, _, _, hP⟩ := (forall₂_mem hF').1 c' hc'
      obtain ⟨x, hx, hu⟩ := (forall₂_mem hP).1 x' hx'
      rw [(hup x x' hu).1, (hup x x' hu).2]
      exact (hinv e he).1 c hc x hx
    · intro hn c' hc' x' hx'
      obtain ⟨c, hc, _, _, hP⟩ := (forall₂_mem hF).1 c' hc'
      obtain ⟨x, hx, hu⟩ := (forall₂_mem hP).1 x' hx'
      obtain ⟨i1, i2, i3⟩ := (hinv e he).2 c hc x hx
      have hno : ¬ wiHit top D r x = true := fun h => hn c hc x hx ((hclose e he c hc x hx).1 h)
      rcases hu with rfl | ⟨hz, rfl⟩
      · exact ⟨i1, i2, i3⟩
      · unfold wiHit at hno
        rw [hz, Bool.true_and, decide_eq_true_eq] at hno
        exact ⟨by simp [i1, hno], not_lt.1 hno, i3⟩
  have hany : ∀ e ∈ es, e.cands.any (fun c => c.pairs.any (·.intersect) || c.pairs.any (wiHit top D r)) = false ↔ NoHit D heap e := by
    intro e he
    rw [Bool.eq_false_iff]
    simp only [ne_eq, List.any_eq_true, Bool.or_eq_true, not_exists, not_and, not_or]
    constructor
    · intro h c hc x hx hcl
      exact (h c hc).2 x hx ((hclose e he c hc x hx).2 hcl)
    · intro h c hc
      refine ⟨fun x hx => by rw [((hinv e he).2 c hc x hx).1]; decide, fun x hx hw => h c hc x hx ((hclose e he c hc x hx).1 hw)⟩
  have hdrop : ∀ e' ∈ dropHit (wiEntries top D (Round.sized ⟨fun v => (heap v).length, fun _ _ => 0⟩) (fun i => (d i).untopD 0) 0 es),
      ∃ e ∈ es, Kept e e' ∧ NoHit D heap e ∧ (∀ c ∈ e'.cands.dropLast, ∀ x ∈ c.pairs, G x.v1 x.v2) ∧
        ∀ c' ∈ e'.cands, ∀ x' ∈ c'.pairs, x'.intersect = false ∧ D ≤ x'.dist.maxdist ∧ Q x'.v1 x'.v2 := by
    intro e' he'
    obtain ⟨he', hne⟩ := List.mem_filter.1 he'
    obtain ⟨e, he, g1, g2, g3⟩ := (forall₂_mem hspec).1 e' he'
    obtain ⟨k1, k2, k3⟩ := hone e e' he g1 g2
    have hn : NoHit D heap e := (hany e he).1 (by rw [← g3]; simpa using hne)
    exact ⟨e, he, k1, hn, k2, k3 hn⟩
  refine ⟨?_, ?_, ?_⟩
  · intro e' he'
    obtain ⟨_, _, _, _, a, b⟩ := hdrop e' he'
    exact ⟨a, b⟩
  · intro e' he'
    obtain ⟨e, he, a, b, _⟩ := hdrop e' he'
    exact ⟨e, he, a, b⟩
  · intro e he hn
    obtain ⟨e', he', g1, g2, g3⟩ := (forall₂_mem hspec).2 e he
    refine ⟨e', List.mem_filter.2 ⟨he', ?_⟩, (hone e e' he g1 g2).1⟩
    have h0 := g3.trans ((hany e he).2 hn)
    simpa using h0

/-- All levels. -/
theorem within_rounds {threads : Nat} (ht : 1 ≤ threads) {heap : Nat → Voxel → List Seg} {D : ℚ} {top : Nat} {lods : List Nat}
    {es es' : List Entry} (vs : List Voxel) (hfits : ∀ lod ∈ lods, Fits 6 (heap lod) vs)
    (hlen : ∀ lod ∈ lods, ∀ v ∈ vs, (heap lod v).length ≤ 10000)
    {Q G : Voxel → Voxel → Prop} (hG : ∀ lod ∈ lods, ∀ a b, G a b → ¬ Closer D (heap lod a) (heap lod b))
    (hQ : ∀ lod ∈ lods, ∀ a b, Q a b → a ∈ vs ∧ b ∈ vs ∧ ∀ s ∈ heap lod a ++ heap lod b, s.p ≠ s.q)
    (hinv : WInv D Q G es) (h : WithinRounds (.cpu threads) heap D top lods es es') :
    (∀ e' ∈ es', ∃ e ∈ es, Kept e e' ∧ ∀ lod ∈ lods, NoHit D (heap lod) e) ∧
    (∀ e ∈ es, (∀ lod ∈ lods, NoHit D (heap lod) e) → ∃ e' ∈ es', Kept e e') := by
  induction h with
  | nil es => exact ⟨fun e he => ⟨e, he, Kept.refl e, by simp⟩, fun e he _ => ⟨e, he, Kept.refl e⟩⟩
  | @cons lod lods es es1 es2 hr _ ih =>
    have ml : lod ∈ lod :: lods := List.mem_cons_self ..
    obtain ⟨a1, a2, a3⟩ := within_step ht vs (hfits lod ml) (hlen lod ml) (hQ lod ml) (hG lod ml) hinv hr
    obtain ⟨b1, b2⟩ := ih (fun l hl => hfits l (List.mem_cons_of_mem _ hl)) (fun l hl => hlen l (List.mem_cons_of_mem _ hl))
      (fun l hl => hG l (List.mem_cons_of_mem _ hl)) (fun l hl => hQ l (List.mem_cons_of_mem _ hl)) a1
    constructor
    · intro e' he'
      obtain ⟨e1, he1, k1, n1⟩ := b1 e' he'
      obtain ⟨e, he, k2, n2⟩ := a2 e1 he1
      refine ⟨e, he, k2.trans k1, ?_⟩
      intro l hl
      rcases List.mem_cons.1 hl with rfl | hl
      · exact n2
      · exact k2.noHit' (n1 l hl)
    · intro e he hn
      obtain ⟨e1, he1, k1⟩ := a3 e he (hn lod ml)
      obtain ⟨e', he', k2⟩ := b2 e1 he1 (fun l hl => k1.noHit (hn l (List.mem_cons_of_mem _ hl)))
      exact ⟨e', he', k1.trans k2⟩

/-- The entries after filtering. -/
theorem withinFilter_entries {D : ℚ} {tree : Octree.Node ℚ} {tile2 : Int → Wrapper} {tile1 : List (Object Seg)} {es : List Entry}
    (h : WithinFilter D tree tile2 tile1 es) :
    ∀ e ∈ es, ∃ q ∈ tile1, ∃ ids, SortedBy Prod.fst (Octree.queryWithin Fp.exact q.obj D tree) ids ∧
      e = mbbWithin Fp.exact D tile2 q.w ids := by
  induction h with
  | nil => simp
  | skip _ _ _ ih =>
    intro e he
    obtain ⟨a, ha, x⟩ := ih e he
    exact ⟨a, List.mem_cons_of_mem _ ha, x⟩
  | keep hs _ _ ih =>
    intro e he
    rcases List.mem_cons.1 he with rfl | he
    · exact ⟨_, List.mem_cons_self .., _, hs, rfl⟩
    · obtain ⟨a, ha, x⟩ := ih e he
      exact ⟨a, List.mem_cons_of_mem _ ha, x⟩

theorem withinFilter_complete {D : ℚ} {tree : Octree.Node ℚ} {tile2 : Int → Wrapper} {tile1 : List (Object Seg)} {es : List Entry}
    (h : WithinFilter D tree tile2 tile1 es) :
    ∀ q ∈ tile1, ∃ ids, SortedBy Prod.fst (Octree.queryWithin Fp.exact q.obj D tree) ids ∧
      ((mbbWithin Fp.exact D tile2 q.w ids).cands ≠ [] → mbbWithin Fp.exact D tile2 q.w ids ∈ es) := by
  induction h with
  | nil => simp
  | skip hs h0 _ ih =>
    intro q hq
    rcases List.mem_cons.1 hq with rfl | hq
    · exact ⟨_, hs, fun hh => absurd h0 hh⟩
    · exact ih q hq
  | keep hs _ _ ih =>
    intro q hq
    rcases List.mem_cons.1 hq with rfl | hq
    · exact ⟨_, hs, fun _ => List.mem_cons_self ..⟩
    · obtain ⟨ids, a, b⟩ := ih q hq
      exact ⟨ids, a, fun hh => List.mem_cons_of_mem _ (b hh)⟩

theorem withinFilter_nonempty {D : ℚ} {tree : Octree.Node ℚ} {tile2 : Int → Wrapper} {tile1 : List (Object Seg)} {es : List Entry}
    (h : WithinFilter D tree tile2 tile1 es) : ∀ e ∈ es, e.cands ≠ [] := by
  induction h with
  | nil => simp
  | skip _ _ _ ih => exact ih
  | keep _ hn _ ih =>
    intro e he
    rcases List.mem_cons.1 he with rfl | he
    · exact hn
    · exact ih e he

variable {mid : ℚ → ℚ → ℚ} {dist : Pt ℚ → Pt ℚ → WithTop ℚ} {heap : Nat → Voxel → List Seg}
  {tile1 : List (Object Seg)} {o : Object Seg} {os : List (Object Seg)} {tile2 : Int → Wrapper} {lods : List Nat}
  {vs : List Voxel}

/-- What an entry contains after filtering. -/
theorem within_entry_spec (S : Setting 6 dist Seg.p heap tile1 o os tile2 lods vs) {D : ℚ} {fuel : Nat} {tree : Octree.Node ℚ}
    (ht : Octree.build mid 400 fuel o.obj (os.map Object.obj) = some tree) {a : Object Seg} (ha : a ∈ tile1)
    {ids : List (Int × Range)} (hs : SortedBy Prod.fst (Octree.queryWithin Fp.exact a.obj D tree) ids) :
    ∀ c ∈ (mbbWithin Fp.exact D tile2 a.w ids).cands, ∃ b ∈ o :: os, c.mesh = b.w ∧ b.ptr ≠ a.ptr ∧
      (∀ x ∈ c.pairs, x.v1 ∈ a.w.voxels ∧ x.v2 ∈ b.w.voxels ∧ x.intersect = false ∧ D ≤ x.dist.maxdist) ∧
      ∀ v1 ∈ a.w.voxels, ∀ v2 ∈ b.w.voxels, (v1.box.distance Fp.exact v2.box).mindist ≤ D → ∃ x ∈ c.pairs, x.v1 = v1 ∧ x.v2 = v2 := by
  intro c hc
  unfold mbbWithin at hc
  simp only [List.mem_filterMap] at hc
  obtain ⟨p, hp, hc⟩ := hc
  have hp0 := hs.1.subset ((skipDup_sublist Prod.fst ids (-1)).subset hp)
  have hmem : ∀ v ∈ o.obj :: os.map Object.obj, ∃ b ∈ o :: os, v = b.obj := by
    intro v hv
    rcases List.mem_cons.1 hv with rfl | hv
    · exact ⟨o, List.mem_cons_self .., rfl⟩
    · obtain ⟨b, hb, rfl⟩ := List.mem_map.1 hv
      exact ⟨b, List.mem_cons_of_mem _ hb, rfl⟩
  obtain ⟨v, hv, hne, hid, _, _⟩ := (Octree.C22_within_query_exact Fp.exact mid 400 fuel o.obj (os.map Object.obj) tree ht (by
      intro v hv
      obtain ⟨b, hb, rfl⟩ := hmem v hv
      exact ⟨Nat.one_pos, S.solid b (List.mem_append_right _ hb)⟩) a.obj
      (Octree.Solid.valid (S.solid a (List.mem_append_left _ ha))) D p.1 p.2).1 hp0
  obtain ⟨b, hb, rfl⟩ := hmem v hv
  have hw : tile2 p.1 = b.w := by rw [← hid]; exact (S.tile b hb).1
  rw [hw] at hc
  have hvp : ∀ q, q ∈ voxelPairs a.w b.w ↔ q.1 ∈ a.w.voxels ∧ q.2 ∈ b.w.voxels := by
    intro q
    unfold voxelPairs
    simp only [List.mem_flatMap, List.mem_map]
    constructor
    · rintro ⟨x, hx, y, hy, rfl⟩; exact ⟨hx, hy⟩
    · rintro ⟨hx, hy⟩; exact ⟨_, hx, _, hy, rfl⟩
  rcases withinPairs_mem Fp.exact D (voxelPairs a.w b.w) with ⟨hn, _⟩ | ⟨l, hl, h2, h3, h4⟩
  · rw [hn] at hc; simp at hc
  · rw [hl] at hc
    cases l with
    | nil => simp at hc
    | cons x xs =>
      simp only [Option.some.injEq] at hc
      subst hc
      refine ⟨b, hb, rfl, hne, ?_, ?_⟩
      · intro y hy
        obtain ⟨m1, m2⟩ := (h3 y.v1 y.v2).1 ⟨y, hy, rfl, rfl⟩
        obtain ⟨q1, q2⟩ := (hvp _).1 m1
        obtain ⟨n1, n2⟩ := h2 y hy
        refine ⟨q1, q2, n1, ?_⟩
        have h5 : D < (y.v1.box.distance Fp.exact y.v2.box).maxdist := h4 (y.v1, y.v2) m1 m2
        rw [← n2] at h5
        exact h5.le
      · intro v1 h1 v2 h2' hm
        exact (h3 v1 v2).2 ⟨(hvp _).2 ⟨h1, h2'⟩, hm⟩

theorem within_entry_complete (S : Setting 6 dist Seg.p heap tile1 o os tile2 lods vs) {D : ℚ} {fuel : Nat} {tree : Octree.Node ℚ}
    (ht : Octree.build mid 400 fuel o.obj (os.map Object.obj) = some tree) {a : Object Seg} (ha : a ∈ tile1)
    {ids : List (Int × Range)} (hs : SortedBy Prod.fst (Octree.queryWithin Fp.exact a.obj D tree) ids)
    {b : Object Seg} (hb : b ∈ o :: os) (hne : b.ptr ≠ a.ptr) (hmo : (b.w.box.distance Fp.exact a.w.box).mindist ≤ D)
    {va vb : Voxel} (hva : va ∈ a.w.voxels) (hvb : vb ∈ b.w.voxels) (hm : (va.box.distance Fp.exact vb.box).mindist ≤ D) :
    (∃ v1 ∈ a.w.voxels, ∃ v2 ∈ b.w.voxels, (v1.box.distance Fp.exact v2.box).maxdist ≤ D) ∨
    ∃ c ∈ (mbbWithin Fp.exact D tile2 a.w ids).cands, c.mesh = b.w := by
  have hmem : ∀ v ∈ o.obj :: os.map Object.obj, ∃ b ∈ o :: os, v = b.obj := by
    intro v hv
    rcases List.mem_cons.1 hv with rfl | hv
    · exact ⟨o, List.mem_cons_self .., rfl⟩
    · obtain ⟨b, hb, rfl⟩ := List.mem_map.1 hv
      exact ⟨b, List.mem_cons_of_mem _ hb, rfl⟩
  have hobj : b.obj ∈ o.obj :: os.map Object.obj := by
    rcases List.mem_cons.1 hb with rfl | hx
    · exact List.mem_cons_self ..
    · exact List.mem_cons_of_mem _ (List.mem_map.2 ⟨b, hx, rfl⟩)
  have hx := fun x r => Octree.C22_within_query_exact Fp.exact mid 400 fuel o.obj (os.map Object.obj) tree ht (by
      intro v hv
      obtain ⟨b, hb, rfl⟩ := hmem v hv
      exact ⟨Nat.one_pos, S.solid b (List.mem_append_right _ hb)⟩) a.obj
      (Octree.Solid.valid (S.solid a (List.mem_append_left _ ha))) D x r
  have hin := (hx b.w.id _).2 ⟨b.obj, hobj, hne, rfl, rfl, hmo⟩
  obtain ⟨_, k2, _⟩ := C24_once_in_order Prod.fst _ ids hs (by
    intro p hp
    obtain ⟨v, hv, _, hid, _⟩ := (hx p.1 p.2).1 hp
    obtain ⟨b', hb', rfl⟩ := hmem v hv
    rw [← hid]; exact (S.tile b' hb').2)
  obtain ⟨p, hp, hpe⟩ := List.mem_map.1 ((k2 b.w.id).2 (List.mem_map.2 ⟨_, hin, rfl⟩))
  have hw : tile2 p.1 = b.w := by rw [hpe]; exact (S.tile b hb).1
  have hvp : ∀ q, q ∈ voxelPairs a.w b.w ↔ q.1 ∈ a.w.voxels ∧ q.2 ∈ b.w.voxels := by
    intro q
    unfold voxelPairs
    simp only [List.mem_flatMap, List.mem_map]
    constructor
    · rintro ⟨x, hx, y, hy, rfl⟩; exact ⟨hx, hy⟩
    · rintro ⟨hx, hy⟩; exact ⟨_, hx, _, hy, rfl⟩
  rcases withinPairs_mem Fp.exact D (voxelPairs a.w b.w) with ⟨_, q, hq, h, _⟩ | ⟨l, hl, h2, h3, h4⟩
  · obtain ⟨q1, q2⟩ := (hvp q).1 hq
    exact Or.inl ⟨_, q1, _, q2, h⟩
  · right
    cases l with
    | nil =>
      have := (h3 va vb).2 ⟨(hvp _).2 ⟨hva, hvb⟩, hm⟩
      simp at this
    | cons x xs =>
      refine ⟨⟨b.w, ⟨0, 0⟩, x :: xs⟩, ?_, rfl⟩
      unfold mbbWithin
      simp only [List.mem_filterMap]
      exact ⟨p, hp, by rw [hw, hl]⟩

/-- C68 (partial). Within join without a GPU, for every number of threads and every schedule, when no candidate but the last of
an entry is within the limit. An object `a` whose entry was dropped has a segment at a requested level which, by the kernel and in fact, is
nearer than the limit to a segment of another object of the second tile; if it is so near at any requested level, then after
filtering it is listed or two voxel boxes have an upper end within the limit. An object whose entry is left at the end has no such
segment with respect to its candidate, at no requested level at which voxel boxes contain their segments. Missing: several
candidates for one object (C40), overestimates of the kernel (C36), GPU (C58), rounding. -/
theorem C68_within_partial {threads : Nat} (ht : 1 ≤ threads) {D : ℚ} {start final : List Entry}
    (S : Setting 6 dist Seg.p heap tile1 o os tile2 lods vs)
    (hnd : ∀ lod ∈ lods, ∀ x ∈ tile1 ++ (o :: os), ∀ s ∈ x.elems lod, s.p ≠ s.q)
    (hlen : ∀ lod ∈ lods, ∀ v ∈ vs, (heap lod v).length ≤ 10000)
    (h : WithinJoin (.cpu threads) mid heap D tile1 o os tile2 lods start final)
    (hlast : ∀ e ∈ start, ∀ c ∈ e.cands.dropLast, ∀ x ∈ c.pairs, ∀ lod ∈ lods, ¬ Closer D (heap lod x.v1) (heap lod x.v2)) :
    (∀ a ∈ tile1, ∀ b ∈ o :: os, b.ptr ≠ a.ptr → ∀ lod ∈ lods,
      (∀ x ∈ [a, b], (∀ s ∈ x.elems lod, x.w.box.Mem s.p ∧ x.w.box.Mem s.q) ∧
        ∀ v ∈ x.w.voxels, ∀ s ∈ heap lod v, v.box.Mem s.p ∧ v.box.Mem s.q) →
      ∀ s ∈ a.elems lod, ∀ t ∈ b.elems lod, segD s t ≤ (D : WithTop ℚ) →
        (∃ v1 ∈ a.w.voxels, ∃ v2 ∈ b.w.voxels, (v1.box.distance Fp.exact v2.box).maxdist ≤ D) ∨
        ∃ e ∈ start, e.mesh = a.w ∧ ∃ c ∈ e.cands, c.mesh = b.w) ∧
    (∀ e ∈ start, (∀ e' ∈ final, e'.mesh ≠ e.mesh) → ∃ a ∈ tile1, e.mesh = a.w ∧ ∃ b ∈ o :: os, b.ptr ≠ a.ptr ∧
      ∃ lod ∈ lods, ∃ s ∈ a.elems lod, ∃ t ∈ b.elems lod, ∃ v < D, segD s t = (v : ℚ) ∧ Attained v s t) ∧
    (∀ e ∈ final, ∃ a ∈ tile1, e.mesh = a.w ∧ e.cands ≠ [] ∧ ∀ c ∈ e.cands, ∃ b ∈ o :: os, c.mesh = b.w ∧ b.ptr ≠ a.ptr ∧
      ∀ lod ∈ lods, (∀ x ∈ [a, b], ∀ v ∈ x.w.voxels, ∀ s ∈ heap lod v, v.box.Mem s.p ∧ v.box.Mem s.q) →
        ∀ s ∈ a.elems lod, ∀ t ∈ b.elems lod, (D : WithTop ℚ) ≤ segD s t) := by
  obtain ⟨fuel, tree, htree, hf, hr⟩ := h
  have r1 : ∀ x ∈ tile1, x ∈ tile1 ++ (o :: os) := fun x hx => List.mem_append_left _ hx
  have r2 : ∀ x ∈ o :: os, x ∈ tile1 ++ (o :: os) := fun x hx => List.mem_append_right _ hx
  have fm : ∀ lod ∈ lods, ∀ x ∈ tile1 ++ (o :: os), ∀ s, (∃ v ∈ x.w.voxels, s ∈ heap lod v) ↔ s ∈ x.elems lod :=
    fun lod hl x hx s => filled_mem (S.filled lod hl x hx).1 (S.voxels x hx).1 (S.filled lod hl x hx).2 s
  have F1 := withinFilter_entries hf
  let Q : Voxel → Voxel → Prop := fun x y => ∃ a ∈ tile1, ∃ b ∈ o :: os, x ∈ a.w.voxels ∧ y ∈ b.w.voxels
  have hinv : WInv D Q (fun x y => ∀ lod ∈ lods, ¬ Closer D (heap lod x) (heap lod y)) start := by
    intro e he
    refine ⟨hlast e he, ?_⟩
    intro c hc x hx
    obtain ⟨a, ha, ids, hs, rfl⟩ := F1 e he
    obtain ⟨b, hb, _, _, g, _⟩ := within_entry_spec S htree ha hs c hc
    obtain ⟨g1, g2, g3, g4⟩ := g x hx
    exact ⟨g3, g4, a, ha, b, hb, g1, g2⟩
  obtain ⟨R1, R2⟩ := within_rounds ht vs S.fits hlen (Q := Q) (fun lod hl a b h => h lod hl) (by
    rintro lod hl x y ⟨a, ha, b, hb, hx, hy⟩
    refine ⟨(S.voxels a (r1 a ha)).2 x hx, (S.voxels b (r2 b hb)).2 y hy, ?_⟩
    intro s hs
    rcases List.mem_append.1 hs with hs | hs
    · exact hnd lod hl a (r1 a ha) s ((fm lod hl a (r1 a ha) s).1 ⟨x, hx, hs⟩)
    · exact hnd lod hl b (r2 b hb) s ((fm lod hl b (r2 b hb) s).1 ⟨y, hy, hs⟩)) hinv hr
  refine ⟨?_, ?_, ?_⟩
  · intro a ha b hb hne lod hl hbox s hsa t htb hle
    obtain ⟨va, hva, hs'⟩ := (fm lod hl a (r1 a ha) s).2 hsa
    obtain ⟨vb, hvb, ht'⟩ := (fm lod hl b (r2 b hb) t).2 htb
    obtain ⟨v, hv, hatt⟩ := segD_attained (hnd lod hl a (r1 a ha) s hsa) (hnd lod hl b (r2 b hb) t htb)
    have hvD : v ≤ D := by rw [hv] at hle; exact WithTop.coe_le_coe.1 hle
    obtain ⟨ids, hs, hin⟩ := withinFilter_complete hf a ha
    have hmv := le_trans (mindist_le ((hbox a (by simp)).2 va hva s hs') ((hbox b (by simp)).2 vb hvb t ht') hatt) hvD
    have hmo : (b.w.box.distance Fp.exact a.w.box).mindist ≤ D := by
      refine le_trans (mindist_le (v := v) ((hbox b (by simp)).1 t htb) ((hbox a (by simp)).1 s hsa) ?_) hvD
      obtain ⟨u, w, u0, u1, w0, w1, e⟩ := hatt
      refine ⟨w, u, w0, w1, u0, u1, ?_⟩
      rw [e]; unfold dist2; ring
    rcases within_entry_complete S htree ha hs hb hne hmo hva hvb hmv with h | ⟨c, hc, e1⟩
    · exact Or.inl h
    · exact Or.inr ⟨_, hin (List.ne_nil_of_mem hc), rfl, c, hc, e1⟩
  · intro e he hgone
    obtain ⟨a, ha, ids, hs, rfl⟩ := F1 e he
    refine ⟨a, ha, rfl, ?_⟩
    by_contra hno
    have hn : ∀ lod ∈ lods, NoHit D (heap lod) (mbbWithin Fp.exact D tile2 a.w ids) := by
      rintro lod hl c hc x hx ⟨s, hs', t, ht', hlt⟩
      obtain ⟨b, hb, _, hne, g, _⟩ := within_entry_spec S htree ha hs c hc
      obtain ⟨g1, g2, _, _⟩ := g x hx
      have hsa := (fm lod hl a (r1 a ha) s).1 ⟨_, g1, hs'⟩
      have htb := (fm lod hl b (r2 b hb) t).1 ⟨_, g2, ht'⟩
      obtain ⟨v, hv, hatt⟩ := segD_attained (hnd lod hl a (r1 a ha) s hsa) (hnd lod hl b (r2 b hb) t htb)
      rw [hv] at hlt
      exact hno ⟨b, hb, hne, lod, hl, s, hsa, t, htb, v, WithTop.coe_lt_coe.1 hlt, hv, hatt⟩
    obtain ⟨e', he', k⟩ := R2 _ he hn
    exact hgone e' he' k.1
  · intro e' he'
    obtain ⟨e, he, k, hn⟩ := R1 e' he'
    obtain ⟨a, ha, ids, hs, rfl⟩ := F1 e he
    refine ⟨a, ha, k.1, ?_, ?_⟩
    · have hne : (mbbWithin Fp.exact D tile2 a.w ids).cands ≠ [] := withinFilter_nonempty hf _ he
      obtain ⟨c, hc⟩ := List.exists_mem_of_ne_nil _ hne
      obtain ⟨c', hc', _⟩ := k.2.2 c hc
      exact List.ne_nil_of_mem hc'
    · intro c' hc'
      obtain ⟨c, hc, e1, _⟩ := k.2.1 c' hc'
      obtain ⟨b, hb, e2, hne, g, g'⟩ := within_entry_spec S htree ha hs c hc
      refine ⟨b, hb, e1.trans e2, hne, ?_⟩
      intro lod hl hbox s hsa t htb
      by_contra hlt
      rw [not_le] at hlt
      obtain ⟨va, hva, hs'⟩ := (fm lod hl a (r1 a ha) s).2 hsa
      obtain ⟨vb, hvb, ht'⟩ := (fm lod hl b (r2 b hb) t).2 htb
      obtain ⟨v, hv, hatt⟩ := segD_attained (hnd lod hl a (r1 a ha) s hsa) (hnd lod hl b (r2 b hb) t htb)
      have hm := mindist_le (hbox a (by simp) va hva s hs') (hbox b (by simp) vb hvb t ht') hatt
      have hvD : v < D := by rw [hv] at hlt; exact WithTop.coe_lt_coe.1 hlt
      obtain ⟨x, hx, rfl, rfl⟩ := g' va hva vb hvb (le_trans hm (le_of_lt hvD))
      exact hn lod hl c hc x hx ⟨s, hs', t, ht', hlt⟩

end TDP.EndToEnd
