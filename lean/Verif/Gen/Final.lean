import Verif.Gen.Props
import Mathlib.Data.List.ProdSigma
/-! # C79, C80: the data sets -/
namespace TDP.Gen
open TDP.Boxes TDP.Bytes TDP.Tile

/-! ## Prototypes are in the box they are given -/

theorem lowest_le : ∀ (p : Pt ℚ) (qs : List (Pt ℚ)) (k : Fin 3), lowest p qs k ≤ p k ∧ ∀ q ∈ qs, lowest p qs k ≤ q k
  | p, [], k => ⟨le_refl _, by simp⟩
  | p, q :: qs, k => by
      obtain ⟨a, b⟩ := lowest_le (fun k => if p k > q k then q k else p k) qs k
      have hp : (if p k > q k then q k else p k) ≤ p k ∧ (if p k > q k then q k else p k) ≤ q k := by
        by_cases h : p k > q k
        · rw [if_pos h]; exact ⟨le_of_lt h, le_refl _⟩
        · rw [if_neg h]; exact ⟨le_refl _, not_lt.1 h⟩
      refine ⟨le_trans a hp.1, ?_⟩
      intro r hr
      rcases List.mem_cons.1 hr with rfl | hr
      · exact le_trans a hp.2
      · exact b r hr

theorem le_highest : ∀ (p : Pt ℚ) (qs : List (Pt ℚ)) (k : Fin 3), p k ≤ highest p qs k ∧ ∀ q ∈ qs, q k ≤ highest p qs k
  | p, [], k => ⟨le_refl _, by simp⟩
  | p, q :: qs, k => by
      obtain ⟨a, b⟩ := le_highest (fun k => if p k < q k then q k else p k) qs k
      have hp : p k ≤ (if p k < q k then q k else p k) ∧ q k ≤ (if p k < q k then q k else p k) := by
        by_cases h : p k < q k
        · rw [if_pos h]; exact ⟨le_of_lt h, le_refl _⟩
        · rw [if_neg h]; exact ⟨le_refl _, not_lt.1 h⟩
      refine ⟨le_trans hp.1 a, ?_⟩
      intro r hr
      rcases List.mem_cons.1 hr with rfl | hr
      · exact le_trans hp.2 a
      · exact b r hr

theorem loadNucleus_inside (shrink : ℚ) (v : Pt ℚ) (vs : List (Pt ℚ)) :
    ∀ p ∈ (loadNucleus shrink v vs).1, ∀ k, 0 ≤ p k ∧ p k ≤ (loadNucleus shrink v vs).2 k := by
  intro p hp k
  unfold loadNucleus at hp ⊢
  simp only at hp ⊢
  rw [List.map_cons, List.map_cons] at hp
  obtain ⟨a, b⟩ := lowest_le (fun k => v k / shrink) (vs.map (fun (p : Pt ℚ) (k : Fin 3) => p k / shrink)) k
  obtain ⟨d, e⟩ := le_highest (fun k => v k / shrink) (vs.map (fun (p : Pt ℚ) (k : Fin 3) => p k / shrink)) k
  rcases List.mem_cons.1 hp with rfl | hp
  · exact ⟨sub_nonneg.2 a, sub_le_sub_right d _⟩
  · obtain ⟨q, hq, rfl⟩ := List.mem_map.1 hp
    exact ⟨sub_nonneg.2 (b q hq), sub_le_sub_right (e q hq) _⟩

/-- All nuclei are in the box `[0, nuclei_box.max]`. -/
theorem loadNuclei_inside (shrink : ℚ) (v : Pt ℚ) (vs : List (Pt ℚ)) (rest : List (Pt ℚ × List (Pt ℚ))) :
    ∀ ps ∈ (loadNuclei shrink v vs rest).1, ∀ p ∈ ps, ∀ k, 0 ≤ p k ∧ p k ≤ (loadNuclei shrink v vs rest).2 k := by
  intro ps hps p hp k
  unfold loadNuclei at hps ⊢
  simp only at hps ⊢
  obtain ⟨a, b⟩ := le_highest (loadNucleus shrink v vs).2 ((rest.map (fun l => loadNucleus shrink l.1 l.2)).map Prod.snd) k
  rcases List.mem_cons.1 hps with rfl | hps
  · obtain ⟨x, y⟩ := loadNucleus_inside shrink v vs p hp k
    exact ⟨x, le_trans y a⟩
  · obtain ⟨q, hq, rfl⟩ := List.mem_map.1 hps
    obtain ⟨l, hl, rfl⟩ := List.mem_map.1 hq
    obtain ⟨x, y⟩ := loadNucleus_inside shrink l.1 l.2 p hp k
    exact ⟨x, le_trans y (b _ (List.mem_map_of_mem hq))⟩

/-! ## Vessels -/

theorem mem_jobs {vmax : Pt ℚ} {x y z : Nat} {b : Pt ℚ} (h : b ∈ jobs vmax x y z) : ∃ i : Fin 3 → Nat, ∀ k, b k = i k * vmax k := by
  simp only [jobs, List.mem_flatMap, List.mem_map, List.mem_range] at h
  obtain ⟨i, _, j, _, k, _, rfl⟩ := h
  refine ⟨pt3 i j k, fun a => ?_⟩
  match a with
  | 0 => rfl
  | 1 => rfl
  | 2 => rfl

theorem jobs_nodup {vmax : Pt ℚ} (hv : ∀ k, 0 < vmax k) (x y z : Nat) : (jobs vmax x y z).Nodup := by
  have inj : ∀ (k : Fin 3) {a b : Nat}, (a : ℚ) * vmax k = b * vmax k → a = b := by
    intro k a b h
    exact_mod_cast mul_right_cancel₀ (ne_of_gt (hv k)) h
  unfold jobs
  rw [List.nodup_flatMap]
  constructor
  · intro i _
    rw [List.nodup_flatMap]
    constructor
    · intro j _
      refine List.Nodup.map ?_ List.nodup_range
      intro a b h
      exact inj 2 (congrFun h 2)
    · refine List.Pairwise.imp ?_ (List.nodup_range (n := y))
      intro a b hab
      simp only [Function.onFun]
      rw [List.disjoint_left]
      intro p hp hq
      obtain ⟨k1, _, rfl⟩ := List.mem_map.1 hp
      obtain ⟨k2, _, e⟩ := List.mem_map.1 hq
      exact hab (inj 1 (congrFun e 1)).symm
  · refine List.Pairwise.imp ?_ (List.nodup_range (n := x))
    intro a b hab
    simp only [Function.onFun]
    rw [List.disjoint_left]
    intro p hp hq
    simp only [List.mem_flatMap, List.mem_map] at hp hq
    obtain ⟨j1, _, k1, _, rfl⟩ := hp
    obtain ⟨j2, _, k2, _, e⟩ := hq
    exact hab (inj 0 (congrFun e 0)).symm

theorem bases_apart {c : Cfg} {x y z : Nat} {a b : Pt ℚ} (ha : a ∈ jobs c.vmax x y z) (hb : b ∈ jobs c.vmax x y z) (hv : ∀ k, 0 < c.vmax k)
    (hne : a ≠ b) {p q : Pt ℚ} (hp : Within c.nb p c.vmax a) (hq : Within c.nb q c.vmax b) : Apart c.nb p q := by
  obtain ⟨i, hi⟩ := mem_jobs ha
  obtain ⟨j, hj⟩ := mem_jobs hb
  have : ∃ k, i k ≠ j k := by
    by_contra hh
    push Not at hh
    exact hne (funext fun k => by rw [hi, hj, hh])
  obtain ⟨k, hk⟩ := this
  refine ⟨k, ?_⟩
  obtain ⟨p1, p2⟩ := hp k
  obtain ⟨q1, q2⟩ := hq k
  rw [hi] at p1 p2
  rw [hj] at q1 q2
  have := hv k
  rcases Nat.lt_or_gt_of_ne hk with hl | hl
  · left
    have : (i k : ℚ) + 1 ≤ j k := by exact_mod_cast hl
    nlinarith
  · right
    have : (j k : ℚ) + 1 ≤ i k := by exact_mod_cast hl
    nlinarith

/-! ## C79 -/

section
variable {M α : Type} [LinearOrder α] [BoundedOrder α] {fc : FloatCode α} {K : Packing M α} {c : Cfg}

/-- **C79.** When the generator ends, its two files open as tiles with the same number of objects, and the object at a place of the second
file is the one made together with the object at the same place of the first file: prototypes moved, their voxels moved with them.
The number of objects is one less per vessel than asked for; the number reported is that of the objects plus one per vessel.
The first prototype is never used. -/
theorem C79_files {n : Nat} (hn : 0 < n) (x y z : Nat) (s : Conc.Generator.St (Pt ℚ) n)
    (h : Conc.Reach (Conc.Generator.Step (jobResult fc K c)) (Conc.Generator.start n (jobs c.vmax x y z)) s) (hs : ∀ t, s.pc t = .stopped)
    (h1 : s.out1.length < 256 ^ 8) (h2 : s.out2.length < 256 ^ 8) :
    ∃ made : List Placed, Holds fc K s.out1 (made.map (fun p => (p.poly, p.shift))) ∧
      Holds fc K s.out2 (made.map (fun p => (p.poly2, p.shift2))) ∧
      made.length = x * y * z * (max c.num 1 - 1).toNat ∧ s.total = made.length + x * y * z ∧
      ∀ p ∈ made, 1 ≤ p.poly ∧ p.poly < c.protos ∧ 1 ≤ p.poly2 ∧ p.poly2 < c.protos := by
  obtain ⟨L, _, b, f1, f2, a1, a2⟩ := run_done hn (jobs c.vmax x y z) s h hs
  rw [jobs_length] at a1 a2
  refine ⟨L.flatMap Prod.snd, f1 h1, f2 h2, a1, ?_, ?_⟩
  · rw [a1, a2]
    obtain ⟨m, hm⟩ : ∃ m : Nat, max c.num 1 = (m : Int) + 1 := ⟨(max c.num 1 - 1).toNat, by omega⟩
    rw [hm]
    have e1 : ((m : Int) + 1).toNat = m + 1 := by omega
    have e2 : ((m : Int) + 1 - 1).toNat = m := by omega
    rw [e1, e2, Nat.mul_add, Nat.mul_one]
  · intro p hp
    obtain ⟨l, hl, hp⟩ := List.mem_flatMap.1 hp
    obtain ⟨_, _, _, hg⟩ := b l hl
    obtain ⟨g, _⟩ := (genLoop_done hg).1 p hp
    exact ⟨g.poly.1, g.poly.2, g.poly2.1, g.poly2.2⟩

theorem vesselLoop_done {limit : Nat} {v : Proto M} : ∀ {ss : List (Pt ℚ)} {buf b : List Nat}, buf.length ≤ limit →
    vesselLoop fc K limit v ss buf = .done b → b = buf ++ dataFile fc (ss.map (record K v)) ∧ b.length ≤ limit
  | [], buf, b, hl, h => by
      unfold vesselLoop at h
      injection h with h
      subst h
      exact ⟨by simp [dataFile], hl⟩
  | s :: ss, buf, b, hl, h => by
      unfold vesselLoop organize at h
      rw [Res.bind_done] at h
      obtain ⟨x, h1, h⟩ := h
      simp only at h1
      by_cases hx : (buf ++ putRecord fc (record K v s)).length ≤ limit
      · rw [if_pos hx] at h1
        injection h1 with h1
        subst h1
        obtain ⟨e, e'⟩ := vesselLoop_done hx h
        exact ⟨by rw [e]; simp [dataFile], e'⟩
      · rw [if_neg hx] at h1; cases h1

/-- **C79.** The file of vessels opens as a tile with one object per vessel, in order, at the places of the jobs, unless the vessel's
record is too large for the buffer (200000 bytes). -/
theorem C79_vessels (v : Proto M) (ss : List (Pt ℚ)) (file : List Nat) (h : vesselFile fc K v ss = .done file)
    (hsz : ss.length * 200000 < 256 ^ 8) :
    ∃ t : Tile α, parseRaw fc file = some t ∧ t.objects.length = ss.length ∧
      ∀ i (h : i < ss.length) (h' : i < t.objects.length), List.Forall₂ (MovedBy K.toF ss[i]) v.voxels t.objects[i].voxels ∧
        retrieve file t.objects[i] = K.pack v.mesh ss[i] := by
  obtain ⟨e, hl⟩ := vesselLoop_done (by simp) h
  rw [List.nil_append] at e
  subst e
  have hfit : ∀ r ∈ ss.map (record K v), r.Fits := by
    intro r hr
    have h1 : (putRecord fc r).length ≤ (dataFile fc (ss.map (record K v))).length := by
      unfold dataFile
      rw [List.length_flatMap]
      exact List.single_le_sum (by simp) _ (List.mem_map_of_mem hr)
    have h2 : r.data.length + r.voxels.length ≤ (putRecord fc r).length := by
      unfold putRecord
      simp only [List.length_append, List.length_flatMap]
      have : ∀ vs : List (Voxel α), vs.length ≤ (vs.map (fun v => (putVoxel fc v).length)).sum := by
        intro vs
        induction vs with
        | nil => simp
        | cons v vs ih =>
          rw [List.map_cons, List.sum_cons, List.length_cons]
          have : 1 ≤ (putVoxel fc v).length := by simp [putVoxel, putPt, put_length]
          omega
      have := this r.voxels
      omega
    exact ⟨by omega, by omega⟩
  obtain ⟨t, t1, _, t3, t4⟩ := C29_parse fc (ss.map (record K v)) hfit (by omega)
  refine ⟨t, t1, by rw [t3, List.length_map], ?_⟩
  intro i hi hi'
  obtain ⟨_, a, b, _⟩ := t4 i (by rw [List.length_map]; exact hi) hi'
  rw [List.getElem_map] at a b
  exact ⟨by rw [a]; exact moved_all _ _ _, b⟩

/-- **C79.** How many vessels and nuclei there are, for the numbers asked for: if `root` is at least 1 and at most the square root of the
number of vessels, there are at most as many vessels as asked for, fewer than `root`² are missing, and, one nucleus less being made
per vessel than computed, between one and two nuclei per vessel are missing of those asked for. -/
theorem C79_counts {root nv nu : Nat} (h1 : 1 ≤ root) (h2 : root * root ≤ nv) (hnu : 1 ≤ nu) :
    ∃ z per, dims root nv nu = .done (root, z, per) ∧ root * root * z ≤ nv ∧ nv < root * root * z + root * root ∧
      nu ≤ per ∧ root * root * z * (per - 1) + root * root * z ≤ nu * nv ∧
      nu * nv < root * root * z * (per - 1) + 2 * (root * root * z) := by
  have hr : 0 < root * root := Nat.mul_pos h1 h1
  have hz : 0 < nv / (root * root) := Nat.div_pos h2 hr
  refine ⟨nv / (root * root), nu * nv / (root * root * (nv / (root * root))), ?_, Nat.mul_div_le _ _, ?_, ?_⟩
  · unfold dims
    rw [if_neg (by omega), if_neg (by omega)]
  · have := Nat.div_add_mod nv (root * root)
    have := Nat.mod_lt nv hr
    omega
  · obtain ⟨j, hj⟩ : ∃ j, root * root * (nv / (root * root)) = j := ⟨_, rfl⟩
    have hjp : 0 < j := by rw [← hj]; exact Nat.mul_pos hr hz
    have hjn : j ≤ nv := by rw [← hj]; exact Nat.mul_div_le _ _
    rw [hj]
    have hper : nu ≤ nu * nv / j := by
      rw [Nat.le_div_iff_mul_le hjp]
      exact Nat.mul_le_mul_left _ hjn
    obtain ⟨m, hm⟩ : ∃ m, nu * nv / j = m + 1 := ⟨nu * nv / j - 1, by omega⟩
    have e1 := Nat.div_add_mod (nu * nv) j
    have e2 := Nat.mod_lt (nu * nv) hjp
    rw [hm] at e1 hper ⊢
    rw [Nat.mul_add, Nat.mul_one] at e1
    refine ⟨hper, ?_, ?_⟩
    · rw [Nat.add_sub_cancel]; omega
    · rw [Nat.add_sub_cancel]; omega
end

/-! ## C80 -/

section
variable {α : Type} [LinearOrder α] [BoundedOrder α] {fc : FloatCode α} {c : Cfg}

/-- Specification: the vertices of a prototype moved. -/
def moved (ps : List (Pt ℚ)) (s : Pt ℚ) : List (Pt ℚ) := ps.map (fun p k => p k + s k)

/-- Specification: on some axis, all vertices of one object are on one side of all vertices of the other. -/
def Separate (A B : List (Pt ℚ)) : Prop := ∃ k, (∀ a ∈ A, ∀ b ∈ B, a k ≤ b k) ∨ (∀ a ∈ A, ∀ b ∈ B, b k ≤ a k)

theorem separate_of_apart {nb s t : Pt ℚ} {A B : List (Pt ℚ)} (hA : ∀ p ∈ A, ∀ k, 0 ≤ p k ∧ p k ≤ nb k)
    (hB : ∀ p ∈ B, ∀ k, 0 ≤ p k ∧ p k ≤ nb k) (h : Apart nb s t) : Separate (moved A s) (moved B t) := by
  obtain ⟨k, h | h⟩ := h
  · refine ⟨k, Or.inl ?_⟩
    intro a ha b hb
    obtain ⟨p, hp, rfl⟩ := List.mem_map.1 ha
    obtain ⟨q, hq, rfl⟩ := List.mem_map.1 hb
    have := (hA p hp k).2
    have := (hB q hq k).1
    show p k + s k ≤ q k + t k
    linarith
  · refine ⟨k, Or.inr ?_⟩
    intro a ha b hb
    obtain ⟨p, hp, rfl⟩ := List.mem_map.1 ha
    obtain ⟨q, hq, rfl⟩ := List.mem_map.1 hb
    have := (hA p hp k).1
    have := (hB q hq k).2
    show q k + t k ≤ p k + s k
    linarith

/-- **C80.** The nuclei of a whole data set (all vessels), made from prototypes as loaded: no two nuclei of the first file overlap, each
is in the box of one of the vessels; each nucleus of the second file is displaced from the nucleus at the same place of the first file
by between 1% and the given percentage of the largest prototype on every axis. -/
theorem C80_no_overlap (K : Packing (List (Pt ℚ)) α) (shrink : ℚ) (v : Pt ℚ) (vs : List (Pt ℚ)) (rest : List (Pt ℚ × List (Pt ℚ)))
    (hK : K.protos.map Proto.mesh = (loadNuclei shrink v vs rest).1) (hc : c.nb = (loadNuclei shrink v vs rest).2)
    (hnb : ∀ k, 0 < c.nb k) (hv : ∀ k, 0 < c.vmax k)
    {n : Nat} (hn : 0 < n) (x y z : Nat) (s : Conc.Generator.St (Pt ℚ) n)
    (h : Conc.Reach (Conc.Generator.Step (jobResult fc K c)) (Conc.Generator.start n (jobs c.vmax x y z)) s) (hs : ∀ t, s.pc t = .stopped)
    (h1 : s.out1.length < 256 ^ 8) (h2 : s.out2.length < 256 ^ 8) :
    ∃ made : List Placed, Holds fc K s.out1 (made.map (fun p => (p.poly, p.shift))) ∧
      Holds fc K s.out2 (made.map (fun p => (p.poly2, p.shift2))) ∧
      made.Pairwise (fun p q => ∀ a b, K.protos[p.poly]? = some a → K.protos[q.poly]? = some b →
        Separate (moved a.mesh p.shift) (moved b.mesh q.shift)) ∧
      ∀ p ∈ made, (∀ a, K.protos[p.poly]? = some a → ∃ b ∈ jobs c.vmax x y z, ∀ w ∈ moved a.mesh p.shift, ∀ k,
          b k ≤ w k ∧ w k ≤ b k + c.vmax k) ∧
        ∀ k, Displaced c (p.shift k) (p.shift2 k) k := by
  obtain ⟨L, hperm, b, f1, f2, _, _⟩ := run_done hn (jobs c.vmax x y z) s h hs
  have hin : ∀ (i : Nat) (a : Proto (List (Pt ℚ))), K.protos[i]? = some a → ∀ p ∈ a.mesh, ∀ k, 0 ≤ p k ∧ p k ≤ c.nb k := by
    intro i a ha
    rw [hc]
    refine loadNuclei_inside shrink v vs rest a.mesh ?_
    rw [← hK]
    exact List.mem_map_of_mem (List.mem_of_getElem? ha)
  have hone : ∀ l ∈ L, l.2.Pairwise (fun p q => Apart c.nb p.shift q.shift) ∧
      (∀ p ∈ l.2, Within c.nb p.shift c.vmax l.1 ∧ (∀ k, Displaced c (p.shift k) (p.shift2 k) k)) := by
    intro l hl
    obtain ⟨_, _, _, hg⟩ := b l hl
    obtain ⟨a1, a2⟩ := C80_one_vessel hnb (fun k => (hv k).le) hg
    exact ⟨a1, fun p hp => ⟨(a2 p hp).1, (a2 p hp).2.1⟩⟩
  have hmem : ∀ l ∈ L, l.1 ∈ jobs c.vmax x y z := fun l hl => hperm.subset (List.mem_map_of_mem hl)
  refine ⟨L.flatMap Prod.snd, f1 h1, f2 h2, ?_, ?_⟩
  · refine List.Pairwise.imp (R := fun p q => Apart c.nb p.shift q.shift) ?_ ?_
    · intro p q hpq a b' ha hb
      exact separate_of_apart (hin _ _ ha) (hin _ _ hb) hpq
    · rw [List.pairwise_flatMap]
      refine ⟨fun l hl => (hone l hl).1, ?_⟩
      have hnd : (L.map Prod.fst).Nodup := hperm.nodup_iff.2 (jobs_nodup hv x y z)
      have : L.Pairwise (fun a b => a.1 ≠ b.1) := by
        unfold List.Nodup at hnd
        rwa [List.pairwise_map] at hnd
      refine List.Pairwise.imp_of_mem ?_ this
      intro l m hl hm hne p hp q hq
      exact bases_apart (hmem l hl) (hmem m hm) hv hne ((hone l hl).2 p hp).1 ((hone m hm).2 q hq).1
  · intro p hp
    obtain ⟨l, hl, hp⟩ := List.mem_flatMap.1 hp
    obtain ⟨w1, w2⟩ := (hone l hl).2 p hp
    refine ⟨?_, w2⟩
    intro a ha
    refine ⟨l.1, hmem l hl, ?_⟩
    intro w hw k
    obtain ⟨q, hq, rfl⟩ := List.mem_map.1 hw
    obtain ⟨x1, x2⟩ := hin _ _ ha q hq k
    obtain ⟨y1, y2⟩ := w1 k
    show l.1 k ≤ q k + p.shift k ∧ q k + p.shift k ≤ l.1 k + c.vmax k
    constructor <;> linarith
end

/-! ### The vessel -/

/-- **C80, partial.** The slots of nuclei keep away from the voxels of the vessel if, on every axis, the size of a slot happens to be the
number of slots (the code divides by the number instead of the size). Voxels are not below 0. -/
theorem C80_vessel_partial {c : Cfg} (hnb : ∀ k, 0 < c.nb k) (heq : ∀ k, c.nb k = c.n k) {voxels : List (Box ℚ)} {garbage : Nat → Bool}
    (hm : markVessel c.n voxels garbage = .done c.vtaken) (hv : ∀ b ∈ voxels, ∀ k, 0 ≤ b.min k ∧ b.min k ≤ b.max k) {i : Nat}
    (hi : i < c.total) (hfree : c.vtaken i = false) : ∀ b ∈ voxels, ∃ k, b.max k ≤ c.shift (fun _ => 0) i k ∨ c.shift (fun _ => 0) i k + c.nb k ≤ b.min k := by
  have mono : ∀ (bs : List (Box ℚ)) (g t : Nat → Bool), markVessel c.n bs g = .done t → (g i = true → t i = true) ∧
      ∀ b ∈ bs, (i : Int) ∈ voxelSlots c.n b → t i = true := by
    intro bs
    induction bs with
    | nil =>
      intro g t h
      unfold markVessel at h
      injection h with h
      subst h
      exact ⟨id, by simp⟩
    | cons b bs ih =>
      intro g t h
      unfold markVessel at h
      by_cases h0 : c.n 0 = 0 ∨ c.n 1 = 0 ∨ c.n 2 = 0
      · rw [if_pos h0] at h; cases h
      rw [if_neg h0] at h
      by_cases h3 : ((voxelSlots c.n b).all (fun i => decide (0 ≤ i) && decide (i < c.n 0 * c.n 1 * c.n 2))) = true
      · rw [if_pos h3] at h
        obtain ⟨i1, i2⟩ := ih _ _ h
        refine ⟨fun hg => i1 (by rw [hg]; rfl), ?_⟩
        intro b' hb' hs
        rcases List.mem_cons.1 hb' with rfl | hb'
        · exact i1 (by rw [decide_eq_true hs, Bool.or_true])
        · exact i2 b' hb' hs
      · rw [if_neg h3] at h; cases h
  intro b hb
  by_contra hcon
  push Not at hcon
  have hin : (i : Int) ∈ voxelSlots c.n b := by
    unfold voxelSlots
    simp only [List.mem_flatMap, List.mem_map, List.mem_range]
    have hax : ∀ k, ∃ a : Nat, a < (truncQ (b.max k / c.n k) - truncQ (b.min k / c.n k) + 1).toNat ∧
        (truncQ (b.min k / c.n k) + (a : Int)) = c.coord i k := by
      intro k
      obtain ⟨h1, h2⟩ := hcon k
      unfold Cfg.shift at h1 h2
      simp only [add_zero] at h1 h2
      have hp := hnb k
      obtain ⟨m0, m1⟩ := hv b hb k
      have hmm : 0 ≤ b.max k := le_trans m0 m1
      rw [← heq k]
      unfold truncQ
      rw [if_pos (div_nonneg m0 hp.le), if_pos (div_nonneg hmm hp.le)]
      have c1 : ⌊b.min k / c.nb k⌋ ≤ (c.coord i k : Int) := by
        have : ⌊b.min k / c.nb k⌋ < (c.coord i k : Int) + 1 := by
          rw [Int.floor_lt, div_lt_iff₀ hp]
          push_cast
          linarith
        omega
      have c2 : (c.coord i k : Int) ≤ ⌊b.max k / c.nb k⌋ := by
        rw [Int.le_floor, le_div_iff₀ hp]
        push_cast
        linarith
      have c0 : 0 ≤ ⌊b.min k / c.nb k⌋ := Int.floor_nonneg.2 (div_nonneg m0 hp.le)
      exact ⟨((c.coord i k : Int) - ⌊b.min k / c.nb k⌋).toNat, by omega, by omega⟩
    obtain ⟨a0, l0, e0⟩ := hax 0
    obtain ⟨a1, l1, e1⟩ := hax 1
    obtain ⟨a2, l2, e2⟩ := hax 2
    refine ⟨_, ⟨a2, l2, rfl⟩, _, ⟨a1, l1, rfl⟩, _, ⟨a0, l0, rfl⟩, ?_⟩
    rw [e0, e1, e2]
    have : i = c.coord i 2 * (c.n 0 * c.n 1) + (c.coord i 1 * c.n 0 + c.coord i 0) := by
      show i = i / (c.n 0 * c.n 1) * (c.n 0 * c.n 1) + ((i % (c.n 0 * c.n 1)) / c.n 0 * c.n 0 + (i % (c.n 0 * c.n 1)) % c.n 0)
      rw [Nat.div_add_mod', Nat.div_add_mod']
    rw [eq_comm]
    calc (i : Int) = ((c.coord i 2 * (c.n 0 * c.n 1) + (c.coord i 1 * c.n 0 + c.coord i 0) : Nat) : Int) := by rw [← this]
      _ = _ := by push_cast; ring
  have := (mono voxels garbage c.vtaken hm).2 b hb hin
  rw [hfree] at this
  cases this

/-! ### Undefined behaviour -/

/-- **C80, counterexample.** Whatever is asked for (at least two nuclei per vessel), there are random numbers with which the array is read one
beyond its end: `get_rand_number` counts from 1. -/
theorem C80_counterexample_index (c : Cfg) (base : Pt ℚ) (taken : Nat → Bool) (hnum : 2 ≤ c.num) :
    ∃ rs, generate c base taken rs = .ub := by
  refine ⟨[c.total - 1], ?_⟩
  unfold generate
  rw [genLoop, if_pos (by omega)]
  have : pickSlot c taken [c.total - 1] = .ub := by
    unfold pickSlot
    by_cases h0 : c.total = 0
    · rw [if_pos h0]
    · rw [if_neg h0, if_pos]
      rw [Nat.mod_eq_of_lt (by omega)]
      omega
  rw [this]
  rfl

/-- **C80, counterexample.** With a single prototype no run is well defined (`rand()%0`). -/
theorem C80_counterexample_single (c : Cfg) (base : Pt ℚ) (taken : Nat → Bool) (hnum : 2 ≤ c.num) (hp : c.protos ≤ 1) (rs : List Nat)
    (x : List Placed × Int × List Nat) : generate c base taken rs ≠ .done x := by
  intro h
  obtain ⟨ps, g, rest⟩ := x
  obtain ⟨a, _⟩ := generate_count h
  have : ps ≠ [] := by rintro rfl; simp at a; omega
  obtain ⟨p, hp'⟩ := List.exists_mem_of_ne_nil ps this
  obtain ⟨gd, _⟩ := (genLoop_done h).1 p hp'
  have := gd.poly
  omega

/-! ### Examples -/
namespace Ex

/-- A vessel of 100 x 100 x 100 and nuclei of 5 x 5 x 5: 20 slots per axis. -/
def cfg (vt : Nat → Bool) (num : Int) : Cfg := ⟨fun _ => 100, fun _ => 5, num, 100, 3, vt⟩

theorem cfg_n (vt num) (k : Fin 3) : (cfg vt num).n k = 20 := by
  show ⌊(100 : ℚ) / 5⌋₊ = 20
  rw [show (100 : ℚ) / 5 = ((20 : Nat) : ℚ) by norm_num, Nat.floor_natCast]

theorem cfg_total (vt num) : (cfg vt num).total = 8000 := by
  unfold Cfg.total; rw [cfg_n, cfg_n, cfg_n]

/-- The voxel [50,60]³ of the vessel. -/
def vox : Box ℚ := ⟨fun _ => 50, fun _ => 60⟩

theorem vox_slots : voxelSlots (fun _ => 20) vox = [842, 843, 862, 863, 1242, 1243, 1262, 1263] := by decide +kernel

/-- What is marked for it in an array that happens to be all false. -/
def marked : Nat → Bool := fun i => false || decide ((i : Int) ∈ voxelSlots (fun _ => 20) vox)

/-- **C80, counterexample.** The slot at (50,50,50) is free although the voxel [50,60]³ of the vessel fills it: a nucleus is put there. -/
theorem C80_counterexample_vessel :
    markVessel (fun _ => 20) [vox] (fun _ => false) = .done marked ∧ marked 4210 = false ∧
    (∀ k, (cfg marked 2).shift (fun _ => 0) 4210 k = 50) ∧
    ∃ ps g rest, generate (cfg marked 2) (fun _ => 0) (fun _ => false) [4209, 0, 0, 0, 0, 0, 0, 0, 1] = .done (ps, g, rest) ∧
      ∃ p ∈ ps, ∀ k, p.shift k = 50 := by
  have hm : marked 4210 = false := by decide +kernel
  have hsh : ∀ k, (cfg marked 2).shift (fun _ => 0) 4210 k = 50 := by
    intro k
    unfold Cfg.shift
    have : (cfg marked 2).coord 4210 k = 10 := by
      unfold Cfg.coord
      rw [cfg_n, cfg_n]
      revert k
      decide
    rw [this]
    show ((10 : Nat) : ℚ) * 5 + 0 = 50
    norm_num
  refine ⟨?_, hm, hsh, ?_⟩
  · unfold markVessel markVessel
    rw [if_neg (by decide), vox_slots, if_pos (by decide)]
    unfold marked
    rw [vox_slots]
  · have hp : pickSlot (cfg marked 2) (fun _ => false) [4209, 0, 0, 0, 0, 0, 0, 0, 1] = .done (4210, [0, 0, 0, 0, 0, 0, 0, 1]) := by
      unfold pickSlot
      rw [cfg_total, if_neg (by decide), if_neg (by decide), if_neg]
      show ¬ (false || marked 4210) = true
      rw [hm]; decide
    have hg : ∃ ps g rest, genLoop (cfg marked 2) (fun _ => 0) 3 0 (fun _ => false) [4209, 0, 0, 0, 0, 0, 0, 0, 1] = .done (ps, g, rest) ∧
        ∃ p ∈ ps, p.shift = (cfg marked 2).shift (fun _ => 0) 4210 := by
      unfold genLoop
      rw [if_pos (by decide), hp]
      exact ⟨_, _, _, rfl, _, List.mem_cons_self .., rfl⟩
    obtain ⟨ps, g, rest, e, p, hp1, hp2⟩ := hg
    exact ⟨ps, g, rest, e, p, hp1, fun k => by rw [hp2]; exact hsh k⟩

/-- **C80, counterexample.** The marking writes outside the array: nuclei of 20 x 20 x 20 (5 slots per axis), a voxel that ends at 100. -/
theorem C80_counterexample_marking (garbage : Nat → Bool) :
    markVessel (fun _ => 5) [⟨fun _ => 80, fun _ => 100⟩] garbage = .ub := by
  unfold markVessel
  rw [if_neg (by decide), if_neg]
  decide +kernel

/-! The hypotheses of the theorems are met. -/

/-- Three prototypes: two tetrahedra of size 5 and one of size 2, without voxels; all bytes are 7. -/
def tet (a : ℚ) : Pt ℚ × List (Pt ℚ) := (pt3 0 0 0, [pt3 a 0 0, pt3 0 a 0, pt3 0 0 a])
def protoPts : List (List (Pt ℚ)) := (loadNuclei 20 (tet 100).1 (tet 100).2 [tet 100, tet 40]).1
def pk : Packing (List (Pt ℚ)) (Fin (256 ^ 4)) := ⟨protoPts.map (fun p => ⟨p, []⟩), fun _ _ => [7], fun _ => 0⟩

theorem ex_nb : (loadNuclei 20 (tet 100).1 (tet 100).2 [tet 100, tet 40]).2 = (fun _ => 5) := by
  funext k
  revert k
  decide +kernel

/-- Two nuclei for a vessel: polyhedra 1 and 2 for the first file, 2 and 1 for the second. -/
theorem ex_gen (base : Pt ℚ) : ∃ ps g, genLoop (cfg (fun _ => false) 3) base 4 0 (fun _ => false) [9, 0, 0, 0, 0, 0, 0, 0, 1, 9, 10, 1, 5, 0, 5, 60, 5, 60, 0] =
      .done (ps, g, []) ∧ ps.map Placed.poly = [1, 2] ∧ ps.map Placed.poly2 = [2, 1] := by
  have hp : ∀ (t : Nat → Bool) (r : Nat) (rs : List Nat), r + 1 < 8000 → t (r + 1) = false →
      pickSlot (cfg (fun _ => false) 3) t (r :: rs) = .done (r + 1, rs) := by
    intro t r rs hr ht
    unfold pickSlot
    rw [cfg_total, Nat.mod_eq_of_lt (by omega), if_neg (by decide), if_neg (by omega), if_neg]
    show ¬ (t (r + 1) || false) = true
    rw [ht]; decide
  have hq : ∀ (t : Nat → Bool) (r : Nat) (rs : List Nat), r + 1 < 8000 → t (r + 1) = true →
      pickSlot (cfg (fun _ => false) 3) t (r :: rs) = pickSlot (cfg (fun _ => false) 3) t rs := by
    intro t r rs hr ht
    conv_lhs => unfold pickSlot
    rw [cfg_total, Nat.mod_eq_of_lt (by omega), if_neg (by decide), if_neg (by omega), if_pos]
    show (t (r + 1) || false) = true
    rw [ht]; decide
  unfold genLoop
  rw [if_pos (by decide), hp _ _ _ (by decide) (by rfl)]
  have e : genLoop (cfg (fun _ => false) 3) base 3 (0 + 1) (Function.update (fun _ => false) 10 true) [9, 10, 1, 5, 0, 5, 60, 5, 60, 0] =
      (do
        let (idx, rs) ← (Res.done (11, [1, 5, 0, 5, 60, 5, 60, 0]) : Res (Nat × List Nat))
        let taken := Function.update (Function.update (fun _ => false) 10 true) idx true
        let shift := (cfg (fun _ => false) 3).shift base idx
        let (p, rs) ← pickProto (cfg (fun _ => false) 3) rs
        let (d0, rs) ← displace (cfg (fun _ => false) 3) shift 0 rs
        let (d1, rs) ← displace (cfg (fun _ => false) 3) shift 1 rs
        let (d2, rs) ← displace (cfg (fun _ => false) 3) shift 2 rs
        let (p2, rs) ← pickProto (cfg (fun _ => false) 3) rs
        let (ps, g, rs) ← genLoop (cfg (fun _ => false) 3) base 2 (0 + 1 + 1) taken rs
        pure (⟨idx, shift, p, pt3 d0 d1 d2, p2⟩ :: ps, g, rs)) := by
    conv_lhs => unfold genLoop
    rw [if_pos (by decide), hq _ _ _ (by decide) (by rfl), hp _ _ _ (by decide) (by rfl)]
  show ∃ ps g, (genLoop (cfg (fun _ => false) 3) base 3 (0 + 1) (Function.update (fun _ => false) 10 true) [9, 10, 1, 5, 0, 5, 60, 5, 60, 0] >>= _)
    = _ ∧ _
  rw [e]
  exact ⟨_, _, rfl, rfl, rfl⟩

theorem ex_job (base : Pt ℚ) : ∃ r, jobResult FloatCode.fin pk (cfg (fun _ => false) 3) base r := by
  obtain ⟨ps, g, e, e1, e2⟩ := ex_gen base
  have horg : ∀ i s buf, i < 3 → buf.length ≤ 1000 → ∃ b, organizeAt FloatCode.fin pk i s buf = .done b ∧ b.length = buf.length + 17 := by
    intro i s buf hi hb
    have hr : ∀ (p : Proto (List (Pt ℚ))), p.voxels = [] → (putRecord FloatCode.fin (record pk p s)).length = 17 := by
      intro p hp
      unfold record
      rw [hp]
      rfl
    have hm : ∀ j : Fin 3, ∃ p, pk.protos[j.val]? = some p ∧ p.voxels = [] := by
      intro j
      match j with
      | 0 => exact ⟨_, rfl, rfl⟩
      | 1 => exact ⟨_, rfl, rfl⟩
      | 2 => exact ⟨_, rfl, rfl⟩
    obtain ⟨p, hp1, hp2⟩ := hm ⟨i, hi⟩
    refine ⟨buf ++ putRecord FloatCode.fin (record pk p s), ?_, ?_⟩
    · unfold organizeAt organize
      simp only at hp1
      rw [hp1]
      simp only
      rw [if_pos]
      rw [List.length_append, hr p hp2]
      show _ ≤ 50 * 2 ^ 20
      omega
    · rw [List.length_append, hr p hp2]
  have hfill : ∀ (l : List Placed) (b1 b2 : List Nat), (∀ p ∈ l, p.poly < 3 ∧ p.poly2 < 3) → b1.length + 17 * l.length ≤ 1000 →
      b2.length + 17 * l.length ≤ 1000 → ∃ c, fillBuffers FloatCode.fin pk l b1 b2 = .done c := by
    intro l
    induction l with
    | nil => intro b1 b2 _ _ _; exact ⟨_, rfl⟩
    | cons p l ih =>
      intro b1 b2 h h1 h2
      rw [List.length_cons] at h1 h2
      obtain ⟨x, hx, lx⟩ := horg p.poly p.shift b1 (h p (List.mem_cons_self ..)).1 (by omega)
      obtain ⟨y, hy, ly⟩ := horg p.poly2 p.shift2 b2 (h p (List.mem_cons_self ..)).2 (by omega)
      obtain ⟨c, hc⟩ := ih x y (fun p hp => h p (List.mem_cons_of_mem _ hp)) (by omega) (by omega)
      refine ⟨c, ?_⟩
      unfold fillBuffers
      rw [hx, Res.bind_done]
      refine ⟨x, rfl, ?_⟩
      rw [hy, Res.bind_done]
      exact ⟨y, rfl, hc⟩
  have hlen : ps.length = 2 := by rw [← List.length_map (f := Placed.poly), e1]; rfl
  obtain ⟨cc, hcc⟩ := hfill ps [] [] (by
    intro p hp
    have h1 : p.poly ∈ [1, 2] := by rw [← e1]; exact List.mem_map_of_mem hp
    have h2 : p.poly2 ∈ [2, 1] := by rw [← e2]; exact List.mem_map_of_mem hp
    simp at h1 h2
    omega) (by rw [hlen]; decide) (by rw [hlen]; decide)
  refine ⟨⟨cc.1, cc.2, g.toNat⟩, (fun _ => false), [9, 0, 0, 0, 0, 0, 0, 0, 1, 9, 10, 1, 5, 0, 5, 60, 5, 60, 0], [], ?_⟩
  unfold job
  rw [Res.bind_done]
  refine ⟨(ps, g, []), e, ?_⟩
  simp only
  rw [hcc]
  rfl

/-- The hypotheses of `C79_files` and `C80_no_overlap` are met: two vessels with two nuclei each, three workers. -/
example : pk.protos.map Proto.mesh = (loadNuclei 20 (tet 100).1 (tet 100).2 [tet 100, tet 40]).1 ∧
    (cfg (fun _ => false) 3).nb = (loadNuclei 20 (tet 100).1 (tet 100).2 [tet 100, tet 40]).2 ∧
    ∃ s : Conc.Generator.St (Pt ℚ) 3, Conc.Reach (Conc.Generator.Step (jobResult FloatCode.fin pk (cfg (fun _ => false) 3)))
      (Conc.Generator.start 3 (jobs (cfg (fun _ => false) 3).vmax 1 1 2)) s ∧ (∀ t, s.pc t = .stopped) := by
  refine ⟨?_, ex_nb.symm, Conc.Generator.C78_can_finish (by decide) _ ex_job _⟩
  show (protoPts.map (fun p => (⟨p, []⟩ : Proto (List (Pt ℚ))))).map Proto.mesh = protoPts
  rw [List.map_map]
  exact List.map_id _

/-- The hypotheses of `C80_vessel_partial` are met: 10 slots of size 10 per axis. -/
example : (∀ k : Fin 3, (⟨fun _ => 105, fun _ => 10, 3, 100, 3, fun _ => false⟩ : Cfg).nb k =
      (⟨fun _ => 105, fun _ => 10, 3, 100, 3, fun _ => false⟩ : Cfg).n k) ∧
    ∃ t, markVessel (fun _ => 10) [⟨fun _ => 20, fun _ => 35⟩] (fun _ => false) = .done t ∧ t 222 = true ∧ t 111 = false := by
  constructor
  · intro k
    show (10 : ℚ) = (⌊(105 : ℚ) / 10⌋₊ : Nat)
    rw [show (⌊(105 : ℚ) / 10⌋₊) = 10 by rw [Nat.floor_eq_iff (by norm_num)]; norm_num]
    norm_num
  · have e : voxelSlots (fun _ => 10) ⟨fun _ => 20, fun _ => 35⟩ = [222, 223, 232, 233, 322, 323, 332, 333] := by decide +kernel
    refine ⟨fun i => false || decide ((i : Int) ∈ [222, 223, 232, 233, 322, 323, 332, 333]), ?_, ?_, ?_⟩
    · unfold markVessel markVessel
      rw [if_neg (by decide), e, if_pos (by decide)]
    · decide
    · decide

end Ex
end TDP.Gen
