import Verif.Gen.SelfJoin
import Verif.EndToEnd.IntersectEx
/-! # The hypotheses of C110 are met -/
namespace TDP.Gen
open TDP.Boxes TDP.Tile TDP.Bytes

/-- The files of a run have at most 50 MB per vessel. -/
theorem out1_size {M α : Type} [LinearOrder α] [BoundedOrder α] {fc : FloatCode α} {K : Packing M α} {c : Cfg} {n : Nat} (hn : 0 < n)
    (bases : List (Pt ℚ)) (s : Conc.Generator.St (Pt ℚ) n)
    (h : Conc.Reach (Conc.Generator.Step (jobResult fc K c)) (Conc.Generator.start n bases) s) (hs : ∀ t, s.pc t = .stopped) :
    s.out1.length ≤ bases.length * bufferSize := by
  obtain ⟨dn, hperm, hgen, e, _, _⟩ := Conc.Generator.C78_each_once hn _ _ s h hs
  have hone : ∀ d ∈ dn, d.2.first.length ≤ bufferSize := by
    intro d hd
    obtain ⟨taken, rs, rest, hj⟩ := hgen d hd
    unfold job at hj
    rw [Res.bind_done] at hj
    obtain ⟨⟨ps, g, rs'⟩, _, hj⟩ := hj
    rw [Res.bind_done] at hj
    obtain ⟨⟨b1, b2⟩, hb, hj⟩ := hj
    obtain ⟨_, _, _, _, _, _, k5, _⟩ := fillBuffers_done (Nat.zero_le _) (Nat.zero_le _) hb
    rw [Res.pure_done] at hj
    injection hj with hj _
    rw [← hj]
    exact k5
  rw [e, ← hperm.length_eq, List.length_map]
  clear hperm hgen e
  rename_i g1 g2
  clear g1 g2
  induction dn with
  | nil => simp
  | cons d dn ih =>
    rw [List.flatMap_cons, List.length_append, List.length_cons, Nat.succ_mul]
    have := ih (fun d hd => hone d (List.mem_cons_of_mem _ hd))
    have := hone d (List.mem_cons_self ..)
    omega

/-- Up to 400 objects the octree is one leaf, so building it succeeds. -/
theorem build_small (mid : ℚ → ℚ → ℚ) (o : Octree.Obj ℚ) (os : List (Octree.Obj ℚ)) (h1 : ∀ v ∈ o :: os, v.size = 1) (hl : os.length < 400) :
    ∃ t, Octree.build mid 400 1 o os = some t := by
  have step : ∀ (l : List (Octree.Obj ℚ)) (b : Box ℚ) (size : Nat) (can : Bool) (objs : List (Octree.Obj ℚ)), (∀ v ∈ l, v.size = 1) →
      size + l.length ≤ 400 → ∃ t, l.foldlM (fun n v => Octree.add mid 400 1 v n) (Octree.Node.leaf b size can objs) = some t := by
    intro l
    induction l with
    | nil => intro b size can objs _ _; exact ⟨_, rfl⟩
    | cons v l ih =>
      intro b size can objs h1 hs
      have hv := h1 v (List.mem_cons_self ..)
      rw [List.length_cons] at hs
      have : ∃ can', Octree.add mid 400 1 v (.leaf b size can objs) = some (.leaf b (size + 1) can' (objs ++ [v])) := by
        unfold Octree.add
        simp only [hv]
        by_cases h0 : size + 1 = 1
        · exact ⟨can, if_pos h0⟩
        · rw [if_neg h0, if_neg (by omega)]
          exact ⟨_, rfl⟩
      obtain ⟨can', e⟩ := this
      obtain ⟨t, ht⟩ := ih b (size + 1) can' (objs ++ [v]) (fun w hw => h1 w (List.mem_cons_of_mem _ hw)) (by omega)
      refine ⟨t, ?_⟩
      rw [List.foldlM_cons, e]
      exact ht
  exact step (o :: os) _ 0 true [] h1 (by rw [List.length_cons]; omega)

namespace ExSelf

/-- A tetrahedron of size 5 and its voxel after compression with 12 bits. -/
def tet5 : List (Pt ℚ) := [pt3 0 0 0, pt3 5 0 0, pt3 0 5 0, pt3 0 0 5]
def box5 : Box ℚ := hull (Quant.quantizeMesh 12 (pt3 0 0 0) [pt3 5 0 0, pt3 0 5 0, pt3 0 0 5])
def proto : Proto (List (Pt ℚ)) := ⟨tet5, [⟨box5, pt3 1 1 1⟩]⟩

/-- Rounding down to whole numbers (a coarse float). -/
def toF (q : ℚ) : Fin (256 ^ 4) := ⟨min ⌊q⌋.toNat (256 ^ 4 - 1), by omega⟩
theorem toF_mono : Monotone toF := by
  intro a b h
  show min ⌊a⌋.toNat (256 ^ 4 - 1) ≤ min ⌊b⌋.toNat (256 ^ 4 - 1)
  have : ⌊a⌋.toNat ≤ ⌊b⌋.toNat := Int.toNat_le_toNat (Int.floor_le_floor h)
  omega

/-- Three copies of the prototype. -/
def pkS : Packing (List (Pt ℚ)) (Fin (256 ^ 4)) := ⟨[proto, proto, proto], fun _ _ => [7], toF⟩

theorem exS_loaded : (loadNuclei 20 (Ex.tet 100).1 (Ex.tet 100).2 [Ex.tet 100, Ex.tet 100]) = ([tet5, tet5, tet5], fun _ => 5) := by decide +kernel

theorem exS_job (base : Pt ℚ) : ∃ r, jobResult FloatCode.fin pkS (Ex.cfg (fun _ => false) 3) base r := by
  obtain ⟨ps, g, e, e1, e2⟩ := Ex.ex_gen base
  have horg : ∀ i s (buf : List Nat), i < 3 → buf.length ≤ 1000 → ∃ b, organizeAt FloatCode.fin pkS i s buf = .done b ∧ b.length = buf.length + 53 := by
    intro i s buf hi hb
    have hm : ∀ j : Fin 3, pkS.protos[j.val]? = some proto := by
      intro j
      match j with
      | 0 => rfl
      | 1 => rfl
      | 2 => rfl
    have hr : (putRecord FloatCode.fin (record pkS proto s)).length = 53 := by rw [putRecord_length]; rfl
    have hp1 := hm ⟨i, hi⟩
    refine ⟨buf ++ putRecord FloatCode.fin (record pkS proto s), ?_, ?_⟩
    · unfold organizeAt organize
      simp only at hp1
      rw [hp1]
      simp only
      rw [if_pos]
      rw [List.length_append, hr]
      show _ ≤ 50 * 2 ^ 20
      omega
    · rw [List.length_append, hr]
  have hfill : ∀ (l : List Placed) (b1 b2 : List Nat), (∀ p ∈ l, p.poly < 3 ∧ p.poly2 < 3) → b1.length + 53 * l.length ≤ 1000 →
      b2.length + 53 * l.length ≤ 1000 → ∃ c, fillBuffers FloatCode.fin pkS l b1 b2 = .done c := by
    intro l
    induction l with
    | nil => intro b1 b2 _ _ _; exact ⟨_, rfl⟩
    | cons p l ih =>
      intro b1 b2 h h1 h2
      rw [List.length_cons] at h1 h2
      obtain ⟨x, hx, lx⟩ := horg p.poly p.shift b1 (h p (List.mem_cons_self ..)).1 (by omega)
      obtain ⟨y, hy, ly⟩ := horg p.poly2 p.shift2 b2 (h p (List.mem_cons_self ..)).2 (by omega)
      obtain ⟨c, hc⟩ := ih x y (fun p hp => h p (List.mem_cons_of_mem _ hp)) (by omega) (by omega)
      refine ⟨c, ?_⟩
      unfold fillBuffers
      rw [hx, Res.bind_done]
      refine ⟨x, rfl, ?_⟩
      rw [hy, Res.bind_done]
      exact ⟨y, rfl, hc⟩
  have hlen : ps.length = 2 := by rw [← List.length_map (f := Placed.poly), e1]; rfl
  obtain ⟨cc, hcc⟩ := hfill ps [] [] (by
    intro p hp
    have h1 : p.poly ∈ [1, 2] := by rw [← e1]; exact List.mem_map_of_mem hp
    have h2 : p.poly2 ∈ [2, 1] := by rw [← e2]; exact List.mem_map_of_mem hp
    simp at h1 h2
    omega) (by rw [hlen]; decide) (by rw [hlen]; decide)
  refine ⟨⟨cc.1, cc.2, g.toNat⟩, (fun _ => false), [9, 0, 0, 0, 0, 0, 0, 0, 1, 9, 10, 1, 5, 0, 5, 60, 5, 60, 0], [], ?_⟩
  unfold job
  rw [Res.bind_done]
  refine ⟨(ps, g, []), e, ?_⟩
  simp only
  rw [hcc]
  rfl

theorem exS_hull : IsHull (Quant.quantizeMesh 12 (pt3 0 0 0) [pt3 5 0 0, pt3 0 5 0, pt3 0 0 5]) box5 := by
  intro k
  revert k
  decide +kernel

/-- The voxels fit in one cell, by `C110_same_step_partial`. -/
theorem exS_fit : ∃ a : Pt ℚ, ∀ p ∈ pkS.protos, ∀ v ∈ p.voxels, ∀ k, a k ≤ v.box.min k ∧ v.box.max k ≤ a k + (Ex.cfg (fun _ => false) 3).nb k := by
  refine C110_same_step_partial pkS 20 (Ex.tet 100).1 (Ex.tet 100).2 [Ex.tet 100, Ex.tet 100] ?_ ?_ 12
    (Quant.initCfg 12 (pt3 0 0 0) [pt3 5 0 0, pt3 0 5 0, pt3 0 0 5]).step ?_
  · rw [exS_loaded]; rfl
  · rw [exS_loaded]; rfl
  · intro P hP p ps hm
    have hP' : P = proto := by
      rcases List.mem_cons.1 hP with h | hP
      · exact h
      rcases List.mem_cons.1 hP with h | hP
      · exact h
      · exact List.mem_singleton.1 hP
    subst hP'
    injection hm with a b
    subst a b
    refine ⟨rfl, ?_⟩
    intro w hw
    rw [List.mem_singleton.1 hw]
    exact ⟨_, exS_hull, fun q hq => hq⟩

/-- Two vessels with two nuclei each, three workers: the file opens as four objects, and a complete join of the four with themselves exists. -/
theorem exS : ∃ (s : Conc.Generator.St (Pt ℚ) 3) (t : Tile (Fin (256 ^ 4))) (o : EndToEnd.Object EndToEnd.Tri) (os : List (EndToEnd.Object EndToEnd.Tri)),
    Conc.Reach (Conc.Generator.Step (jobResult FloatCode.fin pkS (Ex.cfg (fun _ => false) 3)))
      (Conc.Generator.start 3 (jobs (Ex.cfg (fun _ => false) 3).vmax 1 1 2)) s ∧ (∀ t, s.pc t = .stopped) ∧ s.out1.length < 256 ^ 8 ∧
    parseRaw FloatCode.fin s.out1 = some t ∧ t.objects.length = 4 ∧ Taken (fun x => (x.val : ℚ)) t (o :: os) ∧
    EndToEnd.IntersectJoin (.cpu 1) (fun a b => (a + b) / 2) (fun _ _ => []) (o :: os) o os (fun i => ⟨i, ⟨fun _ => 0, fun _ => 0⟩, []⟩) [50, 100] [] [] := by
  obtain ⟨s, h, hs⟩ := Conc.Generator.C78_can_finish (n := 3) (by decide) _ exS_job (jobs (Ex.cfg (fun _ => false) 3).vmax 1 1 2)
  have hsz : s.out1.length < 256 ^ 8 := by
    have := out1_size (by decide) _ s h hs
    rw [jobs_length] at this
    unfold bufferSize at this
    omega
  have hv : ∀ k : Fin 3, 0 < (Ex.cfg (fun _ => false) 3).vmax k := fun _ => by show (0 : ℚ) < 100; norm_num
  have hnb : ∀ k : Fin 3, 0 < (Ex.cfg (fun _ => false) 3).nb k := fun _ => by show (0 : ℚ) < 5; norm_num
  obtain ⟨t, ht, hl, _, hjoin⟩ := C110_self_join_partial toF_mono hnb hv exS_fit (by decide) 1 1 2 s h hs hsz
  have hl4 : t.objects.length = 4 := hl
  -- the objects of the tile, at addresses 0, 1, 2, 3
  let mk : Nat × Wrapper (Fin (256 ^ 4)) → EndToEnd.Object EndToEnd.Tri := fun w =>
    ⟨w.1, ⟨w.2.id, ⟨fun k => ((w.2.box.min k).val : ℚ), fun k => ((w.2.box.max k).val : ℚ)⟩, []⟩, [], fun _ => []⟩
  let objs := ((List.range 4).zip t.objects).map mk
  have hzl : ((List.range 4).zip t.objects).length = 4 := by rw [List.length_zip, List.length_range, hl4]; rfl
  have hol : objs.length = 4 := by rw [List.length_map, hzl]
  obtain ⟨o, os, ho⟩ : ∃ o os, objs = o :: os := by
    match hobj : objs with
    | [] => cases hol
    | o :: os => exact ⟨o, os, rfl⟩
  have hT : Taken (fun x : Fin (256 ^ 4) => (x.val : ℚ)) t (o :: os) := by
    rw [← ho]
    constructor
    · rw [List.forall₂_iff_get]
      refine ⟨by rw [hol, hl4], ?_⟩
      intro i h1 h2
      simp only [objs, List.get_eq_getElem, List.getElem_map, List.getElem_zip, mk]
      exact ⟨trivial, fun k => ⟨trivial, trivial⟩⟩
    · have : objs.map EndToEnd.Object.ptr = List.range 4 := by
        show (((List.range 4).zip t.objects).map mk).map EndToEnd.Object.ptr = _
        rw [List.map_map]
        show ((List.range 4).zip t.objects).map Prod.fst = _
        rw [List.map_fst_zip]
        rw [List.length_range, hl4]
      rw [this]
      exact List.nodup_range
  have hosl : os.length = 3 := by rw [ho] at hol; simpa using hol
  obtain ⟨tree, htree⟩ := build_small (fun a b => (a + b) / 2) o.obj (os.map EndToEnd.Object.obj) (by
    intro v hv
    rcases List.mem_cons.1 hv with rfl | hv
    · rfl
    · obtain ⟨b, _, rfl⟩ := List.mem_map.1 hv
      rfl) (by rw [List.length_map, hosl]; decide)
  refine ⟨s, t, o, os, h, hs, hsz, ht, hl4, hT, 1, tree, htree, ?_, ?_⟩
  · -- some run of the filter exists, and every one ends without entries
    have ex : ∀ l : List (EndToEnd.Object EndToEnd.Tri), ∃ es, EndToEnd.Filter tree (fun i => ⟨i, ⟨fun _ => 0, fun _ => 0⟩, []⟩) l es := by
      intro l
      induction l with
      | nil => exact ⟨[], .nil⟩
      | cons a l ih =>
        obtain ⟨es, he⟩ := ih
        by_cases hq : Octree.queryIntersect a.obj tree = []
        · exact ⟨es, .skip hq he⟩
        · obtain ⟨ids, hids⟩ : ∃ ids, Join.SortedBy id (Octree.queryIntersect a.obj tree) ids :=
            EndToEnd.sorted_exists _
          exact ⟨_, .keep hq hids he⟩
    obtain ⟨es, he⟩ := ex (o :: os)
    have hr : ∃ fin, EndToEnd.IntersectRounds (.cpu 1) (fun _ _ => []) [] es fin := ⟨es, .nil es⟩
    obtain ⟨fin, hr⟩ := hr
    obtain ⟨e1, _⟩ := hjoin (fun x => (x.val : ℚ)) (fun a b h => Nat.cast_le.2 (Fin.le_def.1 h)) o os hT (.cpu 1) (fun a b => (a + b) / 2) (fun _ _ => [])
      (fun i => ⟨i, ⟨fun _ => 0, fun _ => 0⟩, []⟩) [] es fin ⟨1, tree, htree, he, hr⟩
    rw [← e1]
    exact he
  · exact .cons (.idle [] rfl) (.cons (.idle [] rfl) (.nil []))

end ExSelf
end TDP.Gen
