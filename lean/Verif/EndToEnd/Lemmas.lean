import Verif.EndToEnd.Model
import Verif.Join.Props
import Verif.Kernels.TriProps
import Verif.Voxels.Props
/-! Lemmas for the end-to-end joins. -/
namespace TDP.EndToEnd
open TDP.Boxes TDP.Join TDP.Kernels TDP.Gpu

/-! ## Reading packed elements -/

theorem flatMap_const_get {A B : Type} (f : A → List B) (k : Nat) (hf : ∀ a, (f a).length = k) : ∀ (l : List A) (i r : Nat),
    r < k → (l.flatMap f)[i * k + r]? = (l[i]?).bind (fun a => (f a)[r]?)
  | [], i, r, _ => by simp
  | a :: l, 0, r, h => by
      rw [List.flatMap_cons, Nat.zero_mul, Nat.zero_add, List.getElem?_append_left (by rw [hf]; exact h)]
      rfl
  | a :: l, i + 1, r, h => by
      rw [List.flatMap_cons, List.getElem?_append_right (by rw [hf, Nat.succ_mul]; omega), hf]
      have : (i + 1) * k + r - k = i * k + r := by rw [Nat.succ_mul]; omega
      rw [this, flatMap_const_get f k hf l i r h]
      simp

theorem flatMap_const_length {A B : Type} (f : A → List B) (k : Nat) (hf : ∀ a, (f a).length = k) (l : List A) :
    (l.flatMap f).length = l.length * k := by
  induction l with
  | nil => simp
  | cons a l ih => rw [List.flatMap_cons, List.length_append, ih, hf, List.length_cons, Nat.succ_mul]; omega

/-- What a kernel reads of an element inside its slice. -/
theorem read_slice {E : Type} (floats : E → List ℚ) (k : Nat) (hf : ∀ a, (floats a).length = k) (b : Buf) (junk : Nat → ℚ)
    (off : Nat) (ts : List E) (n : Nat) (hn : n = ts.length) (hoff : off * k < 2^32)
    (h : slice b k off n = (ts.flatMap floats).map some) (i r : Nat) (hi : i < ts.length) (hr : r < k) :
    some ((b (off * k + (i * k + r))).getD (junk (off * k + (i * k + r)))) = (floats ts[i])[r]? := by
  subst hn
  have hlt : i * k + r < ts.length * k := by
    have := Nat.mul_le_mul_right k (Nat.succ_le_of_lt hi)
    rw [Nat.succ_mul] at this; omega
  have e := congrArg (fun l => l[i * k + r]?) h
  simp only [slice, List.getElem?_map, List.getElem?_range hlt, Option.map_some, Nat.mod_eq_of_lt hoff] at e
  rw [flatMap_const_get floats k hf ts i r hr, List.getElem?_eq_getElem hi] at e
  simp only [Option.bind_some] at e
  have hx : ∃ x, (floats ts[i])[r]? = some x := ⟨_, List.getElem?_eq_getElem (by rw [hf]; exact hr)⟩
  obtain ⟨x, hx⟩ := hx
  rw [hx] at e ⊢
  simp only [Option.map_some, Option.some.injEq] at e
  rw [e]; rfl

theorem pt_ext {a b : Pt ℚ} (h0 : a 0 = b 0) (h1 : a 1 = b 1) (h2 : a 2 = b 2) : a = b := funext (fin3_all h0 h1 h2)

theorem tri_read (b : Buf) (junk : Nat → ℚ) (off : Nat) (ts : List Tri) (n : Nat) (hn : n = ts.length) (hoff : off * 9 < 2^32)
    (h : slice b 9 off n = (ts.flatMap Tri.floats).map some) (i : Nat) (hi : i < ts.length) :
    let d := fun k => (b (off * 9 + k)).getD (junk (off * 9 + k))
    ptAt d (9 * i) = ts[i].C ∧ ptAt d (9 * i + 3) = ts[i].P1 ∧ ptAt d (9 * i + 6) = ts[i].P2 := by
  have key : ∀ r (hr : r < 9), some ((b (off * 9 + (9 * i + r))).getD (junk (off * 9 + (9 * i + r)))) = (Tri.floats ts[i])[r]? := by
    intro r hr
    rw [Nat.mul_comm 9 i]
    exact read_slice Tri.floats 9 (fun _ => rfl) b junk off ts n hn hoff h i r hi hr
  intro d
  have k0 := key 0 (by omega); have k1 := key 1 (by omega); have k2 := key 2 (by omega)
  have k3 := key 3 (by omega); have k4 := key 4 (by omega); have k5 := key 5 (by omega)
  have k6 := key 6 (by omega); have k7 := key 7 (by omega); have k8 := key 8 (by omega)
  simp only [Tri.floats, List.getElem?_cons_zero, List.getElem?_cons_succ, Option.some.injEq] at k0 k1 k2 k3 k4 k5 k6 k7 k8
  refine ⟨?_, ?_, ?_⟩ <;> apply pt_ext <;> simp only [ptAt, pt3_0, pt3_1, pt3_2, d, Nat.add_assoc, Nat.reduceAdd] <;> assumption

theorem seg_read (b : Buf) (junk : Nat → ℚ) (off : Nat) (ts : List Seg) (n : Nat) (hn : n = ts.length) (hoff : off * 6 < 2^32)
    (h : slice b 6 off n = (ts.flatMap Seg.floats).map some) (i : Nat) (hi : i < ts.length) :
    let d := fun k => (b (off * 6 + k)).getD (junk (off * 6 + k))
    ptAt d (i * 6) = ts[i].p ∧ ptAt d (i * 6 + 3) = ts[i].q := by
  have key : ∀ r (hr : r < 6), some ((b (off * 6 + (i * 6 + r))).getD (junk (off * 6 + (i * 6 + r)))) = (Seg.floats ts[i])[r]? := by
    intro r hr
    exact read_slice Seg.floats 6 (fun _ => rfl) b junk off ts n hn hoff h i r hi hr
  intro d
  have k0 := key 0 (by omega); have k1 := key 1 (by omega); have k2 := key 2 (by omega)
  have k3 := key 3 (by omega); have k4 := key 4 (by omega); have k5 := key 5 (by omega)
  simp only [Seg.floats, List.getElem?_cons_zero, List.getElem?_cons_succ, Option.some.injEq] at k0 k1 k2 k3 k4 k5
  refine ⟨?_, ?_⟩ <;> apply pt_ext <;> simp only [ptAt, pt3_0, pt3_1, pt3_2, d, Nat.add_assoc, Nat.reduceAdd] <;> assumption

theorem osArr_get (m : VMap) (ps : List VPair) (b : Nat) (p : VPair) (h : ps[b]? = some p) :
    osArr m ps (4 * b) = (offsetSize m p).1 ∧ osArr m ps (4 * b + 1) = (offsetSize m p).2.1 ∧
    osArr m ps (4 * b + 2) = (offsetSize m p).2.2.1 ∧ osArr m ps (4 * b + 3) = (offsetSize m p).2.2.2 := by
  have e0 : 4 * b / 4 = b := by omega
  have e1 : (4 * b + 1) / 4 = b := by omega
  have e2 : (4 * b + 2) / 4 = b := by omega
  have e3 : (4 * b + 3) / 4 = b := by omega
  have f0 : 4 * b % 4 = 0 := by omega
  have f1 : (4 * b + 1) % 4 = 1 := by omega
  have f2 : (4 * b + 2) % 4 = 2 := by omega
  have f3 : (4 * b + 3) % 4 = 3 := by omega
  unfold osArr
  rw [e0, e1, e2, e3, h, f0, f1, f2, f3]
  simp

/-- Specification: two lists of triangles contain a pair for which the triangle test answers yes. -/
def Hit (l1 l2 : List Tri) : Prop := ∃ t1 ∈ l1, ∃ t2 ∈ l2, triInt t1.C t1.P1 t1.P2 t2.C t2.P1 t2.P2 = true

/-- The packing of a round of triangle tests. -/
structure Fits {E : Type} (k : Nat) (heap : Voxel → List E) (vs : List Voxel) : Prop where
  addr : ∀ v ∈ vs, ∀ v' ∈ vs, v.addr = v'.addr → v = v'
  fit : (vs.map (fun v => (heap v).length)).sum * k < 2^32

/-- What a batch reads for a pair. -/
theorem packed {E : Type} (floats : E → List ℚ) (k : Nat) (hk : 1 ≤ k) (hf : ∀ a, (floats a).length = k) (heap : Voxel → List E)
    (vs : List Voxel) (hfits : Fits k heap vs) (ps : List VPair) (hvs : ∀ p ∈ ps, p.v1 ∈ vs ∧ p.v2 ∈ vs) (m' : VMap)
    (hm' : m'.Perm (voxelMap (fun v => (heap v).length) ps).1) (p : VPair) (hp : p ∈ ps) :
    let q := offsetSize (voxelMap (fun v => (heap v).length) ps).1 p
    let buf := fillBuf k (fun v => (heap v).flatMap floats) m'
    slice buf k q.1 q.2.1 = ((heap p.v1).flatMap floats).map some ∧
    slice buf k q.2.2.1 q.2.2.2 = ((heap p.v2).flatMap floats).map some ∧
    q.2.1 = (heap p.v1).length ∧ q.2.2.2 = (heap p.v2).length ∧ q.1 * k < 2^32 ∧ q.2.2.1 * k < 2^32 ∧
    q.1 + q.2.1 ≤ (voxelMap (fun v => (heap v).length) ps).2 ∧ q.2.2.1 + q.2.2.2 ≤ (voxelMap (fun v => (heap v).length) ps).2 := by
  have hlen : ∀ v ∈ vs, ((heap v).flatMap floats).length = (heap v).length * k := fun v _ => flatMap_const_length floats k hf _
  obtain ⟨_, _, h3⟩ := C33_packing k (fun v => (heap v).length) (fun v => (heap v).flatMap floats) ps vs hfits.addr hvs hlen hk
    hfits.fit m' hm'
  obtain ⟨s1, s2, b1, b2⟩ := h3 p hp
  intro q buf
  have len : ∀ off n (l : List E), slice buf k off n = (l.flatMap floats).map some → n = l.length := by
    intro off n l h
    have := congrArg List.length h
    simp only [slice, List.length_map, List.length_range, flatMap_const_length floats k hf] at this
    exact Nat.eq_of_mul_eq_mul_right hk this
  have hb : (vs.map (fun v => (heap v).length)).sum < 2^32 := lt_of_le_of_lt (Nat.le_mul_of_pos_right _ hk) hfits.fit
  obtain ⟨c1, _, _, _⟩ := voxelMap_inv hb ps ([], 0) ⟨trivial, rfl, by simp, by simp⟩ hvs
  have htot : (voxelMap (fun v => (heap v).length) ps).2 ≤ (vs.map (fun v => (heap v).length)).sum := by
    have ht := c1.total
    change (voxelMap (fun v => (heap v).length) ps).2 = _ at ht
    rw [ht]
    exact sum_le_of_nodup (fun v => (heap v).length) vs _ c1.nodup c1.sub
  have htot' := Nat.mul_le_mul_right k htot
  have b1' : (q.1 + q.2.1) * k ≤ (voxelMap (fun v => (heap v).length) ps).2 * k := by rw [Nat.add_mul]; exact b1
  have b2' : (q.2.2.1 + q.2.2.2) * k ≤ (voxelMap (fun v => (heap v).length) ps).2 * k := by rw [Nat.add_mul]; exact b2
  have hfit := hfits.fit
  rw [Nat.add_mul] at b1' b2'
  refine ⟨s1, s2, len _ _ _ s1, len _ _ _ s2, by omega, by omega, ?_, ?_⟩
  · exact Nat.le_of_mul_le_mul_right (by rw [Nat.add_mul]; exact b1') hk
  · exact Nat.le_of_mul_le_mul_right (by rw [Nat.add_mul]; exact b2') hk

/-- The kernel on the packed data of a pair. -/
theorem cpuInt_packed (heap : Voxel → List Tri) (vs : List Voxel) (hfits : Fits 9 heap vs) (ps : List VPair)
    (hvs : ∀ p ∈ ps, p.v1 ∈ vs ∧ p.v2 ∈ vs) (m' : VMap) (hm' : m'.Perm (voxelMap (fun v => (heap v).length) ps).1)
    (junk : Nat → ℚ) (b : Nat) (p : VPair) (hp : ps[b]? = some p) :
    cpuInt (fun i => (fillBuf 9 (fun v => (heap v).flatMap Tri.floats) m' i).getD (junk i))
      (osArr (voxelMap (fun v => (heap v).length) ps).1 ps) b = true ↔ Hit (heap p.v1) (heap p.v2) := by
  have hmem : p ∈ ps := List.mem_of_getElem? hp
  obtain ⟨s1, s2, n1, n2, o1, o2, _, _⟩ := packed Tri.floats 9 (by omega) (fun _ => rfl) heap vs hfits ps hvs m' hm' p hmem
  obtain ⟨a0, a1, a2, a3⟩ := osArr_get (voxelMap (fun v => (heap v).length) ps).1 ps b p hp
  unfold cpuInt
  rw [a0, a1, a2, a3, C38_single]
  unfold Hit
  constructor
  · rintro ⟨i, hi, j, hj, h⟩
    rw [n1] at hi; rw [n2] at hj
    obtain ⟨x1, x2, x3⟩ := tri_read _ junk _ _ _ n1 o1 s1 i hi
    obtain ⟨y1, y2, y3⟩ := tri_read _ junk _ _ _ n2 o2 s2 j hj
    refine ⟨_, List.getElem_mem hi, _, List.getElem_mem hj, ?_⟩
    unfold triPair at h
    rw [x1, x2, x3, y1, y2, y3] at h
    exact h
  · rintro ⟨t1, ht1, t2, ht2, h⟩
    obtain ⟨i, hi, rfl⟩ := List.mem_iff_getElem.1 ht1
    obtain ⟨j, hj, rfl⟩ := List.mem_iff_getElem.1 ht2
    obtain ⟨x1, x2, x3⟩ := tri_read _ junk _ _ _ n1 o1 s1 i hi
    obtain ⟨y1, y2, y3⟩ := tri_read _ junk _ _ _ n2 o2 s2 j hj
    refine ⟨i, by rw [n1]; exact hi, j, by rw [n2]; exact hj, ?_⟩
    unfold triPair
    rw [x1, x2, x3, y1, y2, y3]
    exact h

/-! ## The status array -/

/-- Which entries of the status array a configuration computes. -/
def Computed (cfg : Cfg) (pairs i : Nat) : Prop :=
  match cfg with
  | .cpu threads => i < pairs / threads * threads
  | .gpu => i < pairs

theorem status_spec (cfg : Cfg) (data : Nat → ℚ) (os : Nat → Nat) (pairs : Nat) (ws : List (Nat × Nat))
    (h : Interleaving (intersectUnits cfg data os pairs) ws) (i : Nat) (hi : i < pairs) :
    (Computed cfg pairs i → (runWrites (fun _ => 0) ws i ≠ 0 ↔ cpuInt data os i = true)) ∧
    (¬ Computed cfg pairs i → runWrites (fun _ => 0) ws i = 0) := by
  cases cfg with
  | cpu threads =>
    obtain ⟨a, b⟩ := C35_intersect_prefix_partial (fun b => if cpuInt data os b then 1 else 0) pairs threads ws h (fun _ => 0)
    refine ⟨fun hc => ?_, fun hc => b i (not_lt.1 hc)⟩
    rw [a i hc]
    by_cases hh : cpuInt data os i = true <;> simp [hh]
  | gpu =>
    obtain ⟨a, _⟩ := C59_gpu_intersect data os pairs ws h (fun _ => 0)
    refine ⟨fun hc => ?_, fun hc => absurd hi hc⟩
    rw [a i hi]
    by_cases hh : cpuInt data os i = true <;> simp [hh]

/-! ## Marking with any status array -/

theorem markPairs_any (status : Nat → Bool) (H : VPair → Prop) : ∀ (ps : List VPair) (i : Nat),
    (∀ (k : Nat) p, ps[k]? = some p → status (i + k) = true → H p) →
    (markPairs status i ps).1 = i + ps.length ∧
    ((markPairs status i ps).2.any (·.intersect) = true → ∃ x ∈ ps, x.intersect = true ∨ H x) ∧
    ((markPairs status i ps).2.any (·.intersect) = false → (markPairs status i ps).2 = ps)
  | [], i, _ => by simp [markPairs]
  | x :: xs, i, h => by
      obtain ⟨a, b, c⟩ := markPairs_any status H xs (i + 1) (by
        intro k p hp hs
        refine h (k + 1) p (by simpa using hp) ?_
        have : i + (k + 1) = i + 1 + k := by omega
        rw [this]; exact hs)
      unfold markPairs
      simp only [List.any_cons, List.length_cons]
      refine ⟨by rw [a]; omega, ?_, ?_⟩
      · intro hh
        rw [Bool.or_eq_true, Bool.or_eq_true] at hh
        rcases hh with (hh | hh) | hh
        · exact ⟨x, List.mem_cons_self .., Or.inl hh⟩
        · exact ⟨x, List.mem_cons_self .., Or.inr (h 0 x rfl hh)⟩
        · obtain ⟨y, hy, h'⟩ := b hh
          exact ⟨y, List.mem_cons_of_mem _ hy, h'⟩
      · intro hh
        rw [Bool.or_eq_false_iff, Bool.or_eq_false_iff] at hh
        rw [c hh.2, hh.1.2, Bool.or_false]

/-- Some pair of some candidate is marked. -/
def marked (cs : List Cand) : Bool := cs.any (fun c => c.pairs.any (·.intersect))

theorem markCands_any (status : Nat → Bool) (H : VPair → Prop) : ∀ (cs : List Cand) (i : Nat),
    (∀ (k : Nat) p, (cs.flatMap (·.pairs))[k]? = some p → status (i + k) = true → H p) →
    (markCands status i cs).1 = i + (cs.flatMap (·.pairs)).length ∧
    (marked (markCands status i cs).2 = true → ∃ c ∈ cs, ∃ x ∈ c.pairs, x.intersect = true ∨ H x) ∧
    (marked (markCands status i cs).2 = false → (markCands status i cs).2 = cs)
  | [], i, _ => by simp [markCands, marked]
  | c :: cs, i, h => by
      obtain ⟨a1, b1, c1⟩ := markPairs_any status H c.pairs i (by
        intro k p hp hs
        refine h k p ?_ hs
        rw [List.flatMap_cons, List.getElem?_append_left (List.getElem?_eq_some_iff.1 hp).1]
        exact hp)
      obtain ⟨a2, b2, c2⟩ := markCands_any status H cs (i + c.pairs.length) (by
        intro k p hp hs
        rw [Nat.add_assoc] at hs
        refine h _ p ?_ hs
        rw [List.flatMap_cons, List.getElem?_append_right (by omega), Nat.add_sub_cancel_left]
        exact hp)
      unfold markCands
      simp only
      rw [a1]
      refine ⟨by rw [a2, List.flatMap_cons, List.length_append]; omega, ?_, ?_⟩
      · intro hh
        unfold marked at hh
        rw [List.any_cons, Bool.or_eq_true] at hh
        rcases hh with hh | hh
        · obtain ⟨x, hx, h'⟩ := b1 hh
          exact ⟨c, List.mem_cons_self .., x, hx, h'⟩
        · obtain ⟨c', hc', x, hx, h'⟩ := b2 hh
          exact ⟨c', List.mem_cons_of_mem _ hc', x, hx, h'⟩
      · intro hh
        unfold marked at hh
        rw [List.any_cons, Bool.or_eq_false_iff] at hh
        rw [c1 hh.1, c2 hh.2]

theorem markEntries_any (status : Nat → Bool) (H : VPair → Prop) : ∀ (es : List Entry) (i : Nat),
    (∀ (k : Nat) p, (flatPairs es)[k]? = some p → status (i + k) = true → H p) →
    List.Forall₂ (fun e e' => (marked e'.cands = true → ∃ c ∈ e.cands, ∃ x ∈ c.pairs, x.intersect = true ∨ H x) ∧
      (marked e'.cands = false → e' = e)) es (markEntries status i es)
  | [], i, _ => List.Forall₂.nil
  | e :: es, i, h => by
      obtain ⟨a1, b1, c1⟩ := markCands_any status H e.cands i (by
        intro k p hp hs
        refine h k p ?_ hs
        unfold flatPairs
        rw [List.flatMap_cons, List.getElem?_append_left (List.getElem?_eq_some_iff.1 hp).1]
        exact hp)
      unfold markEntries
      simp only
      refine List.Forall₂.cons ⟨b1, fun hh => by rw [c1 hh]⟩ ?_
      rw [a1]
      refine markEntries_any status H es _ ?_
      intro k p hp hs
      rw [Nat.add_assoc] at hs
      refine h _ p ?_ hs
      unfold flatPairs at hp ⊢
      rw [List.flatMap_cons, List.getElem?_append_right (by omega), Nat.add_sub_cancel_left]
      exact hp

theorem dropHit_any {H : VPair → Prop} : ∀ {es es' : List Entry},
    List.Forall₂ (fun e e' => (marked e'.cands = true → ∃ c ∈ e.cands, ∃ x ∈ c.pairs, x.intersect = true ∨ H x) ∧
      (marked e'.cands = false → e' = e)) es es' →
    (dropHit es').Sublist es ∧ ∀ e ∈ es, e ∉ dropHit es' → ∃ c ∈ e.cands, ∃ x ∈ c.pairs, x.intersect = true ∨ H x
  | _, _, .nil => by simp [dropHit]
  | _, _, .cons (a := e) (b := e') (l₁ := es) (l₂ := es') h t => by
      obtain ⟨h1, h2⟩ := dropHit_any t
      have hd : dropHit (e' :: es') = (if marked e'.cands = true then dropHit es' else e' :: dropHit es') := by
        unfold dropHit marked
        rw [List.filter_cons]
        by_cases hm : (e'.cands.any (fun c => c.pairs.any (·.intersect))) = true <;> simp [hm]
      rw [hd]
      by_cases hm : marked e'.cands = true
      · rw [if_pos hm]
        refine ⟨h1.cons _, ?_⟩
        intro x hx hn
        rcases List.mem_cons.1 hx with rfl | hx
        · exact h.1 hm
        · exact h2 x hx hn
      · rw [if_neg hm]
        have he := h.2 (Bool.eq_false_iff.2 hm)
        subst he
        refine ⟨h1.cons_cons _, ?_⟩
        intro x hx hn
        rcases List.mem_cons.1 hx with rfl | hx
        · exact absurd (List.mem_cons_self ..) hn
        · exact h2 x hx (fun hh => hn (List.mem_cons_of_mem _ hh))

end TDP.EndToEnd
