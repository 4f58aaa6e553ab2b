import Verif.EndToEnd.IntersectEx
/-!
# C62 with several CPU threads: how many objects the dropped remainder can cost, and counterexamples

`get_intersect` on the CPU splits the pairs among the threads and drops the remainder (C35).
-/
namespace TDP.EndToEnd
open TDP.Boxes TDP.Join TDP.Kernels TDP.Gpu

theorem markPairs_hit (status : Nat → Bool) : ∀ (ps : List VPair) (i : Nat), (markPairs status i ps).1 = i + ps.length ∧
    ∀ k < ps.length, status (i + k) = true → (markPairs status i ps).2.any (·.intersect) = true
  | [], i => ⟨rfl, by intro k hk; simp at hk⟩
  | p :: ps, i => by
      obtain ⟨h1, h2⟩ := markPairs_hit status ps (i + 1)
      refine ⟨by simp only [markPairs, h1, List.length_cons]; omega, ?_⟩
      intro k hk hs
      simp only [markPairs, List.any_cons]
      cases k with
      | zero => rw [Nat.add_zero] at hs; simp [hs]
      | succ k =>
        rw [h2 k (by simpa using hk) (by rw [← hs]; congr 1; omega), Bool.or_true]

theorem markCands_hit (status : Nat → Bool) : ∀ (cs : List Cand) (i : Nat),
    (markCands status i cs).1 = i + (cs.flatMap (·.pairs)).length ∧
    ∀ k < (cs.flatMap (·.pairs)).length, status (i + k) = true → marked (markCands status i cs).2 = true
  | [], i => ⟨rfl, by intro k hk; simp at hk⟩
  | c :: cs, i => by
      obtain ⟨h1, h2⟩ := markPairs_hit status c.pairs i
      obtain ⟨h3, h4⟩ := markCands_hit status cs (i + c.pairs.length)
      refine ⟨by simp only [markCands, h1, h3, List.flatMap_cons, List.length_append]; omega, ?_⟩
      intro k hk hs
      simp only [markCands, h1]
      unfold marked at h4 ⊢
      rw [List.any_cons]
      by_cases hlt : k < c.pairs.length
      · rw [h2 k hlt hs, Bool.true_or]
      · rw [h4 (k - c.pairs.length) (by
          rw [List.flatMap_cons, List.length_append] at hk; omega) (by rw [← hs]; congr 1; omega), Bool.or_true]

/-- An entry in which a pair of voxels holds a pair of triangles that hit. -/
def HasHit (heap : Voxel → List Tri) (e : Entry) : Prop := ∃ c ∈ e.cands, ∃ x ∈ c.pairs, Hit (heap x.v1) (heap x.v2)

open Classical in
theorem hasHit_count (heap : Voxel → List Tri) : ∀ es : List Entry,
    (es.filter (fun e => decide (HasHit heap e))).length ≤ (flatPairs es).length
  | [] => by simp
  | e :: es => by
      have ih := hasHit_count heap es
      unfold flatPairs at ih ⊢
      rw [List.flatMap_cons, List.length_append, List.filter_cons]
      by_cases h : HasHit heap e
      · rw [if_pos (by simpa using h), List.length_cons]
        obtain ⟨c, hc, x, hx, _⟩ := h
        have : 0 < (e.cands.flatMap (·.pairs)).length := List.length_pos_of_mem (List.mem_flatMap.2 ⟨c, hc, hx⟩)
        omega
      · rw [if_neg (by simpa using h)]; omega

theorem dropHit_cons (e' : Entry) (es' : List Entry) :
    dropHit (e' :: es') = (if marked e'.cands = true then dropHit es' else e' :: dropHit es') := by
  unfold dropHit marked
  rw [List.filter_cons]
  by_cases hm : (e'.cands.any (fun c => c.pairs.any (·.intersect))) = true <;> simp [hm]

open Classical in
/-- Entries that stay although they have a hit: each uses up one of the pairs from number `m` on. -/
theorem kept_count (heap : Voxel → List Tri) (status : Nat → Bool) (m : Nat) : ∀ (es : List Entry) (i : Nat),
    (∀ (k : Nat) p, (flatPairs es)[k]? = some p → i + k < m → Hit (heap p.v1) (heap p.v2) → status (i + k) = true) →
    ((dropHit (markEntries status i es)).filter (fun e => decide (HasHit heap e))).length ≤ i + (flatPairs es).length - m
  | [], i, _ => by simp [markEntries, dropHit]
  | e :: es, i, h => by
      obtain ⟨h1, h2⟩ := markCands_hit status e.cands i
      have hl : (flatPairs (e :: es)).length = (e.cands.flatMap (·.pairs)).length + (flatPairs es).length := by
        unfold flatPairs; rw [List.flatMap_cons, List.length_append]
      have ih := kept_count heap status m es (i + (e.cands.flatMap (·.pairs)).length) (by
        intro k p hp hk hh
        rw [Nat.add_assoc] at hk ⊢
        refine h _ p ?_ hk hh
        unfold flatPairs at hp ⊢
        rw [List.flatMap_cons, List.getElem?_append_right (by omega), Nat.add_sub_cancel_left]
        exact hp)
      have hany := markEntries_any status (fun _ => True) (e :: es) i (fun _ _ _ _ => trivial)
      have hm : markEntries status i (e :: es) =
          { e with cands := (markCands status i e.cands).2 } :: markEntries status (markCands status i e.cands).1 es := rfl
      rw [hm] at hany ⊢
      rw [List.forall₂_cons] at hany
      rw [h1, dropHit_cons, hl]
      by_cases hmk : marked (markCands status i e.cands).2 = true
      · rw [if_pos hmk]; omega
      · rw [if_neg hmk, hany.1.2 (Bool.eq_false_iff.2 hmk), List.filter_cons]
        by_cases hb : HasHit heap e
        · rw [if_pos (by simpa using hb), List.length_cons]
          obtain ⟨c, hc, x, hx, hh⟩ := hb
          obtain ⟨k, hk, e2⟩ := List.getElem_of_mem (List.mem_flatMap.2 ⟨c, hc, hx⟩ : x ∈ e.cands.flatMap (·.pairs))
          have hge : m ≤ i + k := by
            by_contra hlt
            refine hmk (h2 k hk (h k x ?_ (by omega) hh))
            unfold flatPairs
            rw [List.flatMap_cons, List.getElem?_append_left hk, List.getElem?_eq_getElem hk, e2]
          have hrest : ((dropHit (markEntries status (i + (e.cands.flatMap (·.pairs)).length) es)).filter
              (fun e => decide (HasHit heap e))).length ≤ (flatPairs es).length := by
            have s1 := (dropHit_any (markEntries_any status (fun _ => True) es
              (i + (e.cands.flatMap (·.pairs)).length) (fun _ _ _ _ => trivial))).1
            exact (s1.filter _).length_le.trans (hasHit_count heap es)
          omega
        · rw [if_neg (by simpa using hb)]; omega

open Classical in
/-- One level with `T` threads. -/
theorem round_threads {T : Nat} {heap : Voxel → List Tri} {es es' : List Entry} (h : IntersectRound (.cpu T) heap es es')
    (vs : List Voxel) (hfits : Fits 9 heap vs) (hvs : ∀ p ∈ flatPairs es, p.v1 ∈ vs ∧ p.v2 ∈ vs) :
    (es'.filter (fun e => decide (HasHit heap e))).length ≤ (flatPairs es).length - (flatPairs es).length / T * T := by
  cases h with
  | idle h0 =>
    have := hasHit_count heap es
    rw [h0] at this ⊢; omega
  | run m' junk ws hne hm' hws =>
    refine (kept_count heap _ ((flatPairs es).length / T * T) es 0 ?_).trans (by omega)
    intro k p hp hk hh
    rw [Nat.zero_add] at hk ⊢
    obtain ⟨s1, _⟩ := status_spec (.cpu T) _ _ _ ws hws k (List.getElem?_eq_some_iff.1 hp).1
    rw [decide_eq_true_eq]
    exact (s1 hk).2 ((cpuInt_packed heap vs hfits (flatPairs es) hvs m' hm' junk k p hp).2 hh)

/-- One level with more threads than pairs: nothing happens. -/
theorem round_few {T : Nat} {heap : Voxel → List Tri} {es es' : List Entry} (h : IntersectRound (.cpu T) heap es es')
    (h0 : ∀ e ∈ es, ∀ c ∈ e.cands, ∀ x ∈ c.pairs, x.intersect = false) (hT : (flatPairs es).length < T) : es' = es := by
  cases h with
  | idle => rfl
  | run m' junk ws hne hm' hws =>
    have hst : ∀ k, k < (flatPairs es).length → decide (runWrites (fun _ => 0) ws k ≠ 0) = false := by
      intro k hk
      rw [decide_eq_false_iff_not, not_not]
      refine (status_spec (.cpu T) _ _ _ ws hws k hk).2 ?_
      show ¬ (k < (flatPairs es).length / T * T)
      rw [Nat.div_eq_of_lt hT, Nat.zero_mul]; omega
    have key := markEntries_any (fun i => decide (runWrites (fun _ => 0) ws i ≠ 0)) (fun _ => False) es 0 (by
      intro k p hp hs
      rw [Nat.zero_add, hst k (List.getElem?_eq_some_iff.1 hp).1] at hs
      exact absurd hs (by decide))
    obtain ⟨l, hl⟩ : ∃ l, markEntries (fun i => decide (runWrites (fun _ => 0) ws i ≠ 0)) 0 es = l := ⟨_, rfl⟩
    rw [hl] at key ⊢
    clear hl hst hws hm' ws hne hT
    induction key with
    | nil => rfl
    | @cons e e' es l hh _ ih =>
      have hm : marked e'.cands ≠ true := by
        intro hm
        obtain ⟨c, hc, x, hx, hi | hi⟩ := hh.1 hm
        · rw [h0 e (List.mem_cons_self ..) c hc x hx] at hi; exact absurd hi (by decide)
        · exact hi
      rw [dropHit_cons, if_neg hm, hh.2 (Bool.eq_false_iff.2 hm), ih (fun e he => h0 e (List.mem_cons_of_mem _ he))]

section
variable {cfg : Cfg} {mid : ℚ → ℚ → ℚ} {dist : Pt ℚ → Pt ℚ → WithTop ℚ} {heap : Nat → Voxel → List Tri} {tile1 : List (Object Tri)}
  {o : Object Tri} {os : List (Object Tri)} {tile2 : Int → Wrapper} {lods : List Nat} {vs : List Voxel} {start final : List Entry}

/-- C62 (partial). With any number `T` of computing threads: after the last level, at most `T - 1` of the objects left have a triangle that
passes the triangle test with one in a voxel whose box meets its own; with one thread there is none. -/
theorem C62_threads_partial {T : Nat} (hT : 0 < T) {lod : Nat}
    (S : Setting 9 dist Tri.C heap tile1 o os tile2 (lods ++ [lod]) vs)
    (h : IntersectJoin (.cpu T) mid heap tile1 o os tile2 (lods ++ [lod]) start final) :
    (final.filter (fun e => decide (∃ c ∈ e.cands, ∃ x ∈ c.pairs, ∃ t1 ∈ heap lod x.v1, ∃ t2 ∈ heap lod x.v2,
      triInt t1.C t1.P1 t1.P2 t2.C t2.P1 t2.P2 = true))).length ≤ T - 1 := by
  obtain ⟨fuel, tree, ht, hf, hr⟩ := h
  obtain ⟨s1, s2⟩ := start_spec S ht hf
  have fits := S.fits
  clear hf S
  classical
  have key : ∀ (l : List Nat) (es : List Entry), (∀ x ∈ l ++ [lod], Fits 9 (heap x) vs) →
      (∀ p ∈ flatPairs es, p.v1 ∈ vs ∧ p.v2 ∈ vs) → IntersectRounds (.cpu T) heap (l ++ [lod]) es final →
      (final.filter (fun e => decide (HasHit (heap lod) e))).length ≤ T - 1 := by
    intro l
    induction l with
    | nil =>
      intro es hf h2 hr
      rw [List.nil_append] at hr
      cases hr with
      | cons hr hn =>
        cases hn
        refine (round_threads hr vs (hf _ (by simp)) h2).trans ?_
        have := Nat.mod_lt (flatPairs es).length hT
        have h3 := Nat.div_add_mod (flatPairs es).length T
        rw [Nat.mul_comm] at h3
        omega
    | cons x l ih =>
      intro es hf h2 hr
      rw [List.cons_append] at hr
      cases hr with
      | cons hr hn =>
        refine ih _ (fun y hy => hf y (List.mem_cons_of_mem _ hy)) ?_ hn
        intro p hp
        exact h2 p (flatPairs_sub (round_sound hr vs (hf _ (List.mem_cons_self ..)) h2).1 p hp)
  have := key lods start fits s2 hr
  refine le_trans (le_of_eq ?_) this
  congr 1
  refine List.filter_congr ?_
  intro e _
  rw [decide_eq_decide]
  exact Iff.rfl

/-- C62 is false with several threads, for every input: if there are fewer voxel pairs than threads, nothing is tested at any level
and every object with a candidate stays, whatever meets. -/
theorem C62_few_pairs_undecided {T : Nat} (S : Setting 9 dist Tri.C heap tile1 o os tile2 lods vs)
    (h : IntersectJoin (.cpu T) mid heap tile1 o os tile2 lods start final) (hT : (flatPairs start).length < T) : final = start := by
  obtain ⟨fuel, tree, ht, hf, hr⟩ := h
  have s1 := (start_spec S ht hf).1
  clear hf S
  induction hr with
  | nil => rfl
  | cons hr _ ih =>
    have := round_few hr s1 hT
    subst this
    exact ih hT s1
end

namespace Ex

theorem start_eq {cfg : Cfg} {mid : ℚ → ℚ → ℚ} {lods : List Nat} {start final : List Entry}
    (S : Setting 9 (fun _ _ => 0) Tri.C heap [oa] ob [] tile2 lods [va, vb])
    (h : IntersectJoin cfg mid heap [oa] ob [] tile2 lods start final) : start.map Entry.mesh = [oa.w] := by
  rw [C61_start S h]
  have : (∃ b ∈ [ob], b.ptr ≠ oa.ptr ∧ b.w.box.intersect oa.w.box = true) := ⟨ob, by simp, by decide, by decide +kernel⟩
  rw [List.filter_cons, if_pos (by simpa using this)]
  rfl

/-- C62 (counterexample). Two objects with one voxel and one triangle each, the triangles meet (and pass the test), boxes meet; with two or more
threads the join runs, and every run leaves the object undecided. -/
theorem C62_counterexample_threads (T : Nat) (hT : 2 ≤ T) :
    triInt t1.C t1.P1 t1.P2 t2.C t2.P1 t2.P2 = true ∧
    (∃ start final, IntersectJoin (.cpu T) (fun a b => (a + b) / 2) heap [oa] ob [] tile2 [50, 100] start final) ∧
    ∀ start final, IntersectJoin (.cpu T) (fun a b => (a + b) / 2) heap [oa] ob [] tile2 [50, 100] start final →
      final.map Entry.mesh = [oa.w] := by
  refine ⟨by decide +kernel, intersectJoin_exists _ _ _ _ _ _ _ _ 10 (by decide +kernel), ?_⟩
  intro start final h
  have h1 := start_eq setting h
  have hlen : (flatPairs start).length ≤ 1 := by
    obtain ⟨fuel, tree, ht, hf, hr⟩ := h
    cases hf with
    | skip hq hn => cases hn; simp [flatPairs]
    | @keep _ _ _ ids hq hs hn =>
      cases hn
      have hmem : ∀ i ∈ ids, i = 0 := by
        intro i hi
        have hi' := hs.1.subset hi
        obtain ⟨v, hv, _, e, _⟩ := (Octree.C21_intersect_query_exact _ 400 fuel ob.obj [] tree ht (by
          intro v hv
          simp at hv
          subst hv
          exact ⟨Nat.one_pos, setting.solid ob (by simp)⟩) oa.obj (setting.solid oa (by simp)) i).1 hi'
        simp at hv
        subst hv
        exact e.symm
      have key : ∀ (l : List Int), (∀ i ∈ l, i = 0) → (skipDup id (-1) l = [] ∨ skipDup id (-1) l = [0]) := by
        have h0 : ∀ l : List Int, (∀ i ∈ l, i = 0) → skipDup id 0 l = [] := by
          intro l
          induction l with
          | nil => intro _; rfl
          | cons a l ih =>
            intro h
            have ha := h a (List.mem_cons_self ..)
            subst ha
            simp [skipDup]
            exact ih (fun i hi => h i (List.mem_cons_of_mem _ hi))
        intro l h
        cases l with
        | nil => exact Or.inl rfl
        | cons a l =>
          have ha := h a (List.mem_cons_self ..)
          subst ha
          right
          simp [skipDup]
          exact h0 l (fun i hi => h i (List.mem_cons_of_mem _ hi))
      unfold mbbIntersect flatPairs
      rcases key ids hmem with h | h <;> rw [h]
      · simp
      · decide +kernel
  rw [C62_few_pairs_undecided setting h (by omega), h1]

end Ex

/-! An object with two voxels, and a triangle that starts in one of them and reaches to the other object between them. -/
namespace ExOut
def cub (l h : ℚ) : Box ℚ := ⟨fun _ => l, fun _ => h⟩
def tc1 : Tri := ⟨fun _ => 0, pt3 6 5 6, pt3 5 6 6⟩
def tc2 : Tri := ⟨fun _ => 5, pt3 1 0 0, pt3 0 1 1⟩
def td : Tri := ⟨pt3 3 3 2, pt3 0 0 2, pt3 1 0 2⟩
def v1 : Voxel := ⟨100, cub 0 1⟩
def v2 : Voxel := ⟨200, cub 5 6⟩
def v3 : Voxel := ⟨300, cub 2 4⟩
def oc : Object Tri := ⟨1, ⟨0, cub 0 6, [v1, v2]⟩, [fun _ => 0, fun _ => 5], fun _ => [tc1, tc2]⟩
def od : Object Tri := ⟨2, ⟨0, cub 2 4, [v3]⟩, [fun _ => 3], fun _ => [td]⟩
def tile2 (i : Int) : Wrapper := ⟨i, cub 2 4, [v3]⟩
def heap (_ : Nat) (v : Voxel) : List Tri := if v.addr = 100 then [tc1] else if v.addr = 200 then [tc2] else [td]
/-- The squared distance. -/
def sq (p q : Pt ℚ) : WithTop ℚ := (((p 0 - q 0) ^ 2 + (p 1 - q 1) ^ 2 + (p 2 - q 2) ^ 2 : ℚ) : WithTop ℚ)

theorem setting (lods : List Nat) : Setting 9 sq Tri.C heap [oc] od [] tile2 lods [v1, v2, v3] where
  ids := fun _ => rfl
  tile := by intro b hb; simp at hb; subst hb; exact ⟨rfl, by decide⟩
  solid := by
    intro b hb
    have : b = oc ∨ b = od := by simpa using hb
    rcases this with rfl | rfl <;> intro i <;> simp [oc, od, cub] <;> norm_num
  voxels := by
    intro b hb
    have : b = oc ∨ b = od := by simpa using hb
    rcases this with rfl | rfl <;> simp [oc, od]
  filled := by
    intro lod _ b hb
    have : b = oc ∨ b = od := by simpa using hb
    refine ⟨?_, ?_⟩
    · rcases this with rfl | rfl
      · have n1 : Voxels.nearest sq [fun _ => 0, fun _ => 5] tc1.C = some 0 := by decide +kernel
        have n2 : Voxels.nearest sq [fun _ => 0, fun _ => 5] tc2.C = some 1 := by decide +kernel
        refine ⟨[⟨fun _ => 0, cub 0 1, fun _ => none, fun _ => none⟩, ⟨fun _ => 5, cub 5 6, fun _ => none, fun _ => none⟩],
          [Voxels.Voxel.set ⟨fun _ => 0, cub 0 1, fun _ => none, fun _ => none⟩ lod [tc1] 1,
           Voxels.Voxel.set ⟨fun _ => 5, cub 5 6, fun _ => none, fun _ => none⟩ lod [tc2] 1], rfl, rfl,
          by simp, ?_, ?_⟩
        · show (([tc1, tc2].mapM (fun e => Voxels.nearest sq [fun _ => 0, fun _ => 5] e.C)).bind fun groups => _) = _
          rw [List.mapM_cons, n1, List.mapM_cons, n2, List.mapM_nil]
          rfl
        · simp [Voxels.Voxel.set, oc, heap, v1, v2]
      · refine ⟨[⟨fun _ => 3, cub 2 4, fun _ => none, fun _ => none⟩], _, rfl, rfl, by simp, rfl, ?_⟩
        simp [Voxels.Voxel.set, od, heap, v3]
    · intro c _ e _; exact WithTop.coe_lt_top _
  fits := by
    intro lod _
    refine ⟨?_, by simp [heap, v1, v2, v3]⟩
    intro v hv v' hv' h
    simp at hv hv'
    rcases hv with rfl | rfl | rfl <;> rcases hv' with rfl | rfl | rfl <;> simp [v1, v2, v3] at h ⊢

/-- C62 (counterexample), on a GPU and with any number of threads: the objects have boxes that are the hulls of their voxels' boxes,
triangles that meet (and pass the test), and boxes that meet; the join runs, and every run leaves the first object undecided,
because the voxels' boxes do not meet. -/
theorem C62_counterexample_voxel_box (cfg : Cfg) :
    triInt tc1.C tc1.P1 tc1.P2 td.C td.P1 td.P2 = true ∧ od.w.box.intersect oc.w.box = true ∧
    (∃ start final, IntersectJoin cfg (fun a b => (a + b) / 2) heap [oc] od [] tile2 [50, 100] start final) ∧
    ∀ start final, IntersectJoin cfg (fun a b => (a + b) / 2) heap [oc] od [] tile2 [50, 100] start final →
      final.map Entry.mesh = [oc.w] := by
  refine ⟨by decide +kernel, by decide +kernel, intersectJoin_exists _ _ _ _ _ _ _ _ 10 (by decide +kernel), ?_⟩
  intro start final h
  have h1 : start.map Entry.mesh = [oc.w] := by
    rw [C61_start (setting _) h]
    have : (∃ b ∈ [od], b.ptr ≠ oc.ptr ∧ b.w.box.intersect oc.w.box = true) := ⟨od, by simp, by decide, by decide +kernel⟩
    rw [List.filter_cons, if_pos (by simpa using this)]
    rfl
  obtain ⟨fuel, tree, ht, hf, hr⟩ := h
  have hflat : flatPairs start = [] := by
    by_contra hne
    obtain ⟨x, hx⟩ := List.exists_mem_of_ne_nil _ hne
    obtain ⟨e, he, hx⟩ := List.mem_flatMap.1 hx
    obtain ⟨c, hc, hx⟩ := List.mem_flatMap.1 hx
    obtain ⟨a, ha, ids, hs, rfl⟩ := filter_entries hf e he
    simp at ha
    subst ha
    unfold mbbIntersect at hc
    simp only at hc
    obtain ⟨hc, hlen⟩ := List.mem_filter.1 hc
    obtain ⟨i, hi, rfl⟩ := List.mem_map.1 hc
    have : (intersectCand oc.w (tile2 i)).pairs = [] := by
      have e0 : (intersectCand oc.w (tile2 0)).pairs.length = 0 := by decide +kernel
      exact List.length_eq_zero_iff.1 e0
    rw [this] at hx
    simp at hx
  have key : ∀ (l : List Nat) (es : List Entry), flatPairs es = [] → IntersectRounds cfg heap l es final → final = es := by
    intro l
    induction l with
    | nil => intro es _ h; cases h; rfl
    | cons x l ih =>
      intro es h0 h
      cases h with
      | cons hr hn =>
        cases hr with
        | idle => exact ih _ h0 hn
        | run _ _ _ hne => exact absurd (by rw [h0]; rfl) hne
  rw [key _ _ hflat hr, h1]

end ExOut
end TDP.EndToEnd
