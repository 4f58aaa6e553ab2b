import Verif.Join.Rounds
/-! Lemmas about the within and the intersection rounds. -/
namespace TDP.Join
open TDP.Boxes TDP.Octree

/-! ## Intersection rounds -/

/-- A pair with the kernel's answer for itself. -/
def markPair (hit : Voxel → Voxel → Bool) (x : VPair) : VPair := { x with intersect := x.intersect || hit x.v1 x.v2 }

theorem markPairs_eq (hit : Voxel → Voxel → Bool) (status : Nat → Bool) : ∀ (ps : List VPair) (i : Nat),
    (∀ (k : Nat) p, ps[k]? = some p → status (i + k) = hit p.v1 p.v2) →
    markPairs status i ps = (i + ps.length, ps.map (markPair hit))
  | [], i, _ => rfl
  | x :: xs, i, h => by
      have hx : status i = hit x.v1 x.v2 := by simpa using h 0 x rfl
      have ht : ∀ (k : Nat) p, xs[k]? = some p → status (i + 1 + k) = hit p.v1 p.v2 := by
        intro k p hp
        have := h (k + 1) p (by simpa using hp)
        rw [← this]; congr 1; omega
      unfold markPairs
      simp only
      rw [markPairs_eq hit status xs _ ht]
      simp only [List.map_cons, List.length_cons, markPair, hx]
      congr 1; omega

/-- A candidate with its marks. -/
def markCand (hit : Voxel → Voxel → Bool) (c : Cand) : Cand := { c with pairs := c.pairs.map (markPair hit) }

theorem markCands_eq (hit : Voxel → Voxel → Bool) (status : Nat → Bool) : ∀ (cs : List Cand) (i : Nat),
    (∀ (k : Nat) p, (cs.flatMap (·.pairs))[k]? = some p → status (i + k) = hit p.v1 p.v2) →
    markCands status i cs = (i + (cs.flatMap (·.pairs)).length, cs.map (markCand hit))
  | [], i, _ => rfl
  | c :: cs, i, h => by
      have h1 : ∀ (k : Nat) p, c.pairs[k]? = some p → status (i + k) = hit p.v1 p.v2 := by
        intro k p hp
        refine h k p ?_
        rw [List.flatMap_cons, List.getElem?_append_left (List.getElem?_eq_some_iff.1 hp).1]
        exact hp
      have h2 : ∀ (k : Nat) p, (cs.flatMap (·.pairs))[k]? = some p → status (i + c.pairs.length + k) = hit p.v1 p.v2 := by
        intro k p hp
        rw [Nat.add_assoc]
        refine h _ p ?_
        rw [List.flatMap_cons, List.getElem?_append_right (by omega), Nat.add_sub_cancel_left]
        exact hp
      unfold markCands
      simp only
      rw [markPairs_eq hit status c.pairs i h1]
      simp only
      rw [markCands_eq hit status cs _ h2]
      simp only [List.map_cons, List.flatMap_cons, List.length_append, markCand]
      congr 1; omega

/-- An entry with its marks. -/
def markEntry (hit : Voxel → Voxel → Bool) (e : Entry) : Entry := { e with cands := e.cands.map (markCand hit) }

theorem markEntries_eq (hit : Voxel → Voxel → Bool) (status : Nat → Bool) : ∀ (es : List Entry) (i : Nat),
    (∀ (k : Nat) p, (flatPairs es)[k]? = some p → status (i + k) = hit p.v1 p.v2) →
    markEntries status i es = es.map (markEntry hit)
  | [], _, _ => rfl
  | e :: es, i, h => by
      have h1 : ∀ (k : Nat) p, (e.cands.flatMap (·.pairs))[k]? = some p → status (i + k) = hit p.v1 p.v2 := by
        intro k p hp
        refine h k p ?_
        unfold flatPairs
        rw [List.flatMap_cons, List.getElem?_append_left (List.getElem?_eq_some_iff.1 hp).1]
        exact hp
      have h2 : ∀ (k : Nat) p, (flatPairs es)[k]? = some p →
          status (i + (e.cands.flatMap (·.pairs)).length + k) = hit p.v1 p.v2 := by
        intro k p hp
        rw [Nat.add_assoc]
        refine h _ p ?_
        unfold flatPairs at hp ⊢
        rw [List.flatMap_cons, List.getElem?_append_right (by omega), Nat.add_sub_cancel_left]
        exact hp
      unfold markEntries
      simp only
      rw [markCands_eq hit status e.cands i h1]
      simp only
      rw [markEntries_eq hit status es _ h2]
      rfl

theorem map_filter_fix {A : Type} (f : A → A) (p q : A → Bool) : ∀ l : List A,
    (∀ a ∈ l, p (f a) = q a) → (∀ a ∈ l, q a = true → f a = a) → (l.map f).filter p = l.filter q
  | [], _, _ => rfl
  | a :: as, h1, h2 => by
      have ih := map_filter_fix f p q as (fun b hb => h1 b (List.mem_cons_of_mem _ hb))
        (fun b hb => h2 b (List.mem_cons_of_mem _ hb))
      rw [List.map_cons, List.filter_cons, List.filter_cons, h1 a (List.mem_cons_self ..), ih]
      by_cases hq : q a = true
      · rw [if_pos hq, if_pos hq, h2 a (List.mem_cons_self ..) hq]
      · rw [if_neg hq, if_neg hq]

theorem map_id_of {A : Type} (f : A → A) : ∀ l : List A, (∀ a ∈ l, f a = a) → l.map f = l
  | [], _ => rfl
  | a :: as, h => by
      rw [List.map_cons, h a (List.mem_cons_self ..), map_id_of f as (fun b hb => h b (List.mem_cons_of_mem _ hb))]

/-- No pair of an entry is marked or hit. -/
def clean (hit : Voxel → Voxel → Bool) (e : Entry) : Bool :=
  e.cands.all (fun c => c.pairs.all (fun x => !x.intersect && !hit x.v1 x.v2))

theorem intersectRound_eq (hit : Voxel → Voxel → Bool) (es : List Entry) :
    intersectRound hit es =
      if (flatPairs es).length = 0 then es else es.filter (clean hit) := by
  unfold intersectRound
  by_cases h : (flatPairs es).length = 0
  · rw [if_pos h, if_pos h]
  · rw [if_neg h, if_neg h]
    rw [markEntries_eq hit _ es 0 (by intro k p hp; simp only [Nat.zero_add, hp])]
    unfold dropHit
    apply map_filter_fix
    · intro e _
      unfold clean markEntry markCand markPair
      rw [Bool.eq_iff_iff]
      simp [Function.comp_def]
    · intro e _ hc
      unfold clean at hc
      simp only [List.all_eq_true, Bool.and_eq_true, Bool.not_eq_true'] at hc
      unfold markEntry
      have : e.cands.map (markCand hit) = e.cands := by
        apply map_id_of
        intro c hcc
        unfold markCand
        have : c.pairs.map (markPair hit) = c.pairs := by
          apply map_id_of
          intro x hx
          obtain ⟨h1, h2⟩ := hc c hcc x hx
          unfold markPair
          rw [h2, Bool.or_false]
        rw [this]
      rw [this]

/-! ## Within rounds -/

/-- The pair was left alone or updated with its own distance. -/
def Updated (top : Bool) (D : ℚ) (r : Round) (x x' : VPair) : Prop :=
  x' = x ∨ (r.sized x = true ∧
    x' = { x with dist := refine top x.dist (r.kernel x.v1 x.v2),
                  intersect := x.intersect || decide ((refine top x.dist (r.kernel x.v1 x.v2)).maxdist < D) })

/-- This round finds the pair within the distance. -/
def wiHit (top : Bool) (D : ℚ) (r : Round) (x : VPair) : Bool :=
  r.sized x && decide ((refine top x.dist (r.kernel x.v1 x.v2)).maxdist < D)

theorem wiPairs_true (top : Bool) (D : ℚ) (r : Round) (dist : Nat → ℚ) : ∀ (ps : List VPair) (i : Nat),
    wiPairs top D r.sized dist (i, true) ps = ((i + ps.length, true), ps)
  | [], i => rfl
  | x :: xs, i => by
      unfold wiPairs
      rw [if_neg (by simp)]
      simp only
      rw [wiPairs_true top D r dist xs]
      simp only [List.length_cons]
      congr 2; omega

theorem wiPairs_spec (top : Bool) (D : ℚ) (r : Round) (dist : Nat → ℚ) : ∀ (ps : List VPair) (i : Nat),
    (∀ (k : Nat) p, ps[k]? = some p → r.sized p = true → dist (i + k) = r.kernel p.v1 p.v2) →
    (wiPairs top D r.sized dist (i, false) ps).1 = (i + ps.length, ps.any (wiHit top D r)) ∧
    List.Forall₂ (Updated top D r) ps (wiPairs top D r.sized dist (i, false) ps).2 ∧
    (wiPairs top D r.sized dist (i, false) ps).2.any (·.intersect) =
      (ps.any (·.intersect) || ps.any (wiHit top D r))
  | [], i, _ => ⟨rfl, List.Forall₂.nil, rfl⟩
  | x :: xs, i, h => by
      have hx : r.sized x = true → dist i = r.kernel x.v1 x.v2 := by simpa using h 0 x rfl
      have ht : ∀ (k : Nat) p, xs[k]? = some p → r.sized p = true → dist (i + 1 + k) = r.kernel p.v1 p.v2 := by
        intro k p hp hz
        have := h (k + 1) p (by simpa using hp) hz
        rw [← this]; congr 1; omega
      obtain ⟨i1, i2, i3⟩ := wiPairs_spec top D r dist xs (i + 1) ht
      unfold wiPairs
      by_cases hz : r.sized x = true
      · rw [if_pos (by simp [hz])]
        simp only [Bool.false_or, hx hz]
        by_cases hh : (refine top x.dist (r.kernel x.v1 x.v2)).maxdist < D
        · have hw : wiHit top D r x = true := by simp [wiHit, hz, hh]
          simp only [hh, decide_true, wiPairs_true, List.any_cons, hw, Bool.true_or, Bool.or_true,
            List.length_cons]
          refine ⟨by congr 1; omega, List.Forall₂.cons (Or.inr ⟨hz, by simp [hh]⟩) ?_, trivial⟩
          exact List.forall₂_same.2 (fun y _ => Or.inl rfl)
        · have hw : wiHit top D r x = false := by simp [wiHit, hh]
          simp only [hh, decide_false, List.any_cons, hw, Bool.false_or, Bool.or_false, List.length_cons]
          refine ⟨by rw [i1]; congr 1; omega, List.Forall₂.cons (Or.inr ⟨hz, by simp [hh]⟩) i2, ?_⟩
          rw [i3, Bool.or_assoc]
      · rw [if_neg (by simp [hz])]
        have hw : wiHit top D r x = false := by simp [wiHit, hz]
        simp only [List.any_cons, hw, Bool.false_or, List.length_cons]
        refine ⟨by rw [i1]; congr 1; omega, List.Forall₂.cons (Or.inl rfl) i2, ?_⟩
        rw [i3, Bool.or_assoc]

/-- Only the last candidate of an entry may be found within the distance in this round. -/
def OnlyLastHits (top : Bool) (D : ℚ) (r : Round) (cs : List Cand) : Prop :=
  ∀ c ∈ cs.dropLast, ∀ x ∈ c.pairs, wiHit top D r x = false

theorem wiCands_spec (top : Bool) (D : ℚ) (r : Round) (dist : Nat → ℚ) : ∀ (cs : List Cand) (i : Nat),
    (∀ (k : Nat) p, (cs.flatMap (·.pairs))[k]? = some p → r.sized p = true → dist (i + k) = r.kernel p.v1 p.v2) →
    OnlyLastHits top D r cs →
    (wiCands top D r.sized dist (i, false) cs).1.1 = i + (cs.flatMap (·.pairs)).length ∧
    List.Forall₂ (fun c c' => c'.mesh = c.mesh ∧ c'.distance = c.distance ∧ List.Forall₂ (Updated top D r) c.pairs c'.pairs)
      cs (wiCands top D r.sized dist (i, false) cs).2 ∧
    (wiCands top D r.sized dist (i, false) cs).2.any (fun c => c.pairs.any (·.intersect)) =
      cs.any (fun c => c.pairs.any (·.intersect) || c.pairs.any (wiHit top D r))
  | [], i, _, _ => ⟨rfl, List.Forall₂.nil, rfl⟩
  | c :: cs, i, h, ho => by
      have h1 : ∀ (k : Nat) p, c.pairs[k]? = some p → r.sized p = true → dist (i + k) = r.kernel p.v1 p.v2 := by
        intro k p hp hz
        refine h k p ?_ hz
        rw [List.flatMap_cons, List.getElem?_append_left (List.getElem?_eq_some_iff.1 hp).1]
        exact hp
      have h2 : ∀ (k : Nat) p, (cs.flatMap (·.pairs))[k]? = some p → r.sized p = true →
          dist (i + c.pairs.length + k) = r.kernel p.v1 p.v2 := by
        intro k p hp hz
        rw [Nat.add_assoc]
        refine h _ p ?_ hz
        rw [List.flatMap_cons, List.getElem?_append_right (by omega), Nat.add_sub_cancel_left]
        exact hp
      obtain ⟨a1, a2, a3⟩ := wiPairs_spec top D r dist c.pairs i h1
      unfold wiCands
      rw [if_pos (by simp)]
      simp only
      cases cs with
      | nil =>
        simp only [wiCands]
        refine ⟨by rw [a1]; simp, List.Forall₂.cons ⟨rfl, rfl, a2⟩ List.Forall₂.nil, ?_⟩
        simp only [List.any_cons, List.any_nil, Bool.or_false, a3]
      | cons c2 cs2 =>
        have hno : c.pairs.any (wiHit top D r) = false := by
          rw [Bool.eq_false_iff]
          simp only [ne_eq, List.any_eq_true, not_exists, not_and]
          intro x hx
          rw [ho c (by rw [List.dropLast_cons_of_ne_nil (by simp)]; exact List.mem_cons_self ..) x hx]
          simp
        have ho' : OnlyLastHits top D r (c2 :: cs2) := by
          intro c' hc'
          exact ho c' (by rw [List.dropLast_cons_of_ne_nil (by simp)]; exact List.mem_cons_of_mem _ hc')
        rw [hno] at a1 a3
        obtain ⟨b1, b2, b3⟩ := wiCands_spec top D r dist (c2 :: cs2) (i + c.pairs.length) h2 ho'
        rw [a1]
        refine ⟨?_, List.Forall₂.cons ⟨rfl, rfl, a2⟩ b2, ?_⟩
        · have e : (c :: c2 :: cs2).flatMap (·.pairs) = c.pairs ++ (c2 :: cs2).flatMap (·.pairs) := rfl
          rw [b1, e, List.length_append]; omega
        · rw [List.any_cons, b3, List.any_cons (l := c2 :: cs2), a3, hno]

theorem wiEntries_spec (top : Bool) (D : ℚ) (r : Round) (dist : Nat → ℚ) : ∀ (es : List Entry) (i : Nat),
    (∀ (k : Nat) p, (flatPairs es)[k]? = some p → r.sized p = true → dist (i + k) = r.kernel p.v1 p.v2) →
    (∀ e ∈ es, OnlyLastHits top D r e.cands) →
    List.Forall₂ (fun e e' => e'.mesh = e.mesh ∧
      List.Forall₂ (fun c c' => c'.mesh = c.mesh ∧ c'.distance = c.distance ∧
        List.Forall₂ (Updated top D r) c.pairs c'.pairs) e.cands e'.cands ∧
      e'.cands.any (fun c => c.pairs.any (·.intersect)) =
        e.cands.any (fun c => c.pairs.any (·.intersect) || c.pairs.any (wiHit top D r)))
      es (wiEntries top D r.sized dist i es)
  | [], _, _, _ => List.Forall₂.nil
  | e :: es, i, h, ho => by
      have h1 : ∀ (k : Nat) p, (e.cands.flatMap (·.pairs))[k]? = some p → r.sized p = true → dist (i + k) = r.kernel p.v1 p.v2 := by
        intro k p hp hz
        refine h k p ?_ hz
        unfold flatPairs
        rw [List.flatMap_cons, List.getElem?_append_left (List.getElem?_eq_some_iff.1 hp).1]
        exact hp
      have h2 : ∀ (k : Nat) p, (flatPairs es)[k]? = some p → r.sized p = true →
          dist (i + (e.cands.flatMap (·.pairs)).length + k) = r.kernel p.v1 p.v2 := by
        intro k p hp hz
        rw [Nat.add_assoc]
        refine h _ p ?_ hz
        unfold flatPairs at hp ⊢
        rw [List.flatMap_cons, List.getElem?_append_right (by omega), Nat.add_sub_cancel_left]
        exact hp
      obtain ⟨a1, a2, a3⟩ := wiCands_spec top D r dist e.cands i h1 (ho e (List.mem_cons_self ..))
      unfold wiEntries
      simp only
      refine List.Forall₂.cons ⟨rfl, a2, a3⟩ ?_
      rw [a1]
      exact wiEntries_spec top D r dist es _ h2 (fun e' he' => ho e' (List.mem_cons_of_mem _ he'))

end TDP.Join
