import Verif.Codec.Props
/-!
# C94: the assertions of a decimation (src/PPMC/mymesh.h:98-150, 247-335, src/PPMC/mymeshComp.cpp:82-240)

The Makefile compiles the assertions out (`NDEBUG`); here the flags of facets and halfedges are those of mymesh.h, every
`assert` of the decimation conquest is evaluated, and a failing one is `none`. `assert(!h->is_border())` holds by the
construction of the model: every halfedge has a facet.
-/
namespace TDP.Codec
open TDP.Traversal Function

variable {P : Type}

/-- `MyHalfedge::Flag` (mymesh.h:247). `InQueue2` is set by `setInProblematicQueue`, which nothing calls. -/
inductive QFlag | notYetInQueue | inQueue | inQueue2 | noLongerInQueue
deriving DecidableEq, Repr

/-- `MyHalfedge::Flag2` (mymesh.h:248). -/
inductive Flag2 | original | added | new
deriving DecidableEq, Repr

/-- The state of the conquest with the flags of mymesh.h. In `st` the flags "added" are not used. -/
structure ASt (P : Type) where
  st : St P
  qf : Nat → QFlag
  f2 : Nat → Flag2

/-- `removeFromQueue` (mymesh.h:275-279). -/
def removeFromQueue (qf : Nat → QFlag) (h : Nat) : Option (Nat → QFlag) :=
  if qf h = .inQueue ∨ qf h = .inQueue2 then some (set qf h .noLongerInQueue) else none

/-- `setInQueue` on each of the halfedges pushed (mymesh.h:264-267). -/
def setInQueue (qf : Nat → QFlag) (l : List Nat) : Nat → QFlag := l.foldl (fun q h => set q h .inQueue) qf

/-- `setAdded` (mymesh.h:310-314). -/
def setAdded (f2 : Nat → Flag2) (h : Nat) : Option (Nat → Flag2) := if f2 h = .original then some (set f2 h .added) else none

/-- `setSplittable`, `setUnsplittable` (mymesh.h:130-140). -/
def setFlag (flag : Nat → Flag) (f : Nat) (v : Flag) : Option (Nat → Flag) := if flag f = .unknown then some (set flag f v) else none

/-- The body of the loop of `vertexCut` (mymeshComp.cpp:185-205) with `assert(!f->isConquered())`. The halfedges made by
`split_facet` are default-constructed (mymesh.h:252-253). -/
def cutCornerA (a : ASt P) (h : Nat) : Option (ASt P) :=
  if (a.st.flag (a.st.m.face h)).conquered then none
  else if 3 < a.st.m.deg h then do
    let g ← findSplit a.st.m h a.st.m.darts.card (a.st.m.next h)
    let f2 := set (set a.f2 a.st.m.nd .original) (a.st.m.nd + 1) .original
    let qf := set (set a.qf a.st.m.nd .notYetInQueue) (a.st.m.nd + 1) .notYetInQueue
    let f2 ← setAdded f2 a.st.m.nd
    let f2 ← setAdded f2 (a.st.m.nd + 1)
    some {
      st := { a.st with
        m := splitFacet a.st.m h g
        flag := set a.st.flag a.st.m.nf (a.st.flag (a.st.m.face h))
        rem := set a.st.rem a.st.m.nf (a.st.rem (a.st.m.face h))
        conq := set a.st.conq (a.st.m.vert h) true }
      qf := qf
      f2 := f2 }
  else some { a with st := { a.st with conq := set a.st.conq (a.st.m.vert h) true } }

/-- The loop of `vertexCut` (mymeshComp.cpp:182-206). -/
def cutLoopA (stop : Nat) : Nat → ASt P → Nat → Option (ASt P)
  | 0, _, _ => none
  | n + 1, a, h => do
      let a ← cutCornerA a h
      if a.st.m.rot h = stop then some a else cutLoopA stop n a (a.st.m.rot h)

/-- `vertexCut` (mymeshComp.cpp:174-240) with `assert(v->vertex_degree()>2)`. -/
def vertexCutA (a : ASt P) (startH : Nat) : Option (ASt P) :=
  if ¬ 2 < (a.st.m.ring (a.st.m.opp startH)).length then none
  else do
    let a ← cutLoopA (a.st.m.opp startH) a.st.m.darts.card a (a.st.m.opp startH)
    let hNewFace := a.st.m.prev startH
    let p := a.st.m.pos (a.st.m.vert startH)
    let s := { a.st with m := eraseCenter a.st.m startH }
    let flag ← setFlag s.flag (s.m.face hNewFace) .splittable
    let s := { s with flag := flag, rem := set s.rem (s.m.face hNewFace) (some p) }
    let pushed := frontier s hNewFace
    some { a with st := { s with queue := s.queue ++ pushed, nrem := s.nrem + 1 }, qf := setInQueue a.qf pushed }

/-- The loop over `decimationStep` (mymeshComp.cpp:82-146). -/
def conquestA (convex : Mesh P → Nat → Bool) (v0 v1 : Nat) : Nat → ASt P → Option (ASt P)
  | 0, _ => none
  | n + 1, a =>
    match a.st.queue with
    | [] => some a
    | h :: q =>
      if h ∉ a.st.m.darts then none
      else
        let s := { a.st with queue := q }
        if (s.flag (s.m.face h)).conquered then do
          let qf ← removeFromQueue a.qf h
          conquestA convex v0 v1 n { a with st := s, qf := qf }
        else match firstRemovable convex v0 v1 s h with
          | none => do
            let flag ← setFlag s.flag (s.m.face h) .unsplittable
            let s := { s with
              flag := flag
              conq := fun v => s.conq v || ((around s.m.h h).map s.m.vert).contains v }
            let pushed := frontier s h
            let qf ← removeFromQueue (setInQueue a.qf pushed) h
            conquestA convex v0 v1 n { a with st := { s with queue := s.queue ++ pushed }, qf := qf }
          | some hh => do
            let qf ← removeFromQueue a.qf h
            let a ← vertexCutA { a with st := s, qf := qf } hh
            conquestA convex v0 v1 n a

/-- `beginDecimationConquest` (mymeshComp.cpp:36-67): all flags reset, the first gate set in the queue. -/
def beginConquestA (m : Mesh P) (init : Nat) : ASt P :=
  { st := beginConquest m init
    qf := set (fun _ => .notYetInQueue) init .inQueue
    f2 := fun _ => .original }

/-! ### Proof -/

/-- The state without the flags "added", which are in `f2`. -/
def noAdd (s : St P) : St P := { s with added := fun _ => false }

/-- The "added" flags agree with `MyHalfedge::flag2`. -/
def SameAdded (f2 : Nat → Flag2) (s : St P) : Prop := ∀ d, s.added d = true ↔ f2 d = .added

/-- `a` is the state `s` of the model without assertions. -/
structure Same (a : ASt P) (s : St P) : Prop where
  st : a.st = noAdd s
  add : SameAdded a.f2 s

theorem cutCornerA_ok {a : ASt P} {s s' : St P} (S : Same a s) {h : Nat} (hf : s.flag (s.m.face h) = .unknown)
    (hs : cutCorner s h = some s') :
    ∃ a', cutCornerA a h = some a' ∧ Same a' s' ∧ ∀ d < s.m.nd, a'.qf d = a.qf d := by
  obtain ⟨st, qf, f2⟩ := a
  obtain ⟨e, hadd⟩ := S
  subst e
  unfold cutCornerA
  unfold cutCorner at hs
  have c0 : ((noAdd s).flag ((noAdd s).m.face h)).conquered = false := conquered_false.mpr hf
  simp only [c0, Bool.false_eq_true, if_false]
  by_cases h3 : 3 < s.m.deg h
  · rw [if_pos h3] at hs
    rw [if_pos (show 3 < (noAdd s).m.deg h from h3)]
    obtain ⟨g, hg, hs⟩ := Option.bind_eq_some_iff.mp hs
    have hg' : findSplit (noAdd s).m h (noAdd s).m.darts.card ((noAdd s).m.next h) = some g := hg
    have e1 : setAdded (set (set f2 (noAdd s).m.nd .original) ((noAdd s).m.nd + 1) .original) (noAdd s).m.nd =
        some (set (set (set f2 (noAdd s).m.nd .original) ((noAdd s).m.nd + 1) .original) (noAdd s).m.nd .added) := by
      unfold setAdded
      rw [if_pos (by simp [Traversal.set])]
    have e2 : setAdded (set (set (set f2 (noAdd s).m.nd .original) ((noAdd s).m.nd + 1) .original) (noAdd s).m.nd .added)
        ((noAdd s).m.nd + 1) =
        some (set (set (set (set f2 (noAdd s).m.nd .original) ((noAdd s).m.nd + 1) .original) (noAdd s).m.nd .added)
          ((noAdd s).m.nd + 1) .added) := by
      unfold setAdded
      rw [if_pos (by simp [Traversal.set])]
    simp only [hg', e1, e2, Option.bind_eq_bind, Option.bind_some]
    injection hs with hs
    subst hs
    refine ⟨_, rfl, ⟨rfl, ?_⟩, ?_⟩
    · intro d
      change set (set s.added s.m.nd true) (s.m.nd + 1) true d = true ↔
        set (set (set (set f2 s.m.nd .original) (s.m.nd + 1) .original) s.m.nd .added) (s.m.nd + 1) .added d = .added
      simp only [Traversal.set]
      by_cases d1 : d = s.m.nd + 1
      · simp [d1]
      · by_cases d2 : d = s.m.nd
        · simp [d2]
        · simpa [d1, d2] using hadd d
    · intro d hd
      change set (set qf s.m.nd .notYetInQueue) (s.m.nd + 1) .notYetInQueue d = qf d
      simp only [Traversal.set]
      rw [if_neg (by omega), if_neg (by omega)]
  · rw [if_neg h3] at hs
    rw [if_neg (show ¬ 3 < (noAdd s).m.deg h from h3)]
    injection hs with hs
    subst hs
    exact ⟨_, rfl, ⟨rfl, hadd⟩, fun _ _ => rfl⟩

section
variable {s0 : St P} {startH : Nat} (H : CutHyp s0 startH)
include H

/-- The facets around the vertex are unconquered all along the loop. -/
theorem CutHyp.unk {i : Nat} {s : St P} (I : CutInv s0 startH i s) (j : Nat) : s.flag (s.m.face (hj s0 startH j)) = .unknown := by
  rw [(I.flag _ (H.mem j)).1]
  obtain ⟨y, hy, hy1, hy2⟩ := H.wf.exists_prev (H.mem j)
  rw [← hy2]
  refine H.un y hy ?_
  rw [← H.wf.src_next y hy, hy1, H.src j]

theorem CutHyp.loopA (n i : Nat) {s : St P} {a : ASt P} (I : CutInv s0 startH i s) (S : Same a s)
    (hi : i < minimalPeriod s0.m.rot (s0.m.opp startH)) {s' : St P}
    (hs : cutLoop (s0.m.opp startH) n s (hj s0 startH i) = some s') :
    ∃ a', cutLoopA (s0.m.opp startH) n a (hj s0 startH i) = some a' ∧ Same a' s' ∧ ∀ d < s0.m.nd, a'.qf d = a.qf d := by
  induction n generalizing i s a with
  | zero => simp [cutLoop] at hs
  | succ n ih =>
    obtain ⟨s1, h1, I', hr⟩ := H.step I hi
    obtain ⟨a1, h2, S1, q1⟩ := cutCornerA_ok S (H.unk I i) h1
    rw [cutLoop, h1] at hs
    rw [cutLoopA, h2]
    simp only [Option.bind_eq_bind, Option.bind_some] at hs ⊢
    have hr' : a1.st.m.rot (hj s0 startH i) = hj s0 startH (i + 1) := by rw [S1.st]; exact hr
    rw [hr] at hs
    rw [hr']
    by_cases hlast : hj s0 startH (i + 1) = s0.m.opp startH
    · rw [if_pos hlast] at hs ⊢
      injection hs with hs
      exact ⟨a1, rfl, hs ▸ S1, fun d hd => q1 d (lt_of_lt_of_le hd I.nd.1)⟩
    · rw [if_neg hlast] at hs ⊢
      have : i + 1 ≠ minimalPeriod s0.m.rot (s0.m.opp startH) := fun e => hlast (by rw [e]; exact iterate_minimalPeriod)
      obtain ⟨a', h3, S', q'⟩ := ih (i + 1) I' S1 (by omega) hs
      exact ⟨a', h3, S', fun d hd => (q' d hd).trans (q1 d (lt_of_lt_of_le hd I.nd.1))⟩

end

theorem setInQueue_spec (qf : Nat → QFlag) (l : List Nat) :
    (∀ d ∈ l, setInQueue qf l d = .inQueue) ∧ ∀ d ∉ l, setInQueue qf l d = qf d := by
  unfold setInQueue
  induction l generalizing qf with
  | nil => simp
  | cons x l ih =>
    obtain ⟨h1, h2⟩ := ih (set qf x .inQueue)
    refine ⟨fun d hd => ?_, fun d hd => ?_⟩
    · by_cases hl : d ∈ l
      · exact h1 d hl
      · have : d = x := (List.mem_cons.mp hd).resolve_right hl
        rw [List.foldl_cons, h2 d hl, this]; simp [Traversal.set]
    · rw [List.mem_cons, not_or] at hd
      rw [List.foldl_cons, h2 d hd.2]; simp [Traversal.set, hd.1]

/-- `vertexCut` fails no assertion. -/
theorem CutHyp.vertexCutA {s0 : St P} {startH : Nat} (H : CutHyp s0 startH) {a : ASt P} (S : Same a s0)
    (h2 : 2 < minimalPeriod s0.m.rot (s0.m.opp startH)) {s' : St P} (hs : vertexCut s0 startH = some s') :
    ∃ a' pushed, vertexCutA a startH = some a' ∧ Same a' s' ∧ s'.queue = s0.queue ++ pushed ∧ pushed.Nodup ∧
      (∀ d ∈ pushed, d ∈ s0.m.darts → (s0.flag (s0.m.face (s0.m.opp d))).conquered = false) ∧
      (∀ d ∈ pushed, a'.qf d = .inQueue) ∧ ∀ d ∉ pushed, d < s0.m.nd → a'.qf d = a.qf d := by
  obtain ⟨s1, hcut, I⟩ := H.cut
  obtain ⟨st, hv, out, inn⟩ := H.star I
  obtain ⟨hp0, _⟩ := period_spec (fun x hx => H.wf.rot_mem hx) (fun x hx y hy => H.wf.rot_inj hx hy) (H.wf.opp_mem H.hs)
  obtain ⟨a1, hA, S1, q1⟩ := H.loopA s0.m.darts.card 0 H.init S hp0 hcut
  obtain ⟨hp, hn⟩ := prev_spec I.wf st.hh
  have hr : s1.m.vert (s1.m.next (s1.m.prev startH)) = s1.m.vert startH := by rw [hn]
  have hk : s1.m.prev startH ∈ (eraseCenter s1.m startH).darts := by
    obtain ⟨o, ho, hs, e⟩ := st.ring_out hp hr
    rw [← e]; exact (st.out_facts ho hs).1
  have hf : (eraseCenter s1.m startH).face (s1.m.prev startH) = s1.m.face startH := st.face_ring hp hr
  have hun : s1.flag ((eraseCenter s1.m startH).face (s1.m.prev startH)) = .unknown := by
    rw [hf, (I.flag _ H.hs).1]; exact H.un _ H.hs rfl
  unfold vertexCut at hs
  rw [hcut] at hs
  simp only [Option.bind_eq_bind, Option.bind_some] at hs
  unfold Codec.vertexCutA
  have hm : a.st.m = s0.m := by rw [S.st]; rfl
  rw [hm, ring_length H.wf (H.wf.opp_mem H.hs), if_neg (not_not.mpr h2)]
  have hA' : cutLoopA (s0.m.opp startH) s0.m.darts.card a (s0.m.opp startH) = some a1 := hA
  rw [hA']
  obtain ⟨st1, qf1, f21⟩ := a1
  have e1 : st1 = noAdd s1 := S1.st
  subst e1
  have e2 : setFlag (noAdd s1).flag ((eraseCenter (noAdd s1).m startH).face ((noAdd s1).m.prev startH)) .splittable =
      some (set s1.flag ((eraseCenter s1.m startH).face (s1.m.prev startH)) .splittable) := by
    exact if_pos (show (noAdd s1).flag _ = _ from hun)
  simp only [Option.bind_eq_bind, Option.bind_some, e2]
  injection hs with hs
  subst hs
  refine ⟨_, frontier { s1 with
    m := eraseCenter s1.m startH
    flag := set s1.flag ((eraseCenter s1.m startH).face (s1.m.prev startH)) .splittable
    rem := set s1.rem ((eraseCenter s1.m startH).face (s1.m.prev startH)) (some (s1.m.pos (s1.m.vert startH))) }
      (s1.m.prev startH), rfl, ⟨rfl, S1.add⟩, ?_, ?_, ?_, ?_, ?_⟩
  · change s1.queue ++ _ = _
    rw [I.queue]
  · unfold frontier
    refine List.Nodup.filter _ ?_
    rw [List.nodup_map_iff_inj_on (around_nodup st.wf'.h hk)]
    intro x hx y hy he
    have hx' := (mem_around st.wf'.h hk x).mp hx
    have hy' := (mem_around st.wf'.h hk y).mp hy
    have := congrArg (eraseCenter s1.m startH).opp he
    rwa [st.wf'.opp_opp hx'.1, st.wf'.opp_opp hy'.1] at this
  · intro d hd hd0
    obtain ⟨x, hx, hxf, rfl, _⟩ := (mem_frontier (s := { s1 with
      m := eraseCenter s1.m startH
      flag := set s1.flag ((eraseCenter s1.m startH).face (s1.m.prev startH)) .splittable
      rem := set s1.rem ((eraseCenter s1.m startH).face (s1.m.prev startH)) (some (s1.m.pos (s1.m.vert startH))) })
      st.wf' hk d).mp hd
    change s1.m.opp x ∈ s0.m.darts at hd0
    change x ∈ (eraseCenter s1.m startH).darts at hx
    change (eraseCenter s1.m startH).face x = (eraseCenter s1.m startH).face (s1.m.prev startH) at hxf
    change (s0.flag (s0.m.face (s0.m.opp (s1.m.opp x)))).conquered = false
    rw [hf] at hxf
    have hx1 := st.mem_old hx
    have ex : s0.m.opp (s1.m.opp x) = x := by rw [← (I.sub _ hd0).2.1, I.wf.opp_opp hx1]
    have hx0 : x ∈ s0.m.darts := ex ▸ H.wf.opp_mem hd0
    rw [ex, ← (I.flag x hx0).1, conquered_false]
    by_cases hr' : s1.m.vert (s1.m.next x) = s1.m.vert startH
    · rw [hv] at hr'
      obtain ⟨h1, h2⟩ := inn _ (I.wf.next_mem hx1) hr'
      rw [← I.wf.face_next hx1, (I.flag _ h1).1]
      exact H.un _ h1 h2
    · rw [st.face_plain hx hr'] at hxf
      exact absurd hxf (st.face_plain_ne hx hr')
  · exact fun d hd => (setInQueue_spec _ _).1 d hd
  · exact fun d hd hlt => ((setInQueue_spec _ _).2 d hd).trans (q1 d hlt)

/-- The queue has no gate twice, and its gates are flagged. -/
structure QInv (a : ASt P) (s : St P) : Prop where
  nodup : s.queue.Nodup
  flagged : ∀ d ∈ s.queue, a.qf d = .inQueue

theorem Inv.conquestA {M : Mesh P} {h0 : Nat} (convex : Mesh P → Nat → Bool) (n : Nat) {s : St P} {a : ASt P} (I : Inv M h0 s)
    (S : Same a s) (Q : QInv a s) {s' : St P} (hs : Codec.conquest convex (M.src h0) (M.vert h0) n s = some s') :
    ∃ a', Codec.conquestA convex (M.src h0) (M.vert h0) n a = some a' ∧ Same a' s' := by
  induction n generalizing s a with
  | zero => simp [Codec.conquest] at hs
  | succ n ih =>
    rw [Codec.conquest] at hs
    rw [Codec.conquestA]
    obtain ⟨st, qf, f2⟩ := a
    have e : st = noAdd s := S.st
    subst e
    cases hq : s.queue with
    | nil =>
      rw [hq] at hs
      injection hs with hs
      have : (noAdd s).queue = [] := hq
      simp only [this]
      exact ⟨_, rfl, hs ▸ S⟩
    | cons h q =>
      have hqA : (noAdd s).queue = h :: q := hq
      rw [hq] at hs
      simp only [hqA]
      have hh : h ∈ s.m.darts := (I.que h (by rw [hq]; exact List.mem_cons_self)).1
      have hnot : ¬ h ∉ s.m.darts := not_not.mpr hh
      have hnotA : ¬ h ∉ (noAdd s).m.darts := hnot
      simp only [hnot, hnotA, if_false] at hs ⊢
      have nd := Q.nodup
      rw [hq, List.nodup_cons] at nd
      have hqf : qf h = .inQueue := Q.flagged h (by rw [hq]; exact List.mem_cons_self)
      have qcon : ∀ x ∈ q, x ∈ s.m.darts ∧ (s.flag (s.m.face (s.m.opp x))).conquered = true := by
        intro x hx
        obtain ⟨h1, h2⟩ := I.que x (by rw [hq]; exact List.mem_cons_of_mem _ hx)
        refine ⟨h1, h2.resolve_right ?_⟩
        intro e
        rw [hq] at e
        have : q = [] := by injection e
        rw [this] at hx; exact absurd hx (by simp)
      have rm : removeFromQueue qf h = some (set qf h .noLongerInQueue) := by
        unfold removeFromQueue; rw [if_pos (Or.inl hqf)]
      have fl : ∀ x ∈ q, set qf h .noLongerInQueue x = .inQueue := by
        intro x hx
        unfold Traversal.set
        rw [if_neg (fun e : x = h => nd.1 (e ▸ hx))]
        exact Q.flagged x (by rw [hq]; exact List.mem_cons_of_mem _ hx)
      by_cases hc : (s.flag (s.m.face h)).conquered = true
      · rw [if_pos hc] at hs
        rw [if_pos (show ((noAdd s).flag ((noAdd s).m.face h)).conquered = true from hc)]
        simp only [rm, Option.bind_eq_bind, Option.bind_some]
        exact ih (I.pop hq hc) ⟨rfl, S.add⟩ ⟨nd.2, fl⟩ hs
      · rw [if_neg hc] at hs
        rw [if_neg (show ¬ ((noAdd s).flag ((noAdd s).m.face h)).conquered = true from hc)]
        have hc' : (s.flag (s.m.face h)).conquered = false := by rwa [Bool.not_eq_true] at hc
        have e : firstRemovable convex (M.src h0) (M.vert h0) { s with queue := q } h =
            (around s.m.h h).tail.find? (isRemovable convex (M.src h0) (M.vert h0) s) := rfl
        have eA : firstRemovable convex (M.src h0) (M.vert h0) { noAdd s with queue := q } h =
            (around s.m.h h).tail.find? (isRemovable convex (M.src h0) (M.vert h0) s) := rfl
        rw [e] at hs
        rw [eA]
        cases hf : (around s.m.h h).tail.find? (isRemovable convex (M.src h0) (M.vert h0) s) with
        | none =>
          rw [hf] at hs
          obtain ⟨I', hlt⟩ := I.mark hq hc' _ rfl
          have e1 : setFlag (noAdd s).flag ((noAdd s).m.face h) .unsplittable = some (set s.flag (s.m.face h) .unsplittable) := by
            exact if_pos (show (noAdd s).flag _ = _ from conquered_false.mp hc')
          simp only [e1, Option.bind_eq_bind, Option.bind_some]
          obtain ⟨fr, hfr⟩ : ∃ fr, frontier { s with
            queue := q
            flag := set s.flag (s.m.face h) .unsplittable
            conq := fun v => s.conq v || ((around s.m.h h).map s.m.vert).contains v } h = fr := ⟨_, rfl⟩
          have hfrA : frontier { noAdd s with
            queue := q
            flag := set s.flag (s.m.face h) .unsplittable
            conq := fun v => (noAdd s).conq v || ((around (noAdd s).m.h h).map (noAdd s).m.vert).contains v } h = fr := hfr
          have mf : ∀ d, d ∈ fr → ∃ x ∈ s.m.darts, s.m.face x = s.m.face h ∧ d = s.m.opp x ∧
              (set s.flag (s.m.face h) Flag.unsplittable (s.m.face d)).conquered = false := by
            intro d hd
            rw [← hfr] at hd
            exact (mem_frontier (s := { s with
              queue := q
              flag := set s.flag (s.m.face h) .unsplittable
              conq := fun v => s.conq v || ((around s.m.h h).map s.m.vert).contains v }) I.wf hh d).mp hd
          have frn : fr.Nodup := by
            rw [← hfr]
            unfold frontier
            refine List.Nodup.filter _ ?_
            rw [List.nodup_map_iff_inj_on (around_nodup I.wf.h hh)]
            intro x hx y hy he
            have hx' := (mem_around I.wf.h hh x).mp hx
            have hy' := (mem_around I.wf.h hh y).mp hy
            have := congrArg s.m.opp he
            rwa [show s.m.opp (s.m.opp x) = x from I.wf.opp_opp hx'.1, show s.m.opp (s.m.opp y) = y from I.wf.opp_opp hy'.1] at this
          have hnf : h ∉ fr := by
            intro hx
            obtain ⟨_, _, _, _, h4⟩ := mf h hx
            simp [Traversal.set, Flag.conquered] at h4
          have disj : ∀ x ∈ q, x ∉ fr := by
            intro x hx hx'
            obtain ⟨y, hy, hyf, e2, _⟩ := mf x hx'
            have h1 := (qcon x hx).2
            rw [e2, I.wf.opp_opp hy, hyf, hc'] at h1
            exact absurd h1 (by decide)
          have rm' : removeFromQueue (setInQueue qf fr) h = some (set (setInQueue qf fr) h .noLongerInQueue) := by
            unfold removeFromQueue
            rw [if_pos (Or.inl (((setInQueue_spec qf fr).2 h hnf).trans hqf))]
          rw [hfrA, rm']
          simp only [Option.bind_some]
          simp only [hfr] at hs I'
          refine ih I' ⟨rfl, S.add⟩ ⟨?_, ?_⟩ hs
          · change (q ++ fr).Nodup
            exact List.nodup_append.mpr ⟨nd.2, frn, fun x hx y hy e => disj x hx (e ▸ hy)⟩
          · intro d hd
            change d ∈ q ++ fr at hd
            change set (setInQueue qf fr) h .noLongerInQueue d = .inQueue
            have hdh : d ≠ h := by
              rintro rfl
              rcases List.mem_append.mp hd with hd | hd
              · exact nd.1 hd
              · exact hnf hd
            unfold Traversal.set
            rw [if_neg hdh]
            by_cases hdf : d ∈ fr
            · exact (setInQueue_spec qf fr).1 d hdf
            · rw [(setInQueue_spec qf fr).2 d hdf]
              have hdq := (List.mem_append.mp hd).resolve_right hdf
              exact Q.flagged d (by rw [hq]; exact List.mem_cons_of_mem _ hdq)
        | some hh' =>
          rw [hf] at hs
          have hmem : hh' ∈ around s.m.h h := List.mem_of_mem_tail (List.mem_of_find?_eq_some hf)
          obtain ⟨m1, m2⟩ := (mem_around I.wf.h hh hh').mp hmem
          have hrm := List.find?_some hf
          obtain ⟨s1, r1, I', hlt⟩ := I.cut hq m1 m2 hrm
          obtain ⟨Hs, k8, _, _, _⟩ := removable_hyp I m1 hrm
          have H : CutHyp { s with queue := q } hh' := ⟨Hs.wf, Hs.hs, Hs.un, Hs.ring3, Hs.nadj⟩
          have k2 : 2 < minimalPeriod s.m.rot (s.m.opp hh') := by
            unfold isRemovable at hrm
            simp only [Bool.and_eq_true, decide_eq_true_eq] at hrm
            have := hrm.1.1.2
            rwa [ring_length I.wf (I.wf.opp_mem m1)] at this
          have S0 : Same (⟨{ noAdd s with queue := q }, set qf h .noLongerInQueue, f2⟩ : ASt P) { s with queue := q } := ⟨rfl, S.add⟩
          obtain ⟨a1, pushed, r2, S1, hqu, hpn, hpu, hp1, hp2⟩ := H.vertexCutA S0 k2 r1
          simp only [rm, Option.bind_eq_bind, Option.bind_some, r1, r2] at hs ⊢
          refine ih I' S1 ⟨?_, ?_⟩ hs
          · rw [hqu]
            refine List.nodup_append.mpr ⟨nd.2, hpn, fun x hx y hy e => ?_⟩
            subst e
            have h1 := hpu x hy (qcon x hx).1
            rw [show ({ s with queue := q } : St P).flag = s.flag from rfl] at h1
            rw [show ({ s with queue := q } : St P).m = s.m from rfl, (qcon x hx).2] at h1
            exact absurd h1 (by decide)
          · intro d hd
            rw [hqu] at hd
            by_cases hdp : d ∈ pushed
            · exact hp1 d hdp
            · have hdq := (List.mem_append.mp hd).resolve_right hdp
              rw [hp2 d hdp (I.wf.fresh d (qcon d hdq).1).1]
              exact fl d hdq

end TDP.Codec
