import Verif.Codec.Asserts
/-!
# C94: the assertions of a refinement (src/PPMC/mymesh.h:130-140, 310-320, src/PPMC/mymeshDecomp.cpp:57-292)

`decodeLevelA` is `decodeLevel` with every `assert` evaluated; a failing one is `none`. The symbols are any.
-/
namespace TDP.Codec
open TDP.Traversal Function

variable {P V : Type}

/-- The loop of `undecimationStep` (mymeshDecomp.cpp:88-126) with the assertions of `setSplittable` and `setUnsplittable`. -/
def decodeFacesA (m : Mesh P) : Nat → List Nat → (Nat → Flag) → (Nat → Option V) → List (Option V) →
    Option (List Nat × (Nat → Flag) × (Nat → Option V) × List (Option V))
  | 0, _, _, _, _ => none
  | _ + 1, [], flag, res, syms => some ([], flag, res, syms)
  | n + 1, h :: q, flag, res, syms =>
      if (flag (m.face h)).conquered then decodeFacesA m n q flag res syms
      else
        match syms with
        | [] => none
        | s :: syms => do
          let pushed := ((around m.h h).map m.opp).filter (fun d => !(flag (m.face d)).conquered)
          let flag ← setFlag flag (m.face h) (Flag.ofSym s)
          let res := set res (m.face h) s
          (decodeFacesA m n (q ++ pushed) flag res syms).map (fun r => (h :: r.1, r.2))

/-- `if (sym != 0) h->setAdded();` (mymeshDecomp.cpp:203-204). -/
def addIf (s : Bool) (f2 : Nat → Flag2) (h : Nat) : Option (Nat → Flag2) := if s then setAdded f2 h else some f2

/-- The loop over `InsertedEdgeDecodingStep` (mymeshDecomp.cpp:160-207) with `flag2` and the assertions
`assert(!hIt->isNew())`, where `hIt` is `h->opposite()`, and that of `setAdded`. -/
def decodeEdgesA (m : Mesh P) (flag : Nat → Flag) :
    Nat → List Nat → (Nat → Bool) → (Nat → Flag2) → List Bool → Option (List Nat × (Nat → Flag2) × List Bool)
  | 0, _, _, _, _ => none
  | _ + 1, [], _, f2, syms => some ([], f2, syms)
  | n + 1, h :: q, proc, f2, syms =>
      if proc h then decodeEdgesA m flag n q proc f2 syms
      else
        let proc := set (set proc h true) (m.opp h) true
        let pushed := (leaving m.h h).filter (fun d => !proc d && !decide (f2 d = .new))
        if f2 (m.opp h) = .new then none
        else if flag (m.face h) == .splittable || flag (m.face (m.opp h)) == .splittable then
          match syms with
          | [] => none
          | s :: syms => do
            let f2 ← addIf s f2 h
            (decodeEdgesA m flag n (q ++ pushed) proc f2 syms).map (fun r => (h :: r.1, r.2))
        else
          (decodeEdgesA m flag n (q ++ pushed) proc f2 syms).map (fun r => (h :: r.1, r.2))

/-- `setNew` (mymesh.h:316-320). -/
def setNew (f2 : Nat → Flag2) (h : Nat) : Option (Nat → Flag2) := if f2 h = .original then some (set f2 h .new) else none

/-- `setNew` on every halfedge of the new edges (mymeshDecomp.cpp:281-288), which `create_center_vertex` made by default. -/
def setNews (f2 : Nat → Flag2) (l : List Nat) : Option (Nat → Flag2) :=
  l.foldlM setNew (fun d => if d ∈ l then .original else f2 d)

/-- `insertRemovedVertices` (mymeshDecomp.cpp:241-292) with `assert(!h->isNew())` and those of `setNew`. -/
def insertLoopA (geo : Geo P V) (flag : Nat → Flag) (res : Nat → Option V) :
    Nat → Mesh P → (Nat → Bool) → (Nat → Flag2) → List Nat → Option (Mesh P × (Nat → Flag2))
  | 0, _, _, _, _ => none
  | _ + 1, m, _, f2, [] => some (m, f2)
  | n + 1, m, proc, f2, h :: q =>
      if proc (m.face h) then insertLoopA geo flag res n m proc f2 q
      else
        let proc := set proc (m.face h) true
        let q := q ++ ((around m.h h).map m.opp).filter (fun d => !proc (m.face d))
        if f2 h = .new then none
        else if flag (m.face h) = .splittable then
          match res (m.face h) with
          | none => none
          | some r => do
            let m' := createCenter m h (geo.insert (facePos m h) r)
            let f2 ← setNews f2 ((List.range (2 * (around m.h h).length)).map (m.nd + ·))
            insertLoopA geo flag res n m' (fun f => proc f || decide (m.nf ≤ f ∧ f < m'.nf)) f2 q
        else insertLoopA geo flag res n m proc f2 q

/-- One decompression level after its symbols (mymeshDecomp.cpp:57-310), from `beginUndecimationConquest`, which resets
every flag. -/
def decodeLevelA (geo : Geo P V) (order : Mesh P → List Nat) (n : Nat) (m : Mesh P) (hit0 v1 : Nat)
    (faces : List (Option V)) (edges : List Bool) : Option (Mesh P) := do
  let h0 ← pushHehInit m hit0 v1
  let (_, flag, res, rest) ← decodeFacesA m n [h0] (fun _ => .unknown) (fun _ => none) faces
  if rest ≠ [] then none
  let (_, f2, rest) ← decodeEdgesA m flag n [h0] (fun _ => false) (fun _ => .original) edges
  if rest ≠ [] then none
  let (m', f2) ← insertLoopA geo flag res n m (fun _ => false) f2 [h0]
  some (removeInsertedEdges (fun d => decide (f2 d = .added)) m' (order m'))

/-! ### Proof -/

theorem decodeFacesA_eq (m : Mesh P) (n : Nat) (q : List Nat) (flag : Nat → Flag) (res : Nat → Option V) (syms : List (Option V)) :
    decodeFacesA m n q flag res syms = decodeFaces m.h n q flag res syms := by
  induction n generalizing q flag res syms with
  | zero => rfl
  | succ n ih =>
    cases q with
    | nil => rfl
    | cons h q =>
      unfold decodeFacesA decodeFaces
      by_cases hc : (flag (m.face h)).conquered = true
      · rw [if_pos hc, if_pos (show (flag (m.h.face h)).conquered = true from hc)]; exact ih _ _ _ _
      · rw [if_neg hc, if_neg (show ¬ (flag (m.h.face h)).conquered = true from hc)]
        cases syms with
        | nil => rfl
        | cons s syms =>
          have hu : flag (m.face h) = .unknown := conquered_false.mp (by rwa [Bool.not_eq_true] at hc)
          have e : setFlag flag (m.face h) (Flag.ofSym s) = some (set flag (m.face h) (Flag.ofSym s)) := if_pos hu
          simp only [e, Option.bind_eq_bind, Option.bind_some]
          rw [ih]

theorem decodeEdgesA_ok (m : Mesh P) (hm : m.h.WF) (flag : Nat → Flag) (n : Nat) {q : List Nat} {proc marked : Nat → Bool}
    {f2 : Nat → Flag2} {syms : List Bool} (h1 : ∀ d, f2 d ≠ .new) (h2 : ∀ d, marked d = true ↔ f2 d = .added)
    (h3 : ∀ d, marked d = true → proc d = true ∧ d ∈ m.darts) (h4 : ∀ d ∈ q, d ∈ m.darts) {gs : List Nat} {marked' : Nat → Bool} {rest : List Bool}
    (hd : decodeEdges m.h flag (fun _ => false) n q proc marked syms = some (gs, marked', rest)) :
    ∃ f2', decodeEdgesA m flag n q proc f2 syms = some (gs, f2', rest) ∧ (∀ d, f2' d ≠ .new) ∧
      (∀ d, marked' d = true ↔ f2' d = .added) ∧ ∀ d, marked' d = true → d ∈ m.darts := by
  induction n generalizing q proc marked f2 syms gs with
  | zero => simp [decodeEdges] at hd
  | succ n ih =>
    cases q with
    | nil =>
      rw [decodeEdges] at hd
      injection hd with hd
      injection hd with e1 hd
      injection hd with e2 e3
      subst e1 e2 e3
      exact ⟨f2, rfl, h1, h2, fun d hd => (h3 d hd).2⟩
    | cons h q =>
      rw [decodeEdges] at hd
      rw [decodeEdgesA]
      by_cases hp : proc h = true
      · rw [if_pos hp] at hd ⊢
        exact ih h1 h2 h3 (fun d hd => h4 d (List.mem_cons_of_mem _ hd)) hd
      · rw [if_neg hp] at hd ⊢
        simp only at hd ⊢
        rw [if_neg (h1 _)]
        have hpush : (leaving m.h h).filter (fun d => !set (set proc h true) (m.opp h) true d && !decide (f2 d = .new)) =
            (leaving m.h h).filter (fun d => !set (set proc h true) (m.h.opp h) true d && !false) := by
          apply List.filter_congr
          intro d _
          have := h1 d
          simp only [this, decide_false]
        rw [hpush]
        have hhm : h ∈ m.darts := h4 h List.mem_cons_self
        have h4' : ∀ d ∈ q ++ (leaving m.h h).filter (fun d => !set (set proc h true) (m.h.opp h) true d && !false), d ∈ m.darts := by
          intro d hd
          rcases List.mem_append.mp hd with hd | hd
          · exact h4 d (List.mem_cons_of_mem _ hd)
          · exact epushed_mem (p := fun d => !set (set proc h true) (m.h.opp h) true d && !false) hm hhm
              (fun d hd => h4 d (List.mem_cons_of_mem _ hd)) d (List.mem_append_right _ hd)
        have mono : ∀ d, proc d = true → set (set proc h true) (m.opp h) true d = true := by
          intro d hd
          unfold Traversal.set
          by_cases a : d = m.opp h
          · rw [if_pos a]
          · rw [if_neg a]
            by_cases b : d = h
            · rw [if_pos b]
            · rw [if_neg b]; exact hd
        have hself : set (set proc h true) (m.opp h) true h = true := by
          unfold Traversal.set
          by_cases a : h = m.opp h
          · rw [if_pos a]
          · rw [if_neg a, if_pos rfl]
        by_cases hs : (flag (m.face h) == .splittable || flag (m.face (m.opp h)) == .splittable) = true
        · rw [if_pos hs]
          rw [if_pos (show (flag (m.h.face h) == .splittable || flag (m.h.face (m.h.opp h)) == .splittable) = true from hs)] at hd
          cases syms with
          | nil => simp at hd
          | cons s syms =>
            simp only at hd ⊢
            obtain ⟨r, hr, he⟩ := Option.map_eq_some_iff.mp hd
            obtain ⟨gs', mk', rs'⟩ := r
            injection he with e1 he
            injection he with e2 e3
            simp only at e1 e2 e3
            subst e2 e3
            have hno : f2 h = .original := by
              cases hc : f2 h with
              | original => rfl
              | added => exact absurd (h3 h ((h2 h).mpr hc)).1 hp
              | new => exact absurd hc (h1 h)
            cases s with
            | true =>
              have e : addIf true f2 h = some (set f2 h .added) := if_pos hno
              rw [e]
              simp only [if_true] at hr
              simp only [Option.bind_eq_bind, Option.bind_some]
              have k1 : ∀ d, set f2 h .added d ≠ .new := by
                intro d
                unfold Traversal.set
                by_cases a : d = h
                · rw [if_pos a]; decide
                · rw [if_neg a]; exact h1 d
              have k2 : ∀ d, set marked h true d = true ↔ set f2 h .added d = .added := by
                intro d
                unfold Traversal.set
                by_cases a : d = h
                · rw [if_pos a, if_pos a]; simp
                · rw [if_neg a, if_neg a]; exact h2 d
              have k3 : ∀ d, set marked h true d = true → set (set proc h true) (m.opp h) true d = true ∧ d ∈ m.darts := by
                intro d hd'
                by_cases a : d = h
                · rw [a]; exact ⟨hself, hhm⟩
                · unfold Traversal.set at hd'
                  rw [if_neg a] at hd'
                  exact ⟨mono d (h3 d hd').1, (h3 d hd').2⟩
              obtain ⟨f2', r1, r2, r3⟩ := ih k1 k2 k3 h4' hr
              exact ⟨f2', by rw [show decodeEdgesA m flag n _ _ (set f2 h .added) syms = _ from r1]; simp [e1], r2, r3⟩
            | false =>
              have e : addIf false f2 h = some f2 := rfl
              rw [e]
              simp only [Bool.false_eq_true, if_false] at hr
              simp only [Option.bind_eq_bind, Option.bind_some]
              obtain ⟨f2', r1, r2, r3⟩ := ih (f2 := f2) h1 h2 (fun d hd' => ⟨mono d (h3 d hd').1, (h3 d hd').2⟩) h4' hr
              exact ⟨f2', by rw [show decodeEdgesA m flag n _ _ f2 syms = _ from r1]; simp [e1], r2, r3⟩
        · rw [if_neg hs]
          rw [if_neg (show ¬ (flag (m.h.face h) == .splittable || flag (m.h.face (m.h.opp h)) == .splittable) = true from hs)] at hd
          obtain ⟨r, hr, he⟩ := Option.map_eq_some_iff.mp hd
          obtain ⟨gs', mk', rs'⟩ := r
          injection he with e1 he
          injection he with e2 e3
          simp only at e1 e2 e3
          subst e2 e3
          obtain ⟨f2', r1, r2, r3⟩ := ih (f2 := f2) h1 h2 (fun d hd' => ⟨mono d (h3 d hd').1, (h3 d hd').2⟩) h4' hr
          exact ⟨f2', by rw [show decodeEdgesA m flag n _ _ f2 syms = _ from r1]; simp [e1], r2, r3⟩

theorem setNew_fold (l : List Nat) (f2 : Nat → Flag2) (hn : l.Nodup) (h : ∀ d ∈ l, f2 d = .original) :
    ∃ g, l.foldlM setNew f2 = some g ∧ (∀ d ∈ l, g d = .new) ∧ ∀ d ∉ l, g d = f2 d := by
  induction l generalizing f2 with
  | nil => exact ⟨f2, rfl, by simp, by simp⟩
  | cons x l ih =>
    rw [List.nodup_cons] at hn
    have e : setNew f2 x = some (set f2 x .new) := if_pos (h x List.mem_cons_self)
    obtain ⟨g, g1, g2, g3⟩ := ih (set f2 x .new) hn.2 (by
      intro d hd
      unfold Traversal.set
      rw [if_neg (fun a : d = x => hn.1 (a ▸ hd))]
      exact h d (List.mem_cons_of_mem _ hd))
    refine ⟨g, ?_, ?_, ?_⟩
    · rw [List.foldlM_cons, e]; exact g1
    · intro d hd
      by_cases hl : d ∈ l
      · exact g2 d hl
      · rw [g3 d hl, (List.mem_cons.mp hd).resolve_right hl]; simp [Traversal.set]
    · intro d hd
      rw [List.mem_cons, not_or] at hd
      rw [g3 d hd.2]; simp [Traversal.set, hd.1]

theorem setNews_spec (l : List Nat) (f2 : Nat → Flag2) (hn : l.Nodup) :
    ∃ g, setNews f2 l = some g ∧ (∀ d ∈ l, g d = .new) ∧ ∀ d ∉ l, g d = f2 d := by
  obtain ⟨g, g1, g2, g3⟩ := setNew_fold l (fun d => if d ∈ l then .original else f2 d) hn (fun d hd => if_pos hd)
  exact ⟨g, g1, g2, fun d hd => (g3 d hd).trans (if_neg hd)⟩

/-- What holds during the insertions: the halfedges in new edges are in processed facets, and none is in the queue. -/
structure NewInv (m : Mesh P) (proc : Nat → Bool) (f2 : Nat → Flag2) (q : List Nat) : Prop where
  wf : m.h.WF
  fresh : m.Fresh
  que : ∀ d ∈ q, d ∈ m.darts ∧ f2 d ≠ .new
  proc : ∀ d ∈ m.darts, f2 d = .new → proc (m.face d) = true

/-- `marked` are the halfedges flagged Added among those below `nd0`; new halfedges are not added. -/
theorem insertLoopA_ok (geo : Geo P V) (flag : Nat → Flag) (res : Nat → Option V) (n : Nat) {m : Mesh P} {proc : Nat → Bool}
    {f2 : Nat → Flag2} {q : List Nat} (I : NewInv m proc f2 q) {m' : Mesh P}
    (hi : insertLoop geo flag res n m proc q = some m') :
    ∃ f2', insertLoopA geo flag res n m proc f2 q = some (m', f2') ∧ (∀ d < m.nd, f2' d = f2 d) ∧
      ∀ d ∈ m'.darts, d ∉ m.darts → f2' d = .new := by
  induction n generalizing m proc f2 q with
  | zero => simp [insertLoop] at hi
  | succ n ih =>
    cases q with
    | nil =>
      rw [insertLoop] at hi
      injection hi with hi
      subst hi
      exact ⟨f2, rfl, fun _ _ => rfl, fun d h1 h2 => absurd h1 h2⟩
    | cons h q =>
      rw [insertLoop] at hi
      rw [insertLoopA]
      by_cases hp : proc (m.face h) = true
      · rw [if_pos hp] at hi ⊢
        exact ih ⟨I.wf, I.fresh, fun d hd => I.que d (List.mem_cons_of_mem _ hd), I.proc⟩ hi
      · rw [if_neg hp] at hi ⊢
        obtain ⟨hh, hnew⟩ := I.que h List.mem_cons_self
        simp only at hi ⊢
        rw [if_neg hnew]
        have mono : ∀ f, proc f = true → set proc (m.face h) true f = true := by
          intro f hf
          unfold Traversal.set
          by_cases a : f = m.face h
          · rw [if_pos a]
          · rw [if_neg a]; exact hf
        have que : ∀ d ∈ q ++ ((around m.h h).map m.opp).filter (fun d => !set proc (m.face h) true (m.face d)),
            d ∈ m.darts ∧ f2 d ≠ .new := by
          intro d hd
          rcases List.mem_append.mp hd with hd | hd
          · exact I.que d (List.mem_cons_of_mem _ hd)
          · obtain ⟨h1, h2⟩ := List.mem_filter.mp hd
            obtain ⟨x, hx, rfl⟩ := List.mem_map.mp h1
            have hxm := ((mem_around I.wf hh x).mp hx).1
            have hom : m.opp x ∈ m.darts := I.wf.opp_mem x hxm
            refine ⟨hom, fun e => ?_⟩
            rw [mono _ (I.proc _ hom e)] at h2
            exact absurd h2 (by decide)
        by_cases hs : flag (m.face h) = .splittable
        · rw [if_pos hs] at hi ⊢
          cases hr : res (m.face h) with
          | none => rw [hr] at hi; simp at hi
          | some r =>
            rw [hr] at hi
            simp only at hi ⊢
            obtain ⟨k, c⟩ := createCenter_spec I.wf I.fresh hh (geo.insert (facePos m h) r)
            have hk : (around m.h h).length = k := by
              rw [around_eq I.wf hh, List.length_map, List.length_range, c.hk]
            have hnd : ((List.range (2 * (around m.h h).length)).map (m.nd + ·)).Nodup := by
              rw [List.nodup_map_iff_inj_on List.nodup_range]
              intro a _ b _ e
              simpa using e
            have hmem : ∀ d, d ∈ (List.range (2 * (around m.h h).length)).map (m.nd + ·) ↔ m.nd ≤ d ∧ d < m.nd + 2 * k := by
              intro d
              rw [List.mem_map, hk]
              constructor
              · rintro ⟨i, hi, rfl⟩
                have := List.mem_range.mp hi
                omega
              · intro ⟨h1, h2⟩
                exact ⟨d - m.nd, List.mem_range.mpr (by omega), by omega⟩
            obtain ⟨g, g1, g2, g3⟩ := setNews_spec _ f2 hnd
            rw [g1]
            simp only [Option.bind_eq_bind, Option.bind_some]
            have hold : ∀ d ∈ m.darts, g d = f2 d := by
              intro d hd
              refine g3 d (fun e => ?_)
              have := (I.fresh d hd).1
              have := (hmem d).mp e
              omega
            have I' : NewInv (createCenter m h (geo.insert (facePos m h) r))
                (fun f => set proc (m.face h) true f || decide (m.nf ≤ f ∧ f < (createCenter m h (geo.insert (facePos m h) r)).nf)) g
                (q ++ ((around m.h h).map m.opp).filter (fun d => !set proc (m.face h) true (m.face d))) := by
              refine ⟨c.wf I.wf I.fresh hh, c.fresh I.wf I.fresh hh, ?_, ?_⟩
              · intro d hd
                obtain ⟨h1, h2⟩ := que d hd
                exact ⟨(c.mem d).mpr (Or.inl h1), by rwa [hold d h1]⟩
              · intro d hd e
                have kp := c.kpos I.wf hh
                change (set proc (m.face h) true ((createCenter m h (geo.insert (facePos m h) r)).face d) || _) = true
                rw [Bool.or_eq_true, decide_eq_true_eq, c.nf]
                rcases c.kinds I.wf hh hd with ⟨h1, h2⟩ | ⟨i, hi', h1⟩ | ⟨i, hi', h1⟩ | ⟨j, hj, h1⟩
                · rw [c.face_o d h1 h2]
                  rw [hold d h1] at e
                  exact Or.inl (mono _ (I.proc d h1 e))
                · rw [h1, c.face_l i hi']
                  by_cases i0 : i = 0
                  · rw [if_pos i0]; left; simp [Traversal.set]
                  · rw [if_neg i0]; right; omega
                · rw [h1, c.face_s i hi']
                  by_cases i0 : i = 0
                  · rw [if_pos i0]; left; simp [Traversal.set]
                  · rw [if_neg i0]; right; omega
                · rw [h1, c.face_t j hj]
                  by_cases j0 : j + 1 = k
                  · rw [if_pos j0]; left; simp [Traversal.set]
                  · rw [if_neg j0]; right; omega
            obtain ⟨f2', r1, r2, r3⟩ := ih I' hi
            refine ⟨f2', r1, ?_, ?_⟩
            · intro d hd
              rw [r2 d (by rw [c.nd]; omega)]
              exact g3 d (fun e => by have := (hmem d).mp e; omega)
            · intro d hd hn
              by_cases hc : d ∈ (createCenter m h (geo.insert (facePos m h) r)).darts
              · have hin : m.nd ≤ d ∧ d < m.nd + 2 * k := by
                  rcases (c.mem d).mp hc with h1 | ⟨i, hi, h1⟩ | ⟨i, hi, h1⟩
                  · exact absurd h1 hn
                  · omega
                  · omega
                rw [r2 d (by rw [c.nd]; omega)]
                exact g2 d ((hmem d).mpr hin)
              · exact r3 d hd hc
        · rw [if_neg hs] at hi ⊢
          refine ih ⟨I.wf, I.fresh, que, fun d hd e => mono _ (I.proc d hd e)⟩ hi

/-- A level decoded fails no assertion, and gives what `decodeLevel` gives. -/
theorem decodeLevelA_ok (geo : Geo P V) (order : Mesh P → List Nat) (ho : ∀ m, ∀ d ∈ order m, d ∈ m.darts) (n : Nat) {m : Mesh P}
    (hm : m.h.WF) (hf : m.Fresh) {hit0 v1 : Nat} (hh : ∀ d ∈ m.ring (m.opp hit0), d ∈ m.darts) {faces : List (Option V)}
    {edges : List Bool} {m' : Mesh P} (h : decodeLevel geo order n m hit0 v1 faces edges = some m') :
    decodeLevelA geo order n m hit0 v1 faces edges = some m' := by
  unfold decodeLevel at h
  unfold decodeLevelA
  obtain ⟨h0, e0, h⟩ := Option.bind_eq_some_iff.mp h
  have h0m : h0 ∈ m.darts := hh _ (List.mem_of_find?_eq_some e0)
  obtain ⟨⟨g1, flag, res, rest⟩, e1, h⟩ := Option.bind_eq_some_iff.mp h
  simp only at h
  rw [e0, Option.bind_eq_bind, Option.bind_some, decodeFacesA_eq, e1, Option.bind_eq_bind, Option.bind_some]
  simp only
  by_cases hr : rest = []
  · subst hr
    simp only [ne_eq, not_true_eq_false, if_false, Option.bind_eq_bind] at h ⊢
    obtain ⟨⟨g2, marked, rest2⟩, e2, h⟩ := Option.bind_eq_some_iff.mp h
    obtain ⟨f2, e3, f2n, f2m, f2d⟩ := decodeEdgesA_ok (f2 := fun _ => .original) m hm flag n (by simp) (by simp) (by simp)
      (fun d hd => by rw [List.mem_singleton.mp hd]; exact h0m) e2
    rw [e3, Option.bind_some]
    simp only at h ⊢
    by_cases hr : rest2 = []
    · subst hr
      simp only [not_true_eq_false, if_false] at h ⊢
      obtain ⟨mi, e4, h⟩ := Option.bind_eq_some_iff.mp h
      obtain ⟨f2', e5, e6, e7⟩ := insertLoopA_ok geo flag res n (f2 := f2)
        ⟨hm, hf, fun d hd => ⟨by rw [List.mem_singleton.mp hd]; exact h0m, f2n d⟩, fun d _ e => absurd e (f2n d)⟩ e4
      rw [e5, Option.bind_some]
      simp only
      rw [← h]
      unfold removeInsertedEdges
      congr 2
      apply List.filter_congr
      intro d hd
      have hdm := ho mi d hd
      rw [Bool.eq_iff_iff, decide_eq_true_eq]
      by_cases hdo : d ∈ m.darts
      · rw [e6 d (hf d hdo).1, f2m d]
      · rw [e7 d hdm hdo]
        constructor
        · intro e; exact absurd e (by decide)
        · intro e
          exact absurd (f2d d e) hdo
    · simp [hr] at h
  · simp [hr] at h

end TDP.Codec
