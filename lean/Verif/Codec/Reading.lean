import Verif.Codec.ObjModel
import Verif.Stream.Props
/-! Symbols read one by one during the traversals, and symbols known beforehand. -/
namespace TDP.Codec
open TDP.Traversal TDP.Blocks TDP.BaseMesh TDP.RangeCoder TDP.QsModel TDP.Stream

variable {P : Type}

/-- Reading the list `xs` one by one leads from one state of the reader to another. -/
inductive Reads {R X : Type} (read : R → Option (X × R)) : R → List X → R → Prop
  | nil (st : R) : Reads read st [] st
  | cons {st st1 st2 : R} {x : X} {xs : List X} : read st = some (x, st1) → Reads read st1 xs st2 → Reads read st (x :: xs) st2

section
variable {D F : Type} [DecidableEq D] [DecidableEq F] {R S : Type}

theorem readFacesLoop_of (m : HMesh D F) (read : R → Option (Option S × R)) {n : Nat} {q : List D} {flag flag' : F → Flag}
    {res res' : F → Option S} {syms : List (Option S)} {gs : List D} {st st' : R}
    (h : decodeFaces m n q flag res syms = some (gs, flag', res', [])) (hr : Reads read st syms st') :
    readFacesLoop m read n q flag res st = some (gs, flag', res', st') := by
  induction n generalizing q flag res syms gs st with
  | zero => simp [decodeFaces] at h
  | succ n ih =>
    cases q with
    | nil =>
      simp only [decodeFaces, Option.some.injEq, Prod.mk.injEq] at h
      obtain ⟨rfl, rfl, rfl, rfl⟩ := h
      cases hr
      rfl
    | cons a q =>
      unfold decodeFaces at h
      rw [readFacesLoop]
      by_cases hc : (flag (m.face a)).conquered = true
      · rw [if_pos hc] at h ⊢; exact ih h hr
      · rw [if_neg hc] at h ⊢
        cases hr with
        | nil => simp at h
        | cons h1 h2 =>
          simp only [Option.map_eq_some_iff] at h
          obtain ⟨⟨g1, f1, r1, s1⟩, h3, h4⟩ := h
          simp only [Prod.mk.injEq] at h4
          obtain ⟨rfl, rfl, rfl, rfl⟩ := h4
          rw [h1]
          simp only [Option.bind_eq_bind, Option.bind_some]
          rw [ih h3 h2]
          rfl

theorem readEdgesLoop_of (m : HMesh D F) (read : R → Option (Bool × R)) (flag : F → Flag) (isNew : D → Bool) {n : Nat} {q : List D}
    {proc marked marked' : D → Bool} {syms : List Bool} {gs : List D} {st st' : R}
    (h : decodeEdges m flag isNew n q proc marked syms = some (gs, marked', [])) (hr : Reads read st syms st') :
    readEdgesLoop m read flag isNew n q proc marked st = some (gs, marked', st') := by
  induction n generalizing q proc marked syms gs st with
  | zero => simp [decodeEdges] at h
  | succ n ih =>
    cases q with
    | nil =>
      simp only [decodeEdges, Option.some.injEq, Prod.mk.injEq] at h
      obtain ⟨rfl, rfl, rfl⟩ := h
      cases hr
      rfl
    | cons a q =>
      rw [decodeEdges] at h
      rw [readEdgesLoop]
      by_cases hc : proc a = true
      · rw [if_pos hc] at h ⊢; exact ih h hr
      · rw [if_neg hc] at h ⊢
        simp only at h ⊢
        by_cases hs : (flag (m.face a) == .splittable || flag (m.face (m.opp a)) == .splittable) = true
        · rw [if_pos hs] at h ⊢
          cases hr with
          | nil => simp at h
          | cons h1 h2 =>
            simp only [Option.map_eq_some_iff] at h
            obtain ⟨⟨g1, f1, s1⟩, h3, h4⟩ := h
            simp only [Prod.mk.injEq] at h4
            obtain ⟨rfl, rfl, rfl⟩ := h4
            rw [h1]
            simp only [Option.bind_eq_bind, Option.bind_some]
            rw [ih h3 h2]
            rfl
        · rw [if_neg hs] at h ⊢
          simp only [Option.map_eq_some_iff] at h
          obtain ⟨⟨g1, f1, s1⟩, h3, h4⟩ := h
          simp only [Prod.mk.injEq] at h4
          obtain ⟨rfl, rfl, rfl⟩ := h4
          rw [ih h3 hr]
          rfl

end

theorem decFaces_reads (mn : Int) {k : Nat} {d d' : Dec} {mc mg : QS} {fs : List (Option Vec)}
    (h : decFaces d mc mg mn k = some (fs, d')) : ∃ mc' mg', Reads (readFaceSym mn) (d, mc, mg) fs (d', mc', mg') := by
  induction k generalizing d mc mg fs with
  | zero =>
    simp only [decFaces, Option.some.injEq, Prod.mk.injEq] at h
    obtain ⟨rfl, rfl⟩ := h
    exact ⟨mc, mg, .nil _⟩
  | succ k ih =>
    rw [decFaces] at h
    simp only [Option.bind_eq_bind, Option.bind_eq_some_iff] at h
    obtain ⟨⟨s, d1, mc1⟩, h1, h⟩ := h
    by_cases hs : s = 1
    · simp only [hs, if_true, Option.bind_eq_some_iff] at h
      obtain ⟨⟨v, d2, mg1⟩, h2, ⟨fs', d3⟩, h3, h4⟩ := h
      simp only [Option.some.injEq, Prod.mk.injEq] at h4
      obtain ⟨rfl, rfl⟩ := h4
      obtain ⟨a, b, hr⟩ := ih h3
      refine ⟨a, b, .cons ?_ hr⟩
      unfold readFaceSym
      simp only [h1, Option.bind_eq_bind, Option.bind_some, hs, if_true, h2]
    · simp only [hs, if_false, Option.bind_eq_some_iff] at h
      obtain ⟨⟨fs', d3⟩, h3, h4⟩ := h
      simp only [Option.some.injEq, Prod.mk.injEq] at h4
      obtain ⟨rfl, rfl⟩ := h4
      obtain ⟨a, b, hr⟩ := ih h3
      refine ⟨a, b, .cons ?_ hr⟩
      unfold readFaceSym
      simp only [h1, Option.bind_eq_bind, Option.bind_some, hs, if_false]

theorem decSyms_reads {k : Nat} {d d' : Dec} {m m' : QS} {es : List Bool}
    (h : decSyms d m k = some (es.map (fun b => if b then 1 else 0), d', m')) : Reads readEdgeSym (d, m) es (d', m') := by
  induction k generalizing d m es with
  | zero =>
    simp only [decSyms, Option.some.injEq, Prod.mk.injEq] at h
    obtain ⟨h1, rfl, rfl⟩ := h
    have : es = [] := by cases es with
      | nil => rfl
      | cons a l => simp at h1
    subst this
    exact .nil _
  | succ k ih =>
    rw [decSyms] at h
    simp only [Option.bind_eq_bind, Option.bind_eq_some_iff] at h
    obtain ⟨⟨s, d1, m1⟩, h1, ⟨ss, d2, m2⟩, h2, h3⟩ := h
    simp only [Option.some.injEq, Prod.mk.injEq] at h3
    obtain ⟨h4, rfl, rfl⟩ := h3
    cases es with
    | nil => simp at h4
    | cons b es =>
      rw [List.map_cons] at h4
      injection h4 with h5 h6
      subst h6
      refine .cons (st1 := (d1, m1)) ?_ (ih h2)
      unfold readEdgeSym
      simp only [h1, Option.bind_eq_bind, Option.bind_some, h5]
      cases b <;> simp

/-- One refinement from bytes does what one refinement from the decoded symbols does. -/
theorem refine_of {geo : Geo P Vec} {env : Env P} {n v0 v1 : Nat} {m N : Mesh P} {data rest : List Nat} {l : LevelSyms Vec}
    (h : decodeLevel geo env.order n m (env.hit m v0) v1 l.1 l.2 = some N)
    (hr : readLevel (toLevel l).counts data = some (toLevel l, rest)) :
    refine geo env n v0 v1 m data = some (N, rest) := by
  unfold readLevel at hr
  simp only [Option.bind_eq_bind, Option.bind_eq_some_iff] at hr
  obtain ⟨⟨fs, data1⟩, h1, ⟨es, data2⟩, h2, h3⟩ := hr
  simp only [Option.some.injEq, Prod.mk.injEq] at h3
  obtain ⟨h3, rfl⟩ := h3
  have hfs : fs = l.1 := congrArg Stream.Level.faces h3
  have hes : es = l.2.map (fun b => if b then 1 else 0) := congrArg Stream.Level.edges h3
  subst hfs hes
  unfold decodeRemovedVertices at h1
  simp only [Option.bind_eq_bind, Option.bind_eq_some_iff] at h1
  obtain ⟨d0, a1, ⟨m16, d1⟩, a2, ⟨range, d2⟩, a3, mg, a4, mc, a5, ⟨fs, d3⟩, a6, d4, a7, a8⟩ := h1
  simp only [Option.some.injEq, Prod.mk.injEq] at a8
  obtain ⟨rfl, rfl⟩ := a8
  unfold decodeInsertedEdges at h2
  simp only [Option.bind_eq_bind, Option.bind_eq_some_iff] at h2
  obtain ⟨me, b1, e0, b2, ⟨es, e1, me'⟩, b3, e2, b4, b5⟩ := h2
  simp only [Option.some.injEq, Prod.mk.injEq] at b5
  obtain ⟨rfl, rfl⟩ := b5
  have hme : me = mc := Option.some.inj (b1.symm.trans a5)
  subst hme
  generalize hq : initqsmodel 2 10 (1 <<< 9) none false = Q at a5 b1
  obtain ⟨mc', mg', R1⟩ := decFaces_reads _ a6
  have R2 := decSyms_reads b3
  unfold decodeLevel at h
  simp only [Option.bind_eq_bind, Option.bind_eq_some_iff] at h
  obtain ⟨h0, c1, ⟨gs, flag, res, r1⟩, c2, h⟩ := h
  by_cases hr1 : r1 = []
  swap
  · simp [hr1] at h
  subst hr1
  simp only [ne_eq, not_true_eq_false, if_false, Option.bind_eq_some_iff] at h
  obtain ⟨⟨gs2, marked, r2⟩, c3, h⟩ := h
  by_cases hr2 : r2 = []
  swap
  · simp [hr2] at h
  subst hr2
  simp only [ne_eq, not_true_eq_false, if_false, Option.bind_eq_some_iff] at h
  obtain ⟨m', c4, c5⟩ := h
  simp only [Option.some.injEq] at c5
  unfold refine
  rw [hq]
  simp only [a1, c1, a2, a3, a4, a5, Option.bind_eq_bind, Option.bind_some]
  rw [readFacesLoop_of m.h _ c2 R1]
  simp only [Option.bind_some, a7, b2]
  rw [readEdgesLoop_of m.h _ flag _ c3 R2]
  simp only [Option.bind_some, b4, c4]
  rw [c5]

theorem refines_of {geo : Geo P Vec} {env : Env P} {n v0 v1 : Nat} (ls : List (LevelSyms Vec)) {m N : Mesh P} {data rest : List Nat}
    (h : decompressLevels geo env.order env.hit v0 v1 n ls m = some N)
    (hr : readLevels (ls.map (fun l => (toLevel l).counts)) data = some (ls.map toLevel, rest)) :
    refines geo env n v0 v1 ls.length m data = some (N, rest) := by
  induction ls generalizing m data with
  | nil =>
    simp only [List.map_nil, readLevels, Option.some.injEq, Prod.mk.injEq] at hr
    simp only [decompressLevels, List.foldlM_nil] at h
    rw [hr.2.symm]
    injection h with h
    rw [h]; rfl
  | cons l ls ih =>
    simp only [List.map_cons, readLevels, Option.bind_eq_bind, Option.bind_eq_some_iff] at hr
    obtain ⟨⟨l', d1⟩, h1, ⟨ls', d2⟩, h2, h3⟩ := hr
    simp only [Option.some.injEq, Prod.mk.injEq, List.cons.injEq] at h3
    obtain ⟨⟨rfl, rfl⟩, rfl⟩ := h3
    simp only [decompressLevels, List.foldlM_cons, Option.bind_eq_bind, Option.bind_eq_some_iff] at h
    obtain ⟨m1, c1, c2⟩ := h
    rw [List.length_cons, refines, refine_of c1 h1]
    exact ih c2 h2

end TDP.Codec
