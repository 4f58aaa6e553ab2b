import Mathlib.Data.Finset.Card
/-!
# Model of the coding/decoding traversals
(src/PPMC/mymeshComp.cpp:245-429, src/PPMC/mymeshDecomp.cpp:88-235)

A halfedge structure: `next`, `opposite` and `facet` of every halfedge of a finite set of live halfedges.
Halfedge flags and face flags are functions. `gateQueue` is a list, front first. The `while` loops carry
a fuel; running out of it is `none`, and the theorems show that it never happens.
-/
namespace TDP.Traversal

/-- The connectivity of a polyhedron: live halfedges, `next()`, `opposite()`, `facet()`. -/
structure HMesh (D F : Type) where
  darts : Finset D
  next : D → D
  opp : D → D
  face : D → F

variable {D F : Type} [DecidableEq D] [DecidableEq F]

/-- `do { ...; hIt = hIt->next(); } while (hIt != h0)`: the halfedges met, starting with `h`. -/
def loopFrom (next : D → D) (h0 : D) : Nat → D → List D
  | 0, _ => []
  | k + 1, h => h :: if next h = h0 then [] else loopFrom next h0 k (next h)

/-- The halfedges around the face of `h`, starting with `h`. -/
def around (m : HMesh D F) (h : D) : List D := loopFrom m.next h m.darts.card h

/-- Set a flag. -/
def set {A B : Type} [DecidableEq A] (f : A → B) (a : A) (b : B) : A → B := fun x => if x = a then b else f x

/-- The loop over `RemovedVertexCodingStep` (mymeshComp.cpp:305-352) with `proc` the processed flags:
the gates `h` whose face got a symbol, in order. The same loop is `determineResiduals`
(mymeshComp.cpp:251-279). -/
def codeFaces (m : HMesh D F) : Nat → List D → (F → Bool) → Option (List D)
  | 0, _, _ => none
  | _ + 1, [], _ => some []
  | n + 1, h :: q, proc =>
      if proc (m.face h) then codeFaces m n q proc
      else
        let proc := set proc (m.face h) true
        let pushed := ((around m h).map m.opp).filter (fun d => !proc (m.face d))
        (codeFaces m n (q ++ pushed) proc).map (h :: ·)

/-- Face flag (mymesh.h:98). -/
inductive Flag | unknown | splittable | unsplittable
deriving DecidableEq, Repr

/-- `isConquered` (mymesh.h:115-118). -/
def Flag.conquered : Flag → Bool
  | .unknown => false
  | _ => true

/-- The flag given to a face by a decoded symbol (mymeshDecomp.cpp:122-125). -/
def Flag.ofSym {S : Type} : Option S → Flag
  | some _ => .splittable
  | none => .unsplittable

/-- The loop of `undecimationStep` (mymeshDecomp.cpp:88-126), fed with the decoded symbols `syms`
(`some r`: symbol 1 with residual `r`; `none`: symbol 0). Neighbours are pushed *before* the face itself
is marked. Returns gates, flags, residuals and the symbols left. Reading past the symbols is `none`. -/
def decodeFaces {S : Type} (m : HMesh D F) : Nat → List D → (F → Flag) → (F → Option S) → List (Option S) →
    Option (List D × (F → Flag) × (F → Option S) × List (Option S))
  | 0, _, _, _, _ => none
  | _ + 1, [], flag, res, syms => some ([], flag, res, syms)
  | n + 1, h :: q, flag, res, syms =>
      if (flag (m.face h)).conquered then decodeFaces m n q flag res syms
      else
        match syms with
        | [] => none
        | s :: syms =>
          let pushed := ((around m h).map m.opp).filter (fun d => !(flag (m.face d)).conquered)
          let flag := set flag (m.face h) (Flag.ofSym s)
          let res := set res (m.face h) s
          (decodeFaces m n (q ++ pushed) flag res syms).map (fun r => (h :: r.1, r.2))

/-- `hIt = h->next(); while (hIt->opposite() != h) {...; hIt = hIt->opposite()->next(); }`
(mymeshComp.cpp:398-404, mymeshDecomp.cpp:176-182): the halfedges met. -/
def circ (m : HMesh D F) (h : D) : Nat → D → List D
  | 0, _ => []
  | k + 1, d => if m.opp d = h then [] else d :: circ m h k (m.next (m.opp d))

/-- The halfedges leaving the target of `h`, except `h->opposite()`. -/
def leaving (m : HMesh D F) (h : D) : List D := circ m h m.darts.card (m.next h)

/-- The loop over `InsertedEdgeCodingStep` (mymeshComp.cpp:382-429): the edges processed, in order, and
the symbols written. `added h` is `!h->isOriginal()`. -/
def codeEdges (m : HMesh D F) (flag : F → Flag) (added : D → Bool) :
    Nat → List D → (D → Bool) → Option (List D × List Bool)
  | 0, _, _ => none
  | _ + 1, [], _ => some ([], [])
  | n + 1, h :: q, proc =>
      if proc h then codeEdges m flag added n q proc
      else
        let proc := set (set proc h true) (m.opp h) true
        let pushed := (leaving m h).filter (fun d => !proc d)
        let toCode := !(flag (m.face h) == .unsplittable && flag (m.face (m.opp h)) == .unsplittable)
        (codeEdges m flag added n (q ++ pushed) proc).map
          (fun r => (h :: r.1, if toCode then added h :: r.2 else r.2))

/-- The loop over `InsertedEdgeDecodingStep` (mymeshDecomp.cpp:160-207) fed with the decoded symbols:
the edges processed, the halfedges marked added, and the symbols left. -/
def decodeEdges (m : HMesh D F) (flag : F → Flag) (isNew : D → Bool) :
    Nat → List D → (D → Bool) → (D → Bool) → List Bool → Option (List D × (D → Bool) × List Bool)
  | 0, _, _, _, _ => none
  | _ + 1, [], _, marked, syms => some ([], marked, syms)
  | n + 1, h :: q, proc, marked, syms =>
      if proc h then decodeEdges m flag isNew n q proc marked syms
      else
        let proc := set (set proc h true) (m.opp h) true
        let pushed := (leaving m h).filter (fun d => !proc d && !isNew d)
        if flag (m.face h) == .splittable || flag (m.face (m.opp h)) == .splittable then
          match syms with
          | [] => none
          | s :: syms =>
            (decodeEdges m flag isNew n (q ++ pushed) proc (if s then set marked h true else marked) syms).map
              (fun r => (h :: r.1, r.2))
        else
          (decodeEdges m flag isNew n (q ++ pushed) proc marked syms).map (fun r => (h :: r.1, r.2))

end TDP.Traversal
