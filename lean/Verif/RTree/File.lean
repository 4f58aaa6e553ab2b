import Verif.RTree.Model
/-!
# Iterator and files of the R-tree (src/index/RTree.h:118-285, 595-815)

`none`: undefined behaviour (stack overflow, reading a branch that does not exist, reading past the end of the file) or exhausted `fuel`.
-/
namespace TDP.RTree
variable {n : Nat} {K D : Type}

/-! ## Iterator -/

/-- `m_stack` up to `m_tos`, the top first (RTree.h:129-133, 246-247). -/
abbrev Stack (n : Nat) (K D : Type) := List (Node n K D × Nat)

/-- `MAX_STACK` (RTree.h:127). -/
def maxStack : Nat := 32

/-- `Push` (RTree.h:229-236): the assert is compiled out, a full stack overflows. -/
def push (e : Node n K D × Nat) (s : Stack n K D) : Option (Stack n K D) := if s.length < maxStack then some (e :: s) else none

/-- `IsNull` (RTree.h:142). -/
def isNull (s : Stack n K D) : Bool := s.isEmpty

/-- `FindNextData` (RTree.h:186-226). -/
def findNext : Nat → Stack n K D → Option (Stack n K D × Bool)
  | 0, _ => none
  | _ + 1, [] => some ([], false)
  | fuel + 1, (.leaf bs, i) :: s =>
      if i + 1 < bs.length then (push (.leaf bs, i + 1) s).map (fun s' => (s', true)) else findNext fuel s
  | fuel + 1, (.inner k bs, i) :: s =>
      match (if i + 1 < bs.length then push (.inner k bs, i + 1) s else some s), bs[i]? with
      | some s', some (_, c) =>
          match push (c, 0) s' with
          | none => none
          | some s'' => if c.level = 0 then some (s'', true) else findNext fuel s''
      | _, _ => none

/-- `GetFirst` (RTree.h:253-274), from the stack built so far. -/
def getFirst : Nat → Node n K D → Stack n K D → Option (Stack n K D)
  | 0, _, _ => none
  | _ + 1, .leaf bs, s => if bs.length ≠ 0 then push (.leaf bs, 0) s else some s
  | fuel + 1, .inner k bs, s =>
      match (if bs.length > 1 then push (.inner k bs, 1) s else some s), bs[0]? with
      | some s', some (_, c) => getFirst fuel c s'
      | _, _ => none

/-- `GetBounds` and `GetAt` (RTree.h:148-160, 167-178, 282). -/
def getAt : Stack n K D → Option (Rect n K × D)
  | (.leaf bs, i) :: _ => bs[i]?
  | _ => none

/-- `for(GetFirst(it); !IsNull(it); GetNext(it)) visit(GetBounds(it), GetAt(it))`, the loop of Test.cpp:72-82; `depth` bounds the
iterations of `FindNextData`. -/
def iterLoop (depth : Nat) : Nat → Stack n K D → Option (List (Rect n K × D))
  | 0, _ => none
  | fuel + 1, s =>
      if isNull s then some []
      else match getAt s, findNext depth s with
        | some e, some (s', _) => (iterLoop depth fuel s').map (e :: ·)
        | _, _ => none

/-- The whole iteration. -/
def iterate (depth fuel : Nat) (root : Node n K D) : Option (List (Rect n K × D)) :=
  (getFirst (root.level + 1) root []).bind (iterLoop depth fuel)

/-! ## Files -/

/-- How values of a type are stored: `sizeof` bytes; reading them gives the value back. -/
structure Codec (α : Type) where
  size : Nat
  enc : α → List Nat
  dec : List Nat → α
  len : ∀ x, (enc x).length = size
  rt : ∀ x, dec (enc x) = x

/-- Four bytes of an `int`, little end first. -/
def int4 (x : Nat) : List Nat := [x % 256, x / 256 % 256, x / 65536 % 256, x / 16777216 % 256]

/-- `Read(int&)`. -/
def readInt : List Nat → Option (Nat × List Nat)
  | a :: b :: c :: d :: s => some (a + 256 * b + 65536 * c + 16777216 * d, s)
  | _ => none

/-- `Read` and `ReadArray` of another type (RTree.h:441-453). -/
def readVal {α : Type} (C : Codec α) (s : List Nat) : Option (α × List Nat) :=
  if C.size ≤ s.length then some (C.dec (s.take C.size), s.drop C.size) else none

/-- `WriteArray(m_min)`, `WriteArray(m_max)`. -/
def saveRect (CK : Codec K) (r : Rect n K) : List Nat :=
  (List.finRange n).flatMap (fun i => CK.enc (r.min i)) ++ (List.finRange n).flatMap (fun i => CK.enc (r.max i))

/-- Element `i` of an array of `count` elements in a buffer. -/
def arrayAt (CK : Codec K) (buf : List Nat) (i : Nat) : K := CK.dec ((buf.drop (i * CK.size)).take CK.size)

/-- `ReadArray` of `n` elements (RTree.h:448-453). -/
def readArray (n : Nat) (CK : Codec K) (s : List Nat) : Option ((Fin n → K) × List Nat) :=
  if CK.size * n ≤ s.length then some (fun i => arrayAt CK (s.take (CK.size * n)) i, s.drop (CK.size * n)) else none

/-- `ReadArray(m_min)`, `ReadArray(m_max)`. -/
def loadRect (n : Nat) (CK : Codec K) (s : List Nat) : Option (Rect n K × List Nat) := do
  let (a, s) ← readArray n CK s
  let (b, s) ← readArray n CK s
  return (⟨a, b⟩, s)

/-- The header (RTree.h:762-775). -/
def header (n maxN minN : Nat) (CK : Codec K) (CD : Codec D) : List Nat :=
  int4 (82 + 84 * 256 + 82 * 65536 + 69 * 16777216) ++ int4 CD.size ++ int4 n ++ int4 CK.size ++ int4 maxN ++ int4 minN

/-- `SaveRec` (RTree.h:784-816). -/
def saveRec (CK : Codec K) (CD : Codec D) : Nat → Node n K D → List Nat
  | _, .leaf bs => int4 0 ++ int4 bs.length ++ bs.flatMap (fun p => saveRect CK p.1 ++ CD.enc p.2)
  | 0, .inner _ _ => []
  | l + 1, .inner k bs => int4 (k + 1) ++ int4 bs.length ++ bs.flatMap (fun p => saveRect CK p.1 ++ saveRec CK CD l p.2)

/-- `Save` (RTree.h:742-781): the bytes of the file. -/
def save (maxN minN : Nat) (CK : Codec K) (CD : Codec D) (root : Node n K D) : List Nat :=
  header n maxN minN CK CD ++ saveRec CK CD root.level root

/-- A loop `for index < count` that reads one branch at a time. -/
def readMany {α : Type} (f : List Nat → Option (α × List Nat)) : Nat → List Nat → Option (List α × List Nat)
  | 0, s => some ([], s)
  | c + 1, s => do
      let (x, s) ← f s
      let (xs, s) ← readMany f c s
      return (x :: xs, s)

/-- `LoadRec` (RTree.h:660-693): a count above `MAXNODES` writes outside the node. Levels are not compared with the parent's. -/
def loadRec (n maxN : Nat) (CK : Codec K) (CD : Codec D) : Nat → List Nat → Option (Node n K D × List Nat)
  | 0, _ => none
  | fuel + 1, s => do
      let (lvl, s) ← readInt s
      let (cnt, s) ← readInt s
      if cnt ≤ maxN then
        if lvl > 0 then
          let (bs, s) ← readMany (fun s => do
            let (r, s) ← loadRect n CK s
            let (c, s) ← loadRec n maxN CK CD fuel s
            return ((r, c), s)) cnt s
          return (.inner (lvl - 1) bs, s)
        else
          let (bs, s) ← readMany (fun s => do
            let (r, s) ← loadRect n CK s
            let (d, s) ← readVal CD s
            return ((r, d), s)) cnt s
          return (.leaf bs, s)
      else none

/-- `Load` (RTree.h:597-657): the returned flag and the tree; files shorter than the header are not modelled (`none`). -/
def load (n maxN minN : Nat) (CK : Codec K) (CD : Codec D) (fuel : Nat) (file : List Nat) : Option (Bool × Node n K D) :=
  if file.length < 24 then none
  else if file.take 24 = header n maxN minN CK CD then (loadRec n maxN CK CD fuel (file.drop 24)).map (fun r => (true, r.1))
  else some (false, empty)

end TDP.RTree
