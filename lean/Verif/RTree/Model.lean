import Mathlib.Order.Lattice
import Mathlib.Data.Fintype.Pi
import Mathlib.Data.Fintype.Basic
import Verif.Common.Fp
/-!
# R-tree (src/index/RTree.h)

`RTree<D, K, n, maxNodes, minNodes>`. Coordinates are any linear order; volumes are rational numbers with rounded subtraction, computed
by a parameter `vol` (`RectSphericalVolume` or `RectVolume`). `none` stands for undefined behaviour (reading a
branch that does not exist, writing through NULL, index -1), and for exhausted `fuel`, which bounds the depth of recursion. Asserts are
compiled out. NaN is excluded. Memory management is not modelled: nodes are values.
-/
namespace TDP.RTree

/-- `Rect` (RTree.h:287-291). -/
@[ext] structure Rect (n : Nat) (K : Type) where
  min : Fin n → K
  max : Fin n → K
deriving DecidableEq

/-- `CombineRect` (RTree.h:1119-1133). -/
def combine {n : Nat} {K : Type} [LinearOrder K] (a b : Rect n K) : Rect n K :=
  ⟨fun i => Min.min (a.min i) (b.min i), fun i => Max.max (a.max i) (b.max i)⟩

/-- `Overlap` (RTree.h:1552-1566). -/
def overlap {n : Nat} {K : Type} [LinearOrder K] (a b : Rect n K) : Bool :=
  decide (∀ i, ¬ (a.min i > b.max i ∨ b.min i > a.max i))

/-- `Node` (RTree.h:304-312). `leaf bs` has `m_level = 0`, `inner k bs` has `m_level = k + 1`; `bs` are the first `m_count`
branches with their rectangles. -/
inductive Node (n : Nat) (K D : Type) where
  | leaf (bs : List (Rect n K × D))
  | inner (k : Nat) (bs : List (Rect n K × Node n K D))

/-- `Branch` (RTree.h:296-301). -/
inductive Branch (n : Nat) (K D : Type) where
  | data (r : Rect n K) (d : D)
  | sub (r : Rect n K) (c : Node n K D)

variable {n : Nat} {K D : Type} [LinearOrder K]

/-- `m_rect`. -/
def Branch.rect : Branch n K D → Rect n K
  | .data r _ => r
  | .sub r _ => r

/-- `m_level`. -/
def Node.level : Node n K D → Nat
  | .leaf _ => 0
  | .inner k _ => k + 1

/-- `m_count`. -/
def Node.count : Node n K D → Nat
  | .leaf bs => bs.length
  | .inner _ bs => bs.length

/-- The rectangles of the branches. -/
def Node.rects : Node n K D → List (Rect n K)
  | .leaf bs => bs.map Prod.fst
  | .inner _ bs => bs.map Prod.fst

/-- The branches. -/
def Node.branches : Node n K D → List (Branch n K D)
  | .leaf bs => bs.map (fun p => .data p.1 p.2)
  | .inner _ bs => bs.map (fun p => .sub p.1 p.2)

/-- The loop of `NodeCover` and `GetBranches` (RTree.h:1024-1028, 1251-1255); `none`: the first branch does not exist. -/
def coverOf : List (Rect n K) → Option (Rect n K)
  | [] => none
  | r :: rs => some (rs.foldl combine r)

/-- `NodeCover` (RTree.h:1019-1031). -/
def nodeCover (t : Node n K D) : Option (Rect n K) := coverOf t.rects

/-- Template and build parameters: `MAXNODES`, `MINNODES`, `CalcRectVolume` (RTree.h:1222-1230) and rounding. -/
structure Params (n : Nat) (K : Type) where
  maxNodes : Nat
  minNodes : Nat
  vol : Rect n K → ℚ
  F : Fp

/-- The loop of `PickBranch` (RTree.h:1094-1113) from index `i`; the state is `best`, `bestArea`, `bestIncr` once `firstTime` is
false. -/
def pickLoop (P : Params n K) (r : Rect n K) : Nat → Option (Nat × ℚ × ℚ) → List (Rect n K) → Nat
  | _, none, [] => 0
  | _, some st, [] => st.1
  | i, st, c :: cs =>
      let area := P.vol c
      let increase := P.F.rnd (P.vol (combine r c) - area)
      match st with
      | none => pickLoop P r (i + 1) (some (i, area, increase)) cs
      | some (best, bestArea, bestIncr) =>
          if increase < bestIncr then pickLoop P r (i + 1) (some (i, area, increase)) cs
          else if increase = bestIncr ∧ area < bestArea then pickLoop P r (i + 1) (some (i, area, increase)) cs
          else pickLoop P r (i + 1) (some (best, bestArea, bestIncr)) cs

/-- `PickBranch` (RTree.h:1081-1115). -/
def pickBranch (P : Params n K) (r : Rect n K) (rs : List (Rect n K)) : Nat := pickLoop P r 0 none rs

/-! ## Splitting -/

/-- `PartitionVars` (RTree.h:322-337); groups 0 and 1 are `false` and `true`, `NOT_TAKEN` is `none`. -/
structure PVars (n : Nat) (K : Type) where
  part : List (Option Bool)
  cnt : Bool → Nat
  cover : Bool → Rect n K
  area : Bool → ℚ

/-- Assigning to an element of a two-element array. -/
def upd {α : Type} (f : Bool → α) (g : Bool) (x : α) : Bool → α := fun b => if b = g then x else f b

/-- `InitParVars` (RTree.h:1372-1385); `cover` is uninitialised (`junk`) and not read before it is written. -/
def initVars (total : Nat) (junk : Rect n K) : PVars n K := ⟨List.replicate total none, fun _ => 0, fun _ => junk, fun _ => 0⟩

/-- `Classify` (RTree.h:1422-1444). -/
def classify (P : Params n K) (buf : List (Rect n K)) (i : Nat) (g : Bool) (v : PVars n K) : PVars n K :=
  match buf[i]? with
  | none => v
  | some r =>
      let c := if v.cnt g = 0 then r else combine r (v.cover g)
      ⟨v.part.set i (some g), upd v.cnt g (v.cnt g + 1), upd v.cover g c, upd v.area g (P.vol c)⟩

/-- The pairs of `PickSeeds` in the order of its loops (RTree.h:1401-1403). -/
def seedPairs (total : Nat) : List (Nat × Nat) :=
  (List.range (total - 1)).flatMap (fun a => ((List.range total).drop (a + 1)).map (fun b => (a, b)))

/-- `waste` (RTree.h:1405-1406). -/
def waste (P : Params n K) (a b : Rect n K) : ℚ := P.F.rnd (P.F.rnd (P.vol (combine a b) - P.vol a) - P.vol b)

/-- The loop of `PickSeeds` (RTree.h:1401-1413); state: `worst`, `seed0`, `seed1`. -/
def seedLoop (P : Params n K) (buf : List (Rect n K)) : ℚ × Nat × Nat → List (Nat × Nat) → ℚ × Nat × Nat
  | st, [] => st
  | st, (a, b) :: ps =>
      match buf[a]?, buf[b]? with
      | some ra, some rb => if waste P ra rb > st.1 then seedLoop P buf (waste P ra rb, a, b) ps else seedLoop P buf st ps
      | _, _ => seedLoop P buf st ps

/-- `PickSeeds` (RTree.h:1388-1418); `coverArea` is `m_coverSplitArea`. -/
def pickSeeds (P : Params n K) (buf : List (Rect n K)) (coverArea : ℚ) (v : PVars n K) : PVars n K :=
  let s := seedLoop P buf (P.F.rnd (-coverArea - 1), 0, 0) (seedPairs buf.length)
  classify P buf s.2.2 true (classify P buf s.2.1 false v)

/-- `growth1 - growth0` (RTree.h:1292-1296). -/
def growthDiff (P : Params n K) (v : PVars n K) (r : Rect n K) : ℚ :=
  P.F.rnd (P.F.rnd (P.vol (combine r (v.cover true)) - v.area true) - P.F.rnd (P.vol (combine r (v.cover false)) - v.area false))

/-- The inner loop of `ChoosePartition` (RTree.h:1286-1320) from index `i`; state: `biggestDiff`, `chosen`, `betterGroup`. -/
def chooseLoop (P : Params n K) (v : PVars n K) : Nat → ℚ × Nat × Bool → List (Rect n K) → ℚ × Nat × Bool
  | _, st, [] => st
  | i, st, r :: rs =>
      if v.part[i]? = some none then
        let d := growthDiff P v r
        let group := decide (¬ d ≥ 0)
        let diff := if d ≥ 0 then d else -d
        if diff > st.1 then chooseLoop P v (i + 1) (diff, i, group) rs
        else if diff = st.1 ∧ v.cnt group < v.cnt st.2.2 then chooseLoop P v (i + 1) (st.1, i, group) rs
        else chooseLoop P v (i + 1) st rs
      else chooseLoop P v (i + 1) st rs

/-- The `while` loop of `ChoosePartition` (RTree.h:1282-1322); `chosen` and `betterGroup` keep their values between iterations. One
iteration classifies one branch, so `fuel = m_total` iterations suffice. -/
def partLoop (P : Params n K) (buf : List (Rect n K)) : Nat → Nat × Bool → PVars n K → PVars n K
  | 0, _, v => v
  | fuel + 1, st, v =>
      if v.cnt false + v.cnt true < buf.length ∧ v.cnt false < buf.length - P.minNodes ∧ v.cnt true < buf.length - P.minNodes then
        let s := chooseLoop P v 0 (-1, st.1, st.2) buf
        partLoop P buf fuel (s.2.1, s.2.2) (classify P buf s.2.1 s.2.2 v)
      else v

/-- The loop for the rest (RTree.h:1334-1340). -/
def restLoop (P : Params n K) (buf : List (Rect n K)) (g : Bool) : List Nat → PVars n K → PVars n K
  | [], v => v
  | i :: is, v => restLoop P buf g is (if v.part[i]? = some none then classify P buf i g v else v)

/-- `ChoosePartition` (RTree.h:1271-1346). -/
def choosePartition (P : Params n K) (buf : List (Rect n K)) (coverArea : ℚ) (junk : Rect n K) : PVars n K :=
  let v := partLoop P buf buf.length (0, false) (pickSeeds P buf coverArea (initVars buf.length junk))
  if v.cnt false + v.cnt true < buf.length then
    restLoop P buf (decide (v.cnt false ≥ buf.length - P.minNodes)) (List.range buf.length) v
  else v

/-- `LoadNodes` (RTree.h:1350-1368): both nodes start empty; a full node would be split with a NULL pointer. -/
def loadNodes {α : Type} (maxNodes : Nat) : List (α × Option Bool) → List α × List α → Option (List α × List α)
  | [], st => some st
  | (_, none) :: _, _ => none
  | (b, some false) :: bs, (A, B) => if A.length < maxNodes then loadNodes maxNodes bs (A ++ [b], B) else none
  | (b, some true) :: bs, (A, B) => if B.length < maxNodes then loadNodes maxNodes bs (A, B ++ [b]) else none

/-- `SplitNode` (RTree.h:1141-1166) on the branches of the full node and the new one (`GetBranches`, RTree.h:1234-1257). -/
def split {α : Type} (P : Params n K) (buf : List (Rect n K × α)) : Option (List (Rect n K × α) × List (Rect n K × α)) :=
  match coverOf (buf.map Prod.fst) with
  | none => none
  | some c =>
      let v := choosePartition P (buf.map Prod.fst) (P.vol c) c
      loadNodes P.maxNodes (buf.zip v.part) ([], [])

/-- `AddBranch` (RTree.h:1038-1058) on the branches of a node: the new branches and those of the new node, if it was split. -/
def addTo {α : Type} (P : Params n K) (bs : List (Rect n K × α)) (b : Rect n K × α) :
    Option (List (Rect n K × α) × Option (List (Rect n K × α))) :=
  if bs.length < P.maxNodes then some (bs ++ [b], none)
  else (split P (bs ++ [b])).map (fun s => (s.1, some s.2))

/-- `AddBranch`. A branch with a child in a leaf or with data in an inner node is later read as the other kind. -/
def addBranch (P : Params n K) (b : Branch n K D) : Node n K D → Option (Node n K D × Option (Node n K D))
  | .leaf bs => match b with
      | .data r d => (addTo P bs (r, d)).map (fun s => (.leaf s.1, s.2.map .leaf))
      | .sub _ _ => none
  | .inner k bs => match b with
      | .data _ _ => none
      | .sub r c => (addTo P bs (r, c)).map (fun s => (.inner k s.1, s.2.map (.inner k)))

/-- `InsertRectRec` (RTree.h:915-967); in the last case nothing is inserted. -/
def insertRec (P : Params n K) : Nat → Branch n K D → Nat → Node n K D → Option (Node n K D × Option (Node n K D))
  | 0, _, _, _ => none
  | fuel + 1, b, lvl, t =>
      if t.level > lvl then
        match t with
        | .leaf _ => none
        | .inner k bs =>
            let i := pickBranch P b.rect (bs.map Prod.fst)
            match bs[i]? with
            | none => none
            | some (r, c) =>
                match insertRec P fuel b lvl c with
                | none => none
                | some (c', none) => some (.inner k (bs.set i (combine b.rect r, c')), none)
                | some (c', some c2) =>
                    match nodeCover c', nodeCover c2 with
                    | some r1, some r2 => addBranch P (.sub r2 c2) (.inner k (bs.set i (r1, c')))
                    | _, _ => none
      else if t.level = lvl then addBranch P b t
      else some (t, none)

/-- `InsertRect` (RTree.h:976-1015). -/
def insertRect (P : Params n K) (b : Branch n K D) (lvl : Nat) (root : Node n K D) : Option (Node n K D) :=
  match insertRec P (root.level + 1) b lvl root with
  | none => none
  | some (t, none) => some t
  | some (t, some t2) =>
      match nodeCover t, nodeCover t2 with
      | some r1, some r2 =>
          match addBranch P (.sub r1 t) (.inner t.level []) with
          | some (nr, none) =>
              match addBranch P (.sub r2 t2) nr with
              | some (nr', none) => some nr'
              | _ => none
          | _ => none
      | _, _ => none

/-- `Insert` (RTree.h:495-516). -/
def insert (P : Params n K) (r : Rect n K) (d : D) (root : Node n K D) : Option (Node n K D) := insertRect P (.data r d) 0 root

/-! ## Removal -/

/-- `DisconnectBranch` (RTree.h:1063-1073): the last branch takes the place of the removed one. -/
def disconnect {α : Type} (bs : List α) (i : Nat) : List α :=
  match bs.getLast? with
  | none => bs
  | some l => (bs.set i l).dropLast

/-- The loop over the branches of an inner node (RTree.h:1513-1533): index of the branch whose subtree contained the entry, the changed
child and the nodes to reinsert; `some none`: not found. -/
def tryChildren (q : Rect n K) (f : Node n K D → Option (Option (Node n K D × List (Node n K D)))) :
    Nat → List (Rect n K × Node n K D) → Option (Option (Nat × Node n K D × List (Node n K D)))
  | _, [] => some none
  | i, (r, c) :: bs =>
      if overlap q r then
        match f c with
        | none => none
        | some none => tryChildren q f (i + 1) bs
        | some (some (c', l)) => some (some (i, c', l))
      else tryChildren q f (i + 1) bs

/-- `RemoveRectRec` (RTree.h:1505-1548) and `ReInsert` (RTree.h:1571-1580) with the list of eliminated nodes, the last one first; `some none`: not found. -/
def removeRec [DecidableEq D] (P : Params n K) (q : Rect n K) (d : D) : Nat → Node n K D → Option (Option (Node n K D × List (Node n K D)))
  | 0, _ => none
  | _ + 1, .leaf bs =>
      match bs.findIdx? (fun p => decide (p.2 = d)) with
      | none => some none
      | some i => some (some (.leaf (disconnect bs i), []))
  | fuel + 1, .inner k bs =>
      match tryChildren q (removeRec P q d fuel) 0 bs with
      | none => none
      | some none => some none
      | some (some (i, c', l)) =>
          if c'.count ≥ P.minNodes then
            match nodeCover c' with
            | none => none
            | some r => some (some (.inner k (bs.set i (r, c')), l))
          else some (some (.inner k (disconnect bs i), c' :: l))

/-- Reinserting the branches of one node (RTree.h:1465-1473). -/
def reinsertNode (P : Params n K) (lvl : Nat) : List (Branch n K D) → Node n K D → Option (Node n K D)
  | [], root => some root
  | b :: bs, root => (insertRect P b lvl root).bind (reinsertNode P lvl bs)

/-- The loop over the list (RTree.h:1463-1480). -/
def reinsertAll (P : Params n K) : List (Node n K D) → Node n K D → Option (Node n K D)
  | [], root => some root
  | t :: ts, root => (reinsertNode P t.level t.branches root).bind (reinsertAll P ts)

/-- Elimination of a root with one child (RTree.h:1482-1491). -/
def collapse : Node n K D → Node n K D
  | .inner _ [(_, c)] => c
  | t => t

/-- `RemoveRect` and `Remove` (RTree.h:519-538, 1451-1498): the new root. -/
def remove [DecidableEq D] (P : Params n K) (r : Rect n K) (d : D) (root : Node n K D) : Option (Node n K D) :=
  match removeRec P r d (root.level + 1) root with
  | none => none
  | some none => some root
  | some (some (t, l)) => (reinsertAll P l t).map collapse

/-- `RemoveAll`, and the constructor (RTree.h:455-478, 819-827). -/
def empty : Node n K D := .leaf []

/-! ## Queries -/

/-- The loop over a leaf in `Search` (RTree.h:1609-1621); the callback has a state `S` and says whether to go on. Result: state, number
found, whether to go on. -/
def visit {S : Type} (cb : S → D → S × Bool) : S × Nat → List D → (S × Nat) × Bool
  | st, [] => (st, true)
  | st, d :: ds =>
      let c := cb st.1 d
      if c.2 then visit cb (c.1, st.2 + 1) ds else ((c.1, st.2 + 1), false)

/-- The loop over the branches of an inner node in `Search` (RTree.h:1594-1604). -/
def searchKids {S : Type} (q : Rect n K) (f : S × Nat → Node n K D → Option ((S × Nat) × Bool)) :
    S × Nat → List (Rect n K × Node n K D) → Option ((S × Nat) × Bool)
  | st, [] => some (st, true)
  | st, (r, c) :: bs =>
      if overlap q r then
        match f st c with
        | none => none
        | some (st', true) => searchKids q f st' bs
        | some (st', false) => some (st', false)
      else searchKids q f st bs

/-- `Search` (RTree.h:1584-1625). An empty `std::function` behaves as one that always says to go on. -/
def searchRec {S : Type} (cb : S → D → S × Bool) (q : Rect n K) : Nat → S × Nat → Node n K D → Option ((S × Nat) × Bool)
  | 0, _, _ => none
  | _ + 1, st, .leaf bs => some (visit cb st ((bs.filter (fun p => overlap q p.1)).map Prod.snd))
  | fuel + 1, st, .inner _ bs => searchKids q (searchRec cb q fuel) st bs

/-- `Search` of the class (RTree.h:541-565): final state of the callback and `foundCount`. -/
def search {S : Type} (cb : S → D → S × Bool) (q : Rect n K) (s : S) (root : Node n K D) : Option (S × Nat) :=
  (searchRec cb q (root.level + 1) (s, 0) root).map Prod.fst

/-- `CountRec` (RTree.h:579-593). -/
def countRec : Nat → Node n K D → Option Nat
  | 0, _ => none
  | _ + 1, .leaf bs => some bs.length
  | fuel + 1, .inner _ bs => (bs.mapM (fun p => countRec fuel p.2)).map List.sum

/-- `Count` (RTree.h:568-575). -/
def count (root : Node n K D) : Option Nat := countRec (root.level + 1) root

/-- `CopyRec` and the copy constructor (RTree.h:481-485, 696-739). -/
def copyRec : Nat → Node n K D → Option (Node n K D)
  | 0, _ => none
  | _ + 1, .leaf bs => some (.leaf (bs.map (fun p => (⟨p.1.min, p.1.max⟩, p.2))))
  | fuel + 1, .inner k bs => (bs.mapM (fun p => (copyRec fuel p.2).map (fun c => (⟨p.1.min, p.1.max⟩, c)))).map (.inner k)

/-- The copy constructor. -/
def copy (root : Node n K D) : Option (Node n K D) := copyRec (root.level + 1) root

end TDP.RTree
