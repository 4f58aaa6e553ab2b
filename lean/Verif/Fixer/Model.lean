import Mathlib.Data.List.Sort
import Mathlib.Data.List.Basic
/-!
# The mesh fixer (src/test/fixer.cpp)

A point is a value of any type `P` with decidable equality (a triple of doubles without NaN: the ordered `std::map` then
distinguishes exactly the unequal triples). Vertex numbers are natural numbers. `none` is undefined behaviour (an index outside a
vector) or, for a loop given `fuel` rounds, that the rounds are used up. Printing to `cout` is left out.
-/
namespace TDP.Fixer

/-- Order of `std::pair<int,int>`. -/
def pairLe (a b : Nat × Nat) : Prop := a.1 < b.1 ∨ (a.1 = b.1 ∧ a.2 ≤ b.2)

instance : DecidableRel pairLe := fun a b => by unfold pairLe; infer_instance

/-- Insert a key into an ordered `std::map` (the keys are listed in their order); present keys stay. -/
def insertKey {K : Type} [DecidableEq K] (le : K → K → Prop) [DecidableRel le] (x : K) (l : List K) : List K :=
  if x ∈ l then l else l.orderedInsert le x

/-- `class Polyhedron` (fixer.cpp:93-111): the points, the lists of vertices of the faces, and the keys of the map `edges` (the values
of the map are never read). -/
structure Poly (P : Type) where
  points : List P
  faces : List (List Nat)
  edges : List (Nat × Nat)
deriving DecidableEq

/-- A new `Polyhedron` (fixer.cpp:100). -/
def Poly.new (P : Type) : Poly P := ⟨[], [], []⟩

/-- The pairs `{vertices[i], vertices[(i+1)%size]}` for `i = 0, 1, …` (fixer.cpp:277-278). -/
def faceEdges (f : List Nat) : List (Nat × Nat) :=
  (List.range f.length).map fun i => (f.getD i 0, f.getD ((i + 1) % f.length) 0)

/-- `add_face` (fixer.cpp:276-288). -/
def addFace {P : Type} (m : Poly P) (f : List Nat) : Poly P :=
  { m with
    edges := (faceEdges f).foldl (fun es e => insertKey pairLe e es) m.edges
    faces := m.faces ++ [f] }

/-! ## depart -/

/-- `connections[a].push_back(b)`. -/
def pushAt (conn : List (List Nat)) (a b : Nat) : Option (List (List Nat)) :=
  match conn[a]? with
  | none => none
  | some l => some (conn.set a (l ++ [b]))

/-- `connections` for a list of edges of faces (fixer.cpp:194-197). -/
def connectEdges : List (Nat × Nat) → List (List Nat) → Option (List (List Nat))
  | [], conn => some conn
  | e :: es, conn =>
    match pushAt conn e.1 e.2 with
    | none => none
    | some conn =>
      match pushAt conn e.2 e.1 with
      | none => none
      | some conn => connectEdges es conn

/-- `connections` (fixer.cpp:191-198). -/
def connections (n : Nat) (faces : List (List Nat)) : Option (List (List Nat)) :=
  connectEdges (faces.flatMap faceEdges) (List.replicate n [])

/-- The loop that pushes the neighbours not in `cur` (fixer.cpp:222-226); the head of the list is the top of the stack. -/
def pushNew (cur : List Nat) : List Nat → List Nat → List Nat
  | [], st => st
  | p :: ps, st => pushNew cur ps (if p ∈ cur then st else p :: st)

/-- The loop over the stack (fixer.cpp:216-227). -/
def dfs (conn : List (List Nat)) : Nat → List Nat → List Nat → List Bool → Option (List Nat × List Bool)
  | _, [], cur, added => some (cur, added)
  | 0, _ :: _, _, _ => none
  | fuel + 1, s :: st, cur, added =>
    let cur := insertKey (· ≤ ·) s cur
    match conn[s]? with
    | none => none
    | some nb => dfs conn fuel (pushNew cur nb st) cur (added.set s true)

/-- The first index that is not added (fixer.cpp:206-210). -/
def firstFree (added : List Bool) : Option Nat := added.findIdx? (fun b => !b)

/-- The outer loop (fixer.cpp:203-229): the keys of the maps in `ccg`. -/
def components (conn : List (List Nat)) (dfuel : Nat) : Nat → List Bool → List (List Nat) → Option (List (List Nat))
  | 0, _, _ => none
  | fuel + 1, added, ccg =>
    match firstFree added with
    | none => some ccg
    | some seed =>
      match dfs conn dfuel [seed] [] added with
      | none => none
      | some (cur, added) => components conn dfuel fuel added (ccg ++ [cur])

/-- The polyhedra, `pid_map` and `cg_map`. -/
structure Maps (P : Type) where
  polys : List (Poly P)
  pid : List Nat
  cg : List Nat

/-- The loop over the points of component `i` (fixer.cpp:249-254). -/
def placePoints {P : Type} (points : List P) (i : Nat) : List Nat → Maps P → Option (Maps P)
  | [], s => some s
  | a :: as, s =>
    match s.polys[i]?, points[a]? with
    | some q, some p =>
      placePoints points i as
        { polys := s.polys.set i { q with points := q.points ++ [p] }
          pid := s.pid.set a q.points.length
          cg := s.cg.set a i }
    | _, _ => none

/-- The loop over the components (fixer.cpp:248-256), from number `i` on. -/
def placeAll {P : Type} (points : List P) : Nat → List (List Nat) → Maps P → Option (Maps P)
  | _, [], s => some s
  | i, c :: cs, s =>
    match placePoints points i c s with
    | none => none
    | some s => placeAll points (i + 1) cs s

/-- One face (fixer.cpp:261-267). -/
def placeFace {P : Type} (pid cg : List Nat) (f : List Nat) (polys : List (Poly P)) : Option (List (Poly P)) :=
  match f.head? with
  | none => none
  | some v0 =>
    match cg[v0]?, f.mapM (fun v => pid[v]?) with
    | some c, some nf =>
      match polys[c]? with
      | none => none
      | some q => some (polys.set c (addFace q nf))
    | _, _ => none

/-- The loop over the faces (fixer.cpp:260-268). -/
def placeFaces {P : Type} (pid cg : List Nat) : List (List Nat) → List (Poly P) → Option (List (Poly P))
  | [], polys => some polys
  | f :: fs, polys =>
    match placeFace pid cg f polys with
    | none => none
    | some polys => placeFaces pid cg fs polys

/-- `depart` (fixer.cpp:189-273). -/
def depart {P : Type} (fuel : Nat) (m : Poly P) : Option (List (Poly P)) :=
  match connections m.points.length m.faces with
  | none => none
  | some conn =>
    match components conn fuel fuel (List.replicate m.points.length false) [] with
    | none => none
    | some ccg =>
      match placeAll m.points 0 ccg
          { polys := List.replicate ccg.length (Poly.new P)
            pid := List.replicate m.points.length 0
            cg := List.replicate m.points.length 0 } with
      | none => none
      | some s => placeFaces s.pid s.cg m.faces s.polys

/-! ## merge_vertex -/

/-- The loop over the points (fixer.cpp:312-321): `seen` is the map `vertex_map`, `vid` the prefix of `vid_map` written so far. -/
def vidMap {P : Type} [DecidableEq P] : List P → Nat → List (P × Nat) → List Nat → List Nat
  | [], _, _, vid => vid
  | p :: ps, i, seen, vid =>
    match seen.lookup p with
    | none => vidMap ps (i + 1) ((p, i) :: seen) (vid ++ [i])
    | some j => vidMap ps (i + 1) seen (vid ++ [j])

/-- `merge_vertex` (fixer.cpp:306-327). -/
def mergeVertex {P : Type} [DecidableEq P] (m : Poly P) : Option (Poly P) :=
  match m.faces.mapM (fun f => f.mapM (fun v => (vidMap m.points 0 [] [])[v]?)) with
  | none => none
  | some fs => some { m with faces := fs }

/-! ## fill_holes -/

/-- The edges whose reverse is not an edge (fixer.cpp:332-338). -/
def singleEdges (edges : List (Nat × Nat)) : List (Nat × Nat) := edges.filter fun e => decide ((e.2, e.1) ∉ edges)

/-- The map `connect` (fixer.cpp:347-350): later writes win. -/
def connectMap : List (Nat × Nat) → (Nat → Option Nat) → Nat → Option Nat
  | [], c => c
  | e :: es, c => connectMap es (fun v => if v = e.2 then some e.1 else c v)

/-- The keys of the map `assigned` (fixer.cpp:351-352). -/
def boundaryKeys : List (Nat × Nat) → List Nat → List Nat
  | [], ks => ks
  | e :: es, ks => boundaryKeys es (insertKey (· ≤ ·) e.2 (insertKey (· ≤ ·) e.1 ks))

/-- The inner loop (fixer.cpp:371-388). `done` are the keys assigned `true`; `f` the vertices of the face so far. The result is the
face if it is valid, and the keys assigned. (`assigned[curv]` only meets keys: both ends of an edge are keys.) -/
def walk (connect : Nat → Option Nat) : Nat → Nat → List Nat → List Nat → Option (Option (List Nat) × List Nat)
  | 0, _, _, _ => none
  | fuel + 1, curv, f, done =>
    let f := f ++ [curv]
    let done := curv :: done
    match connect curv with
    | none => some (none, done)
    | some nxt =>
      if nxt ∈ done then some (if some nxt = f.head? then some f else none, done)
      else walk connect fuel nxt f done

/-- The outer loop (fixer.cpp:356-394): the faces to add. (`curv == -1` is "no key left".) -/
def holeFaces (connect : Nat → Option Nat) (keys : List Nat) (wfuel : Nat) : Nat → List Nat → List (List Nat) → Option (List (List Nat))
  | 0, _, _ => none
  | fuel + 1, done, acc =>
    match keys.find? (fun k => decide (k ∉ done)) with
    | none => some acc
    | some curv =>
      match walk connect wfuel curv [] done with
      | none => none
      | some (some f, done) => holeFaces connect keys wfuel fuel done (acc ++ [f])
      | some (none, done) => holeFaces connect keys wfuel fuel done acc

/-- `fill_holes` (fixer.cpp:329-395). Adding a face changes `edges` and `faces` only, which the loop does not read. -/
def fillHoles {P : Type} (fuel : Nat) (m : Poly P) : Option (Poly P) :=
  if singleEdges m.edges = [] then some m
  else
    match holeFaces (connectMap (singleEdges m.edges) (fun _ => none)) (boundaryKeys (singleEdges m.edges) []) fuel fuel [] [] with
    | none => none
    | some fs => some (fs.foldl addFace m)

/-! ## evaluate, main -/

/-- `evaluate` (fixer.cpp:397-408): V, F and E as printed. -/
def evaluate {P : Type} (m : Poly P) : Nat × Nat × Nat :=
  (m.points.length, m.faces.length, (m.faces.map List.length).sum / 2)

/-- The loop of `main` over the components (fixer.cpp:418-431): the files written, later first; a file is named by the two numbers
in its path. -/
def fixAll {P : Type} [DecidableEq P] (fuel : Nat) : List (Poly P) → List ((Nat × Nat) × Poly P) → Option (List ((Nat × Nat) × Poly P))
  | [], fs => some fs
  | q :: qs, fs =>
    if q.points.length > 100 then
      match mergeVertex q with
      | none => none
      | some q1 =>
        match fillHoles fuel q1 with
        | none => none
        | some q2 => fixAll fuel qs (((q2.points.length, q2.faces.length), q2) :: fs)
    else fixAll fuel qs fs

/-- `main` (fixer.cpp:412-435) after loading. -/
def fixMain {P : Type} [DecidableEq P] (fuel : Nat) (m : Poly P) : Option (List ((Nat × Nat) × Poly P)) :=
  match depart fuel m with
  | none => none
  | some qs => fixAll fuel qs []

/-! ## load, dumpto -/

/-- What is separated by white space in a file: the word in the first line, a whole number, a coordinate. -/
inductive Tok (X : Type) where
  | word
  | int (n : Nat)
  | num (x : X)
deriving DecidableEq

/-- `dumpto` (fixer.cpp:144-161): the lines of the file. `pr` is what a coordinate is after it has been printed with the standard precision. -/
def dump {X : Type} (pr : X → X) (m : Poly (X × X × X)) : List (List (Tok X)) :=
  [[.word], [.int m.points.length, .int m.faces.length, .int 0], []] ++
    m.points.map (fun p => [.num (pr p.1), .num (pr p.2.1), .num (pr p.2.2)]) ++
    m.faces.map (fun f => .int f.length :: f.map .int)

/-- `infile >> x`: the next token; the first line is what is left of the current line. -/
def next {X : Type} : List (List (Tok X)) → Option (Tok X × List (List (Tok X)))
  | [] => none
  | [] :: ls => next ls
  | (t :: l) :: ls => some (t, l :: ls)

/-- Reading an `int`. -/
def readInt {X : Type} (s : List (List (Tok X))) : Option (Nat × List (List (Tok X))) :=
  match next s with
  | some (.int n, s) => some (n, s)
  | _ => none

/-- Reading a `double`. -/
def readNum {X : Type} (ofNat : Nat → X) (s : List (List (Tok X))) : Option (X × List (List (Tok X))) :=
  match next s with
  | some (.num x, s) => some (x, s)
  | some (.int n, s) => some (ofNat n, s)
  | _ => none

/-- The loop over the points (fixer.cpp:175-178). -/
def loadPoints {X : Type} (ofNat : Nat → X) : Nat → List (List (Tok X)) → Poly (X × X × X) → Option (Poly (X × X × X) × List (List (Tok X)))
  | 0, s, m => some (m, s)
  | k + 1, s, m => do
    let (x, s) ← readNum ofNat s
    let (y, s) ← readNum ofNat s
    let (z, s) ← readNum ofNat s
    loadPoints ofNat k s { m with points := m.points ++ [(x, y, z)] }

/-- The loop over the faces (fixer.cpp:181-184). -/
def loadFaces {X : Type} : Nat → List (List (Tok X)) → Poly (X × X × X) → Option (Poly (X × X × X))
  | 0, _, m => some m
  | k + 1, s, m => do
    let (_, s) ← readInt s
    let (a, s) ← readInt s
    let (b, s) ← readInt s
    let (c, s) ← readInt s
    loadFaces k s (addFace m [a, b, c])

/-- `load` (fixer.cpp:166-185) into a new polyhedron. (What a failed `>>` leaves in a variable is not modelled: `none`.) -/
def load {X : Type} (ofNat : Nat → X) (file : List (List (Tok X))) : Option (Poly (X × X × X)) := do
  let s := file.tail
  let (np, s) ← readInt s
  let (nf, s) ← readInt s
  let (_, s) ← readInt s
  let s := s.tail
  let (m, s) ← loadPoints ofNat np s (Poly.new _)
  loadFaces nf s m

end TDP.Fixer
