/-!
# Model of the adaptive frequency model (src/PPMC/rangeCoder/qsmodel.c, qsmodel.h)

Conventions: C arrays of `uint4` are functions from indices; local `int`s are integers, converted to
`uint4` by `toU32`; `uint4` additions wrap (`% 2^32`). `malloc`ed and not yet written entries of the
search table are `none`. The outcome `none` of an operation is: the library's own
"BUG: rescaling left ..." `exit(1)`, a read of an uninitialised search entry, a write outside the
search table, or the endless loop for `n = 0`.
`uint4 -> int` conversions are the identity (all values are below `2^31` when the operations
succeed on a legal model, which is part of the proved invariant).
-/
namespace TDP.QsModel

/-- C array update `a[i] = v`. -/
def upd {α : Type} (f : Nat → α) (i : Nat) (v : α) : Nat → α := fun j => if j = i then v else f j

/-- Conversion of an `int` to `uint4`. -/
def toU32 (x : Int) : Nat := (x % 4294967296).toNat

/-- `TBLSHIFT` (qsmodel.c:44). -/
def tblShift : Nat := 7

/-- `struct qsmodel` (qsmodel.h:46-57). `search = none` is the NULL pointer of a compressing model. -/
structure QS where
  n : Nat
  left : Int
  nextleft : Int
  rescale : Int
  targetrescale : Int
  incr : Int
  searchshift : Nat
  cf : Nat → Nat
  newf : Nat → Nat
  search : Option (Nat → Option Nat)

/-- The loop `for(i=n-1; i; i--)` of `dorescale` (qsmodel.c:61-68), started with `i`; the state is
(cf, missing, m->cf, m->newf). -/
def rescaleLoop : Nat → Int → Int → (Nat → Nat) → (Nat → Nat) → Int × Int × (Nat → Nat) × (Nat → Nat)
  | 0, cf, missing, C, F => (cf, missing, C, F)
  | i + 1, cf, missing, C, F =>
    let tmp := F (i + 1)
    let cf := cf - tmp
    let C := upd C (i + 1) (toU32 cf)
    let tmp := tmp >>> 1 ||| 1
    rescaleLoop i cf (missing - tmp) C (upd F (i + 1) tmp)

/-- The inner loop `while (start<=end)` (qsmodel.c:86-89), `count = end + 1 - start` iterations.
Writing outside the table of `2^TBLSHIFT + 1` entries is `none`. -/
def fillSearch : Nat → Nat → Nat → (Nat → Option Nat) → Option (Nat → Option Nat)
  | 0, _, _, S => some S
  | count + 1, start, i, S =>
    if start ≤ 1 <<< tblShift then fillSearch count (start + 1) i (upd S start (some i)) else none

/-- The outer loop `while (i)` rebuilding the search table (qsmodel.c:80-90). -/
def rebuildSearch (cf : Nat → Nat) (shift : Nat) : Nat → (Nat → Option Nat) → Option (Nat → Option Nat)
  | 0, S => some S
  | i + 1, S => do
    let e := ((cf (i + 1) + 4294967295) % 4294967296) >>> shift
    let start := cf i >>> shift
    let S ← fillSearch (e + 1 - start) start i S
    rebuildSearch cf shift i S

/-- `dorescale` (qsmodel.c:47-92). -/
def dorescale (m : QS) : Option QS :=
  if m.nextleft ≠ 0 then
    some { m with incr := m.incr + 1, left := m.nextleft, nextleft := 0 }
  else
    let rescale :=
      if m.rescale < m.targetrescale then
        (if m.rescale * 2 > m.targetrescale then m.targetrescale else m.rescale * 2)
      else m.rescale
    if m.n = 0 then none else
    let r := rescaleLoop (m.n - 1) (m.cf m.n) (m.cf m.n) m.cf m.newf
    let C := r.2.2.1
    let F := r.2.2.2
    if toU32 r.1 ≠ F 0 then none else
    let F := upd F 0 (F 0 >>> 1 ||| 1)
    let missing := r.2.1 - F 0
    let nextleft := missing.tmod rescale
    let m := { m with rescale := rescale, cf := C, newf := F, incr := missing.tdiv rescale,
                      nextleft := nextleft, left := rescale - nextleft }
    match m.search with
    | none => some m
    | some S => do
      let S ← rebuildSearch C m.searchshift m.n S
      some { m with search := some S }

/-- `resetqsmodel` (qsmodel.c:125-140); `init = none` is the NULL pointer. -/
def resetqsmodel (m : QS) (init : Option (Nat → Nat)) : Option QS :=
  if m.n = 0 then none else
  let initval := m.cf m.n / m.n
  let e := m.cf m.n % m.n
  let F := match init with
    | none => fun i => if i < e then initval + 1 else if i < m.n then initval else m.newf i
    | some f => fun i => if i < m.n then f i else m.newf i
  dorescale { m with rescale := (m.n >>> 4 ||| 2 : Nat), nextleft := 0, newf := F }

/-- `initqsmodel` (qsmodel.c:102-119). Fields the C code leaves unset are 0 here; they are written
before they are read (`left`, `incr` by the `dorescale` in `resetqsmodel`). -/
def initqsmodel (n lg : Nat) (rescale : Int) (init : Option (Nat → Nat)) (compress : Bool) : Option QS :=
  resetqsmodel
    { n := n, left := 0, nextleft := 0, rescale := 0, targetrescale := rescale, incr := 0,
      searchshift := lg - tblShift,
      cf := upd (upd (fun _ => 0) n (1 <<< lg)) 0 0,
      newf := fun _ => 0,
      search := if compress then none
                else some (upd (fun _ => none) (1 <<< tblShift) (some (n - 1))) } init

/-- `qsgetfreq` (qsmodel.c:158-160): (sy_f, lt_f). -/
def qsgetfreq (m : QS) (sym : Nat) : Nat × Nat :=
  ((m.cf (sym + 1) + 4294967296 - m.cf sym) % 4294967296, m.cf sym)

/-- The binary search loop of `qsgetsym` (qsmodel.c:172-178). -/
def bsearch (cf : Nat → Nat) (v lo hi : Nat) : Nat :=
  if _h : lo + 1 < hi then
    let mid := (lo + hi) / 2
    if v < cf mid then bsearch cf v lo mid else bsearch cf v mid hi
  else lo
termination_by hi - lo

/-- `qsgetsym` (qsmodel.c:166-180); `none`: NULL table or uninitialised entry. -/
def qsgetsym (m : QS) (v : Nat) : Option Nat := do
  let S ← m.search
  let lo ← S (v >>> m.searchshift)
  let hi ← S (v >>> m.searchshift + 1)
  some (bsearch m.cf v lo (hi + 1))

/-- `qsupdate` (qsmodel.c:186-191). -/
def qsupdate (m : QS) (sym : Nat) : Option QS := do
  let m ← if m.left ≤ 0 then dorescale m else some m
  some { m with left := m.left - 1,
                newf := upd m.newf sym (toU32 (m.newf sym + m.incr)) }

/-- Operations a client performs on an initialised model. -/
inductive Op
  | update (sym : Nat)
  | reset (init : Option (Nat → Nat))

/-- One client operation. -/
def step (m : QS) : Op → Option QS
  | .update s => qsupdate m s
  | .reset init => resetqsmodel m init

/-- A history of client operations. -/
def run (m : QS) : List Op → Option QS
  | [] => some m
  | o :: os => do run (← step m o) os

end TDP.QsModel
