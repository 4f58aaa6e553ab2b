import Verif.Tile.Props
import Verif.Conc.Generator
import Mathlib.Data.Rat.Floor
import Mathlib.Algebra.Order.Floor.Semiring
/-!
# The data generator (src/test/data_generator.cpp)

Arithmetic on coordinates is exact. `rand()` is any sequence of numbers. The outcome `ub` is undefined behaviour (an index outside an
array, a division by zero, writing beyond a buffer), `more` means that the given random numbers were not enough.
-/
namespace TDP.Gen
open TDP.Boxes TDP.Bytes TDP.Tile

/-- Outcomes. -/
inductive Res (X : Type) where
  | ub
  | more
  | done (x : X)

instance : Monad Res where
  pure := Res.done
  bind a f := match a with
    | .ub => .ub
    | .more => .more
    | .done x => f x

/-- `rand()`. -/
def rand : List Nat → Res (Nat × List Nat)
  | [] => .more
  | r :: rs => .done (r, rs)

/-- `get_rand_number` (util.h:94-96). -/
def randNumber (m : Int) (rs : List Nat) : Res (Int × List Nat) := do
  let (r, rs) ← rand rs
  if m = 0 then .ub else pure (Int.tmod r m + 1, rs)

/-- `get_rand_sample(int)` (util.h:98-100). -/
def randSample (rate : Int) (rs : List Nat) : Res (Bool × List Nat) := do
  let (r, rs) ← rand rs
  pure (decide (Int.tmod r 100 < rate), rs)

/-- `vessel_box.max`, `nuclei_box.max`, `num_nuclei_per_vessel`, `shifted_range`, `nucleis.size()`, `vessel_taken`. -/
structure Cfg where
  vmax : Pt ℚ
  nb : Pt ℚ
  num : Int
  range : Int
  protos : Nat
  vtaken : Nat → Bool

/-- `nuclei_num[i]` (data_generator.cpp:119-122, 207-210). The boxes start at 0, so nothing is negative. -/
def Cfg.n (c : Cfg) (k : Fin 3) : Nat := ⌊c.vmax k / c.nb k⌋₊

/-- `total_slots` (data_generator.cpp:124, 213). -/
def Cfg.total (c : Cfg) : Nat := c.n 0 * c.n 1 * c.n 2

/-- Choosing a slot (data_generator.cpp:219-222). -/
def pickSlot (c : Cfg) (taken : Nat → Bool) : List Nat → Res (Nat × List Nat)
  | [] => .more
  | r :: rs =>
      if c.total = 0 then .ub
      else if c.total ≤ r % c.total + 1 then .ub
      else if taken (r % c.total + 1) || c.vtaken (r % c.total + 1) then pickSlot c taken rs
      else .done (r % c.total + 1, rs)

/-- The place of a slot on an axis (data_generator.cpp:225-227). -/
def Cfg.coord (c : Cfg) (idx : Nat) (k : Fin 3) : Nat :=
  if k = 0 then (idx % (c.n 0 * c.n 1)) % c.n 0
  else if k = 1 then (idx % (c.n 0 * c.n 1)) / c.n 0
  else idx / (c.n 0 * c.n 1)

/-- `shift` (data_generator.cpp:229-231). -/
def Cfg.shift (c : Cfg) (base : Pt ℚ) (idx : Nat) : Pt ℚ := fun k => c.coord idx k * c.nb k + base k

/-- A nucleus of the first file and the one of the second file made with it. -/
structure Placed where
  slot : Nat
  shift : Pt ℚ
  poly : Nat
  shift2 : Pt ℚ
  poly2 : Nat

/-- `nucleis[get_rand_number(nucleis.size()-1)]` (data_generator.cpp:233-234, 241-242); `size()-1` wraps to -1 as an `int` for an empty
vector. -/
def pickProto (c : Cfg) (rs : List Nat) : Res (Nat × List Nat) := do
  let (i, rs) ← randNumber ((c.protos : Int) - 1) rs
  if i < 0 ∨ (c.protos : Int) ≤ i then .ub else pure (i.toNat, rs)

/-- One coordinate of `shift2` (data_generator.cpp:237-239). -/
def displace (c : Cfg) (s : Pt ℚ) (k : Fin 3) (rs : List Nat) : Res (ℚ × List Nat) := do
  let (m, rs) ← randNumber c.range rs
  let (b, rs) ← randSample 50 rs
  pure (s k + c.nb k * m / 100 * (if b then 1 else -1), rs)

/-- The loop of `generate_nuclei` (data_generator.cpp:218-244): the nuclei placed and the value of `generated` at the end. `taken` is the
array, which is not initialised; the first argument bounds the number of turns. -/
def genLoop (c : Cfg) (base : Pt ℚ) : Nat → Int → (Nat → Bool) → List Nat → Res (List Placed × Int × List Nat)
  | 0, _, _, _ => .more
  | fuel + 1, generated, taken, rs =>
      if generated + 1 < c.num then do
        let (idx, rs) ← pickSlot c taken rs
        let taken := Function.update taken idx true
        let shift := c.shift base idx
        let (p, rs) ← pickProto c rs
        let (d0, rs) ← displace c shift 0 rs
        let (d1, rs) ← displace c shift 1 rs
        let (d2, rs) ← displace c shift 2 rs
        let (p2, rs) ← pickProto c rs
        let (ps, g, rs) ← genLoop c base fuel (generated + 1) taken rs
        pure (⟨idx, shift, p, pt3 d0 d1 d2, p2⟩ :: ps, g, rs)
      else pure ([], generated + 1, rs)

/-- `generate_nuclei` (data_generator.cpp:206-246), the choices. -/
def generate (c : Cfg) (base : Pt ℚ) (taken : Nat → Bool) (rs : List Nat) : Res (List Placed × Int × List Nat) :=
  genLoop c base (c.num.toNat + 1) 0 taken rs

/-! ## Records -/

/-- A prototype: the polyhedron and its voxels (`nucleis`, `nucleis_voxels`). -/
structure Proto (M : Type) where
  mesh : M
  voxels : List (Voxel ℚ)

/-- What records depend on: the prototypes, the compression of a shifted polyhedron (`poly_to_mesh(shift_polyhedron(..))`,
data_generator.cpp:147-159, 167-169) and the conversion of coordinates to `float`. -/
structure Packing (M α : Type) where
  protos : List (Proto M)
  pack : M → Pt ℚ → List Nat
  toF : ℚ → α

variable {M α : Type} [LinearOrder α] [BoundedOrder α]

/-- A voxel moved by `shift` (data_generator.cpp:177-193). -/
def moveVoxel (toF : ℚ → α) (s : Pt ℚ) (v : Voxel ℚ) : Voxel α :=
  ⟨⟨fun k => toF (v.box.min k + s k), fun k => toF (v.box.max k + s k)⟩, fun k => toF (v.core k + s k)⟩

/-- The record of a polyhedron and its voxels (data_generator.cpp:165-197). -/
def record (K : Packing M α) (p : Proto M) (s : Pt ℚ) : Record α := ⟨K.pack p.mesh s, p.voxels.map (moveVoxel K.toF s)⟩

/-- `buffer_size` (data_generator.cpp:21). -/
def bufferSize : Nat := 50 * 2 ^ 20

/-- `organize_data` (data_generator.cpp:165-199): `buf` is the buffer up to `offset`, `limit` its size. -/
def organize (fc : FloatCode α) (K : Packing M α) (limit : Nat) (p : Proto M) (s : Pt ℚ) (buf : List Nat) : Res (List Nat) :=
  let b := buf ++ putRecord fc (record K p s)
  if b.length ≤ limit then .done b else .ub

/-- `organize_data(nucleis[polyid], nucleis_voxels[polyid], ..)`. -/
def organizeAt (fc : FloatCode α) (K : Packing M α) (i : Nat) (s : Pt ℚ) (buf : List Nat) : Res (List Nat) :=
  match K.protos[i]? with
  | none => .ub
  | some p => organize fc K bufferSize p s buf

/-- The buffers filled by `generate_nuclei` (data_generator.cpp:234, 242). -/
def fillBuffers (fc : FloatCode α) (K : Packing M α) : List Placed → List Nat → List Nat → Res (List Nat × List Nat)
  | [], b1, b2 => .done (b1, b2)
  | p :: ps, b1, b2 => do
      let b1 ← organizeAt fc K p.poly p.shift b1
      let b2 ← organizeAt fc K p.poly2 p.shift2 b2
      fillBuffers fc K ps b1 b2

/-- A job (data_generator.cpp:266-270). -/
def job (fc : FloatCode α) (K : Packing M α) (c : Cfg) (base : Pt ℚ) (taken : Nat → Bool) (rs : List Nat) :
    Res (Conc.Generator.Result × List Nat) := do
  let (ps, g, rs) ← generate c base taken rs
  let (b1, b2) ← fillBuffers fc K ps [] []
  pure (⟨b1, b2, g.toNat⟩, rs)

/-- The results a job may have: any random numbers, any contents of the fresh array. -/
def jobResult (fc : FloatCode α) (K : Packing M α) (c : Cfg) (base : Pt ℚ) (r : Conc.Generator.Result) : Prop :=
  ∃ taken rs rest, job fc K c base taken rs = .done (r, rest)

/-- The jobs (data_generator.cpp:354-361) for `x_dim`, `y_dim`, `z_dim`. -/
def jobs (vmax : Pt ℚ) (x y z : Nat) : List (Pt ℚ) :=
  (List.range x).flatMap (fun (i : Nat) => (List.range y).flatMap (fun (j : Nat) => (List.range z).map (fun (k : Nat) =>
    pt3 (i * vmax 0) (j * vmax 1) (k * vmax 2))))

/-- `x_dim` = `y_dim`, `z_dim` and the nuclei per vessel (data_generator.cpp:347-350), from the numbers asked for; `root` is what
`(int)pow((float)num_vessel, 1.0/3)` gives. Products that do not fit an `int` are not modelled. -/
def dims (root nv nu : Nat) : Res (Nat × Nat × Nat) :=
  if root = 0 then .ub
  else if nv / (root * root) = 0 then .ub
  else .done (root, nv / (root * root), nu * nv / (root * root * (nv / (root * root))))

/-- `generate_vessel` (data_generator.cpp:282-293): the bytes of the file of vessels. -/
def vesselLoop (fc : FloatCode α) (K : Packing M α) (limit : Nat) (v : Proto M) : List (Pt ℚ) → List Nat → Res (List Nat)
  | [], buf => .done buf
  | s :: ss, buf => do
      let buf ← organize fc K limit v s buf
      vesselLoop fc K limit v ss buf

/-- The buffer has 200000 bytes per vessel (data_generator.cpp:283). -/
def vesselFile (fc : FloatCode α) (K : Packing M α) (v : Proto M) (ss : List (Pt ℚ)) : Res (List Nat) :=
  vesselLoop fc K (ss.length * 100000 * 2) v ss []

/-! ## Prototypes -/

/-- `tmpb` (data_generator.cpp:62-66, 92-98): smallest coordinates. The box starts inverted and takes in every vertex; here the first vertex
starts it. -/
def lowest : Pt ℚ → List (Pt ℚ) → Pt ℚ
  | p, [] => p
  | p, q :: qs => lowest (fun k => if p k > q k then q k else p k) qs

/-- The same, largest. -/
def highest : Pt ℚ → List (Pt ℚ) → Pt ℚ
  | p, [] => p
  | p, q :: qs => highest (fun k => if p k < q k then q k else p k) qs

/-- The vertices of a nucleus as kept (data_generator.cpp:93-102), and the upper corner of its box (103-108). -/
def loadNucleus (shrink : ℚ) (v : Pt ℚ) (vs : List (Pt ℚ)) : List (Pt ℚ) × Pt ℚ :=
  let ps := (v :: vs).map (fun (p : Pt ℚ) (k : Fin 3) => p k / shrink)
  let lo := lowest (fun k => v k / shrink) (vs.map (fun (p : Pt ℚ) (k : Fin 3) => p k / shrink))
  let hi := highest (fun k => v k / shrink) (vs.map (fun (p : Pt ℚ) (k : Fin 3) => p k / shrink))
  (ps.map (fun (p : Pt ℚ) (k : Fin 3) => p k - lo k), fun k => hi k - lo k)

/-- `load_prototype`, the nuclei (data_generator.cpp:86-115): the polyhedra and `nuclei_box.max`. -/
def loadNuclei (shrink : ℚ) (v : Pt ℚ) (vs : List (Pt ℚ)) (rest : List (Pt ℚ × List (Pt ℚ))) : List (List (Pt ℚ)) × Pt ℚ :=
  let ls := rest.map (fun l => loadNucleus shrink l.1 l.2)
  ((loadNucleus shrink v vs).1 :: ls.map Prod.fst, highest (loadNucleus shrink v vs).2 (ls.map Prod.snd))

/-! ## The vessel -/

/-- Conversion to `int`. -/
def truncQ (q : ℚ) : Int := if 0 ≤ q then ⌊q⌋ else ⌈q⌉

/-- The indices marked for a voxel (data_generator.cpp:127-139). -/
def voxelSlots (n : Fin 3 → Nat) (b : Box ℚ) : List Int :=
  let s (k : Fin 3) : Int := truncQ (b.min k / n k)
  let e (k : Fin 3) : Int := truncQ (b.max k / n k)
  let r (k : Fin 3) : List Int := (List.range (e k - s k + 1).toNat).map (fun (i : Nat) => s k + (i : Int))
  (r 2).flatMap (fun z => (r 1).flatMap (fun y => (r 0).map (fun x => z * n 0 * n 1 + y * n 0 + x)))

/-- Marking (data_generator.cpp:125-143); the array is not initialised (`taken`). -/
def markVessel (n : Fin 3 → Nat) : List (Box ℚ) → (Nat → Bool) → Res (Nat → Bool)
  | [], taken => .done taken
  | b :: bs, taken =>
      if n 0 = 0 ∨ n 1 = 0 ∨ n 2 = 0 then .ub
      else if (voxelSlots n b).all (fun i => decide (0 ≤ i) && decide (i < n 0 * n 1 * n 2)) then
        markVessel n bs (fun i => taken i || decide ((i : Int) ∈ voxelSlots n b))
      else .ub

end TDP.Gen
