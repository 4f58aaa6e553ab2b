import Verif.Kernels.Model
import Verif.Conc.Base
/-!
# Model of the GPU code (src/geometry/SegDist.cu, TriInt.cu, and its use in geometry_computer.cpp)

A kernel launch is a grid of threads. The threads of one launch interleave in any order, each of their reads and writes
of device memory being one atomic step (aligned 32 bit words); a launch begins when the previous one on the (default)
stream has finished. Arithmetic is exact; `DBL_MAX` stored in a `float` is `⊤`. Launches that fail (`check_execution`
only logs) are not modelled.
-/
namespace TDP.Gpu
open TDP.Boxes TDP.Kernels TDP.Conc

/-- The value clamped to [0,1] (SegDist.cu:89-93 and 97-101). -/
def clamp01 (x : ℚ) : ℚ := if x ≤ 0 then 0 else if x ≥ 1 then 1 else x

/-- `SegDist_kernel` (SegDist.cu:53-112): segments from `S` with direction `A` and from `T` with direction `B`. -/
def segDistKernel (S T A B : Pt ℚ) : WithTop ℚ :=
  let ST := vsub T S
  let AA := vdot A A
  let BB := vdot B B
  if AA = 0 ∨ BB = 0 then ⊤
  else
    let AB := vdot A B
    let AST := vdot A ST
    let BST := vdot B ST
    let denom := AA * BB - AB * AB
    let t0 := if denom = 0 then 0 else (AST * BB - BST * AB) / denom
    let u := clamp01 ((t0 * AB - BST) / BB)
    let t := clamp01 ((AB * u + AST) / AA)
    let x := A 0 * t - ST 0 - B 0 * u
    let y := A 1 * t - ST 1 - B 1 * u
    let z := A 2 * t - ST 2 - B 2 * u
    ((x * x + y * y + z * z : ℚ) : WithTop ℚ)

/-! ## get_vector_kernel -/

/-- The writes of thread `id` of `get_vector_kernel` (SegDist.cu:158-164) to `d_vec`. -/
def vectorUnit (data : Nat → ℚ) (segments id : Nat) : List (Nat × ℚ) :=
  if id < segments then
    [(id * 3, data (id * 6 + 3) - data (id * 6)), (id * 3 + 1, data (id * 6 + 3 + 1) - data (id * 6 + 1)),
     (id * 3 + 2, data (id * 6 + 3 + 2) - data (id * 6 + 2))]
  else []

/-- The threads of its launch (SegDist.cu:208): `segment_num/1024+1` blocks of 1024. -/
def vectorUnits (data : Nat → ℚ) (segments : Nat) : List (List (Nat × ℚ)) :=
  (List.range (segments / 1024 + 1)).flatMap (fun blk => (List.range 1024).map (fun t => vectorUnit data segments (blk * 1024 + t)))

/-! ## SegDist_cuda -/

/-- One launch of `SegDist_cuda` (SegDist.cu:213): `cur_offset_1`, `cur_offset_2` and the block size `dim2`. -/
structure Launch where
  off1 : Nat
  off2 : Nat
  dim : Nat
deriving DecidableEq

/-- The launches of `SegDist_batch_gpu` in order (SegDist.cu:211-217). -/
def launches (max1 max2 : Nat) : List Launch :=
  (List.range ((max2 + 1023) / 1024)).flatMap (fun c =>
    (List.range max1).map (fun o => ⟨o, c * 1024, min (max2 - c * 1024) 1024⟩))

/-- `max_size_1`/`max_size_2` (SegDist.cu:180-189): `f i` is the size of pair `i`. -/
def maxSize (f : Nat → Nat) (pairs : Nat) : Nat :=
  (List.range pairs).foldl (fun m i => if f i > m then f i else m) 0

/-- What the kernel reads: the segments, their vectors and the four numbers per pair. -/
structure Input where
  data : Nat → ℚ
  vec : Nat → ℚ
  os : Nat → Nat
  pairs : Nat

/-- `dd` of a thread (SegDist.cu:128-134). -/
def Input.dd (I : Input) (b o1 o2 : Nat) : WithTop ℚ :=
  segDistKernel (ptAt I.data (6 * (I.os (b * 4) + o1))) (ptAt I.data (6 * (I.os (b * 4 + 2) + o2)))
    (ptAt I.vec (3 * (I.os (b * 4) + o1))) (ptAt I.vec (3 * (I.os (b * 4 + 2) + o2)))

/-- Does the thread get past its two guards (SegDist.cu:122-127)? -/
def Input.active (I : Input) (L : Launch) (b t : Nat) : Prop :=
  ¬ L.off1 ≥ I.os (b * 4 + 1) ∧ ¬ t + L.off2 ≥ I.os (b * 4 + 3)

/-- Where a thread is in `SegDist_cuda`. -/
inductive PC
  | start
  | loaded (v : WithTop ℚ)  -- 136: `dist[batch_id]` read
  | done

/-- Device memory (`d_dist`) and the threads, by block and thread. -/
structure GS where
  dist : Nat → WithTop ℚ
  pc : Nat → Nat → PC

/-- One write to `d_dist`. -/
def put (a : Nat → WithTop ℚ) (b : Nat) (v : WithTop ℚ) : Nat → WithTop ℚ := fun i => if i = b then v else a i
/-- One thread moves on. -/
def go (pc : Nat → Nat → PC) (b t : Nat) (x : PC) : Nat → Nat → PC := fun i j => if i = b ∧ j = t then x else pc i j

/-- One step of thread `t` of block `b` (SegDist.cu:114-139). The disjunction at 136 reads the memory only if its
first part is false. -/
inductive KStep (I : Input) (L : Launch) : GS → GS → Prop
  | exit (s b t) : b < I.pairs → t < L.dim → s.pc b t = .start → ¬ I.active L b t →
      KStep I L s { s with pc := go s.pc b t .done }
  | first (s b t) : b < I.pairs → t < L.dim → s.pc b t = .start → I.active L b t → (L.off1 = 0 ∧ t + L.off2 = 0) →
      KStep I L s { dist := put s.dist b (I.dd b L.off1 (t + L.off2)), pc := go s.pc b t .done }
  | load (s b t) : b < I.pairs → t < L.dim → s.pc b t = .start → I.active L b t → ¬ (L.off1 = 0 ∧ t + L.off2 = 0) →
      KStep I L s { s with pc := go s.pc b t (.loaded (s.dist b)) }
  | store (s b t v) : b < I.pairs → t < L.dim → s.pc b t = .loaded v → v > I.dd b L.off1 (t + L.off2) →
      KStep I L s { dist := put s.dist b (I.dd b L.off1 (t + L.off2)), pc := go s.pc b t .done }
  | skip (s b t v) : b < I.pairs → t < L.dim → s.pc b t = .loaded v → ¬ v > I.dd b L.off1 (t + L.off2) →
      KStep I L s { s with pc := go s.pc b t .done }

/-- A launch takes `d_dist` from `a` to `a'`: some schedule of its threads, to the end. -/
def Launched (I : Input) (L : Launch) (a a' : Nat → WithTop ℚ) : Prop :=
  ∃ s, Reach (KStep I L) ⟨a, fun _ _ => .start⟩ s ∧ (∀ b < I.pairs, ∀ t < L.dim, s.pc b t = .done) ∧ s.dist = a'

/-- One launch after the other. -/
inductive Launches (I : Input) : List Launch → (Nat → WithTop ℚ) → (Nat → WithTop ℚ) → Prop
  | nil (a) : Launches I [] a a
  | cons {L Ls a a' a''} : Launched I L a a' → Launches I Ls a' a'' → Launches I (L :: Ls) a a''

/-- `SegDist_batch_gpu` (SegDist.cu:173-227): from the host's segments and offsets, for whatever the device memory
contained (`vec0`, `dist0`), to the results. -/
def SegDistBatch (data : Nat → ℚ) (os : Nat → Nat) (pairs segments : Nat) (vec0 : Nat → ℚ) (dist0 result : Nat → WithTop ℚ) : Prop :=
  ∃ ws, Interleaving (vectorUnits data segments) ws ∧
    Launches ⟨data, runWrites vec0 ws, os, pairs⟩
      (launches (maxSize (fun i => os (i * 4 + 1)) pairs) (maxSize (fun i => os (i * 4 + 3)) pairs)) dist0 result

/-! ## TriInt_cuda -/

/-- The loops of `TriInt_cuda` (TriInt.cu:299-308): is a pair found? `TriInt` of TriInt.cu:164-283 is word for word the
one of TriInt.cpp:170-289, modelled by `triInt`. -/
def triFound (data : Nat → ℚ) (os : Nat → Nat) (idx : Nat) : Bool :=
  (List.range (os (idx * 4 + 1))).any (fun s1 => (List.range (os (idx * 4 + 3))).any (fun s2 =>
    let t1 := 9 * (os (idx * 4) + s1)
    let t2 := 9 * (os (idx * 4 + 2) + s2)
    triInt (ptAt data t1) (ptAt data (t1 + 3)) (ptAt data (t1 + 6)) (ptAt data t2) (ptAt data (t2 + 3)) (ptAt data (t2 + 6))))

/-- The writes of thread `t` of block `blk` of `TriInt_cuda` (TriInt.cu:287-309) to `d_intersect`. -/
def triUnit (data : Nat → ℚ) (os : Nat → Nat) (pairs blk t : Nat) : List (Nat × Nat) :=
  let idx := blk * 1024 + t
  if idx ≥ pairs then []
  else (idx, 0) :: (if triFound data os idx then [(idx, 1)] else [])

/-- The threads of the launch of `TriInt_batch_gpu` (TriInt.cu:336): `pair_num/1024+1` blocks of 1024. -/
def triUnits (data : Nat → ℚ) (os : Nat → Nat) (pairs : Nat) : List (List (Nat × Nat)) :=
  (List.range (pairs / 1024 + 1)).flatMap (fun blk => (List.range 1024).map (fun t => triUnit data os pairs blk t))

/-! ## Device memory -/

/-- The MB asked for by `get_distance_gpu` (geometry_computer.cpp:83): `data_size*6` is computed in 32 bits. -/
def distRequest (segments : Nat) : Nat := segments * 6 % 2^32 * 4 / 1024 / 1024
/-- The MB asked for by `get_intersect_gpu` (geometry_computer.cpp:92). -/
def intRequest (triangles : Nat) : Nat := triangles * 9 % 2^32 * 4 / 1024 / 1024
/-- End of the arrays laid out by `SegDist_batch_gpu` (SegDist.cu:191-203), in bytes from `d_data`. -/
def distLayout (segments pairs : Nat) : Nat := 6 * 4 * segments + 3 * 4 * segments + 4 * pairs + pairs * 4 * 4
/-- End of the arrays laid out by `TriInt_batch_gpu` (TriInt.cu:319-331), sizes below 2^32. -/
def intLayout (triangles pairs : Nat) : Nat := 9 * triangles * 4 + 4 * pairs + pairs * 4 * 4
/-- The bytes allocated by `init_gpu` (cuda_common.cu:55-56) for a device with `mem_size` MB. -/
def deviceBytes (mem : Nat) : Nat := mem * 1024 * 1024
/-- `mem_size` of a device with `total` bytes (cuda_common.cu:25-30). -/
def memSize (total : Nat) : Nat := let m := total / 1024 / 1024 * 4 / 5; if m > 2048 then 2048 else m

end TDP.Gpu
