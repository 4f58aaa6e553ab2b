import Verif.Pipeline.OneShot
import Verif.Pipeline.OffText
import Verif.Tools.H5
/-!
# C118: the decompression tool (src/test/decompress.cpp:18-65)

One file is written for every level of detail between `start_lod` and `end_lod`. Afterwards `himesh` is used (`advance_to`, `fill_vertices`),
which is set only when the level 100 was among them. The measurements with zlib at the end are left out.
-/
namespace TDP.DecompressTool
open TDP.Codec TDP.Quant TDP.Pipeline TDP.OffText TDP.Text TDP.Names TDP.Fill

/-- `for(int i=start_lod;i<=end_lod;i++)` (decompress.cpp:20-25, 38): with an argument both ends are its value. -/
def lods : Option Int → List Int
  | none => (List.range 11).map (fun (i : Nat) => (i : Int))
  | some n => [n]

/-- One round (decompress.cpp:39-43): the name and the contents of the file. -/
def writeLod (S : Setting) (shw : ℚ → List Char) (env' : Env P3) (data : List Nat) (n : Nat) (i : Int) : Option (List Char × List Char) := do
  let o ← decompressMesh S.lg S.F (headerGrid S.value) env' n (10 * i) data
  let name ← lodName (10 * i)
  some (name, offText shw o.m (env'.gates o.m) (env'.vorder o.m))

/-- `main` (decompress.cpp:18-59) from the compressed mesh on: the files written; `none` if an uninitialised pointer is used at the end.
Arguments whose tenfold is no `int` are left out. -/
def tool (S : Setting) (shw : ℚ → List Char) (env' : Env P3) (data : List Nat) (arg : Option Int) (n : Nat) :
    Option (List (List Char × List Char)) := do
  let files ← (lods arg).mapM (writeLod S shw env' data n)
  if (10 : Int) ∈ lods arg then some files else none

/-! ### Specification -/

/-- The file holds the object at `p` per cent: its name says so, and its text is read as a mesh that is, up to the printing of numbers, the
level `p` asks for; the vertices of the level are at most half a quantisation step per axis from those of the input; level 100 is the
whole input. -/
def Holds (S : Setting) (shw : ℚ → List Char) (rd : List Char → ℚ) (i : Input) (L : List (Mesh P3 × LevelSyms Blocks.Vec)) (B : Mesh P3)
    (p : Nat) (file : List Char × List Char) : Prop :=
  file.1 = "/gisdata/lod.".toList ++ (dec p ++ ".off".toList) ∧
  ∃ (M N : Mesh P3) (k : Nat) (ψ : Nat → Nat), buildRead rd (readOff file.2) = some N ∧ SameUpTo (fun x => rd (shw x)) M N ∧
    k ≤ L.length ∧ Lod.IsLevel S.F L.length p k ∧ Iso ψ (lodMesh L B (L.length - k)) M ∧
    (∀ d ∈ (lodMesh L B (L.length - k)).darts, ∀ x,
      |M.pos (M.vert (ψ d)) x - i.mesh.pos ((lodMesh L B (L.length - k)).vert d) x| ≤
        maxRange (bbMin i.v i.vs) (bbMax i.v i.vs) / 2 ^ i.hd.quantBits / 2) ∧
    (p = 100 → k = L.length ∧ Iso ψ i.quantised M)

/-! ### Proofs -/

/-- Reading the text of a copy of a closed mesh, whatever the counters of its names. -/
theorem read_copy {shw : ℚ → List Char} (hs : Printer shw) (rd : List Char → ℚ) {K M : Mesh P3} (hK : K.WF) {ψ : Nat → Nat} (i : Iso ψ K M)
    (hM : M.h.WF) {env' : Env P3} (he : env'.Ok) : ∃ N, buildRead rd (readOff (offText shw M (env'.gates M) (env'.vorder M))) = some N ∧
      SameUpTo (fun x => rd (shw x)) M N := by
  let M' : Mesh P3 := { M with nd := M.darts.sup id + 1, nf := M.darts.sup M.face + 1, nv := M.darts.sup M.vert + 1 }
  have i' : Iso ψ K M' := ⟨i.mem, i.inj, i.surj, i.next, i.opp, i.vert, i.pos⟩
  have hf : M'.Fresh := fun d hd =>
    ⟨Nat.lt_succ_of_le (Finset.le_sup (f := id) hd), Nat.lt_succ_of_le (Finset.le_sup (f := M.face) hd), Nat.lt_succ_of_le (Finset.le_sup (f := M.vert) hd)⟩
  have hW : M'.WF := i'.wf hM hK hf
  have hg := he.gates M hM
  have h1 : FacetEnum M' (env'.gates M) := ⟨hg.nodup, hg.mem, fun d hd => by
    obtain ⟨g, a, b⟩ := hg.cover d hd
    exact List.mem_map.2 ⟨g, a, b⟩⟩
  have h2 : VertEnum M' (env'.vorder M) := ⟨(he.vorder M).1, (he.vorder M).2⟩
  obtain ⟨N, a, ⟨φ, b⟩⟩ := (C116_read hs rd hW h1 h2).1
  exact ⟨N, a, ⟨φ, b⟩⟩

theorem lodName_eq {p : Nat} (hp : p ≤ 100) : lodName (p : Int) = some ("/gisdata/lod.".toList ++ (dec p ++ ".off".toList)) := by
  obtain ⟨t, ht⟩ := Option.isSome_iff_exists.1 ((C111_numbered_files []).2.2.2.1 (p : Int) (by omega)).2
  rw [ht]
  have := (sprintf_iff.1 ht).1
  rw [this]
  unfold text
  simp only [List.flatMap_cons, List.flatMap_nil, Piece.text, List.append_nil]
  rw [H5.decInt_nat (by omega)]; rfl

theorem mapM_ends {A X : Type} (f : Nat → A → Option X) (g : A → X) : ∀ l : List A, (∀ a ∈ l, Ends (fun n => f n a) (g a)) →
    Ends (fun n => l.mapM (f n)) (l.map g)
  | [], _ => ⟨0, fun _ _ => rfl⟩
  | a :: l, h => by
    obtain ⟨N1, h1⟩ := h a List.mem_cons_self
    obtain ⟨N2, h2⟩ := mapM_ends f g l (fun x hx => h x (List.mem_cons_of_mem _ hx))
    refine ⟨max N1 N2, fun n hn => ?_⟩
    have e1 : f n a = some (g a) := h1 n (le_trans (le_max_left _ _) hn)
    have e2 : l.mapM (f n) = some (l.map g) := h2 n (le_trans (le_max_right _ _) hn)
    show List.mapM (f n) (a :: l) = _
    rw [List.mapM_cons, e1, e2]; rfl

/-- One file. -/
theorem writes (S : Setting) (hS : S.Ok) (env' : Env P3) (he' : env'.Ok) {shw : ℚ → List Char} (hs : Printer shw) (rd : List Char → ℚ) (i : Input)
    (hi : i.Ok S) : ∃ L B data, Levels S i L B ∧
      Ends (fun n => compress S.lg S.size (headerGrid S.value) S.convex S.enc n i.hd i.quantised i.first) data ∧
      ∀ j : Nat, j ≤ 10 → ∃ file, Ends (fun n => writeLod S shw env' data n j) file ∧ Holds S shw rd i L B (10 * j) file := by
  obtain ⟨L, B, data, o, h1, h2, h3, h4, h5⟩ := object S hS env' he' i hi
  have hn : 1 ≤ o.nbDec := by
    obtain ⟨_, r, _, ⟨N, hN⟩, -⟩ := h5 [100] (by simp)
    exact nbDec_pos (openObj_fresh h4) (hN N le_rfl)
  refine ⟨L, B, data, h1, h3, fun j hj => ?_⟩
  obtain ⟨k, o', ψ, ⟨N0, hN⟩, c2, c3, c4, c5, c6, c7, c8⟩ := h5 [10 * j] (by simp; omega)
  obtain ⟨N, r1, r2⟩ := read_copy hs rd c4 c5 c6 he'
  refine ⟨("/gisdata/lod.".toList ++ (dec (10 * j) ++ ".off".toList), offText shw o'.m (env'.gates o'.m) (env'.vorder o'.m)),
    ⟨N0, fun n hn' => ?_⟩, rfl, o'.m, N, k, ψ, r1, r2, c2, by simpa using c3, c5, c7, fun e => ⟨(c8 (by simp [e])).1, (c8 (by simp [e])).2.1⟩⟩
  have e := C105_one_go_partial S.lg S.F (headerGrid S.value) env' n data o h4 hn (10 * j) [10 * j] (by omega) (by simp) (by simp)
  have e2 : decompressMesh S.lg S.F (headerGrid S.value) env' n (10 * (j : Int)) data = some o' := by
    have : (10 * (j : Int)) = ((10 * j : Nat) : Int) := by push_cast; ring
    rw [this, e]
    exact hN n hn'
  have e3 : lodName (10 * (j : Int)) = some ("/gisdata/lod.".toList ++ (dec (10 * j) ++ ".off".toList)) := by
    have := lodName_eq (p := 10 * j) (by omega)
    rwa [Nat.cast_mul, Nat.cast_ofNat] at this
  unfold writeLod
  simp only [e2, e3, Option.bind_eq_bind, Option.bind_some]

/-- **C118** (partial: no argument, or the argument 10; an acceptable mesh). Without an argument eleven different files are written, file `j`
holds the object at `10 * j` per cent; with the argument 10 one file, the object at 100 per cent. -/
theorem C118_files_partial (S : Setting) (hS : S.Ok) (env' : Env P3) (he' : env'.Ok) {shw : ℚ → List Char} (hs : Printer shw)
    (rd : List Char → ℚ) (i : Input) (hi : i.Ok S) : ∃ L B data, Levels S i L B ∧
      Ends (fun n => compress S.lg S.size (headerGrid S.value) S.convex S.enc n i.hd i.quantised i.first) data ∧
      (∃ files, Ends (tool S shw env' data none) files ∧ files.length = 11 ∧ (files.map Prod.fst).Nodup ∧
        ∀ j file, files[j]? = some file → Holds S shw rd i L B (10 * j) file) ∧
      ∃ file, Ends (tool S shw env' data (some 10)) [file] ∧ Holds S shw rd i L B 100 file := by
  obtain ⟨L, B, data, h1, h2, h3⟩ := writes S hS env' he' hs rd i hi
  have h3' : ∀ z : Int, ∃ file, z ∈ lods none → Ends (fun n => writeLod S shw env' data n z) file ∧ Holds S shw rd i L B (10 * z.toNat) file := by
    intro z
    by_cases hz : z ∈ lods none
    · obtain ⟨j, hj, rfl⟩ := List.mem_map.1 hz
      obtain ⟨file, a, b⟩ := h3 j (by have := List.mem_range.1 hj; omega)
      exact ⟨file, fun _ => ⟨a, by simpa using b⟩⟩
    · exact ⟨([], []), fun h => absurd h hz⟩
  choose g hg using h3'
  refine ⟨L, B, data, h1, h2, ⟨(lods none).map g, ?_, by simp [lods], ?_, ?_⟩, ?_⟩
  · obtain ⟨N, hN⟩ := mapM_ends (writeLod S shw env' data) g (lods none) (fun z hz => (hg z hz).1)
    refine ⟨N, fun n hn => ?_⟩
    have e : (lods none).mapM (writeLod S shw env' data n) = some ((lods none).map g) := hN n hn
    unfold tool
    rw [e, Option.bind_eq_bind, Option.bind_some, if_pos (by decide)]
  · rw [List.map_map]
    refine List.Nodup.map_on ?_ (by decide)
    intro x hx y hy h
    have a := (hg x hx).2.1
    have b := (hg y hy).2.1
    rw [show (g x).1 = (g y).1 from h, b] at a
    have := dec_inj (List.append_cancel_right (List.append_cancel_left a))
    have nn : ∀ z ∈ lods none, 0 ≤ z := by decide
    have := nn x hx
    have := nn y hy
    omega
  · intro j file h
    rw [List.getElem?_map, Option.map_eq_some_iff] at h
    obtain ⟨z, hz, rfl⟩ := h
    have hb := (hg z (List.mem_of_getElem? hz)).2
    unfold lods at hz
    rw [List.getElem?_map, Option.map_eq_some_iff] at hz
    obtain ⟨j', hj', rfl⟩ := hz
    rw [List.getElem?_eq_some_iff] at hj'
    obtain ⟨_, hj'⟩ := hj'
    rw [List.getElem_range] at hj'
    subst hj'
    simpa using hb
  · obtain ⟨file, ⟨N, hN⟩, b⟩ := h3 10 le_rfl
    refine ⟨file, ⟨N, fun n hn => ?_⟩, b⟩
    have e : writeLod S shw env' data n 10 = some file := hN n hn
    unfold tool lods
    rw [List.mapM_cons, List.mapM_nil, e]
    simp

/-- C118 is false for every other argument: an uninitialised pointer is used after the file is written, whatever the mesh. -/
theorem C118_counterexample (S : Setting) (shw : ℚ → List Char) (env' : Env P3) (data : List Nat) (a : Int) (ha : a ≠ 10) (n : Nat) :
    tool S shw env' data (some a) n = none := by
  unfold tool
  have h : ¬ (10 : Int) ∈ lods (some a) := by
    unfold lods
    rw [List.mem_singleton]
    exact fun h => ha h.symm
  cases (lods (some a)).mapM (writeLod S shw env' data n) with
  | none => rfl
  | some fs => exact if_neg h

/-- The octahedron. -/
example : ∃ data files, Ends (tool exSetting exShw exSetting.dec data none) files ∧ files.length = 11 := by
  obtain ⟨L, B, data, -, -, ⟨files, h1, h2, -⟩, -⟩ :=
    C118_files_partial exSetting exSetting_ok exSetting.dec exSetting_ok.dec exPrinter exRd exInput exInput_ok
  exact ⟨data, files, h1, h2⟩

end TDP.DecompressTool
