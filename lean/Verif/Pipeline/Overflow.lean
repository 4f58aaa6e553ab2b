import Mathlib.Data.Nat.Log
import Verif.Blocks.Calls
import Verif.Codec.RemovedProps
import Verif.Pipeline.Capacity
import Verif.Pipeline.Examples
/-! An object whose compressed bytes do not fit the buffer the program allocates for them; and one for which C88 holds. -/
namespace TDP.Pipeline
open TDP.QsModel TDP.RangeCoder TDP.Codec TDP.Quant TDP.Tile TDP.Bytes TDP.Bits TDP.BaseMesh TDP.Blocks TDP.Stream

/-- The text of an oblique triangular prism, as `get_mesh` receives it: six corners, two triangles, three parallelograms. -/
def prText : String := "OFF|6 5 0|8 3 0|7 4 4|0 6 5|8 6 4|1 5 1|1 8 5|3 4 2 5|4 4 0 1 2|3 1 0 3|4 4 5 3 0|4 1 3 5 2|"

/-- Its corners. -/
def prPos (v : Nat) : P3 := match v with
  | 0 => ![8,3,0] | 1 => ![7,4,4] | 2 => ![0,6,5] | 3 => ![8,6,4] | 4 => ![1,5,1] | _ => ![1,8,5]
def prNext : List Nat := [2, 6, 4, 11, 0, 16, 8, 5, 10, 12, 1, 15, 14, 7, 9, 17, 13, 3]
def prFace : List Nat := [0, 1, 0, 4, 0, 3, 1, 3, 1, 2, 1, 4, 2, 3, 2, 4, 3, 4]
def prVert : List Nat := [2, 4, 5, 2, 4, 5, 0, 4, 1, 0, 2, 1, 3, 0, 1, 3, 3, 5]

/-- The mesh CGAL's builder makes of the text: halfedges come in pairs, in the order in which the facets first use their edges. -/
def prism {P : Type} (p : Nat → P) : Mesh P :=
  { darts := Finset.range 18, next := fun d => prNext.getD d 0, opp := fun d => if d % 2 = 0 then d + 1 else d - 1,
    face := fun d => prFace.getD d 0, vert := fun d => prVert.getD d 0, pos := p, nd := 18, nf := 5, nv := 6 }

/-- Three float patterns: `0x3B000000` is 1/512, `0x40400000` is 3, and 0 is 0. -/
def prValue (n : Nat) : ℚ := if n = 0x3B000000 then 1 / 512 else if n = 0x40400000 then 3 else 0

def prInput : Input :=
  { mesh := prism prPos, first := 0, v := prPos 0, vs := [prPos 1, prPos 2, prPos 3, prPos 4, prPos 5],
    hd := ⟨0, 0x40400000, 0, 0x3B000000, 12⟩ }

/-- The buffer has the length of the text; the convexity test is the program's. -/
noncomputable def prSetting : Setting :=
  { lg := Nat.clog 2, size := prText.length, value := prValue, F := Fp.exact, convex := convexAt sampleEnv.hit, enc := sampleEnv,
    dec := sampleEnv }

theorem prText_length : prText.length = 92 := by decide +kernel

theorem prSetting_ok : prSetting.Ok := by
  refine ⟨?_, sampleEnv_ok, sampleEnv_ok⟩
  intro n _ h
  refine ⟨Nat.le_pow_clog (by decide) n, ?_⟩
  have : Nat.clog 2 n ≤ 16 := Nat.clog_le_of_le_pow (by have : (2:Nat) ^ 16 = 65536 := by decide
                                                        omega)
  change Nat.clog 2 n ≤ 25
  omega

theorem prism_ok {P : Type} (p : Nat → P) : (prism p).WF ∧ (prism p).Sep ∧ (prism p).Conn 0 := by
  have h : (prism p).check 8 0 (List.range 18) = true := by
    have : (prism (fun _ => ())).check 8 0 (List.range 18) = true := by decide +kernel
    exact this
  obtain ⟨h1, h2, _⟩ := Mesh.check_wf h
  refine ⟨h1, h2, Mesh.conn_of (n := 8) (ds := List.range 18) ?_ (by decide) ?_⟩
  · change Finset.range 18 = _
    decide
  · have : (List.range 18).all (fun d => ((prism (fun _ => ())).reachList 8 [0]).contains d) = true := by decide +kernel
    exact this

/-- The three decimations: symbols, and what is left. -/
theorem prLevels : (compressLevels (headerGrid prValue prInput.hd).geo (fun m v => decide (OneSided (m.link (m.opp (sampleEnv.hit m v)))))
      sampleEnv.init sampleEnv.hit
      (prInput.quantised.src prInput.first) (prInput.quantised.vert prInput.first) 40 40 prInput.quantised).map
      (fun r => (r.1.map (·.2), sampleEnv.vorder r.2, sampleEnv.gates r.2)) = some
    ([([none, none, none, none, some ⟨1365, 512, 512⟩], [true, true, false]),
      ([none, none, none, some ⟨2559, -1365, -1707⟩], [false, false, true]),
      ([none, some ⟨3243, -1195, 171⟩], [false, false, false])], [2, 4, 5], [0, 1]) := by decide +kernel

/-- The base mesh that is left takes 39 bytes. -/
theorem prLevels2 : ((compressLevels (headerGrid prValue prInput.hd).geo (fun m v => decide (OneSided (m.link (m.opp (sampleEnv.hit m v)))))
      sampleEnv.init sampleEnv.hit
      (prInput.quantised.src prInput.first) (prInput.quantised.vert prInput.first) 40 40 prInput.quantised).bind
      (fun r => (writeBaseMesh (Nat.clog 2) { baseOf prInput.hd (headerGrid prValue prInput.hd) sampleEnv (prInput.quantised.src prInput.first)
        (prInput.quantised.vert prInput.first) r.2 with nbDec := 3 } (Buf.zero 92) 0).map (fun p => (p.1.size, p.2)))) = some (92, 39) := by
  decide +kernel

/-- Frequencies of the bits of a level, computed. -/
theorem bits_freqs (ss : List Nat) (fs : List (Nat × Nat × Nat))
    (h : ((initqsmodel 2 10 (1 <<< 9) none true).bind fun m => (symFreqs 10 m ss).map Prod.fst) = some fs) :
    ∃ m m', initqsmodel 2 10 (1 <<< 9) none true = some m ∧ symFreqs 10 m ss = some (fs, m') := by
  simp only [Option.bind_eq_some_iff, Option.map_eq_some_iff] at h
  obtain ⟨m, h1, ⟨fs', m'⟩, h2, h3⟩ := h
  exact ⟨m, m', h1, by rw [h2, ← h3]⟩

/-- The bytes of the levels. -/
theorem prLevelBytes : ∃ r, writeLevels ((([([none, none, none, none, some ⟨1365, 512, 512⟩], [true, true, false]),
      ([none, none, none, some ⟨2559, -1365, -1707⟩], [false, false, true]),
      ([none, some ⟨3243, -1195, 171⟩], [false, false, false])] : List (LevelSyms Vec))).reverse.map toLevel) = some r ∧ r.length = 55 := by
  obtain ⟨m, m1, i1, f1⟩ := bits_freqs [0,0,0,0,1] [(512, 0, 10), (512, 0, 10), (512, 0, 10), (512, 0, 10), (512, 512, 10)] (by decide +kernel)
  obtain ⟨_, m2, i2, f2⟩ := bits_freqs [0,0,0,1] [(512, 0, 10), (512, 0, 10), (512, 0, 10), (512, 512, 10)] (by decide +kernel)
  obtain ⟨_, m3, i3, f3⟩ := bits_freqs [0,1] [(512, 0, 10), (512, 512, 10)] (by decide +kernel)
  obtain ⟨_, m4, i4, f4⟩ := bits_freqs [1,1,0] [(512, 512, 10), (512, 512, 10), (512, 0, 10)] (by decide +kernel)
  obtain ⟨_, m5, i5, f5⟩ := bits_freqs [0,0,1] [(512, 0, 10), (512, 0, 10), (512, 512, 10)] (by decide +kernel)
  obtain ⟨_, m6, i6, f6⟩ := bits_freqs [0,0,0] [(512, 0, 10), (512, 0, 10), (512, 0, 10)] (by decide +kernel)
  obtain ⟨A1, a1, a2⟩ := removed_len 4 854 512 1365 ⟨1365, 512, 512⟩ _ m1 _ 13 i1 f1 (by decide) (by decide) (by decide) (by decide) (by decide)
    (by decide +kernel)
  obtain ⟨A2, b1, b2⟩ := removed_len 3 4267 (-1707) 2559 ⟨2559, -1365, -1707⟩ _ m2 _ 14 i2 f2 (by decide) (by decide) (by decide) (by decide) (by decide)
    (by decide +kernel)
  obtain ⟨A3, c1, c2⟩ := removed_len 1 4439 (-1195) 3243 ⟨3243, -1195, 171⟩ _ m3 _ 13 i3 f3 (by decide) (by decide) (by decide) (by decide) (by decide)
    (by decide +kernel)
  obtain ⟨E1, d1, d2⟩ := edges_len [1,1,0] _ m4 _ 5 i4 f4 (by decide +kernel)
  obtain ⟨E2, e1, e2⟩ := edges_len [0,0,1] _ m5 _ 5 i5 f5 (by decide +kernel)
  obtain ⟨E3, g1, g2⟩ := edges_len [0,0,0] _ m6 _ 5 i6 f6 (by decide +kernel)
  refine ⟨A3 ++ (E3 ++ (A2 ++ (E2 ++ (A1 ++ (E1 ++ []))))), ?_, by simp only [List.length_append, List.length_nil]; omega⟩
  simp only [List.replicate_succ, List.replicate_zero, List.cons_append, List.nil_append] at a1 b1 c1
  simp only [List.reverse_cons, List.reverse_nil, List.nil_append, List.cons_append, List.map_cons, List.map_nil, writeLevels, toLevel, conn,
    geom, List.filterMap_cons, List.filterMap_nil, id, if_true, Bool.false_eq_true, if_false, a1, b1, c1, d1, e1, g1, Option.bind_eq_bind,
    Option.bind_some]

/-- **C88 fails for short texts.** The prism is an object the codec handles (with a buffer of 1000 bytes it would be acceptable), and its
text is well formed; but its compressed form has 94 bytes, the text 92. Compression stores outside the buffer. -/
theorem C88_counterexample : prInput.Ok { prSetting with size := 1000 } ∧ prSetting.Ok ∧ prSetting.size = prText.length ∧
    ∀ n ≥ 40, compressInto prSetting.lg prSetting.size (headerGrid prSetting.value) prSetting.convex prSetting.enc n prInput.hd
      prInput.quantised prInput.first = none := by
  obtain ⟨x, hx⟩ : ∃ x, compressLevels (headerGrid prValue prInput.hd).geo (convexAt sampleEnv.hit)
      sampleEnv.init sampleEnv.hit (prInput.quantised.src prInput.first) (prInput.quantised.vert prInput.first) 40 40 prInput.quantised = some x := by
    have h := prLevels
    rw [← convexAt_eq] at h
    cases hc : compressLevels (headerGrid prValue prInput.hd).geo (convexAt sampleEnv.hit) sampleEnv.init sampleEnv.hit
        (prInput.quantised.src prInput.first) (prInput.quantised.vert prInput.first) 40 40 prInput.quantised with
    | none => rw [hc] at h; simp at h
    | some x => exact ⟨x, rfl⟩
  have h1 := prLevels
  rw [← convexAt_eq, hx] at h1
  have h2 := prLevels2
  rw [← convexAt_eq, hx] at h2
  obtain ⟨L, B⟩ := x
  simp only [Option.map_some, Option.some.injEq, Prod.mk.injEq] at h1
  obtain ⟨hL, hV, hG⟩ := h1
  have hLl : L.length = 3 := by have := congrArg List.length hL; simpa using this
  simp only [Option.bind_some, Option.map_eq_some_iff, Prod.mk.injEq] at h2
  obtain ⟨⟨b, e⟩, hb, hbs, rfl⟩ := h2
  simp only at hbs
  refine ⟨?_, prSetting_ok, rfl, ?_⟩
  · refine ⟨(prism_ok prPos).1, (prism_ok prPos).2.1, (prism_ok prPos).2.2, ?_, ?_, ?_, ?_, ?_, by decide, by decide, ?_⟩
    · have : ∀ d ∈ (prism (fun _ => ())).darts, (prism (fun _ => ())).deg d ≤ 10 := by decide +kernel
      exact this
    · have : ∀ d ∈ Finset.range 18, prVert.getD d 0 < 6 := by decide
      intro d hd
      have h := this d hd
      change prPos (prVert.getD d 0) ∈ _
      rcases (by omega : prVert.getD d 0 = 0 ∨ prVert.getD d 0 = 1 ∨ prVert.getD d 0 = 2 ∨ prVert.getD d 0 = 3 ∨
        prVert.getD d 0 = 4 ∨ prVert.getD d 0 = 5) with e | e | e | e | e | e <;> rw [e] <;> simp [prInput]
    · decide +kernel
    · decide +kernel
    · decide +kernel
    · rintro L' B' ⟨N, hN⟩
      have h2 := compressLevels_mono (le_max_right N 40) 40 (le_max_right N 40) hx
      have h3 := hN (max N 40) (le_max_left _ _)
      obtain ⟨rfl, rfl⟩ := Prod.mk.inj (Option.some.inj (h3.symm.trans h2))
      change 0 < L'.length ∧ L'.length < 64 ∧ (sampleEnv.vorder B').length < 65536 ∧ (sampleEnv.gates B').length < 65536 ∧
        27 + 6 * (sampleEnv.vorder B').length + 32 * (sampleEnv.gates B').length ≤ 1000
      rw [hV, hG, hLl]
      decide
  · intro n hn
    have hx' : compressLevels (headerGrid prValue prInput.hd).geo (convexAt sampleEnv.hit)
      sampleEnv.init sampleEnv.hit (prInput.quantised.src prInput.first) (prInput.quantised.vert prInput.first) n n prInput.quantised =
      some (L, B) := compressLevels_mono hn 40 hn hx
    obtain ⟨r, r1, r2⟩ := prLevelBytes
    rw [← hL] at r1
    simp only [compressInto]
    change (compressLevels (headerGrid prValue prInput.hd).geo (convexAt sampleEnv.hit)
      sampleEnv.init sampleEnv.hit (prInput.quantised.src prInput.first) (prInput.quantised.vert prInput.first) n n prInput.quantised).bind _ = none
    rw [hx']
    simp only [Option.bind_some, writeInto, prSetting, prText_length, List.length_map, List.length_reverse, hLl, hb, r1, Option.bind_eq_bind]
    exact putBytes_none b 39 r (by omega) (by omega)

/-- C88 applies to the octahedron in a buffer of 1000 bytes. -/
example : ∀ L B, Levels exSetting exInput L B → room exSetting L B ≤ exSetting.size := by
  have hr : (compressLevels (headerGrid exSetting.value exInput.hd).geo exSetting.convex exSetting.enc.init exSetting.enc.hit
      (exInput.quantised.src exInput.first) (exInput.quantised.vert exInput.first) 100 100 exInput.quantised).map
      (fun r => decide (room exSetting r.1 r.2 ≤ exSetting.size)) = some true := by decide +kernel
  rintro L B ⟨N, hN⟩
  simp only [Option.map_eq_some_iff, decide_eq_true_eq] at hr
  obtain ⟨x, hx, hle⟩ := hr
  have h2 := compressLevels_mono (le_max_right N 100) 100 (le_max_right N 100) hx
  have h3 := hN (max N 100) (le_max_left _ _)
  obtain rfl := Option.some.inj (h3.symm.trans h2)
  exact hle

end TDP.Pipeline
