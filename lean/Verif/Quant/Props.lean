import Verif.Quant.Model
import Mathlib.Tactic.Linarith
import Mathlib.Tactic.FieldSimp
import Mathlib.Tactic.Ring
import Mathlib.Tactic.Positivity
import Verif.Blocks.Props
/-! # C10, C11, C12: quantisation -/
namespace TDP.Quant

theorem bbMin_le (a : P3) (ps : List P3) (i : Fin 3) :
    bbMin a ps i ≤ a i ∧ ∀ p ∈ ps, bbMin a ps i ≤ p i := by
  induction ps generalizing a with
  | nil => exact ⟨le_refl _, by simp⟩
  | cons p ps ih =>
    obtain ⟨h1, h2⟩ := ih (fun i => if p i < a i then p i else a i)
    have hb : bbMin a (p :: ps) = bbMin (fun i => if p i < a i then p i else a i) ps := rfl
    rw [hb]
    refine ⟨?_, fun q hq => ?_⟩
    · split at h1 <;> linarith
    · rcases List.mem_cons.mp hq with rfl | hq
      · split at h1 <;> linarith
      · exact h2 q hq

theorem le_bbMax (a : P3) (ps : List P3) (i : Fin 3) :
    a i ≤ bbMax a ps i ∧ ∀ p ∈ ps, p i ≤ bbMax a ps i := by
  induction ps generalizing a with
  | nil => exact ⟨le_refl _, by simp⟩
  | cons p ps ih =>
    obtain ⟨h1, h2⟩ := ih (fun i => if a i < p i then p i else a i)
    have hb : bbMax a (p :: ps) = bbMax (fun i => if a i < p i then p i else a i) ps := rfl
    rw [hb]
    refine ⟨?_, fun q hq => ?_⟩
    · split at h1 <;> linarith
    · rcases List.mem_cons.mp hq with rfl | hq
      · split at h1 <;> linarith
      · exact h2 q hq

theorem le_maxRange (mn mx : P3) : 0 ≤ maxRange mn mx ∧ ∀ i, mx i - mn i ≤ maxRange mn mx := by
  unfold maxRange
  simp only
  constructor
  · split_ifs <;> linarith
  · intro i
    have hi : i = 0 ∨ i = 1 ∨ i = 2 := by
      have := i.isLt
      rcases i with ⟨_ | _ | _ | n, h⟩
      · exact Or.inl rfl
      · exact Or.inr (Or.inl rfl)
      · exact Or.inr (Or.inr rfl)
      · omega
    rcases hi with rfl | rfl | rfl <;> split_ifs <;> linarith

theorem toInt_of_mem (x : ℚ) (q : ℤ) (hq : 0 ≤ q) (h1 : (q : ℚ) ≤ x) (h2 : x < q + 1) : toInt x = q := by
  have h0 : (0 : ℚ) ≤ q := by exact_mod_cast hq
  unfold toInt
  rw [if_pos (le_trans h0 h1)]
  rw [Int.floor_eq_iff]
  exact ⟨h1, h2⟩

/-- Tolerance: any position strictly closer than half a cell to the centre of cell `q` quantises to
`q`, so rounding errors below half a step change nothing. -/
theorem C11_cell_of_near (c : Cfg) (hs : 0 < c.step) (q : I3) (hq : ∀ i, 0 ≤ q i) (p : P3)
    (hp : ∀ i, |p i - getPos c q i| < c.step * ((2 ^ c.curQ : ℕ) : ℚ) / 2) :
    getQuantizedPos c p = q := by
  have hw : 0 < c.step * ((2 ^ c.curQ : ℕ) : ℚ) := by positivity
  funext i
  have h := abs_lt.mp (hp i)
  unfold getPos at h
  unfold getQuantizedPos
  generalize hW : c.step * ((2 ^ c.curQ : ℕ) : ℚ) = W at *
  have e : ((q i : ℚ) + 1 / 2) * c.step * ((2 ^ c.curQ : ℕ) : ℚ) = ((q i : ℚ) + 1 / 2) * W := by
    rw [← hW]; ring
  rw [e] at h
  apply toInt_of_mem _ _ (hq i)
  · rw [le_div_iff₀ hw]; nlinarith [h.1]
  · rw [div_lt_iff₀ hw]; nlinarith [h.2]

/-- **C11.** Dequantising a cell and quantising the result gives the same cell. -/
theorem C11_quantise_dequantise (c : Cfg) (hs : 0 < c.step) (q : I3) (hq : ∀ i, 0 ≤ q i) :
    getQuantizedPos c (getPos c q) = q :=
  C11_cell_of_near c hs q hq _ (fun i => by
    have hw : 0 < c.step * ((2 ^ c.curQ : ℕ) : ℚ) := by positivity
    rw [sub_self, abs_zero]; linarith)

/-- Non-negativity of the cell is needed: truncation towards zero merges cell -1 into cell 0. -/
theorem C11_negative_cell_counterexample :
    getQuantizedPos ⟨fun _ => 0, 1, 0⟩ (getPos ⟨fun _ => 0, 1, 0⟩ (fun _ => -1)) = fun _ => 0 := by
  funext i
  simp only [getQuantizedPos, getPos, toInt]
  norm_num

/-- A vertex inside the box has a cell in `[0, 2^bits]`, and position relative to it. -/
theorem cell_bounds (mn mx : P3) (bits : Nat) (p : P3) (hr : 0 < maxRange mn mx) (i : Fin 3)
    (h1 : mn i ≤ p i) (h2 : p i ≤ mx i) :
    let s := quantStep mn mx bits
    let q := getQuantizedPos ⟨mn, s, 0⟩ p i
    0 < s ∧ 0 ≤ q ∧ q ≤ ((2 ^ bits : ℕ) : ℤ) ∧ (q : ℚ) * s ≤ p i - mn i ∧ p i - mn i < (q + 1) * s ∧
      p i - mn i ≤ ((2 ^ bits : ℕ) : ℚ) * s := by
  intro s q
  have hN : (0 : ℚ) < ((2 ^ bits : ℕ) : ℚ) := by positivity
  have hs : 0 < s := div_pos hr hN
  have hNs : ((2 ^ bits : ℕ) : ℚ) * s = maxRange mn mx := by
    simp only [s, quantStep]; field_simp
  have hle : p i - mn i ≤ ((2 ^ bits : ℕ) : ℚ) * s := by
    rw [hNs]; have := (le_maxRange mn mx).2 i; linarith
  have hx : 0 ≤ (p i - mn i) / s := div_nonneg (by linarith) hs.le
  have hq : q = ⌊(p i - mn i) / s⌋ := by
    simp only [q, getQuantizedPos, pow_zero, Nat.cast_one, mul_one, toInt]
    rw [if_pos hx]
  have f1 := Int.floor_le ((p i - mn i) / s)
  have f2 := Int.lt_floor_add_one ((p i - mn i) / s)
  rw [← hq] at f1 f2
  refine ⟨hs, ?_, ?_, ?_, ?_, hle⟩
  · rw [hq]; exact Int.floor_nonneg.mpr hx
  · have : (q : ℚ) ≤ ((2 ^ bits : ℕ) : ℚ) := le_trans f1 (by rw [div_le_iff₀ hs]; exact hle)
    exact_mod_cast this
  · rwa [le_div_iff₀ hs] at f1
  · rwa [div_lt_iff₀ hs] at f2

/-- The cell a vertex of the mesh is moved to. -/
theorem quantizeVertex_cell (mn mx : P3) (bits : Nat) (p : P3) (hr : 0 < maxRange mn mx)
    (h : ∀ i, mn i ≤ p i ∧ p i ≤ mx i) :
    let c : Cfg := ⟨mn, quantStep mn mx bits, 0⟩
    ∃ q : I3, quantizeVertex c bits p = getPos c q ∧ (∀ i, 0 ≤ q i ∧ q i < ((2 ^ bits : ℕ) : ℤ)) ∧
      ∀ i, |getPos c q i - p i| ≤ c.step / 2 := by
  intro c
  refine ⟨_, rfl, fun i => ?_, fun i => ?_⟩
  · obtain ⟨hs, b1, b2, b3, b4, b5⟩ := cell_bounds mn mx bits p hr i (h i).1 (h i).2
    have : (1 : ℤ) ≤ ((2 ^ bits : ℕ) : ℤ) := by exact_mod_cast Nat.one_le_two_pow
    split_ifs with he
    · omega
    · exact ⟨b1, lt_of_le_of_ne b2 he⟩
  · obtain ⟨hs, b1, b2, b3, b4, b5⟩ := cell_bounds mn mx bits p hr i (h i).1 (h i).2
    simp only [getPos]
    split_ifs with he
    · rw [he] at b3
      have hx : ((((2 ^ bits : ℕ) : ℤ)) : ℚ) = ((2 ^ bits : ℕ) : ℚ) := by push_cast; ring
      rw [hx] at b3
      push_cast at b3 b5 ⊢
      simp only [c, abs_le]
      constructor <;> nlinarith
    · push_cast
      rw [abs_le]
      simp only [c] at *
      constructor <;> nlinarith

/-- **C10.** Compressing a mesh (at least two different vertices) moves every vertex, the first to the
last, by at most half a quantisation step along each axis. The step is the largest side of the bounding
box divided by `2^bits`. Moreover every stored cell fits in `bits` bits. -/
theorem C10_error_bound (bits : Nat) (v : P3) (vs : List P3)
    (hr : 0 < maxRange (bbMin v vs) (bbMax v vs)) :
    (quantizeMesh bits v vs).length = (v :: vs).length ∧
    ∀ (k : Nat) (p p' : P3), (v :: vs)[k]? = some p → (quantizeMesh bits v vs)[k]? = some p' →
      (∀ i, |p' i - p i| ≤ maxRange (bbMin v vs) (bbMax v vs) / 2 ^ bits / 2) ∧
      (∀ i, 0 ≤ getQuantizedPos (initCfg bits v vs) p' i ∧
        getQuantizedPos (initCfg bits v vs) p' i < 2 ^ bits) := by
  refine ⟨by simp [quantizeMesh], fun k p p' hp hp' => ?_⟩
  have hmem : p ∈ v :: vs := List.mem_of_getElem? hp
  have hbox : ∀ i, bbMin v vs i ≤ p i ∧ p i ≤ bbMax v vs i := by
    intro i
    rcases List.mem_cons.mp hmem with rfl | hm
    · exact ⟨(bbMin_le p vs i).1, (le_bbMax p vs i).1⟩
    · exact ⟨(bbMin_le v vs i).2 p hm, (le_bbMax v vs i).2 p hm⟩
  obtain ⟨q, q1, q2, q3⟩ := quantizeVertex_cell _ _ bits p hr hbox
  have hpp : p' = quantizeVertex (initCfg bits v vs) bits p := by
    rw [quantizeMesh, List.getElem?_map, hp] at hp'
    exact (Option.some.inj hp').symm
  rw [hpp]
  have hs : 0 < (initCfg bits v vs).step := div_pos hr (by positivity)
  constructor
  · intro i
    have := q3 i
    change |quantizeVertex ⟨bbMin v vs, quantStep (bbMin v vs) (bbMax v vs) bits, 0⟩ bits p i - p i| ≤ _
    rw [q1]
    simpa [quantStep] using this
  · have e : getQuantizedPos (initCfg bits v vs) (quantizeVertex (initCfg bits v vs) bits p) = q := by
      change getQuantizedPos _ (quantizeVertex ⟨bbMin v vs, quantStep (bbMin v vs) (bbMax v vs) bits, 0⟩ bits p) = q
      rw [q1]
      exact C11_quantise_dequantise _ hs q (fun i => (q2 i).1)
    rw [e]
    intro i
    have := q2 i
    push_cast at this
    exact this

/-- **C11.** Quantising the already quantised mesh (same box and step) changes nothing. -/
theorem C11_idempotent (bits : Nat) (v : P3) (vs : List P3)
    (hr : 0 < maxRange (bbMin v vs) (bbMax v vs)) :
    (quantizeMesh bits v vs).map (quantizeVertex (initCfg bits v vs) bits) = quantizeMesh bits v vs := by
  unfold quantizeMesh
  rw [List.map_map]
  apply List.map_congr_left
  intro p hmem
  have hbox : ∀ i, bbMin v vs i ≤ p i ∧ p i ≤ bbMax v vs i := by
    intro i
    rcases List.mem_cons.mp hmem with rfl | hm
    · exact ⟨(bbMin_le p vs i).1, (le_bbMax p vs i).1⟩
    · exact ⟨(bbMin_le v vs i).2 p hm, (le_bbMax v vs i).2 p hm⟩
  obtain ⟨q, q1, q2, q3⟩ := quantizeVertex_cell _ _ bits p hr hbox
  have hs : 0 < (initCfg bits v vs).step := div_pos hr (by positivity)
  have q1' : quantizeVertex (initCfg bits v vs) bits p = getPos (initCfg bits v vs) q := q1
  simp only [Function.comp_apply]
  rw [q1']
  unfold quantizeVertex
  rw [C11_quantise_dequantise _ hs q (fun i => (q2 i).1)]
  refine congrArg (getPos _) (funext fun i => ?_)
  have := (q2 i).2
  rw [if_neg (by omega)]

/-- **C12.** A removed vertex sitting on a cell centre (as all vertices do after `quantizeVertexPositions`)
is restored exactly, whatever prediction is used, provided both sides use the same one. -/
theorem C12_restored_exactly (c : Cfg) (hs : 0 < c.step) (q : I3) (hq : ∀ i, 0 ≤ q i) (bary : P3) :
    insertedPos c bary (residual c (getPos c q) bary) = getPos c q := by
  unfold insertedPos residual
  rw [C11_quantise_dequantise c hs q hq]
  congr 1
  funext i; simp

theorem foldl_sum_bounds (lo hi : P3) (ps : List P3) (a : P3) (i : Fin 3)
    (h : ∀ p ∈ ps, lo i ≤ p i ∧ p i ≤ hi i) :
    a i + ps.length * lo i ≤ (ps.foldl (fun s p => fun i => s i + p i) a) i ∧
      (ps.foldl (fun s p => fun i => s i + p i) a) i ≤ a i + ps.length * hi i := by
  induction ps generalizing a with
  | nil => simp
  | cons p ps ih =>
    have hp := h p List.mem_cons_self
    have := ih (fun i => a i + p i) (fun x hx => h x (List.mem_cons_of_mem _ hx))
    simp only [List.foldl_cons, List.length_cons]
    push_cast
    constructor <;> nlinarith [this.1, this.2]

/-- The prediction stays inside the bounding box of the face. -/
theorem C12_barycenter_in_box (lo hi : P3) (ps : List P3) (hne : ps ≠ []) (i : Fin 3)
    (h : ∀ p ∈ ps, lo i ≤ p i ∧ p i ≤ hi i) : lo i ≤ barycenter ps i ∧ barycenter ps i ≤ hi i := by
  have hl : (0 : ℚ) < ps.length := by
    have : 0 < ps.length := List.length_pos_iff.mpr hne
    exact_mod_cast this
  have := foldl_sum_bounds lo hi ps (fun _ => 0) i h
  unfold barycenter
  rw [le_div_iff₀ hl, div_le_iff₀ hl]
  constructor <;> nlinarith [this.1, this.2]

/-- With at most 14 quantisation bits (the project uses 12) the residuals of any set of removed
vertices, each predicted by the barycentre of a non-empty face inside the quantised box, satisfy the
range precondition of the removed-vertex block (C05). -/
theorem C12_residuals_codable (mn mx : P3) (bits : Nat) (hb : bits ≤ 14) (hr : 0 < maxRange mn mx)
    (rs : List (I3 × List P3))
    (hq : ∀ r ∈ rs, ∀ i, 0 ≤ r.1 i ∧ r.1 i < ((2 ^ bits : ℕ) : ℤ))
    (hf : ∀ r ∈ rs, r.2 ≠ [] ∧ ∀ p ∈ r.2, ∀ i, mn i ≤ p i ∧ p i ≤ mx i) :
    Blocks.Codable (rs.map (fun r =>
      let c : Cfg := ⟨mn, quantStep mn mx bits, 0⟩
      let d := residual c (getPos c r.1) (barycenter r.2)
      (⟨d 0, d 1, d 2⟩ : Blocks.Vec))) := by
  have hN : ((2 ^ bits : ℕ) : ℤ) ≤ 16384 := by
    have : (2 : ℕ) ^ bits ≤ 2 ^ 14 := Nat.pow_le_pow_right (by decide) hb
    have h2 : (2 : ℕ) ^ 14 = 16384 := by decide
    rw [h2] at this
    exact_mod_cast this
  refine ⟨-16384, 16384, by decide, by decide, by decide, ?_⟩
  intro v hv
  rw [List.mem_map] at hv
  obtain ⟨r, hr', rfl⟩ := hv
  have hs : 0 < quantStep mn mx bits := div_pos hr (by positivity)
  have key : ∀ i, -16384 ≤ residual ⟨mn, quantStep mn mx bits, 0⟩
      (getPos ⟨mn, quantStep mn mx bits, 0⟩ r.1) (barycenter r.2) i ∧
      residual ⟨mn, quantStep mn mx bits, 0⟩
      (getPos ⟨mn, quantStep mn mx bits, 0⟩ r.1) (barycenter r.2) i ≤ 16384 := by
    intro i
    unfold residual
    rw [C11_quantise_dequantise _ hs r.1 (fun i => (hq r hr' i).1)]
    have hbar := C12_barycenter_in_box mn mx r.2 (hf r hr').1 i (fun p hp => (hf r hr').2 p hp i)
    obtain ⟨_, b1, b2, _⟩ := cell_bounds mn mx bits (barycenter r.2) hr i hbar.1 hbar.2
    have := hq r hr' i
    constructor <;> omega
  exact ⟨key 0, key 1, key 2⟩

/-! Non-vacuity -/

example : 0 < maxRange (bbMin (fun _ => 0) [fun i => i.val]) (bbMax (fun _ => 0) [fun i => i.val]) := by
  norm_num [maxRange, bbMin, bbMax]

/-- The clamped upper corner: its error is exactly half a step, so the bound of C10 is tight. -/
example : quantizeMesh 2 (fun _ => 0) [fun _ => 4] = [fun _ => 1 / 2, fun _ => 7 / 2] := by
  have hm : bbMin (fun _ => 0) [fun _ => 4] = fun _ => 0 := by funext i; norm_num [bbMin]
  have hM : bbMax (fun _ => 0) [fun _ => 4] = fun _ => 4 := by funext i; norm_num [bbMax]
  have hs : quantStep (fun _ => 0) (fun _ => 4) 2 = 1 := by norm_num [quantStep, maxRange]
  have h0 : toInt 0 = 0 := by norm_num [toInt]
  have h4 : toInt 4 = 4 := by
    rw [toInt, if_pos (by norm_num)]; exact_mod_cast Int.floor_intCast (R := ℚ) 4
  simp only [quantizeMesh, initCfg, hm, hM, hs, List.map_cons, List.map_nil, quantizeVertex, getQuantizedPos,
    sub_zero, pow_zero, Nat.cast_one, mul_one, div_one, h0, h4]
  norm_num
  constructor <;> · funext i; norm_num [getPos]

end TDP.Quant
