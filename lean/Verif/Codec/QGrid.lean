import Verif.Codec.Object
import Verif.Quant.Props
/-! The quantisation of `Verif.Quant.Model` as a `Grid`, and containers that do what `Env.Ok` asks. -/
namespace TDP.Codec
open TDP.Traversal TDP.Blocks TDP.BaseMesh TDP.Stream TDP.Quant Function

def vecOf (q : I3) : Vec := ⟨q 0, q 1, q 2⟩
def i3Of (v : Vec) : I3 := fun i => if i = 0 then v.x else if i = 1 then v.y else v.z

/-- `getQuantizedPos`, `getPos` (mymesh.cpp:246-262) and `barycenter` (mymeshUtils.cpp:109-124) in exact arithmetic. -/
def qgrid (c : Cfg) : Grid P3 where
  quant p := vecOf (getQuantizedPos c p)
  dequant v := getPos c (i3Of v)
  bary := barycenter

/-- What the decompressor computes positions with: the numbers in the header, `value` being the number a `float` pattern
stands for. `i_curQuantizationId` is always 0. -/
def headerGrid (value : Nat → ℚ) (hd : Header) : Grid P3 :=
  qgrid ⟨fun i => if i = 0 then value hd.bb0 else if i = 1 then value hd.bb1 else value hd.bb2, value hd.step, 0⟩

theorem i3Of_eq (v : Vec) : i3Of v 0 = v.x ∧ i3Of v 1 = v.y ∧ i3Of v 2 = v.z := ⟨rfl, rfl, rfl⟩

theorem InCell.iff (bits : Nat) (v : Vec) : InCell bits v ↔ ∀ i, 0 ≤ i3Of v i ∧ i3Of v i < 2 ^ bits := by
  obtain ⟨e0, e1, e2⟩ := i3Of_eq v
  constructor
  · rintro ⟨h0, h1, h2⟩ i
    rcases (by omega : i = 0 ∨ i = 1 ∨ i = 2) with rfl | rfl | rfl
    · rw [e0]; exact h0
    · rw [e1]; exact h1
    · rw [e2]; exact h2
  · intro h
    exact ⟨by rw [← e0]; exact h 0, by rw [← e1]; exact h 1, by rw [← e2]; exact h 2⟩

theorem vecOf_i3Of (v : Vec) : vecOf (i3Of v) = v := rfl
theorem i3Of_vecOf (q : I3) : i3Of (vecOf q) = q := by
  funext i
  rcases (by omega : i = 0 ∨ i = 1 ∨ i = 2) with rfl | rfl | rfl <;> rfl

theorem qgrid_ok (mn : P3) (step : ℚ) (hs : 0 < step) (bits : Nat) : (qgrid ⟨mn, step, 0⟩).Ok bits where
  cell q hq := by
    rw [InCell.iff] at hq
    change vecOf (getQuantizedPos ⟨mn, step, 0⟩ (getPos ⟨mn, step, 0⟩ (i3Of q))) = q
    rw [C11_quantise_dequantise _ hs _ (fun i => (hq i).1), vecOf_i3Of]
  bary l hl h := by
    have key : ∀ i, 0 ≤ getQuantizedPos ⟨mn, step, 0⟩ (barycenter l) i ∧ getQuantizedPos ⟨mn, step, 0⟩ (barycenter l) i ≤ 2 ^ bits := by
      intro i
      have hb := C12_barycenter_in_box (fun i => mn i + step / 2) (fun i => mn i + (2 ^ bits - 1 / 2) * step) l hl i (by
        intro p hp
        obtain ⟨q, hq, rfl⟩ := h p hp
        rw [InCell.iff] at hq
        obtain ⟨q1, q2⟩ := hq i
        have q1' : (0 : ℚ) ≤ i3Of q i := by exact_mod_cast q1
        have q2' : (i3Of q i : ℚ) + 1 ≤ 2 ^ bits := by exact_mod_cast q2
        change _ ≤ ((i3Of q i : ℚ) + 1 / 2) * step * ((2 ^ 0 : ℕ) : ℚ) + mn i ∧ ((i3Of q i : ℚ) + 1 / 2) * step * ((2 ^ 0 : ℕ) : ℚ) + mn i ≤ _
        simp only [pow_zero, Nat.cast_one, mul_one]
        constructor <;> nlinarith)
      have e : getQuantizedPos ⟨mn, step, 0⟩ (barycenter l) i = toInt ((barycenter l i - mn i) / step) := by
        simp [getQuantizedPos]
      rw [e]
      have h1 : 0 ≤ (barycenter l i - mn i) / step := div_nonneg (by linarith [hb.1]) hs.le
      have h2 : (barycenter l i - mn i) / step ≤ 2 ^ bits := by
        rw [div_le_iff₀ hs]; nlinarith [hb.2]
      unfold toInt
      rw [if_pos h1]
      refine ⟨Int.floor_nonneg.mpr h1, ?_⟩
      have : ((⌊(barycenter l i - mn i) / step⌋ : ℤ) : ℚ) ≤ 2 ^ bits := le_trans (Int.floor_le _) h2
      exact_mod_cast this
    exact ⟨key 0, key 1, key 2⟩

/-! ### Containers -/

variable {P : Type}

/-- All halfedges in increasing order. -/
def dartList (m : Mesh P) : List Nat := (List.range (m.darts.sup id + 1)).filter (fun d => d ∈ m.darts)

theorem mem_dartList (m : Mesh P) (d : Nat) : d ∈ dartList m ↔ d ∈ m.darts := by
  unfold dartList
  rw [List.mem_filter, List.mem_range, decide_eq_true_eq]
  refine ⟨fun h => h.2, fun h => ⟨?_, h⟩⟩
  have := Finset.le_sup (f := id) h
  simp only [id] at this
  omega

theorem dartList_nodup (m : Mesh P) : (dartList m).Nodup := List.Nodup.filter _ List.nodup_range

/-- An order of storage. -/
def sampleEnv : Env P where
  init m := (dartList m).getD ((dartList m).length / 2) 0
  hit m v := ((dartList m).find? (fun d => m.vert d = v)).getD 0
  order := dartList
  vorder m := ((dartList m).map m.vert).dedup
  gates m := (dartList m).filter (fun d => (dartList m).find? (fun e => m.face e = m.face d) = some d)

theorem sampleEnv_ok : (sampleEnv : Env P).Ok where
  init m hm := by
    obtain ⟨d, hd⟩ := hm
    have hl : 0 < (dartList m).length := List.length_pos_of_mem ((mem_dartList m d).mpr hd)
    have hlt : (dartList m).length / 2 < (dartList m).length := by omega
    change (dartList m).getD _ 0 ∈ _
    rw [List.getD_eq_getElem?_getD, List.getElem?_eq_getElem hlt, Option.getD_some, ← mem_dartList]
    exact List.getElem_mem hlt
  hit m v h := by
    obtain ⟨d, hd, he⟩ := h
    change ((dartList m).find? _).getD 0 ∈ _ ∧ m.vert (((dartList m).find? _).getD 0) = v
    cases hf : (dartList m).find? (fun d => m.vert d = v) with
    | none =>
      have := List.find?_eq_none.mp hf d ((mem_dartList m d).mpr hd)
      exact absurd he (by simpa using this)
    | some x =>
      exact ⟨(mem_dartList m x).mp (List.mem_of_find?_eq_some hf), by simpa using List.find?_some hf⟩
  order m := ⟨dartList_nodup m, mem_dartList m⟩
  vorder m := ⟨List.nodup_dedup _, fun v => by
    change v ∈ (List.map m.vert (dartList m)).dedup ↔ _
    rw [List.mem_dedup, List.mem_map]
    simp only [mem_dartList]⟩
  gates m _ := by
    refine ⟨?_, ?_, ?_⟩
    · intro g hg
      exact (mem_dartList m g).mp (List.mem_filter.mp hg).1
    · refine List.Nodup.map_on ?_ (List.Nodup.filter _ (dartList_nodup m))
      intro a ha b hb hab
      have ha' := of_decide_eq_true (List.mem_filter.mp ha).2
      have hb' := of_decide_eq_true (List.mem_filter.mp hb).2
      rw [hab] at ha'
      rw [ha'] at hb'
      exact Option.some.inj hb'
    · intro d hd
      cases hf : (dartList m).find? (fun e => m.face e = m.face d) with
      | none =>
        have := List.find?_eq_none.mp hf d ((mem_dartList m d).mpr hd)
        exact absurd this (by simp)
      | some x =>
        have hx : m.face x = m.face d := by simpa using List.find?_some hf
        refine ⟨x, List.mem_filter.mpr ⟨List.mem_of_find?_eq_some hf, ?_⟩, hx⟩
        rw [hx, hf]; simp

end TDP.Codec
