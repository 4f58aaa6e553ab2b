import Verif.Blocks.Size
/-! The coding calls of a level, listed; used to compute concrete blocks. -/
namespace TDP.Blocks
open TDP.RangeCoder TDP.QsModel

/-- `encNormalize` with a bound on its turns. -/
def encNormF : Nat → Enc → Option Enc
  | 0, _ => none
  | k + 1, e => if e.range ≤ bottomValue then (if e.range = 0 then none else encNormF k (encShift e)) else some e

theorem encNormF_eq (k : Nat) (e e' : Enc) (h : encNormF k e = some e') : encNormalize e = some e' := by
  induction k generalizing e with
  | zero => simp [encNormF] at h
  | succ k ih =>
    rw [encNormF] at h
    rw [encNormalize]
    by_cases h1 : e.range ≤ bottomValue
    · rw [if_pos h1] at h
      rw [dif_pos h1]
      by_cases h0 : e.range = 0
      · rw [if_pos h0] at h; simp at h
      · rw [if_neg h0] at h; rw [dif_neg h0]; exact ih _ h
    · rw [if_neg h1] at h; rw [dif_neg h1]; exact h

/-- `encodeShift` with that. -/
def encShiftF (e : Enc) (sy lt shift : Nat) : Option Enc :=
  (encNormF 5 e).bind fun e =>
    let r := e.range >>> shift
    let tmp := u32 (r * lt)
    some { e with low := u32 (e.low + tmp),
                  range := if u32 (lt + sy) >>> shift ≠ 0 then u32 (e.range + 4294967296 - tmp) else u32 (r * sy) }

/-- `encCalls` for `encode_shift` calls `(sy, lt, shift)`. -/
def encCallsF (e : Enc) : List (Nat × Nat × Nat) → Option Enc
  | [] => some e
  | c :: cs => (encShiftF e c.1 c.2.1 c.2.2).bind fun e => encCallsF e cs

theorem encCallsF_eq (cs : List (Nat × Nat × Nat)) (e e' : Enc) (h : encCallsF e cs = some e') :
    encCalls e (cs.map fun c => .shift c.1 c.2.1 c.2.2) = some e' := by
  induction cs generalizing e with
  | nil => exact h
  | cons c cs ih =>
    simp only [encCallsF, Option.bind_eq_some_iff] at h
    obtain ⟨e1, h1, h2⟩ := h
    simp only [encShiftF, Option.bind_eq_some_iff] at h1
    obtain ⟨en, h3, h4⟩ := h1
    simp only [List.map_cons, encCalls, Call.enc, encodeShift, encNormF_eq 5 e en h3, Option.bind_eq_bind, Option.bind_some]
    rw [Option.some.injEq] at h4
    rw [h4]
    exact ih e1 h2

/-- Length of the finished block. -/
def doneLenF (e : Enc) : Option Nat := (encNormF 5 e).map fun e => e.out.length + e.help + 5

theorem doneLenF_eq (e : Enc) (k : Nat) (h : doneLenF e = some k) : ∃ B, doneEncoding e = some B ∧ B.length = k := by
  simp only [doneLenF, Option.map_eq_some_iff] at h
  obtain ⟨en, h1, h2⟩ := h
  unfold doneEncoding
  simp only [encNormF_eq 5 e en h1, Option.bind_eq_bind, Option.bind_some, Option.some.injEq, exists_eq_left']
  (repeat' split) <;> simp only [List.length_append, List.length_cons, List.length_replicate, List.length_nil] <;> omega

/-- The size of a block of calls. -/
def blockLenF (cs : List (Nat × Nat × Nat)) : Option Nat := (encCallsF (startEncoding 0 0) cs).bind doneLenF

/-- The frequencies a symbol list asks for, one after the other; and the model after that. -/
def symFreqs (lg : Nat) (m : QS) : List Nat → Option (List (Nat × Nat × Nat) × QS)
  | [] => some ([], m)
  | s :: ss => (qsupdate m s).bind fun m' => (symFreqs lg m' ss).map fun r => (((qsgetfreq m s).1, (qsgetfreq m s).2, lg) :: r.1, r.2)

theorem encSym_eq (e : Enc) (m m' : QS) (s lg : Nat) (h : qsupdate m s = some m') :
    encSym e m s lg = (encodeShift e (qsgetfreq m s).1 (qsgetfreq m s).2 lg).bind fun e => some (e, m') := by
  simp only [encSym, h, Option.bind_eq_bind, Option.bind_some]

theorem encSyms_freqs (ss : List Nat) (e : Enc) (m m' : QS) (fs : List (Nat × Nat × Nat)) (h : symFreqs 10 m ss = some (fs, m')) :
    encSyms e m ss = (encCalls e (fs.map fun c => .shift c.1 c.2.1 c.2.2)).bind fun e => some (e, m') := by
  induction ss generalizing e m fs with
  | nil =>
    simp only [symFreqs, Option.some.injEq, Prod.mk.injEq] at h
    obtain ⟨rfl, rfl⟩ := h
    rfl
  | cons s ss ih =>
    simp only [symFreqs, Option.bind_eq_some_iff, Option.map_eq_some_iff, Prod.mk.injEq] at h
    obtain ⟨m1, h1, ⟨fs', m2⟩, h2, h3, h4⟩ := h
    subst h3 h4
    simp only [encSyms, encSym_eq e m m1 s 10 h1, Option.bind_eq_bind, List.map_cons, encCalls, Call.enc]
    cases encodeShift e (qsgetfreq m s).1 (qsgetfreq m s).2 10 with
    | none => rfl
    | some e1 => simp only [Option.bind_some]; exact ih e1 m1 fs' h2

/-- The size of an inserted-edge block. -/
theorem edges_len (ss : List Nat) (m m' : QS) (fs : List (Nat × Nat × Nat)) (k : Nat)
    (hm : initqsmodel 2 10 (1 <<< 9) none true = some m) (h : symFreqs 10 m ss = some (fs, m')) (hk : blockLenF fs = some k) :
    ∃ B, encodeInsertedEdges ss = some B ∧ B.length = k := by
  simp only [blockLenF, Option.bind_eq_some_iff] at hk
  obtain ⟨e, h1, h2⟩ := hk
  obtain ⟨B, b1, b2⟩ := doneLenF_eq e k h2
  refine ⟨B, ?_, b2⟩
  simp only [encodeInsertedEdges, hm, Option.bind_eq_bind, Option.bind_some, encSyms_freqs ss _ m m' fs h, encCallsF_eq fs _ e h1, b1]

/-! ### A fresh model -/

theorem dorescale_left (m m' : QS) (h : dorescale m = some m') (hn : m.nextleft = 0) (hp : 0 ≤ m.rescale) :
    m'.left + m'.nextleft = m'.rescale ∧ m.rescale ≤ m'.rescale := by
  unfold dorescale at h
  rw [if_neg (by simpa using hn)] at h
  dsimp only at h
  generalize hr : (if m.rescale < m.targetrescale then
        (if m.rescale * 2 > m.targetrescale then m.targetrescale else m.rescale * 2) else m.rescale) = r at h
  have hle : m.rescale ≤ r := by
    rw [← hr]; split
    · split <;> omega
    · omega
  by_cases h0 : m.n = 0
  · rw [if_pos h0] at h; simp at h
  · rw [if_neg h0] at h
    generalize rescaleLoop (m.n - 1) (m.cf m.n) (m.cf m.n) m.cf m.newf = q at h
    by_cases h1 : toU32 q.1 ≠ q.2.2.2 0
    · rw [if_pos h1] at h; simp at h
    · rw [if_neg h1] at h
      cases hs : m.search with
      | none =>
        simp only [hs, Option.some.injEq] at h
        rw [← h]
        refine ⟨?_, hle⟩
        dsimp only; omega
      | some T =>
        simp only [hs, Option.bind_eq_bind, Option.bind_eq_some_iff, Option.some.injEq] at h
        obtain ⟨T', _, h⟩ := h
        rw [← h]
        refine ⟨?_, hle⟩
        dsimp only; omega

/-- The initial frequencies are as equal as possible, and stay for at least `n / 16` symbols. -/
theorem fresh (n lg : Nat) (rescale : Int) (compress : Bool) (hn : 1 ≤ n) (hl : lg ≤ 30) (hle : n ≤ 2 ^ lg) :
    ∃ m, initqsmodel n lg rescale none compress = some m ∧ Inv m n lg ∧ ((n / 16 : Nat) : Int) ≤ m.left + m.nextleft ∧
      ∀ j, j ≤ n → m.cf j = 2 ^ lg / n * j + min (2 ^ lg % n) j := by
  have hq : 1 ≤ 2 ^ lg / n := by rw [Nat.le_div_iff_mul_le (by omega)]; omega
  have hrs : (1 : Int) ≤ ((n >>> 4 ||| 2 : Nat) : Int) := by
    have : 1 ≤ n >>> 4 ||| 2 := by
      have := Nat.right_le_or (n := n >>> 4) (m := 2); omega
    omega
  unfold initqsmodel resetqsmodel
  dsimp only
  rw [if_neg (by omega)]
  have hcn : upd (upd (fun _ => 0) n (1 <<< lg)) 0 0 n = 2 ^ lg := by
    rw [upd_ne _ _ _ _ (by omega), upd_same, Nat.shiftLeft_eq, Nat.one_mul]
  rw [hcn]
  generalize hM : ({ n := n, left := 0, nextleft := 0, rescale := ((n >>> 4 ||| 2 : Nat) : Int), targetrescale := rescale, incr := 0, searchshift := lg - tblShift, cf := upd (upd (fun _ => 0) n (1 <<< lg)) 0 0, newf := fun i => if i < 2 ^ lg % n then 2 ^ lg / n + 1 else if i < n then 2 ^ lg / n else 0, search := if compress then none else some (upd (fun _ => none) (1 <<< tblShift) (some (n - 1))) }: QS) = M
  obtain ⟨m', h1, h2, h3, h4⟩ := dorescale_real M n lg (by
    rw [← hM]
    refine ⟨rfl, hn, hl, rfl, ?_, ?_, hrs, rfl, by simp, hcn, ?_⟩
    · intro j hj; simp only; split
      · omega
      · exact hq
    · simp only
      rw [psum_default _ _ _ _ (Nat.le_refl _)]
      have := Nat.mod_lt (2 ^ lg) (show n > 0 by omega)
      have := Nat.div_add_mod (2 ^ lg) n
      rw [Nat.min_eq_left (by omega), Nat.mul_comm]; exact this
    · intro S hS
      cases compress with
      | true => simp at hS
      | false => simp at hS; subst hS; simp [tblShift])
  have hMr : M.rescale = ((n >>> 4 ||| 2 : Nat) : Int) := by rw [← hM]
  have hMn : M.nextleft = 0 := by rw [← hM]
  have hMf : M.newf = fun i => if i < 2 ^ lg % n then 2 ^ lg / n + 1 else if i < n then 2 ^ lg / n else 0 := by rw [← hM]
  obtain ⟨l1, l2⟩ := dorescale_left M m' h1 hMn (by omega)
  refine ⟨m', h1, h2, ?_, ?_⟩
  · have : n / 16 ≤ n >>> 4 ||| 2 := by
      have := Nat.left_le_or (n := n >>> 4) (m := 2)
      rw [Nat.shiftRight_eq_div_pow] at *
      omega
    omega
  · intro j hj
    rw [h4 j hj, hMf]
    exact psum_default _ _ _ _ hj _

/-- An update while symbols are left changes no frequency. -/
theorem update_keeps (m : QS) (n lg s : Nat) (h : Inv m n lg) (hs : s < n) (hl : 1 ≤ m.left + m.nextleft) :
    ∃ m', qsupdate m s = some m' ∧ Inv m' n lg ∧ m'.cf = m.cf ∧ m'.left + m'.nextleft = m.left + m.nextleft - 1 := by
  obtain ⟨m', h1, h2⟩ := qsupdate_inv m n lg s h hs
  refine ⟨m', h1, h2, ?_⟩
  have a := h.leftnn
  have b := h.nlnn
  unfold qsupdate at h1
  by_cases hc : m.left ≤ 0
  · rw [if_pos hc, dorescale, if_pos (by omega)] at h1
    simp only [Option.bind_eq_bind, Option.bind_some, Option.some.injEq] at h1
    rw [← h1]
    refine ⟨rfl, ?_⟩
    dsimp only; omega
  · rw [if_neg hc] at h1
    simp only [Option.bind_eq_bind, Option.bind_some, Option.some.injEq] at h1
    rw [← h1]
    refine ⟨rfl, ?_⟩
    dsimp only; omega

/-- The call for symbol `s` of a fresh geometry model with `n` symbols. -/
def freshCall (n s : Nat) : Nat × Nat × Nat :=
  (262144 / n * (s + 1) + min (262144 % n) (s + 1) - (262144 / n * s + min (262144 % n) s), 262144 / n * s + min (262144 % n) s, 18)

theorem freshCall_lg (n s : Nat) : (freshCall n s).2.2 = 18 := rfl

theorem fresh_freq (m : QS) (n s : Nat) (h : Inv m n 18) (hs : s < n)
    (hcf : ∀ j, j ≤ n → m.cf j = 262144 / n * j + min (262144 % n) j) :
    (qsgetfreq m s).1 = (freshCall n s).1 ∧ (qsgetfreq m s).2 = (freshCall n s).2.1 := by
  rw [h.getfreq s hs]
  simp only [freshCall, hcf s (by omega), hcf (s + 1) (by omega), and_self]

/-- The three symbols of the first residual of a level. -/
theorem fresh_vec (m : QS) (n : Nat) (mn : Int) (v : Vec) (h : Inv m n 18) (hl : 3 ≤ m.left + m.nextleft)
    (hx : mn ≤ v.x ∧ v.x < mn + n) (hy : mn ≤ v.y ∧ v.y < mn + n) (hz : mn ≤ v.z ∧ v.z < mn + n)
    (hcf : ∀ j, j ≤ n → m.cf j = 262144 / n * j + min (262144 % n) j) :
    ∃ m', ∀ e, encVec e m mn v = (encCalls e (([freshCall n (v.x - mn).toNat, freshCall n (v.y - mn).toNat,
      freshCall n (v.z - mn).toNat] : List (Nat × Nat × Nat)).map fun c => .shift c.1 c.2.1 c.2.2)).bind fun e => some (e, m') := by
  obtain ⟨m1, a1, a2, a3, a4⟩ := update_keeps m n 18 (v.x - mn).toNat h (by omega) (by omega)
  obtain ⟨m2, b1, b2, b3, b4⟩ := update_keeps m1 n 18 (v.y - mn).toNat a2 (by omega) (by omega)
  obtain ⟨m3, c1, -⟩ := update_keeps m2 n 18 (v.z - mn).toNat b2 (by omega) (by omega)
  obtain ⟨x1, x2⟩ := fresh_freq m n (v.x - mn).toNat h (by omega) hcf
  obtain ⟨y1, y2⟩ := fresh_freq m1 n (v.y - mn).toNat a2 (by omega) (by rw [a3]; exact hcf)
  obtain ⟨z1, z2⟩ := fresh_freq m2 n (v.z - mn).toNat b2 (by omega) (by rw [b3, a3]; exact hcf)
  refine ⟨m3, fun e => ?_⟩
  simp only [encVec, encSym_eq _ _ _ _ _ a1, encSym_eq _ _ _ _ _ b1, encSym_eq _ _ _ _ _ c1, x1, x2, y1, y2, z1, z2, List.map_cons,
    List.map_nil, freshCall_lg, encCalls, Call.enc, Option.bind_eq_bind]
  cases encodeShift e (freshCall n (v.x - mn).toNat).1 (freshCall n (v.x - mn).toNat).2.1 18 with
  | none => rfl
  | some e1 =>
    simp only [Option.bind_some, encSym_eq _ _ _ _ _ b1, y1, y2]
    cases encodeShift e1 (freshCall n (v.y - mn).toNat).1 (freshCall n (v.y - mn).toNat).2.1 18 with
    | none => rfl
    | some e2 =>
      simp only [Option.bind_some, encSym_eq _ _ _ _ _ c1, z1, z2]
      cases encodeShift e2 (freshCall n (v.z - mn).toNat).1 (freshCall n (v.z - mn).toNat).2.1 18 <;> rfl

/-- The faces of a level of which only the last visited is split. -/
theorem faces_one (k : Nat) (mc mc' mg : QS) (n : Nat) (mn : Int) (v : Vec) (fs : List (Nat × Nat × Nat))
    (hc : symFreqs 10 mc (List.replicate k 0 ++ [1]) = some (fs, mc')) (mg' : QS) (gs : List (Nat × Nat × Nat))
    (hg : ∀ e, encVec e mg mn v = (encCalls e (gs.map fun c => .shift c.1 c.2.1 c.2.2)).bind fun e => some (e, mg')) (e : Enc) :
    encFaces e mc mg mn (List.replicate k 0 ++ [1]) [v] =
      (encCalls e ((fs ++ gs).map fun c => .shift c.1 c.2.1 c.2.2)).bind fun e => some (e, mc', mg') := by
  induction k generalizing e mc fs with
  | zero =>
    simp only [List.replicate_zero, List.nil_append, symFreqs, Option.bind_eq_some_iff, Option.map_eq_some_iff, Prod.mk.injEq] at hc
    obtain ⟨m1, h1, ⟨f2, m2⟩, h2, h3, h4⟩ := hc
    obtain ⟨rfl, rfl⟩ := Prod.mk.inj (Option.some.inj h2)
    subst h3 h4
    simp only [List.replicate_zero, List.nil_append, encFaces, encSym_eq e mc _ 1 10 h1, Option.bind_eq_bind, hg, List.cons_append,
      List.map_cons, encCalls, Call.enc]
    cases encodeShift e (qsgetfreq mc 1).1 (qsgetfreq mc 1).2 10 with
    | none => rfl
    | some e1 =>
      simp only [Option.bind_some, ne_eq, one_ne_zero, not_false_eq_true, if_true]
      cases encCalls e1 (gs.map fun c => .shift c.1 c.2.1 c.2.2) <;> rfl
  | succ k ih =>
    simp only [List.replicate_succ, List.cons_append, symFreqs, Option.bind_eq_some_iff, Option.map_eq_some_iff, Prod.mk.injEq] at hc
    obtain ⟨m1, h1, ⟨f2, m2⟩, h2, h3, h4⟩ := hc
    simp only at h3 h4
    subst h3 h4
    simp only [List.replicate_succ, List.cons_append, encFaces, encSym_eq e mc _ 0 10 h1, Option.bind_eq_bind,
      List.map_cons, encCalls, Call.enc]
    cases encodeShift e (qsgetfreq mc 0).1 (qsgetfreq mc 0).2 10 with
    | none => rfl
    | some e1 =>
      simp only [Option.bind_some, ne_eq, not_true_eq_false, if_false]
      exact ih m1 f2 h2 e1

/-- The size of the removed-vertex block of such a level. -/
theorem removed_len (k n : Nat) (mn mx : Int) (v : Vec) (mc mc' : QS) (fs : List (Nat × Nat × Nat)) (len : Nat)
    (hmc : initqsmodel 2 10 (1 <<< 9) none true = some mc) (hfs : symFreqs 10 mc (List.replicate k 0 ++ [1]) = some (fs, mc'))
    (hmn : minLoop v.x [v] = mn) (hmx : maxLoop v.x [v] = mx) (hn : (max (mx - mn + 1) 2).toNat = n) (hn1 : 48 ≤ n) (hn2 : n < 65536)
    (hlen : blockLenF ((1, toU16 mn, 16) :: (1, n, 16) :: (fs ++ [freshCall n (v.x - mn).toNat, freshCall n (v.y - mn).toNat,
      freshCall n (v.z - mn).toNat])) = some len) :
    ∃ B, encodeRemovedVertices (List.replicate k 0 ++ [1]) [v] = some B ∧ B.length = len := by
  have hpow : (2:Nat) ^ 18 = 262144 := by decide
  obtain ⟨mg, g1, g2, g3, g4⟩ := fresh n 18 (1 <<< 17) true (by omega) (by decide) (by omega)
  have hlo := (minLoop_le v.x [v]).2 v (by simp)
  have hhi := (le_maxLoop v.x [v]).2 v (by simp)
  rw [hmn] at hlo
  rw [hmx] at hhi
  obtain ⟨mg', hg⟩ := fresh_vec mg n mn v g2 (by omega) (by omega) (by omega) (by omega) g4
  simp only [blockLenF, Option.bind_eq_some_iff] at hlen
  obtain ⟨e, h1, h2⟩ := hlen
  obtain ⟨B, b1, b2⟩ := doneLenF_eq e len h2
  refine ⟨B, ?_, b2⟩
  have hcalls := encCallsF_eq _ _ _ h1
  simp only [encodeRemovedVertices, hmn, hmx, hn, Option.bind_eq_bind, encodeShort, g1, hmc, Option.bind_some,
    faces_one k mc mc' mg n mn v fs hfs mg' _ hg]
  simp only [List.map_cons, encCalls, Call.enc, Option.bind_eq_bind] at hcalls
  cases hs1 : encodeShift (startEncoding 0 0) 1 (toU16 mn) 16 with
  | none => rw [hs1] at hcalls; simp at hcalls
  | some e1 =>
    rw [hs1] at hcalls
    simp only [Option.bind_some] at hcalls ⊢
    cases hs2 : encodeShift e1 1 n 16 with
    | none => rw [hs2] at hcalls; simp at hcalls
    | some e2 =>
      rw [hs2] at hcalls
      simp only [Option.bind_some] at hcalls ⊢
      rw [hcalls]
      exact b1

end TDP.Blocks
