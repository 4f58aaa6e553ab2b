import Verif.RangeCoder.Spec
/-! Helper lemmas for the range coder: the value of a byte string, the encoder's ideal interval,
and the simulation between encoder and decoder. -/
namespace TDP.RangeCoder

@[simp] theorem bottom_eq : bottomValue = 8388608 := by decide
@[simp] theorem top_eq : topValue = 2147483648 := rfl
@[simp] theorem shiftBits_eq : shiftBits = 23 := rfl
@[simp] theorem extraBits_eq : extraBits = 7 := by decide

/-- Value of a string of bytes read as a big-endian number. -/
def val (l : List Nat) : Nat := l.foldl (fun a b => a * 256 + b) 0

theorem foldl_val (l : List Nat) (a : Nat) :
    l.foldl (fun a b => a * 256 + b) a = a * 256 ^ l.length + val l := by
  unfold val
  induction l generalizing a with
  | nil => simp
  | cons x xs ih =>
    simp only [List.foldl_cons, List.length_cons]
    rw [ih (a * 256 + x), ih (0 * 256 + x)]
    rw [Nat.pow_succ, Nat.add_mul, Nat.zero_mul, Nat.zero_add]
    rw [Nat.mul_comm (256 ^ xs.length) 256, ← Nat.mul_assoc, Nat.add_assoc]

@[simp] theorem val_nil : val [] = 0 := rfl
theorem val_append (l m : List Nat) : val (l ++ m) = val l * 256 ^ m.length + val m := by
  conv => lhs; unfold val
  rw [List.foldl_append, foldl_val]; rfl
theorem val_cons (x : Nat) (l : List Nat) : val (x :: l) = x * 256 ^ l.length + val l := by
  have := val_append [x] l
  simpa [val] using this
@[simp] theorem val_singleton (x : Nat) : val [x] = x := by simp [val]
theorem val_snoc (l : List Nat) (x : Nat) : val (l ++ [x]) = val l * 256 + x := by
  simp [val_append]
theorem val4 (l : List Nat) (t a b c : Nat) :
    val (l ++ [t, a, b, c]) = (((val l * 256 + t) * 256 + a) * 256 + b) * 256 + c := by
  have : l ++ [t, a, b, c] = (((l ++ [t]) ++ [a]) ++ [b]) ++ [c] := by simp
  rw [this, val_snoc, val_snoc, val_snoc, val_snoc]
theorem fin_arith1 (a b c z : Nat) : ((z * 256 + a) * 256 + b) * 256 + c
    = z * 16777216 + (a * 65536 + b * 256 + c) := by omega
theorem fin_arith (p q t bc : Nat) (h : p * 256 + t % 256 = q * 256 + t) :
    (((p * 256 + t % 256) * 256 + bc / 65536 % 256) * 256 + bc / 256 % 256) * 256 + bc % 256
      = (q * 256 + t) * 16777216 + bc % 16777216 := by
  rw [h]; clear h
  have h1 : bc / 65536 % 256 * 65536 + bc / 256 % 256 * 256 + bc % 256 = bc % 16777216 := by omega
  rw [← h1]; clear h1
  generalize bc / 65536 % 256 = a
  generalize bc / 256 % 256 = b
  generalize bc % 256 = c
  exact fin_arith1 _ _ _ _
theorem val_rep255 (n : Nat) : val (List.replicate n 255) + 1 = 256 ^ n := by
  induction n with
  | zero => rfl
  | succ n ih => rw [List.replicate_succ, val_cons, List.length_replicate, Nat.pow_succ]; omega
theorem val_rep0 (n : Nat) : val (List.replicate n 0) = 0 := by
  induction n with
  | zero => rfl
  | succ n ih => rw [List.replicate_succ, val_cons, ih]; simp
theorem val_lt (l : List Nat) (h : ∀ b ∈ l, b < 256) : val l < 256 ^ l.length := by
  induction l with
  | nil => simp
  | cons x xs ih =>
    rw [val_cons, List.length_cons, Nat.pow_succ]
    have h1 := ih (fun b hb => h b (List.mem_cons_of_mem _ hb))
    have h2 := h x List.mem_cons_self
    have h3 : x * 256 ^ xs.length ≤ 255 * 256 ^ xs.length := Nat.mul_le_mul_right _ (by omega)
    omega

/-! ### bit operations as arithmetic -/
theorem and_mask (x n : Nat) : x &&& (2 ^ n - 1) = x % 2 ^ n := Nat.and_two_pow_sub_one_eq_mod x n

theorem and_top (x : Nat) : x &&& 2147483647 = x % 2147483648 := and_mask x 31
theorem and_bottom (x : Nat) : x &&& 8388607 = x % 8388608 := and_mask x 23
theorem and_ff (x : Nat) : x &&& 255 = x % 256 := and_mask x 8
theorem and_ffffff (x : Nat) : x &&& 16777215 = x % 16777216 := and_mask x 24

theorem and_topbit (x : Nat) (h : x < 4294967296) : (x &&& 2147483648 ≠ 0) ↔ 2147483648 ≤ x := by
  have key : (x &&& 2 ^ 31 ≠ 0) ↔ x.testBit 31 = true := by
    constructor
    · intro hne
      cases hb : x.testBit 31 with
      | true => rfl
      | false =>
        exfalso; apply hne
        apply Nat.eq_of_testBit_eq
        intro i
        rw [Nat.testBit_and, Nat.testBit_two_pow, Nat.zero_testBit]
        by_cases hi : 31 = i
        · subst hi; simp [hb]
        · simp [hi]
    · intro hb h0
      have := congrArg (fun y => y.testBit 31) h0
      simp [Nat.testBit_and, hb] at this
      exact absurd this (by decide)
  have h2 : x.testBit 31 = true ↔ 2147483648 ≤ x := by
    rw [Nat.testBit_eq_decide_div_mod_eq]
    simp only [decide_eq_true_eq]
    omega
  exact key.trans h2

theorem or_low (a b : Nat) (k : Nat) (h : b < 2 ^ k) : a * 2 ^ k ||| b = a * 2 ^ k + b := by
  rw [← Nat.shiftLeft_eq, Nat.shiftLeft_add_eq_or_of_lt h]

/-! ### the encoder's ideal interval -/

/-- Bytes the encoder is committed to, up to a pending carry. -/
def Enc.base (e : Enc) : List Nat := e.out ++ e.buffer :: List.replicate e.help 255

/-- Lower end of the interval, with all bytes so far. -/
def Enc.L (e : Enc) : Nat := val e.base * 2147483648 + e.low

/-- The encoder invariant. -/
structure Enc.Inv (e : Enc) : Prop where
  outb : ∀ b ∈ e.out, b < 256
  buf : e.buffer < 256
  pos : 0 < e.range
  rng : e.range ≤ 2147483648
  sum : e.low + e.range ≤ 4294967296
  carry : e.buffer = 255 → e.low + e.range ≤ 2147483648
  first : e.L + e.range ≤ 2147483648 * 256 ^ (e.out.length + e.help)

theorem Enc.base_length (e : Enc) : e.base.length = e.out.length + e.help + 1 := by
  simp [Enc.base]; omega

theorem inv_start : (startEncoding 0 0).Inv := by
  constructor <;> simp [startEncoding, u8, Enc.L, Enc.base]

theorem val_carry (out : List Nat) (b n : Nat) :
    val (out ++ (b + 1) :: List.replicate n 0) = val (out ++ b :: List.replicate n 255) + 1 := by
  have := val_rep255 n
  have h0 := val_rep0 n
  rw [val_append, val_append, val_cons, val_cons]
  simp only [List.length_cons, List.length_replicate, h0, Nat.add_mul]
  omega

theorem encShift_range (e : Enc) (h : e.range ≤ 8388608) :
    (encShift e).range = e.range * 256 := by
  have hr : (encShift e).range = u32 (e.range <<< 8) := by
    unfold encShift; dsimp only; split <;> (try split) <;> rfl
  rw [hr, u32, Nat.shiftLeft_eq]; omega

theorem encShift_low (e : Enc) :
    (encShift e).low = (e.low * 256) % 2147483648 := by
  have hr : (encShift e).low = u32 (e.low <<< 8) &&& 2147483647 := by
    unfold encShift; dsimp only; split <;> (try split) <;> rfl
  rw [hr, and_top, u32, Nat.shiftLeft_eq]; omega

theorem encShift_bytecount (e : Enc) : (encShift e).bytecount = e.bytecount + 1 := by
  unfold encShift; dsimp only; split <;> (try split) <;> rfl

/-- The three ways a byte is shifted out. -/
theorem encShift_base (e : Enc) (h : e.Inv) (hr : e.range ≤ 8388608) :
    (∀ b ∈ (encShift e).out, b < 256) ∧ (encShift e).buffer < 256 ∧
    ((encShift e).buffer = 255 → (encShift e).low + (encShift e).range ≤ 2147483648) ∧
    (encShift e).out.length + (encShift e).help = e.out.length + e.help + 1 ∧
    val (encShift e).base * 2147483648 + (e.low * 256) % 2147483648 = e.L * 256 := by
  have hlow := encShift_low e
  have hrange := encShift_range e hr
  have hl32 : e.low < 4294967296 := by have := h.sum; have := h.pos; omega
  have hbuf := h.buf
  have hcar := h.carry
  have hsum := h.sum
  have hpos := h.pos
  by_cases c1 : e.low < 0xff <<< shiftBits
  · have c1' : e.low < 2139095040 := by simpa [Nat.shiftLeft_eq] using c1
    have e1 : (encShift e).out = e.out ++ e.buffer :: List.replicate e.help 255 := by
      unfold encShift; rw [if_pos c1]; simp only [u8]; congr 2; omega
    have e2 : (encShift e).help = 0 := by unfold encShift; rw [if_pos c1]
    have e3 : (encShift e).buffer = e.low / 8388608 := by
      unfold encShift; rw [if_pos c1]; simp only [u8, shiftBits_eq, Nat.shiftRight_eq_div_pow]
      omega
    refine ⟨?_, by omega, by omega, ?_, ?_⟩
    · rw [e1]; intro b hb
      simp only [List.mem_append, List.mem_cons, List.mem_replicate] at hb
      rcases hb with hb | hb | hb
      · exact h.outb b hb
      · omega
      · omega
    · rw [e1, e2]; simp; omega
    · have : (encShift e).base = e.base ++ [e.low / 8388608] := by
        simp [Enc.base, e1, e2, e3]
      rw [this, val_snoc, Enc.L]; omega
  · have c1' : 2139095040 ≤ e.low := by simpa [Nat.shiftLeft_eq] using c1
    by_cases c2 : e.low &&& topValue ≠ 0
    · have c2' : 2147483648 ≤ e.low := (and_topbit _ hl32).1 c2
      have hb255 : e.buffer < 255 := by
        rcases Nat.lt_or_ge e.buffer 255 with h' | h'
        · exact h'
        · have := hcar (by omega); omega
      have e1 : (encShift e).out = e.out ++ (e.buffer + 1) :: List.replicate e.help 0 := by
        unfold encShift; rw [if_neg c1, if_pos c2]; simp only [u8]; congr 2; omega
      have e2 : (encShift e).help = 0 := by unfold encShift; rw [if_neg c1, if_pos c2]
      have e3 : (encShift e).buffer = (e.low - 2147483648) / 8388608 := by
        unfold encShift; rw [if_neg c1, if_pos c2]
        simp only [u8, shiftBits_eq, Nat.shiftRight_eq_div_pow]
        omega
      refine ⟨?_, by omega, ?_, ?_, ?_⟩
      · rw [e1]; intro b hb
        simp only [List.mem_append, List.mem_cons, List.mem_replicate] at hb
        rcases hb with hb | hb | hb
        · exact h.outb b hb
        · omega
        · omega
      · rw [e3, hlow, hrange]; omega
      · rw [e1, e2]; simp; omega
      · have : (encShift e).base =
          (e.out ++ (e.buffer + 1) :: List.replicate e.help 0) ++ [(e.low - 2147483648) / 8388608] := by
          simp [Enc.base, e1, e2, e3]
        rw [this, val_snoc, val_carry, Enc.L, Enc.base]; omega
    · have c2' : e.low < 2147483648 := by
        rcases Nat.lt_or_ge e.low 2147483648 with h' | h'
        · exact h'
        · exact absurd ((and_topbit _ hl32).2 h') c2
      have e1 : (encShift e).out = e.out := by
        unfold encShift; simp only [c1, c2, if_false]
      have e2 : (encShift e).help = e.help + 1 := by
        unfold encShift; simp only [c1, c2, if_false]
      have e3 : (encShift e).buffer = e.buffer := by
        unfold encShift; simp only [c1, c2, if_false]
      refine ⟨?_, by omega, ?_, ?_, ?_⟩
      · rw [e1]; exact h.outb
      · rw [e3, hlow, hrange]; intro hb; have := hcar hb; omega
      · rw [e1, e2]; omega
      · have : (encShift e).base = e.base ++ [255] := by
          simp [Enc.base, e1, e2, e3, List.replicate_succ']
        rw [this, val_snoc, Enc.L]; omega

theorem encShift_L (e : Enc) (h : e.Inv) (hr : e.range ≤ 8388608) :
    (encShift e).L = e.L * 256 := by
  obtain ⟨-, -, -, -, h5⟩ := encShift_base e h hr
  rw [Enc.L, encShift_low]; exact h5

theorem encShift_inv (e : Enc) (h : e.Inv) (hr : e.range ≤ 8388608) : (encShift e).Inv := by
  obtain ⟨h1, h2, h3, h4, h5⟩ := encShift_base e h hr
  have hlow := encShift_low e
  have hrange := encShift_range e hr
  have hpos := h.pos
  refine ⟨h1, h2, by omega, by omega, ?_, h3, ?_⟩
  · rw [hlow, hrange]; omega
  · rw [encShift_L e h hr, hrange, h4, Nat.pow_succ]
    have := h.first
    omega

/-- `k` shifts relate `e'` to `e`. -/
structure Shifted (e e' : Enc) (k : Nat) : Prop where
  len : e'.base.length = e.base.length + k
  low : e'.L = e.L * 256 ^ k
  rng : e'.range = e.range * 256 ^ k
  bc : e'.bytecount = e.bytecount + k

theorem encNormalize_spec (e : Enc) (h : e.Inv) :
    ∃ e' k, encNormalize e = some e' ∧ e'.Inv ∧ 8388608 < e'.range ∧ Shifted e e' k := by
  induction hm : bottomValue + 1 - e.range using Nat.strongRecOn generalizing e with
  | _ m ih =>
    by_cases hr : e.range ≤ 8388608
    · have hp := h.pos
      have hs := encShift_range e hr
      obtain ⟨e', k, g1, g2, g3, g4⟩ := ih (bottomValue + 1 - (encShift e).range)
        (by rw [bottom_eq] at *; omega) (encShift e) (encShift_inv e h hr) rfl
      refine ⟨e', k + 1, ?_, g2, g3, ?_⟩
      · rw [encNormalize]
        simp only [bottom_eq, hr, dite_true]
        rw [dif_neg (by omega)]; exact g1
      · obtain ⟨-, -, -, h4, -⟩ := encShift_base e h hr
        refine ⟨?_, ?_, ?_, ?_⟩
        · rw [g4.len, Enc.base_length, Enc.base_length]; omega
        · rw [g4.low, encShift_L e h hr, Nat.pow_succ, Nat.mul_assoc, Nat.mul_comm (256^k)]
        · rw [g4.rng, hs, Nat.pow_succ, Nat.mul_assoc, Nat.mul_comm (256^k)]
        · rw [g4.bc, encShift_bytecount]; omega
    · refine ⟨e, 0, ?_, h, by omega, ⟨by simp, by simp, by simp, by simp⟩⟩
      rw [encNormalize]; simp [hr]

/-! ### coding calls -/

theorem shift_le (sh : Nat) (h : 2 ^ sh ≤ 2 ^ 23) : sh ≤ 23 :=
  (Nat.pow_le_pow_iff_right (by decide)).1 h

theorem encodeShift_eq (e : Enc) (sy lt sh : Nat) (h1 : lt + sy ≤ 2 ^ sh) (h2 : 2 ^ sh ≤ 2 ^ 23) :
    encodeShift e sy lt sh = encodeFreq e sy lt (2 ^ sh) := by
  unfold encodeShift encodeFreq
  have hp : 2 ^ sh ≠ 0 := by have := Nat.two_pow_pos sh; omega
  congr 1; funext e
  rw [if_neg hp]
  have hw : u32 (lt + sy) = lt + sy := by unfold u32; omega
  simp only [hw, Nat.shiftRight_eq_div_pow]
  congr 2
  by_cases c : lt + sy < 2 ^ sh
  · have : (lt + sy) / 2 ^ sh = 0 := Nat.div_eq_of_lt c
    simp [c, this]
  · have : (lt + sy) / 2 ^ sh ≠ 0 := by
      have := Nat.div_pos (Nat.le_of_not_lt c) (Nat.two_pow_pos sh); omega
    simp [c, this]

theorem decodeCulshift_eq (d : Dec) (sh : Nat) :
    decodeCulshift d sh = decodeCulfreq d (2 ^ sh) := by
  unfold decodeCulshift decodeCulfreq
  have hp : 2 ^ sh ≠ 0 := by have := Nat.two_pow_pos sh; omega
  congr 1; funext d
  simp only [hp, if_false, Nat.shiftRight_eq_div_pow, Nat.shiftLeft_eq, Nat.one_mul, ne_eq]
  split
  · rfl
  · congr 2
    by_cases c : d.low / (d.range / 2 ^ sh) < 2 ^ sh
    · rw [Nat.div_eq_of_lt c]; simp; omega
    · have := Nat.div_pos (Nat.le_of_not_lt c) (Nat.two_pow_pos sh)
      rw [if_pos (by omega), if_pos (by omega)]

theorem Call.enc_eq (e : Enc) (c : Call) (h : c.Valid) :
    c.enc e = encodeFreq e c.sy c.lt c.tot := by
  cases c with
  | freq => rfl
  | shift sy lt sh => exact encodeShift_eq e sy lt sh h.2.1 h.2.2

theorem Call.dec_eq (d : Dec) (c : Call) :
    c.dec d = (decodeCulfreq d c.tot).bind fun p => some (p.1, decodeUpdate p.2 c.sy c.lt c.tot) := by
  cases c with
  | freq => rfl
  | shift sy lt sh =>
    simp only [Call.dec, decodeCulshift_eq, Nat.shiftLeft_eq, Nat.one_mul, Call.sy, Call.lt, Call.tot]
    rfl

/-- Sub-interval selected by a call inside a normalised state. -/
structure Sub (e e' : Enc) (c : Call) : Prop where
  base : e'.base = e.base
  low : e'.L = e.L + e.range / c.tot * c.lt
  rng : e'.range = if c.lt + c.sy < c.tot then e.range / c.tot * c.sy
                   else e.range - e.range / c.tot * c.lt
  bc : e'.bytecount = e.bytecount

theorem div_mul_le' (r t x : Nat) (h : x ≤ t) : r / t * x ≤ r :=
  Nat.le_trans (Nat.mul_le_mul_left _ h) (Nat.div_mul_le_self r t)

/-- One coding call: normalise by `k` shifts to `en`, then select a sub-interval. -/
theorem enc_spec (e : Enc) (c : Call) (hi : e.Inv) (hc : c.Valid) :
    ∃ en k e', encNormalize e = some en ∧ en.Inv ∧ 8388608 < en.range ∧ Shifted e en k ∧
      c.enc e = some e' ∧ e'.Inv ∧ Sub en e' c := by
  obtain ⟨en, k, h1, h2, h3, h4⟩ := encNormalize_spec e hi
  obtain ⟨c1, c2, c3⟩ := hc
  have ht0 : c.tot ≠ 0 := by omega
  have hr1 : 1 ≤ en.range / c.tot := by
    rw [Nat.le_div_iff_mul_le (by omega)]; omega
  have hrle : en.range / c.tot * c.lt + en.range / c.tot * c.sy ≤ en.range := by
    rw [← Nat.mul_add]; exact div_mul_le' _ _ _ c2
  have hrle' : en.range / c.tot * (c.lt + 1) ≤ en.range := div_mul_le' _ _ _ (by omega)
  rw [Nat.mul_add] at hrle'
  have hsy1 : 1 ≤ en.range / c.tot * c.sy := Nat.mul_pos hr1 c1
  have hsum := h2.sum
  have hrng := h2.rng
  generalize hq : en.range / c.tot = r at *
  have w1 : u32 (r * c.lt) = r * c.lt := by unfold u32; omega
  have w2 : u32 (en.low + r * c.lt) = en.low + r * c.lt := by unfold u32; omega
  have w3 : u32 (c.lt + c.sy) = c.lt + c.sy := by unfold u32; omega
  have w4 : u32 (r * c.sy) = r * c.sy := by unfold u32; omega
  have w5 : u32 (en.range + 4294967296 - r * c.lt) = en.range - r * c.lt := by unfold u32; omega
  let e' : Enc := { en with
    low := en.low + r * c.lt
    range := if c.lt + c.sy < c.tot then r * c.sy else en.range - r * c.lt }
  have hL : e'.L = en.L + r * c.lt := by simp [e', Enc.L, Enc.base, Nat.add_assoc]
  have hR : e'.range = if c.lt + c.sy < c.tot then r * c.sy else en.range - r * c.lt := rfl
  have hRle : r * c.lt + e'.range ≤ en.range ∧ 0 < e'.range := by
    rw [hR]; split <;> omega
  refine ⟨en, k, e', h1, h2, h3, h4, ?_, ?_, ⟨rfl, by rw [hL, hq], by rw [hR, hq], rfl⟩⟩
  · rw [Call.enc_eq e c ⟨c1, c2, c3⟩, encodeFreq, h1]
    simp only [Option.bind_eq_bind, Option.bind_some, if_neg ht0, hq, w1, w2, w3, w4, w5, e']
  · have hlow : e'.low = en.low + r * c.lt := rfl
    refine ⟨h2.outb, h2.buf, hRle.2, by omega, by omega, ?_, ?_⟩
    · intro hb; have := h2.carry hb; omega
    · have := h2.first
      show e'.L + e'.range ≤ 2147483648 * 256 ^ (en.out.length + en.help)
      omega

/-- The final byte string `B` lies in the interval of the encoder state `e`, with `k` bytes more
to be shifted out. -/
def Contains (e : Enc) (B : List Nat) (k : Nat) : Prop :=
  B.length = e.base.length + 4 + k ∧ e.L * 256 ^ k ≤ val B / 2 ∧ val B / 2 < (e.L + e.range) * 256 ^ k

theorem Contains.shift {e en : Enc} {k : Nat} (h : Shifted e en k) {B j} (hc : Contains en B j) :
    Contains e B (k + j) := by
  obtain ⟨a, b, c⟩ := hc
  rw [h.low] at b
  rw [h.low, h.rng, ← Nat.add_mul] at c
  rw [h.len] at a
  refine ⟨by omega, ?_, ?_⟩
  · rw [Nat.pow_add, ← Nat.mul_assoc]; exact b
  · rw [Nat.pow_add, ← Nat.mul_assoc]; exact c

theorem Contains.sub {e e' : Enc} {c : Call} (hc : c.Valid) (h : Sub e e' c) {B j}
    (hB : Contains e' B j) : Contains e B j := by
  obtain ⟨a, b, d⟩ := hB
  obtain ⟨c1, c2, c3⟩ := hc
  have hle : e'.L + e'.range ≤ e.L + e.range := by
    rw [h.low, h.rng]
    have h1 : e.range / c.tot * c.lt + e.range / c.tot * c.sy ≤ e.range := by
      rw [← Nat.mul_add]; exact div_mul_le' _ _ _ c2
    split <;> omega
  refine ⟨by rw [← h.base]; exact a, Nat.le_trans (Nat.mul_le_mul_right _ ?_) b,
    Nat.lt_of_lt_of_le d (Nat.mul_le_mul_right _ hle)⟩
  rw [h.low]; omega

/-- `done_encoding` terminates with a byte string inside the interval, whose bytes are bytes and
whose first byte is 0. -/
theorem done_spec (e : Enc) (hi : e.Inv) :
    ∃ en k B, encNormalize e = some en ∧ Shifted e en k ∧ en.Inv ∧ 8388608 < en.range ∧
      doneEncoding e = some B ∧ Contains en B 0 ∧
      (∀ b ∈ B, b < 256) ∧ val B < 2 ^ 32 * 256 ^ (en.out.length + en.help) := by
  obtain ⟨en, k, h1, h2, h3, h4⟩ := encNormalize_spec e hi
  have hsum := h2.sum
  have hbuf := h2.buf
  have hcar := h2.carry
  -- abbreviations
  let bc := en.bytecount + 5
  let tmp := if en.low % 8388608 < bc % 16777216 / 2 then en.low / 8388608 else en.low / 8388608 + 1
  have htmp : tmp = if en.low % 8388608 < bc % 16777216 / 2 then en.low / 8388608
    else en.low / 8388608 + 1 := rfl
  let pre := if tmp > 255 then en.out ++ (en.buffer + 1) :: List.replicate en.help 0
    else en.out ++ en.buffer :: List.replicate en.help 255
  have hpre : pre = if tmp > 255 then en.out ++ (en.buffer + 1) :: List.replicate en.help 0
    else en.out ++ en.buffer :: List.replicate en.help 255 := rfl
  have hb255 : tmp > 255 → en.buffer < 255 := by
    intro ht
    rcases Nat.lt_or_ge en.buffer 255 with h' | h'
    · exact h'
    · have := hcar (by omega)
      rw [htmp] at ht
      split at ht <;> omega
  have hB : doneEncoding e =
      some (pre ++ [tmp % 256, bc / 65536 % 256, bc / 256 % 256, bc % 256]) := by
    rw [doneEncoding, h1]
    simp only [Option.bind_eq_bind, Option.bind_some, bottom_eq, Nat.reduceSub, and_bottom, and_ff,
      and_ffffff, Nat.shiftRight_eq_div_pow, shiftBits_eq, Nat.reducePow]
    have hu : u8 en.buffer = en.buffer := by unfold u8; omega
    have e1 : (if en.low % 8388608 < (en.bytecount + 5) % 16777216 / 2 then en.low / 8388608
      else en.low / 8388608 + 1) = tmp := rfl
    have e2 : en.bytecount + 5 = bc := rfl
    rw [e1, e2, hu, hpre]
    split
    · rename_i ht
      have : u8 (en.buffer + 1) = en.buffer + 1 := by have := hb255 ht; unfold u8; omega
      rw [this]
    · rfl
  have hprelen : pre.length = en.base.length := by
    rw [hpre, Enc.base_length]; split <;> simp <;> omega
  have hpreval : val pre * 256 + tmp % 256 = val en.base * 256 + tmp := by
    have htl : tmp < 512 := by rw [htmp]; split <;> omega
    rw [hpre]
    split
    · rename_i ht; rw [val_carry, Enc.base]; omega
    · rw [Enc.base]; omega
  have hprebytes : ∀ b ∈ pre, b < 256 := by
    intro b hb
    rw [hpre] at hb
    split at hb
    · rename_i ht
      simp only [List.mem_append, List.mem_cons, List.mem_replicate] at hb
      have := hb255 ht
      rcases hb with hb | hb | hb
      · exact h2.outb b hb
      · omega
      · omega
    · simp only [List.mem_append, List.mem_cons, List.mem_replicate] at hb
      rcases hb with hb | hb | hb
      · exact h2.outb b hb
      · omega
      · omega
  have hval : val (pre ++ [tmp % 256, bc / 65536 % 256, bc / 256 % 256, bc % 256])
      = (val en.base * 256 + tmp) * 16777216 + bc % 16777216 := by
    rw [val4]
    exact fin_arith _ _ _ _ hpreval
  have hC : Contains en (pre ++ [tmp % 256, bc / 65536 % 256, bc / 256 % 256, bc % 256]) 0 := by
    refine ⟨by simp [hprelen], ?_, ?_⟩
    · rw [hval, Enc.L]; simp only [Nat.pow_zero, Nat.mul_one]; rw [htmp]; split <;> omega
    · rw [hval, Enc.L]; simp only [Nat.pow_zero, Nat.mul_one]; rw [htmp]; split <;> omega
  refine ⟨en, k, _, h1, h4, h2, h3, hB, hC, ?_, ?_⟩
  · intro b hb
    rw [List.mem_append] at hb
    rcases hb with hb | hb
    · exact hprebytes b hb
    · simp only [List.mem_cons, List.not_mem_nil, or_false] at hb; omega
  · have h' := hC.2.2
    rw [Nat.pow_zero, Nat.mul_one] at h'
    have := h2.first
    generalize 256 ^ (en.out.length + en.help) = M at *
    generalize val _ = V at *
    omega

/-! ### decoder -/

/-- Decoder `d` has read `con` and is at the same place as encoder state `e`. -/
structure Sync (e : Enc) (d : Dec) (con : List Nat) : Prop where
  len : con.length = e.base.length + 4
  rng : d.range = e.range
  low : d.low + e.L = val con / 2
  buf : d.buffer = val con % 256

/-- If the whole block lies in the interval, so does the part read. -/
theorem prefix_in (e : Enc) (con rest : List Nat) (hrest : ∀ b ∈ rest, b < 256)
    (hc : Contains e (con ++ rest) rest.length) : e.L ≤ val con / 2 ∧ val con / 2 < e.L + e.range := by
  obtain ⟨-, b, c⟩ := hc
  have hl := val_lt rest hrest
  rw [val_append] at b c
  have hp : 0 < 256 ^ rest.length := Nat.pow_pos (by decide)
  generalize 256 ^ rest.length = M at *
  generalize val con = D at *
  generalize val rest = r at *
  constructor
  · apply Nat.le_of_not_lt
    intro hlt
    have h1 : (D / 2 + 1) * M ≤ e.L * M := Nat.mul_le_mul_right _ (by omega)
    have h3 : (D * M + r) / 2 < (D / 2 + 1) * M := by
      rw [Nat.div_lt_iff_lt_mul (by decide)]
      have : D * M + M ≤ (D / 2 + 1) * M * 2 := by
        rw [← Nat.succ_mul, Nat.mul_assoc, Nat.mul_comm M 2, ← Nat.mul_assoc]
        exact Nat.mul_le_mul_right _ (by omega)
      omega
    omega
  · have h1 : D / 2 * M ≤ (D * M + r) / 2 := by
      rw [Nat.le_div_iff_mul_le (by decide)]
      have : D / 2 * M * 2 ≤ D * M := by
        rw [Nat.mul_assoc, Nat.mul_comm M 2, ← Nat.mul_assoc]
        exact Nat.mul_le_mul_right _ (by omega)
      omega
    exact Nat.lt_of_mul_lt_mul_right (Nat.lt_of_le_of_lt h1 c)

/-- One iteration of the loop of `dec_normalize`. -/
def decShift (d : Dec) (b : Nat) (rest : List Nat) : Dec :=
  { d with low := (u32 (d.low <<< 8) ||| ((d.buffer <<< extraBits) &&& 0xff)) ||| (b >>> (8 - extraBits)),
           buffer := b, range := u32 (d.range <<< 8), inp := rest }

theorem decNormalize_done (d : Dec) (h : 8388608 < d.range) : decNormalize d = some d := by
  rw [decNormalize]; simp; omega

theorem decNormalize_step (d : Dec) (b : Nat) (rest : List Nat) (h : d.range ≤ 8388608)
    (h0 : 0 < d.range) (hi : d.inp = b :: rest) :
    decNormalize d = decNormalize (decShift d b rest) := by
  conv => lhs; rw [decNormalize]
  simp only [bottom_eq, h, dite_true]
  rw [dif_neg (by omega), hi]
  rfl

theorem decShift_low (d : Dec) (b : Nat) (rest : List Nat) (h : d.low < 16777216) (hb : b < 256) :
    (decShift d b rest).low = d.low * 256 + d.buffer % 2 * 128 + b / 2 := by
  simp only [decShift, extraBits_eq, Nat.reduceSub, Nat.shiftLeft_eq, Nat.shiftRight_eq_div_pow, and_ff,
    Nat.reducePow, u32, Nat.pow_one]
  have e1 : d.low * 256 % 4294967296 = d.low * 2 ^ 8 := by omega
  have e2 : d.buffer * 128 % 256 = d.buffer % 2 * 128 := by omega
  rw [e1, e2, or_low _ _ 8 (by omega)]
  have e3 : d.low * 2 ^ 8 + d.buffer % 2 * 128 = (d.low * 2 + d.buffer % 2) * 2 ^ 7 := by omega
  rw [e3, or_low _ _ 7 (by omega)]

/-- Decoder normalisation follows encoder normalisation. -/
theorem dec_norm (e en : Enc) (k : Nat) (hi : e.Inv) (he : encNormalize e = some en)
    (d : Dec) (con rest tail : List Nat) (hs : Sync e d con) (hinp : d.inp = rest ++ tail)
    (hrest : ∀ b ∈ rest, b < 256)
    (hlen : k ≤ rest.length) (hsh : Shifted e en k)
    (hlow : d.low < d.range) :
    ∃ dn, decNormalize d = some dn ∧ dn.inp = rest.drop k ++ tail ∧ Sync en dn (con ++ rest.take k) := by
  induction k generalizing e d con rest with
  | zero =>
    have hr : ¬ e.range ≤ 8388608 := by
      intro hr
      obtain ⟨e', k', a, b, c, f⟩ := encNormalize_spec e hi
      rw [he] at a; cases a
      have := hsh.rng
      simp at this
      omega
    have : en = e := by
      rw [encNormalize] at he; simp [hr] at he; exact he.symm
    subst this
    refine ⟨d, decNormalize_done d (by rw [hs.rng]; omega), by simp [hinp], by simpa using hs⟩
  | succ k ih =>
    have hr : e.range ≤ 8388608 := by
      apply Nat.le_of_not_lt; intro hr
      have : encNormalize e = some e := by rw [encNormalize]; simp; omega
      rw [he] at this; cases this
      have := hsh.bc
      omega
    have hpos := hi.pos
    cases rest with
    | nil => simp at hlen
    | cons b rest =>
      have hb := hrest b List.mem_cons_self
      have hdl : d.low < 16777216 := by have := hs.rng; omega
      have hlow' := decShift_low d b (rest ++ tail) hdl hb
      have hrange' : (decShift d b (rest ++ tail)).range = e.range * 256 := by
        simp only [decShift, u32, Nat.shiftLeft_eq, hs.rng]; omega
      have henc : encNormalize (encShift e) = some en := by
        rw [encNormalize] at he
        simp only [bottom_eq, hr, dite_true] at he
        rw [dif_neg (by omega)] at he; exact he
      have hsh' : Shifted (encShift e) en k := by
        obtain ⟨-, -, -, h4, -⟩ := encShift_base e hi hr
        refine ⟨?_, ?_, ?_, ?_⟩
        · rw [hsh.len, Enc.base_length, Enc.base_length]; omega
        · rw [hsh.low, encShift_L e hi hr, Nat.pow_succ, Nat.mul_comm (256 ^ k), Nat.mul_assoc]
        · rw [hsh.rng, encShift_range e hr, Nat.pow_succ, Nat.mul_comm (256 ^ k), Nat.mul_assoc]
        · rw [hsh.bc, encShift_bytecount]; omega
      have hsync : Sync (encShift e) (decShift d b (rest ++ tail)) (con ++ [b]) := by
        obtain ⟨-, -, -, h4, -⟩ := encShift_base e hi hr
        refine ⟨?_, ?_, ?_, ?_⟩
        · simp [hs.len, Enc.base_length]; omega
        · rw [hrange', encShift_range e hr]
        · rw [hlow', encShift_L e hi hr, val_snoc]
          have h1 := hs.low
          have h2 := hs.buf
          omega
        · simp only [decShift]; rw [val_snoc]; omega
      have hlt : (decShift d b (rest ++ tail)).low < (decShift d b (rest ++ tail)).range := by
        rw [hlow', hrange', ← hs.rng]; omega
      obtain ⟨dn, g1, g2, g3⟩ := ih (encShift e) (encShift_inv e hi hr) henc (decShift d b (rest ++ tail))
        (con ++ [b]) rest hsync rfl (fun x hx => hrest x (List.mem_cons_of_mem _ hx))
        (by simpa using hlen) hsh' hlt
      refine ⟨dn, ?_, by simpa using g2, by simpa using g3⟩
      rw [decNormalize_step d b (rest ++ tail) (by rw [hs.rng]; exact hr) (by rw [hs.rng]; exact hpos)
        (by rw [hinp]; rfl)]
      exact g1

/-- The decoder `d` is about to decode the calls `cs` of a block, followed by `tail`. -/
def Ready (d : Dec) (cs : List Call) (tail : List Nat) : Prop :=
  ∃ (e : Enc) (con R : List Nat) (d1 : Dec),
    e.Inv ∧ (∀ c ∈ cs, c.Valid) ∧ (encCalls e cs).bind doneEncoding = some (con ++ R) ∧
    d1.inp = R ++ tail ∧ Sync e d1 con ∧ decNormalize d = decNormalize d1

/-- Coding calls succeed, the final bytes lie in every earlier interval. -/
theorem encCalls_spec (e : Enc) (hi : e.Inv) (cs : List Call) (hv : ∀ c ∈ cs, c.Valid) :
    ∃ B k, (encCalls e cs).bind doneEncoding = some B ∧ Contains e B k ∧ (∀ b ∈ B, b < 256) ∧
      val B < 2 ^ 32 * 256 ^ (e.out.length + e.help + k) := by
  induction cs generalizing e with
  | nil =>
    obtain ⟨en, k, B, h1, h2, h3, h4, h5, h6, h7, h8⟩ := done_spec e hi
    refine ⟨B, k, by simpa [encCalls] using h5, by simpa using h6.shift h2, h7, ?_⟩
    have := h2.len
    rw [Enc.base_length, Enc.base_length] at this
    rw [show e.out.length + e.help + k = en.out.length + en.help by omega]; exact h8
  | cons c cs ih =>
    have hc := hv c List.mem_cons_self
    obtain ⟨en, k, e', h1, h2, h3, h4, h5, h6, h7⟩ := enc_spec e c hi hc
    obtain ⟨B, j, g1, g2, g3, g4⟩ := ih e' h6 (fun c' h' => hv c' (List.mem_cons_of_mem _ h'))
    refine ⟨B, k + j, ?_, (g2.sub hc h7).shift h4, g3, ?_⟩
    · simp only [encCalls, h5, Option.bind_eq_bind, Option.bind_some]; exact g1
    · have a := h4.len
      have b := congrArg List.length h7.base
      rw [Enc.base_length, Enc.base_length] at a b
      rw [show e.out.length + e.help + (k + j) = e'.out.length + e'.help + j by omega]
      exact g4

theorem encodeBlock_some (cs : List Call) (hv : ∀ c ∈ cs, c.Valid) :
    ∃ B, encodeBlock cs = some B := by
  obtain ⟨B, k, h, -⟩ := encCalls_spec _ inv_start cs hv
  exact ⟨B, h⟩

theorem ready_start (cs : List Call) (hv : ∀ c ∈ cs, c.Valid) (B tail : List Nat)
    (hB : encodeBlock cs = some B) :
    ∃ d, startDecoding (B ++ tail) = some d ∧ Ready d cs tail := by
  obtain ⟨B', k, h1, h2, h3, h4⟩ := encCalls_spec _ inv_start cs hv
  have : B' = B := by
    have : encodeBlock cs = some B' := h1
    rw [hB] at this; exact (Option.some.inj this).symm
  subst this
  have hlen : B'.length = 5 + k := by
    have := h2.1; simp [startEncoding, Enc.base] at this; omega
  match B', hlen with
  | [], hlen => simp at hlen; omega
  | [_], hlen => simp at hlen; omega
  | [_, _], hlen => simp at hlen; omega
  | [_, _, _], hlen => simp at hlen; omega
  | [_, _, _, _], hlen => simp at hlen; omega
  | b0 :: b1 :: b2 :: b3 :: b4 :: R, hlen =>
    simp only [List.length_cons] at hlen
    have hb : ∀ b ∈ [b0, b1, b2, b3, b4], b < 256 := by
      intro b hb; apply h3; simp at hb ⊢
      rcases hb with h | h | h | h | h <;> simp [h]
    simp only [List.mem_cons, List.not_mem_nil, or_false, forall_eq_or_imp, forall_eq] at hb
    obtain ⟨hb0, hb1, hb2, hb3, hb4⟩ := hb
    have hz : b0 = 0 := by
      rw [val_cons] at h4
      simp only [startEncoding, List.length_nil, List.length_cons] at h4
      rw [show R.length + 1 + 1 + 1 + 1 = 4 + k by omega, Nat.pow_add,
        show (0 : Nat) + 0 + k = k by omega, ← Nat.mul_assoc] at h4
      apply Nat.eq_zero_of_not_pos
      intro hp
      have h5 : 1 * 256 ^ 4 * 256 ^ k ≤ b0 * 256 ^ 4 * 256 ^ k :=
        Nat.mul_le_mul_right _ (Nat.mul_le_mul_right _ hp)
      have h6 : (1 * 256 ^ 4 : Nat) = 2 ^ 32 := by decide
      rw [h6] at h5
      omega
    subst hz
    let d0 : Dec := { low := b1 / 2, range := 128, help := 0, buffer := b1,
                      inp := b2 :: b3 :: b4 :: (R ++ tail) }
    let d1 := decShift d0 b2 (b3 :: b4 :: (R ++ tail))
    let d2 := decShift d1 b3 (b4 :: (R ++ tail))
    let d3 := decShift d2 b4 (R ++ tail)
    have l1 : d1.low = b1 / 2 * 256 + b1 % 2 * 128 + b2 / 2 :=
      decShift_low d0 b2 _ (by show b1 / 2 < _; omega) hb2
    have l2 : d2.low = d1.low * 256 + b2 % 2 * 128 + b3 / 2 :=
      decShift_low d1 b3 _ (by omega) hb3
    have l3 : d3.low = d2.low * 256 + b3 % 2 * 128 + b4 / 2 :=
      decShift_low d2 b4 _ (by omega) hb4
    have r1 : d1.range = 32768 := by
      show u32 (128 <<< 8) = _; decide
    have r2 : d2.range = 8388608 := by
      show u32 (d1.range <<< 8) = _; rw [r1]; decide
    have r3 : d3.range = 2147483648 := by
      show u32 (d2.range <<< 8) = _; rw [r2]; decide
    have n0 : decNormalize d0 = decNormalize d3 := by
      rw [decNormalize_step d0 b2 (b3 :: b4 :: (R ++ tail)) (by show 128 ≤ _; decide)
        (by show 0 < 128; decide) rfl]
      rw [decNormalize_step d1 b3 (b4 :: (R ++ tail)) (by omega) (by omega) rfl]
      rw [decNormalize_step d2 b4 (R ++ tail) (by omega) (by omega) rfl]
    refine ⟨d0, ?_, ?_⟩
    · simp only [startDecoding, List.cons_append, extraBits_eq, Nat.shiftRight_eq_div_pow,
        Nat.shiftLeft_eq]
      rfl
    · refine ⟨startEncoding 0 0, [0, b1, b2, b3, b4], R, d3, inv_start, hv, h1, rfl, ?_, n0⟩
      refine ⟨by simp [startEncoding, Enc.base], r3, ?_, ?_⟩
      · have : (startEncoding 0 0).L = 0 := by simp [startEncoding, Enc.L, Enc.base, u8]
        rw [this, l3, l2, l1]
        simp only [val_cons, val_nil, List.length_cons, List.length_nil]
        omega
      · simp only [val_cons, val_nil, List.length_cons, List.length_nil]
        show b4 = _
        omega

theorem ready_step (d : Dec) (c : Call) (cs : List Call) (tail : List Nat)
    (h : Ready d (c :: cs) tail) :
    ∃ v d1, decodeCulfreq d c.tot = some (v, d1) ∧ c.lt ≤ v ∧ v < c.lt + c.sy ∧
      Ready (decodeUpdate d1 c.sy c.lt c.tot) cs tail := by
  obtain ⟨e, con, R, d1, hi, hv, hB, hinp, hs, hd⟩ := h
  have hc := hv c List.mem_cons_self
  have hv' : ∀ c' ∈ cs, c'.Valid := fun c' h' => hv c' (List.mem_cons_of_mem _ h')
  obtain ⟨en, k, e', h1, h2, h3, h4, h5, h6, h7⟩ := enc_spec e c hi hc
  obtain ⟨B, j, g1, g2, g3, g4⟩ := encCalls_spec e' h6 cs hv'
  have : con ++ R = B := by
    simp only [encCalls, h5, Option.bind_eq_bind, Option.bind_some] at hB
    rw [hB] at g1; exact Option.some.inj g1
  subst this
  have hRb : ∀ b ∈ R, b < 256 := fun b hb => g3 b (List.mem_append_right _ hb)
  have hen := g2.sub hc h7
  have he := hen.shift h4
  have hRlen : R.length = k + j := by
    have a := he.1; have b := hs.len; simp only [List.length_append] at a; omega
  rw [← hRlen] at he
  have hin := prefix_in e con R hRb he
  obtain ⟨dn, n1, n2, n3⟩ := dec_norm e en k hi h1 d1 con R tail hs hinp hRb (by omega) h4
    (by have := hs.low; have := hs.rng; omega)
  have hj : (R.drop k).length = j := by simp [hRlen]
  have hcR : (con ++ R.take k) ++ R.drop k = con ++ R := by simp
  have hin' := prefix_in e' (con ++ R.take k) (R.drop k) (fun b hb => hRb b (List.mem_of_mem_drop hb))
    (by rw [hcR, hj]; exact g2)
  have hlow := n3.low
  have hrng := n3.rng
  obtain ⟨c1, c2, c3⟩ := hc
  have ht0 : c.tot ≠ 0 := by omega
  have hr1 : 1 ≤ en.range / c.tot := by
    rw [Nat.le_div_iff_mul_le (by omega)]; omega
  have hL := h7.low
  have hR := h7.rng
  have hrle : en.range / c.tot * c.lt + en.range / c.tot * c.sy ≤ en.range := by
    rw [← Nat.mul_add]; exact div_mul_le' _ _ _ c2
  have hrle' : en.range / c.tot * (c.lt + 1) ≤ en.range := div_mul_le' _ _ _ (by omega)
  rw [Nat.mul_add] at hrle'
  have hsum := h2.sum
  have henr := h2.rng
  generalize hq : en.range / c.tot = r at *
  have hdl1 : r * c.lt ≤ dn.low := by omega
  have hdl2 : dn.low < r * c.lt + e'.range := by omega
  refine ⟨if dn.low / r ≥ c.tot then c.tot - 1 else dn.low / r, { dn with help := r }, ?_, ?_, ?_, ?_⟩
  · rw [decodeCulfreq, hd, n1]
    simp only [Option.bind_eq_bind, Option.bind_some, if_neg ht0, hrng, hq]
    rw [if_neg (by omega)]
  · have : c.lt ≤ dn.low / r := by
      rw [Nat.le_div_iff_mul_le (by omega), Nat.mul_comm]; exact hdl1
    split <;> omega
  · by_cases hcase : c.lt + c.sy < c.tot
    · rw [if_pos hcase] at hR
      have : dn.low / r < c.lt + c.sy := by
        rw [Nat.div_lt_iff_lt_mul (by omega), Nat.mul_comm, Nat.mul_add]
        omega
      split <;> omega
    · split <;> omega
  · have w1 : u32 (r * c.lt) = r * c.lt := by unfold u32; omega
    have w2 : u32 (dn.low + 4294967296 - r * c.lt) = dn.low - r * c.lt := by
      have : e'.range ≤ en.range := by rw [hR]; split <;> omega
      unfold u32; omega
    have w3 : u32 (c.lt + c.sy) = c.lt + c.sy := by unfold u32; omega
    have w4 : u32 (r * c.sy) = r * c.sy := by unfold u32; omega
    have w5 : u32 (dn.range + 4294967296 - r * c.lt) = en.range - r * c.lt := by
      unfold u32; omega
    refine ⟨e', con ++ R.take k, R.drop k, _, h6, hv', by rw [hcR]; exact g1, ?_, ?_, rfl⟩
    · simp only [decodeUpdate]; exact n2
    · refine ⟨?_, ?_, ?_, ?_⟩
      · rw [n3.len, h7.base]
      · simp only [decodeUpdate, w1, w3, w4, w5, hR]
      · simp only [decodeUpdate, w1, w2]; omega
      · simp only [decodeUpdate]; exact n3.buf

theorem ready_done (d : Dec) (tail : List Nat) (h : Ready d [] tail) :
    ∃ d', doneDecoding d = some d' ∧ d'.inp = tail := by
  obtain ⟨e, con, R, d1, hi, hv, hB, hinp, hs, hd⟩ := h
  obtain ⟨en, k, B, h1, h2, h3, h4, h5, h6, h7, h8⟩ := done_spec e hi
  have : con ++ R = B := by
    simp only [encCalls, Option.bind_some] at hB
    rw [hB] at h5; exact Option.some.inj h5
  subst this
  have hRb : ∀ b ∈ R, b < 256 := fun b hb => h7 b (List.mem_append_right _ hb)
  have he := h6.shift h2
  have hRlen : R.length = k := by
    have a := he.1; have b := hs.len; simp only [List.length_append] at a; omega
  have he' : Contains e (con ++ R) R.length := by rw [hRlen]; exact he
  have hin := prefix_in e con R hRb he'
  obtain ⟨dn, n1, n2, n3⟩ := dec_norm e en k hi h1 d1 con R tail hs hinp hRb (by omega) h2
    (by have := hs.low; have := hs.rng; omega)
  refine ⟨dn, by rw [doneDecoding, hd, n1], ?_⟩
  rw [n2, ← hRlen]; simp

theorem ready_call (d : Dec) (c : Call) (cs : List Call) (tail : List Nat)
    (h : Ready d (c :: cs) tail) :
    ∃ v d', c.dec d = some (v, d') ∧ c.lt ≤ v ∧ v < c.lt + c.sy ∧ Ready d' cs tail := by
  obtain ⟨v, d1, h1, h2, h3, h4⟩ := ready_step d c cs tail h
  refine ⟨v, _, ?_, h2, h3, h4⟩
  rw [Call.dec_eq, h1]; rfl
end TDP.RangeCoder
