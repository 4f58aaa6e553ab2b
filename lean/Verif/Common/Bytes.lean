/-!
# Little-endian fields in a byte stream

`ofstream::write((char*)&v, n)` / `ifstream::read((char*)&v, n)` and `memcpy` of an integer on the
(little-endian) target. Bytes are natural numbers below 256.
-/
namespace TDP.Bytes

/-- The `n` bytes of `v`, least significant first. -/
def put : Nat → Nat → List Nat
  | 0, _ => []
  | n + 1, v => v % 256 :: put n (v / 256)

/-- The value of bytes, least significant first. -/
def val : List Nat → Nat
  | [] => 0
  | b :: bs => b + 256 * val bs

/-- Read `n` bytes; `none` if there are fewer. -/
def get (n : Nat) (s : List Nat) : Option (Nat × List Nat) :=
  if s.length < n then none else some (val (s.take n), s.drop n)

theorem put_length (n v : Nat) : (put n v).length = n := by
  induction n generalizing v with
  | zero => rfl
  | succ n ih => rw [put, List.length_cons, ih]

theorem val_put (n v : Nat) (h : v < 256 ^ n) : val (put n v) = v := by
  induction n generalizing v with
  | zero => rw [Nat.pow_zero] at h; simp [put, val]; omega
  | succ n ih =>
    rw [put, val, ih]
    · omega
    · rw [Nat.pow_succ] at h; omega

theorem get_put (n v : Nat) (s : List Nat) (h : v < 256 ^ n) : get n (put n v ++ s) = some (v, s) := by
  unfold get
  rw [if_neg (by rw [List.length_append, put_length]; omega), List.take_append_of_le_length (by rw [put_length]; omega),
    List.drop_append_of_le_length (by rw [put_length]; omega), List.take_of_length_le (by rw [put_length]; omega),
    List.drop_eq_nil_of_le (by rw [put_length]; omega), val_put n v h]
  rfl

/-- How a coordinate is stored in 4 bytes. -/
structure FloatCode (α : Type) where
  toBits : α → Nat
  ofBits : Nat → α
  lt : ∀ x, toBits x < 256 ^ 4
  inv : ∀ x, ofBits (toBits x) = x

/-- Any type with at most 2^32 values given by its bit patterns, e.g. patterns themselves. -/
def FloatCode.fin : FloatCode (Fin (256 ^ 4)) where
  toBits x := x.val
  ofBits n := Fin.ofNat (256 ^ 4) n
  lt x := x.isLt
  inv x := by
    apply Fin.ext
    simp only [Fin.ofNat]
    exact Nat.mod_eq_of_lt x.isLt

end TDP.Bytes
