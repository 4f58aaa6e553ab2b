import Mathlib.Tactic.Linarith
import Mathlib.Tactic.Ring
import Mathlib.Algebra.Order.Ring.Int
/-!
# C111: file names and log lines made with `sprintf`

`log` and `logt` (src/util/util.h:62-93) format into a buffer of 200 bytes; `Tile::Tile` logs its path (src/storage/tile.cpp:24-45); the data
generator (src/test/data_generator.cpp:334-344) and `write_box` (src/spatial/spatial_common.cpp:51-64) make file names in 256 bytes.
-/
namespace TDP.Names

/-- The decimal digits of a number, as `%ld` prints them. -/
def dec (n : Nat) : List Char :=
  if h : n < 10 then [Char.ofNat (48 + n)] else dec (n / 10) ++ [Char.ofNat (48 + n % 10)]
termination_by n

/-- `%d`, `%ld`. -/
def decInt (i : Int) : List Char := if i < 0 then '-' :: dec i.natAbs else dec i.natAbs

/-- A format with its arguments: literal text, `%s`, `%d`/`%ld`. -/
inductive Piece
  | lit (s : String)
  | str (s : List Char)
  | int (i : Int)

/-- The characters of a piece. -/
def Piece.text : Piece → List Char
  | .lit s => s.toList
  | .str s => s
  | .int i => decInt i

/-- The characters printed. -/
def text (ps : List Piece) : List Char := ps.flatMap Piece.text

/-- `sprintf(buf, ..)` and `vsprintf` into an array of `size` bytes: the text and a NUL are stored, nothing is checked; a store outside is
undefined (`none`). -/
def sprintf (size : Nat) (ps : List Piece) : Option (List Char) := if (text ps).length < size then some (text ps) else none

/-- `log`, `logt` (util.h:62-93): `sprint_buf` has 200 bytes. -/
def log (ps : List Piece) : Option (List Char) := sprintf 200 ps

/-- The last statement of `Tile::Tile` (tile.cpp:44). -/
def tileLoaded (n : Nat) (path : List Char) : Option (List Char) := log [.lit "loaded ", .int n, .lit " polyhedra in tile ", .str path]
/-- tile.cpp:27. -/
def tileMissing (path : List Char) : Option (List Char) := log [.str path, .lit " does not exist"]
/-- tile.cpp:32. -/
def tileClosed (path : List Char) : Option (List Char) := log [.str path, .lit " can not be opened"]

/-- Which of the three files of the generator. -/
inductive Kind | first | second | vessels
deriving DecidableEq

/-- The letter in the name (data_generator.cpp:339-342). -/
def Kind.mark : Kind → String
  | .first => "_n_nv"
  | .second => "_n2_nv"
  | .vessels => "_v_nv"

/-- The settings that go into a name; `s` is `(int)shrink`. -/
structure Settings where
  nv : Int
  nu : Int
  s : Int
  vs : Int
  r : Int
deriving DecidableEq

/-- The names of the output files (data_generator.cpp:334-342). -/
def outputName (out : List Char) (k : Kind) (c : Settings) : Option (List Char) :=
  sprintf 256 [.str out, .lit k.mark, .int c.nv, .lit "_nu", .int c.nu, .lit "_s", .int c.s, .lit "_vs", .int c.vs, .lit "_r", .int c.r, .lit ".dt"]

/-- `write_box(aab, int, string)` (spatial_common.cpp:51-54): the name. -/
def boxName (pre : List Char) (id : Int) : Option (List Char) := sprintf 256 [.str pre, .lit ".", .int id, .lit ".off"]
/-- `write_polyhedron(Polyhedron*, int)` (spatial_common.cpp:61-64): the name. -/
def polyName (id : Int) : Option (List Char) := sprintf 256 [.int id, .lit ".off"]
/-- The name `fixer` writes to (fixer.cpp:426). -/
def fixerName (points faces : Nat) : Option (List Char) := sprintf 256 [.lit "/gisdata/updated_", .int points, .lit "_", .int faces, .lit ".OFF"]
/-- The name `decompress` writes to (decompress.cpp:42). -/
def lodName (lod : Int) : Option (List Char) := sprintf 256 [.lit "/gisdata/lod.", .int lod, .lit ".off"]

/-! ### Decimal numbers -/

/-- Specification: the number some decimal digits mean. -/
def value (l : List Char) : Nat := l.foldl (fun v c => 10 * v + (c.toNat - 48)) 0

theorem digit_toNat {d : Nat} (h : d < 10) : (Char.ofNat (48 + d)).toNat = 48 + d := by
  revert h; revert d; decide +kernel

theorem dec_small {n : Nat} (h : n < 10) : dec n = [Char.ofNat (48 + n)] := by rw [dec, dif_pos h]
theorem dec_big {n : Nat} (h : ¬ n < 10) : dec n = dec (n / 10) ++ [Char.ofNat (48 + n % 10)] := by rw [dec, dif_neg h]

/-- What is printed means the number. -/
theorem dec_value (n : Nat) : value (dec n) = n := by
  induction n using Nat.strongRecOn with
  | ind n ih =>
    by_cases h : n < 10
    · rw [dec_small h]
      show 10 * 0 + _ = n
      rw [digit_toNat h]; omega
    · rw [dec_big h, value, List.foldl_append]
      have := ih (n / 10) (by omega)
      unfold value at this
      rw [this]
      show 10 * (n / 10) + _ = n
      rw [digit_toNat (by omega)]; omega

/-- All characters are digits. -/
theorem dec_digits (n : Nat) : ∀ c ∈ dec n, 48 ≤ c.toNat ∧ c.toNat ≤ 57 := by
  induction n using Nat.strongRecOn with
  | ind n ih =>
    intro c hc
    by_cases h : n < 10
    · rw [dec_small h, List.mem_singleton] at hc
      rw [hc, digit_toNat h]; omega
    · rw [dec_big h, List.mem_append, List.mem_singleton] at hc
      rcases hc with hc | hc
      · exact ih _ (by omega) c hc
      · rw [hc, digit_toNat (by omega)]; omega

theorem dec_ne_nil (n : Nat) : dec n ≠ [] := by
  by_cases h : n < 10
  · rw [dec_small h]; exact List.cons_ne_nil _ _
  · rw [dec_big h]; exact List.append_ne_nil_of_right_ne_nil _ (List.cons_ne_nil _ _)

/-- The number of digits: at most `k + 1` exactly below `10 ^ (k + 1)`. -/
theorem dec_length (k : Nat) : ∀ n, (dec n).length ≤ k + 1 ↔ n < 10 ^ (k + 1) := by
  induction k with
  | zero =>
    intro n
    by_cases h : n < 10
    · rw [dec_small h]; simp [h]
    · rw [dec_big h, List.length_append]
      have : 0 < (dec (n / 10)).length := List.length_pos_iff.2 (dec_ne_nil _)
      simp only [List.length_singleton]
      constructor
      · intro; omega
      · intro h'; exact absurd (by simpa using h') h
  | succ k ih =>
    intro n
    by_cases h : n < 10
    · rw [dec_small h]
      refine ⟨fun _ => lt_of_lt_of_le h ?_, fun _ => by simp⟩
      exact Nat.le_self_pow (by omega) 10
    · rw [dec_big h, List.length_append, List.length_singleton]
      have := ih (n / 10)
      rw [Nat.pow_succ 10 (k + 1)]
      constructor
      · intro hl
        have := this.1 (by omega)
        omega
      · intro hl
        have := this.2 (by omega)
        omega

theorem decInt_length {i : Int} {k : Nat} (h : i.natAbs < 10 ^ (k + 1)) : (decInt i).length ≤ k + 2 := by
  unfold decInt
  have := (dec_length k i.natAbs).2 h
  split
  · rw [List.length_cons]; omega
  · omega

/-- An `int` has at most 11 characters. -/
theorem int32_length {i : Int} (h : -2 ^ 31 ≤ i ∧ i < 2 ^ 31) : (decInt i).length ≤ 11 :=
  decInt_length (k := 9) (by omega)

/-- Characters of a printed number: digits and a minus sign. -/
def NumChar (c : Char) : Prop := c = '-' ∨ (48 ≤ c.toNat ∧ c.toNat ≤ 57)

theorem decInt_chars (i : Int) : ∀ c ∈ decInt i, NumChar c := by
  intro c hc
  unfold decInt at hc
  split at hc
  · rcases List.mem_cons.1 hc with rfl | hc
    · exact .inl rfl
    · exact .inr (dec_digits _ c hc)
  · exact .inr (dec_digits _ c hc)

theorem dec_inj {a b : Nat} (h : dec a = dec b) : a = b := by rw [← dec_value a, h, dec_value]

theorem minus_not_digit (n : Nat) : '-' ∉ dec n := by
  intro h
  have := dec_digits n _ h
  revert this
  decide

theorem decInt_inj {i j : Int} (h : decInt i = decInt j) : i = j := by
  unfold decInt at h
  split at h <;> split at h
  · have := dec_inj (List.cons.inj h).2
    omega
  · exact absurd (by rw [← h]; exact List.mem_cons_self ..) (minus_not_digit j.natAbs)
  · exact absurd (by rw [h]; exact List.mem_cons_self ..) (minus_not_digit i.natAbs)
  · have := dec_inj h
    omega

/-- Reading a list up to the first character that is not `P`. -/
theorem span_unique {P : Char → Prop} {x c : Char} {a b r s : List Char} (ha : ∀ y ∈ a, P y) (hb : ∀ y ∈ b, P y) (hx : ¬ P x) (hc : ¬ P c)
    (h : a ++ x :: r = b ++ c :: s) : a = b ∧ x :: r = c :: s := by
  induction a generalizing b with
  | nil =>
    match b, hb, h with
    | [], _, h => exact ⟨rfl, h⟩
    | y :: b, hb, h =>
      injection h with h _
      exact absurd (h ▸ hb y (List.mem_cons_self ..)) hx
  | cons z a ih =>
    match b, hb, h with
    | [], _, h =>
      injection h with h _
      exact absurd (h ▸ ha z (List.mem_cons_self ..)) hc
    | y :: b, hb, h =>
      injection h with h h'
      obtain ⟨e1, e2⟩ := ih (fun y hy => ha y (List.mem_cons_of_mem _ hy)) (fun y hy => hb y (List.mem_cons_of_mem _ hy)) h'
      exact ⟨by rw [h, e1], e2⟩

/-- A printed number followed by a separator is read back. -/
theorem number_unique {i j : Int} {x : Char} {r s : List Char} (hx : ¬ NumChar x) (h : decInt i ++ x :: r = decInt j ++ x :: s) : i = j ∧ r = s := by
  obtain ⟨e1, e2⟩ := span_unique (decInt_chars i) (decInt_chars j) hx hx h
  exact ⟨decInt_inj e1, (List.cons.inj e2).2⟩

theorem sprintf_iff {size : Nat} {ps : List Piece} {t : List Char} : sprintf size ps = some t ↔ t = text ps ∧ (text ps).length < size := by
  unfold sprintf
  split
  · rename_i h
    constructor
    · intro e; injection e with e; exact ⟨e.symm, h⟩
    · rintro ⟨rfl, _⟩; rfl
  · rename_i h
    constructor
    · intro e; cases e
    · rintro ⟨_, h'⟩; exact absurd h' h

theorem sprintf_none {size : Nat} {ps : List Piece} : sprintf size ps = none ↔ size ≤ (text ps).length := by
  unfold sprintf
  split
  · rename_i h
    exact ⟨(fun e => by cases e), (fun h2 => by omega)⟩
  · rename_i h
    exact ⟨fun _ => by omega, fun _ => rfl⟩

/-! ### The properties -/

theorem tileLoaded_length (n : Nat) (path : List Char) : (text [.lit "loaded ", .int n, .lit " polyhedra in tile ", .str path]).length =
    26 + (dec n).length + path.length := by
  have e : decInt (n : Int) = dec n := by
    unfold decInt
    rw [if_neg (by omega)]
    rfl
  unfold text
  simp only [List.flatMap_cons, List.flatMap_nil, Piece.text, List.length_append, e, List.length_nil]
  show 7 + ((dec n).length + (19 + (path.length + 0))) = _
  omega

/-- **C111, partial.** Opening a tile ends with a log line that contains the path. It stays inside its buffer exactly if the path and the number
of objects together have at most 173 characters; a path of at most 154 characters is safe for every number of objects below 2^63. -/
theorem C111_tile_path_partial (n : Nat) (path : List Char) :
    ((tileLoaded n path).isSome ↔ path.length + (dec n).length ≤ 173) ∧ (path.length ≤ 154 → n < 2 ^ 63 → (tileLoaded n path).isSome) := by
  have key : (tileLoaded n path).isSome ↔ path.length + (dec n).length ≤ 173 := by
    unfold tileLoaded log
    rw [← Option.ne_none_iff_isSome, ne_eq, sprintf_none, tileLoaded_length]
    omega
  refine ⟨key, fun h hn => key.2 ?_⟩
  have := (dec_length 18 n).2 (by omega)
  omega

/-- **C111 is false of the code.** Every path of 173 characters or more, which the system allows (up to 4095), makes the tile overrun the buffer of
its log line when it is opened, whatever it contains; from 182 characters on also the message that the file cannot be opened, from 185 the message
that it does not exist. -/
theorem C111_counterexample_path (path : List Char) :
    (173 ≤ path.length → ∀ n, tileLoaded n path = none) ∧ (tileClosed path = none ↔ 182 ≤ path.length) ∧
      (tileMissing path = none ↔ 185 ≤ path.length) := by
  refine ⟨?_, ?_, ?_⟩
  · intro h n
    unfold tileLoaded log
    rw [sprintf_none, tileLoaded_length]
    have : 0 < (dec n).length := List.length_pos_iff.2 (dec_ne_nil n)
    omega
  · unfold tileClosed log
    rw [sprintf_none]
    show 200 ≤ (path ++ (" can not be opened".toList ++ [])).length ↔ _
    rw [List.length_append]
    show 200 ≤ path.length + 18 ↔ _
    omega
  · unfold tileMissing log
    rw [sprintf_none]
    show 200 ≤ (path ++ (" does not exist".toList ++ [])).length ↔ _
    rw [List.length_append]
    show 200 ≤ path.length + 15 ↔ _
    omega

theorem outputName_text (out : List Char) (k : Kind) (c : Settings) :
    text [.str out, .lit k.mark, .int c.nv, .lit "_nu", .int c.nu, .lit "_s", .int c.s, .lit "_vs", .int c.vs, .lit "_r", .int c.r, .lit ".dt"] =
      out ++ (k.mark.toList ++ (decInt c.nv ++ ('_' :: 'n' :: 'u' :: (decInt c.nu ++ ('_' :: 's' :: (decInt c.s ++ ('_' :: 'v' :: 's' ::
        (decInt c.vs ++ ('_' :: 'r' :: (decInt c.r ++ '.' :: 'd' :: 't' :: [])))))))))) := by
  unfold text
  simp only [List.flatMap_cons, List.flatMap_nil, Piece.text]
  rfl

/-- **C111.** The three files of a run of the generator have different names, and so have the files of two runs with the same initial part and
different settings, as far as the settings are in the name. -/
theorem C111_generator_names {out : List Char} {k k' : Kind} {c c' : Settings} {name : List Char} (h : outputName out k c = some name)
    (h' : outputName out k' c' = some name) : k = k' ∧ c = c' := by
  obtain ⟨e, _⟩ := sprintf_iff.1 h
  obtain ⟨e', _⟩ := sprintf_iff.1 h'
  rw [e, outputName_text, outputName_text] at e'
  have e1 := List.append_cancel_left e'
  have hk : k = k' := by
    cases k <;> cases k' <;> first
      | rfl
      | (exfalso
         injection e1 with a b
         injection b with a b
         first
           | (revert a; decide)
           | (injection b with a b
              revert a; decide))
  subst hk
  refine ⟨rfl, ?_⟩
  have u : ¬ NumChar '_' := by unfold NumChar; decide
  have d : ¬ NumChar '.' := by unfold NumChar; decide
  have e2 := List.append_cancel_left e1
  obtain ⟨a1, e3⟩ := number_unique u e2
  injection e3 with _ e3
  injection e3 with _ e3
  obtain ⟨a2, e4⟩ := number_unique u e3
  injection e4 with _ e4
  obtain ⟨a3, e5⟩ := number_unique u e4
  injection e5 with _ e5
  injection e5 with _ e5
  obtain ⟨a4, e6⟩ := number_unique u e5
  injection e6 with _ e6
  obtain ⟨a5, _⟩ := number_unique d e6
  cases c
  cases c'
  simp only at a1 a2 a3 a4 a5
  subst a1 a2 a3 a4 a5
  rfl

/-- **C111, partial.** The names of the generator fit if the initial part has at most 178 characters, whatever the settings. -/
theorem C111_generator_fits_partial (out : List Char) (k : Kind) (c : Settings) (h : out.length ≤ 178)
    (hc : ∀ i ∈ [c.nv, c.nu, c.s, c.vs, c.r], -2 ^ 31 ≤ i ∧ i < 2 ^ 31) : (outputName out k c).isSome := by
  unfold outputName
  rw [← Option.ne_none_iff_isSome, ne_eq, sprintf_none, outputName_text]
  simp only [List.length_append, List.length_cons, List.length_nil]
  have hk : k.mark.toList.length ≤ 6 := by cases k <;> decide
  have h1 := int32_length (hc c.nv (by simp))
  have h2 := int32_length (hc c.nu (by simp))
  have h3 := int32_length (hc c.s (by simp))
  have h4 := int32_length (hc c.vs (by simp))
  have h5 := int32_length (hc c.r (by simp))
  omega

/-- **C111, partial.** An initial part of 233 characters or more always overruns the array. -/
theorem C111_generator_overrun (out : List Char) (k : Kind) (c : Settings) (h : 233 ≤ out.length) : outputName out k c = none := by
  unfold outputName
  rw [sprintf_none, outputName_text]
  simp only [List.length_append, List.length_cons, List.length_nil]
  have hk : 5 ≤ k.mark.toList.length := by cases k <;> decide
  have hd : ∀ i, 1 ≤ (decInt i).length := by
    intro i
    unfold decInt
    split
    · rw [List.length_cons]; omega
    · exact List.length_pos_iff.2 (dec_ne_nil _)
  have := hd c.nv
  have := hd c.nu
  have := hd c.s
  have := hd c.vs
  have := hd c.r
  omega

/-- **C111.** Boxes and polyhedra written by number go to different files, whose names fit when the initial part has at most 239 characters; the
names made by `fixer` and `decompress` always fit. -/
theorem C111_numbered_files (pre : List Char) :
    (∀ i j name, boxName pre i = some name → boxName pre j = some name → i = j) ∧
    (∀ i j name, polyName i = some name → polyName j = some name → i = j) ∧
    (∀ i, -2 ^ 31 ≤ i ∧ i < 2 ^ 31 → pre.length ≤ 239 → (boxName pre i).isSome) ∧
    (∀ i, -2 ^ 31 ≤ i ∧ i < 2 ^ 31 → (polyName i).isSome ∧ (lodName i).isSome) ∧
    ∀ p f, p < 2 ^ 63 → f < 2 ^ 63 → (fixerName p f).isSome := by
  have d : ¬ NumChar '.' := by unfold NumChar; decide
  have tb : ∀ i, text [.str pre, .lit ".", .int i, .lit ".off"] = pre ++ ('.' :: (decInt i ++ ['.', 'o', 'f', 'f'])) := by
    intro i
    unfold text
    simp only [List.flatMap_cons, List.flatMap_nil, Piece.text]
    rfl
  have tp : ∀ i, text [.int i, .lit ".off"] = decInt i ++ ['.', 'o', 'f', 'f'] := by
    intro i
    unfold text
    simp only [List.flatMap_cons, List.flatMap_nil, Piece.text]
    rfl
  refine ⟨?_, ?_, ?_, ?_, ?_⟩
  · intro i j name h h'
    obtain ⟨e, _⟩ := sprintf_iff.1 h
    obtain ⟨e', _⟩ := sprintf_iff.1 h'
    rw [e, tb, tb] at e'
    have e1 := List.append_cancel_left e'
    injection e1 with _ e1
    exact (number_unique d e1).1
  · intro i j name h h'
    obtain ⟨e, _⟩ := sprintf_iff.1 h
    obtain ⟨e', _⟩ := sprintf_iff.1 h'
    rw [e, tp, tp] at e'
    exact (number_unique d e').1
  · intro i hi hp
    unfold boxName
    rw [← Option.ne_none_iff_isSome, ne_eq, sprintf_none, tb]
    simp only [List.length_append, List.length_cons, List.length_nil]
    have := int32_length hi
    omega
  · intro i hi
    have := int32_length hi
    constructor
    · unfold polyName
      rw [← Option.ne_none_iff_isSome, ne_eq, sprintf_none, tp]
      simp only [List.length_append, List.length_cons, List.length_nil]
      omega
    · unfold lodName
      rw [← Option.ne_none_iff_isSome, ne_eq, sprintf_none]
      unfold text
      simp only [List.flatMap_cons, List.flatMap_nil, Piece.text, List.length_append, List.length_nil]
      show ¬ 256 ≤ 13 + ((decInt i).length + (4 + 0))
      omega
  · intro p f hp hf
    have h1 := decInt_length (i := (p : Int)) (k := 18) (by omega)
    have h2 := decInt_length (i := (f : Int)) (k := 18) (by omega)
    unfold fixerName
    rw [← Option.ne_none_iff_isSome, ne_eq, sprintf_none]
    unfold text
    simp only [List.flatMap_cons, List.flatMap_nil, Piece.text, List.length_append, List.length_nil]
    show ¬ 256 ≤ 17 + ((decInt p).length + (1 + ((decInt f).length + (4 + 0))))
    omega

/-- `(int)shrink`: only the whole part is in the name. -/
def settings (nv nu : Int) (shrink : Rat) (vs r : Int) : Settings := ⟨nv, nu, if 0 ≤ shrink then shrink.floor else shrink.ceil, vs, r⟩

/-- **C111 is false for `--shrink`.** Two runs with different shrinking factors may write to the same files; the second destroys the first. -/
theorem C111_counterexample_shrink (out : List Char) (k : Kind) (nv nu vs r : Int) :
    outputName out k (settings nv nu (5/2) vs r) = outputName out k (settings nv nu 2 vs r) := by
  have : settings nv nu (5/2) vs r = settings nv nu 2 vs r := by
    unfold settings
    rw [show (if (0 : Rat) ≤ 5/2 then (5/2 : Rat).floor else (5/2 : Rat).ceil) = (if (0 : Rat) ≤ 2 then (2 : Rat).floor else (2 : Rat).ceil) by decide +kernel]
  rw [this]

/-- Concrete names. -/
example : outputName "data/x".toList .second (settings 10 200 20 400 (-3)) = some "data/x_n2_nv10_nu200_s20_vs400_r-3.dt".toList := by decide +kernel
example : tileLoaded 1234 "/data/nuclei.dt".toList = some "loaded 1234 polyhedra in tile /data/nuclei.dt".toList := by decide +kernel
example : boxName "/gisdata/boxes".toList 17 = some "/gisdata/boxes.17.off".toList := by decide +kernel
example : tileLoaded 5 (List.replicate 173 'a') = none := (C111_counterexample_path _).1 (by rw [List.length_replicate]) 5

end TDP.Names
