import Verif.Pipeline.OffText
/-!
# C117: converting HDF5 files to OFF files (src/test/H5ToOFF.cpp)

`MyPolyhedron(path)` reads two tables, `dump_to_off` writes them as text, `process_file` makes the name of the output. `H5Dread` is taken
to fill the block row by row (its manual).
-/
namespace TDP.H5
open TDP.Boxes TDP.EndToEnd TDP.Text TDP.Names TDP.OffText TDP.Codec TDP.Fill TDP.Traversal

/-- A table as it is read (H5ToOFF.cpp:57-67, 77-87): one block, row `i` begins at `i * dims[1]`. -/
structure Table (α : Type) where
  rows : Nat
  cols : Nat
  data : List α

/-- `vertices[i][j]`, `faces[i][j]`; `none`: outside the block. -/
def Table.cell {α : Type} (T : Table α) (i j : Nat) : Option α := T.data[i * T.cols + j]?

/-- `%.1f`: a sign, the integer part, a point and one digit; `t x` is the nearest number of tenths (of two the C library's choice). -/
def fixed1 (t : ℚ → ℤ) (x : ℚ) : List Char :=
  (if x < 0 then ['-'] else []) ++ dec ((t x).natAbs / 10) ++ ['.', Char.ofNat (48 + (t x).natAbs % 10)]

/-- H5ToOFF.cpp:34. -/
def vertexText (t : ℚ → ℤ) (V : Table ℚ) (i : Nat) : Option (List Char) := do
  let x ← V.cell i 0
  let y ← V.cell i 1
  let z ← V.cell i 2
  some (fixed1 t x ++ ' ' :: (fixed1 t y ++ ' ' :: (fixed1 t z ++ ['\n'])))

/-- H5ToOFF.cpp:37: a tabulator behind the three. -/
def faceText (F : Table Int) (i : Nat) : Option (List Char) := do
  let a ← F.cell i 0
  let b ← F.cell i 1
  let c ← F.cell i 2
  some ('3' :: '\t' :: (decInt a ++ ' ' :: (decInt b ++ ' ' :: (decInt c ++ ['\n']))))

/-- The constructor and `dump_to_off` (H5ToOFF.cpp:28-93). A table without rows is undefined, `vertices[0] = ..` stores into a block of
0 bytes (l. 57-58, 77-78). -/
def dump (t : ℚ → ℤ) (V : Table ℚ) (F : Table Int) : Option (List Char) :=
  if V.rows = 0 ∨ F.rows = 0 then none
  else do
    let vs ← (List.range V.rows).mapM (vertexText t V)
    let fs ← (List.range F.rows).mapM (faceText F)
    some ("OFF\n".toList ++ (dec V.rows ++ ' ' :: (dec F.rows ++ " 0\n\n".toList)) ++ vs.flatten ++ fs.flatten)

/-- The outcome of making the name of the output. -/
inductive OutName
  | refused
  | overrun
  | name (s : List Char)
deriving DecidableEq

/-- `process_file` (H5ToOFF.cpp:95-109): the name written to. `outpath` has 256 bytes. -/
def outName (path : List Char) : OutName :=
  let len := path.length
  if len ≤ 3 ∨ path[len - 1]? ≠ some '5' ∨ path[len - 2]? ≠ some 'h' ∨ path[len - 3]? ≠ some '.' then .refused
  else if 256 ≤ len + 1 then .overrun
  else .name (((path.set (len - 2) 'O').set (len - 1) 'F') ++ ['F'])

/-! ### Specification -/

/-- The block has a value for every row and column. -/
def Table.Whole {α : Type} (T : Table α) : Prop := T.data.length = T.rows * T.cols

/-- The value in row `i`, column `j`. -/
def Table.at {α : Type} [Inhabited α] (T : Table α) (i j : Nat) : α := T.data.getD (i * T.cols + j) default

/-- A nearest number of tenths. -/
def Nearest (t : ℚ → ℤ) : Prop := ∀ x, |10 * x - t x| ≤ 1 / 2

/-- The number a decimal text means: an optional minus, digits, a point, digits. -/
def readDec (w : List Char) : ℚ :=
  let u := if w.head? = some '-' then w.tail else w
  let a := u.takeWhile (· ≠ '.')
  let b := (u.dropWhile (· ≠ '.')).tail
  (if w.head? = some '-' then -1 else 1) * ((value (a ++ b) : ℚ) / 10 ^ b.length)

/-! ### Numbers -/

theorem dec_not {n : Nat} {x : Char} (hx : ¬ (48 ≤ x.toNat ∧ x.toNat ≤ 57)) : ∀ c ∈ dec n, c ≠ x := by
  rintro c hc rfl
  exact hx (dec_digits n c hc)

theorem digit_ok : ∀ k < 10, isSpace (Char.ofNat (48 + k)) = false ∧ Char.ofNat (48 + k) ≠ '|' ∧ Char.ofNat (48 + k) ≠ Char.ofNat 0 := by
  decide

theorem printer (t : ℚ → ℤ) : Printer (fixed1 t) := by
  intro x
  refine ⟨by unfold fixed1; simp, fun c hc => ?_⟩
  unfold fixed1 at hc
  simp only [List.mem_append, List.mem_cons, List.not_mem_nil, or_false] at hc
  rcases hc with (h | h) | rfl | rfl
  · split at h
    · rw [List.mem_singleton] at h; subst h; decide
    · simp at h
  · exact dec_word _ c h
  · decide
  · exact digit_ok _ (Nat.mod_lt _ (by norm_num))

theorem readDec_fixed1 {t : ℚ → ℤ} (ht : Nearest t) (x : ℚ) : readDec (fixed1 t x) = (t x : ℚ) / 10 := by
  have hnp : ∀ c ∈ dec ((t x).natAbs / 10), decide (c ≠ '.') = true := fun c hc => by
    simpa using dec_not (by decide) c hc
  have hv : value (dec ((t x).natAbs / 10) ++ [Char.ofNat (48 + (t x).natAbs % 10)]) = (t x).natAbs := by
    unfold value
    rw [List.foldl_append]
    have := dec_value ((t x).natAbs / 10)
    unfold value at this
    rw [this]
    show 10 * _ + _ = _
    rw [digit_toNat (Nat.mod_lt _ (by norm_num))]
    omega
  have hspan : (dec ((t x).natAbs / 10) ++ ['.', Char.ofNat (48 + (t x).natAbs % 10)]).takeWhile (· ≠ '.') = dec ((t x).natAbs / 10) ∧
      (dec ((t x).natAbs / 10) ++ ['.', Char.ofNat (48 + (t x).natAbs % 10)]).dropWhile (· ≠ '.') =
        ['.', Char.ofNat (48 + (t x).natAbs % 10)] := by
    rw [List.takeWhile_append_of_pos hnp, List.dropWhile_append_of_pos hnp]
    simp
  have hx := ht x
  rw [abs_le] at hx
  by_cases h : x < 0
  · have ht0 : t x ≤ 0 := by
      by_contra hc
      have : (1 : ℚ) ≤ t x := by exact_mod_cast (show 1 ≤ t x by omega)
      linarith [hx.1]
    have e : fixed1 t x = '-' :: (dec ((t x).natAbs / 10) ++ ['.', Char.ofNat (48 + (t x).natAbs % 10)]) := by
      unfold fixed1; rw [if_pos h]; rfl
    unfold readDec
    rw [e, List.head?_cons, List.tail_cons, if_pos rfl, if_pos rfl]
    dsimp only
    rw [hspan.1, hspan.2, List.tail_cons, hv]
    have : ((t x).natAbs : ℚ) = -(t x : ℚ) := by
      rw [Nat.cast_natAbs, abs_of_nonpos ht0, Int.cast_neg]
    rw [this]; norm_num; ring
  · have ht0 : 0 ≤ t x := by
      by_contra hc
      have : (t x : ℚ) ≤ -1 := by exact_mod_cast (show t x ≤ -1 by omega)
      linarith [hx.2]
    have e : fixed1 t x = dec ((t x).natAbs / 10) ++ ['.', Char.ofNat (48 + (t x).natAbs % 10)] := by
      unfold fixed1; rw [if_neg h]; rfl
    have hh : (fixed1 t x).head? ≠ some '-' := by
      rw [e]
      cases hd : dec ((t x).natAbs / 10) with
      | nil => exact absurd hd (dec_ne_nil _)
      | cons c l =>
        rw [List.cons_append, List.head?_cons]
        intro hc
        exact dec_not (n := (t x).natAbs / 10) (x := '-') (by decide) c (by rw [hd]; exact List.mem_cons_self) (Option.some.inj hc)
    unfold readDec
    rw [if_neg hh, if_neg hh, e]
    dsimp only
    rw [hspan.1, hspan.2, List.tail_cons, hv]
    have : ((t x).natAbs : ℚ) = (t x : ℚ) := by
      rw [Nat.cast_natAbs, abs_of_nonneg ht0]
    rw [this]; norm_num

/-! ### Text -/

theorem cell_at {α : Type} [Inhabited α] {T : Table α} (hT : T.Whole) {i j : Nat} (hi : i < T.rows) (hj : j < T.cols) :
    T.cell i j = some (T.at i j) := by
  have : i * T.cols + j < T.data.length := by
    rw [hT]
    calc i * T.cols + j < i * T.cols + T.cols := by omega
      _ = (i + 1) * T.cols := by ring
      _ ≤ T.rows * T.cols := Nat.mul_le_mul_right _ hi
  unfold Table.cell Table.at
  rw [List.getD_eq_getElem?_getD, List.getElem?_eq_getElem this]; rfl

/-- The point in row `i`. -/
def point (V : Table ℚ) (i : Nat) : Pt ℚ := fun k => V.at i k.val

/-- The three indices in row `i`. -/
def face (F : Table Int) (i : Nat) : List Nat := [(F.at i 0).toNat, (F.at i 1).toNat, (F.at i 2).toNat]

theorem mapM_range {α : Type} (f : Nat → Option α) (g : Nat → α) (n : Nat) (h : ∀ i < n, f i = some (g i)) :
    (List.range n).mapM f = some ((List.range n).map g) := by
  have : ∀ l : List Nat, (∀ i ∈ l, i < n) → l.mapM f = some (l.map g) := by
    intro l
    induction l with
    | nil => intro _; rfl
    | cons i l ih =>
      intro hl
      rw [List.mapM_cons, h i (hl i List.mem_cons_self), ih (fun j hj => hl j (List.mem_cons_of_mem _ hj))]
      rfl
  exact this _ (fun i hi => List.mem_range.1 hi)

theorem decInt_nat {i : Int} (h : 0 ≤ i) : decInt i = dec i.toNat := by
  unfold decInt
  rw [if_neg (by omega)]
  congr 1
  omega

/-- A line for a triangle. -/
def triLine (f : List Nat) : List Char := '3' :: '\t' :: (dec (f.getD 0 0) ++ ' ' :: (dec (f.getD 1 0) ++ ' ' :: (dec (f.getD 2 0) ++ ['\n'])))

theorem dump_text (t : ℚ → ℤ) {V : Table ℚ} {F : Table Int} (hV : V.Whole) (hF : F.Whole) (cV : 3 ≤ V.cols) (cF : 3 ≤ F.cols)
    (rV : 0 < V.rows) (rF : 0 < F.rows) (hn : ∀ i ∈ F.data, 0 ≤ i) :
    dump t V F = some ("OFF\n".toList ++ (dec V.rows ++ ' ' :: (dec F.rows ++ " 0\n\n".toList)) ++
      (List.range V.rows).flatMap (fun i => vertexLine (fixed1 t) (point V i)) ++ (List.range F.rows).flatMap (fun i => triLine (face F i))) := by
  have hat : ∀ i < F.rows, ∀ j < 3, 0 ≤ F.at i j := by
    intro i hi j hj
    have := cell_at hF hi (show j < F.cols by omega)
    exact hn _ (List.mem_of_getElem? this)
  unfold dump
  rw [if_neg (by omega), mapM_range (vertexText t V) (fun i => vertexLine (fixed1 t) (point V i)) V.rows,
    mapM_range (faceText F) (fun i => triLine (face F i)) F.rows]
  · rfl
  · intro i hi
    unfold faceText
    rw [cell_at hF hi (by omega), cell_at hF hi (by omega), cell_at hF hi (by omega)]
    simp only [Option.bind_eq_bind, Option.bind_some]
    rw [decInt_nat (hat i hi 0 (by omega)), decInt_nat (hat i hi 1 (by omega)), decInt_nat (hat i hi 2 (by omega))]
    rfl
  · intro i hi
    unfold vertexText
    rw [cell_at hV hi (by omega), cell_at hV hi (by omega), cell_at hV hi (by omega)]
    rfl

theorem triLine_words (a b c : Nat) : Words (triLine [a, b, c]) [['3'], dec a, dec b, dec c] := by
  have d := fun n {c : Char} (hc : isSpace c = true) {s ws} => Words.one (dec_ne_nil n) (fun c hc => (dec_word n c hc).1) (c := c) hc (s := s) (ws := ws)
  exact Words.one (w := ['3']) (by simp) (by decide) (c := '\t') (by decide)
    (d a (c := ' ') (by decide) (d b (c := ' ') (by decide) (d c (c := '\n') (by decide) (.nil [] (by simp)))))

/-- What the OFF reader finds in the text. -/
theorem read_dump (t : ℚ → ℤ) {V : Table ℚ} {F : Table Int} (hV : V.Whole) (hF : F.Whole) (cV : 3 ≤ V.cols) (cF : 3 ≤ F.cols)
    (rV : 0 < V.rows) (rF : 0 < F.rows) (hn : ∀ i ∈ F.data, 0 ≤ i) : ∃ text, dump t V F = some text ∧
    readOff text = some ((List.range V.rows).flatMap (fun i => coords (fixed1 t) (point V i)), (List.range F.rows).map (face F)) := by
  refine ⟨_, dump_text t hV hF cV cF rV rF hn, readOff_rest
    (ws := "OFF".toList :: dec V.rows :: dec F.rows :: ['0'] :: ((List.range V.rows).flatMap (fun i => coords (fixed1 t) (point V i)) ++
      ((List.range F.rows).map (fun i => [['3'], dec (F.at i 0).toNat, dec (F.at i 1).toNat, dec (F.at i 2).toNat])).flatten ++ []))
    (junk := []) ?_ ⟨_, (List.append_nil _).symm, ?_⟩⟩
  · refine ⟨_, _, _, _, [], rfl, ?_, ?_, ?_, ?_⟩
    · rw [natOf_dec, Option.getD_some, List.length_flatMap]
      simp [coords, Nat.mul_comm]
    · rw [natOf_dec]; simp
    · rw [natOf_dec]; simp
    · rw [List.forall₂_map_left_iff, List.forall₂_map_right_iff, List.forall₂_same]
      intro i _
      unfold FacetWords
      simp only [List.map_cons, List.map_nil, natOf_dec, List.length_cons, List.length_nil]
      rfl
  · have h1 : Words ("OFF\n".toList ++ (dec V.rows ++ ' ' :: (dec F.rows ++ " 0\n\n".toList)))
        ["OFF".toList, dec V.rows, dec F.rows, ['0']] := by
      have d := fun n {c : Char} (hc : isSpace c = true) {s ws} => Words.one (dec_ne_nil n) (fun c hc => (dec_word n c hc).1) (c := c) hc (s := s) (ws := ws)
      have h0 : Words ['0', '\n', '\n'] [['0']] :=
        Words.one (w := ['0']) (by simp) (by decide) (c := '\n') (by decide) (Words.blank (c := '\n') (by decide))
      exact Words.one (w := "OFF".toList) (by decide) (by decide) (c := '\n') (by decide)
        (d V.rows (c := ' ') (by decide) (d F.rows (c := ' ') (by decide) h0))
    have h2 := flatMap_words (fun i => vertexLine (fixed1 t) (point V i)) (fun i => coords (fixed1 t) (point V i))
      (fun i => vertexLine_words (printer t) (point V i)) (List.range V.rows)
    have h3 := flatMap_words (fun i => triLine (face F i)) (fun i => [['3'], dec (F.at i 0).toNat, dec (F.at i 1).toNat, dec (F.at i 2).toNat])
      (fun i => triLine_words _ _ _) (List.range F.rows)
    have := Words.append (Words.append h1 h2) h3
    rw [List.append_nil, ← List.flatMap_def]
    simpa using this

/-- **C117, the contents** (partial: the tables have rows, and at least three columns): the text names as many vertices and triangles as
the tables have rows; each triangle has the indices of its row, and each coordinate read back differs from the one in the table by at most
a twentieth (not at all, if it is a number of tenths). -/
theorem C117_contents_partial {t : ℚ → ℤ} (ht : Nearest t) {V : Table ℚ} {F : Table Int} (hV : V.Whole) (hF : F.Whole) (cV : 3 ≤ V.cols)
    (cF : 3 ≤ F.cols) (rV : 0 < V.rows) (rF : 0 < F.rows) (hn : ∀ i ∈ F.data, 0 ≤ i) :
    ∃ text words ps, dump t V F = some text ∧
      readOff text = some (words, (List.range F.rows).map (fun i => [(F.at i 0).toNat, (F.at i 1).toNat, (F.at i 2).toNat])) ∧
      points readDec words = ps ∧ ps.length = V.rows ∧
      ∀ i p, ps[i]? = some p → ∀ k : Fin 3, |p k - V.at i k.val| ≤ 1 / 20 ∧ ((∃ z : ℤ, V.at i k.val = z / 10) → p k = V.at i k.val) := by
  obtain ⟨text, h1, h2⟩ := read_dump t hV hF cV cF rV rF hn
  refine ⟨text, _, _, h1, h2, rfl, ?_, ?_⟩
  · have := points_flat readDec (fixed1 t) ((List.range V.rows).map (point V))
    rw [List.flatMap_map] at this
    rw [this]; simp
  · intro i p hp k
    have := points_flat readDec (fixed1 t) ((List.range V.rows).map (point V))
    rw [List.flatMap_map] at this
    rw [this, List.map_map, List.getElem?_map, Option.map_eq_some_iff] at hp
    obtain ⟨j, hj, rfl⟩ := hp
    rw [List.getElem?_eq_some_iff] at hj
    obtain ⟨_, hj⟩ := hj
    rw [List.getElem_range] at hj
    subst hj
    show |readDec (fixed1 t (V.at i k.val)) - V.at i k.val| ≤ 1 / 20 ∧ (_ → readDec (fixed1 t (V.at i k.val)) = _)
    rw [readDec_fixed1 ht]
    have hx := ht (V.at i k.val)
    rw [abs_le] at hx
    refine ⟨by rw [abs_le]; constructor <;> linarith [hx.1, hx.2], ?_⟩
    rintro ⟨z, hz⟩
    rw [hz] at hx ⊢
    have h1 : ((t ((z : ℚ) / 10) - z : ℤ) : ℚ) < 1 := by push_cast; linarith [hx.1]
    have h2 : (-1 : ℚ) < ((t ((z : ℚ) / 10) - z : ℤ) : ℚ) := by push_cast; linarith [hx.2]
    have h1' : t ((z : ℚ) / 10) - z < 1 := by exact_mod_cast h1
    have h2' : -1 < t ((z : ℚ) / 10) - z := by exact_mod_cast h2
    rw [show t ((z : ℚ) / 10) = z by omega]

theorem around_three {m : Mesh (Pt ℚ)} (hm : m.WF) {g : Nat} (hg : g ∈ m.darts) (h3 : m.next (m.next (m.next g)) = g) :
    around m.h g = [g, m.next g, m.next (m.next g)] := by
  have hp : Function.minimalPeriod m.next g = 3 := by
    have hd : Function.minimalPeriod m.next g ∣ 3 := Function.IsPeriodicPt.minimalPeriod_dvd (by
      show m.next^[3] g = g
      exact h3)
    rcases (Nat.dvd_prime Nat.prime_three).1 hd with h | h
    · exfalso
      have h1 : m.next g = g := Function.minimalPeriod_eq_one_iff_isFixedPt.1 h
      exact hm.deg3 g hg (by rw [h1, h1])
    · exact h
  rw [show around m.h g = (List.range (Function.minimalPeriod m.next g)).map (fun i => m.next^[i] g) from around_eq hm.h hg, hp]
  rfl

/-- **C117, the surface** (partial: the tables hold a closed surface of triangles, numbered from 0): the converted file is read as this
surface, each coordinate rounded to tenths. Row `i` of the vertices is vertex `i` of `verts`, row `i` of the faces holds the numbers of the
corners of facet `i` from some halfedge on. -/
theorem C117_surface_partial {t : ℚ → ℤ} (ht : Nearest t) {V : Table ℚ} {F : Table Int} (hV : V.Whole) (hF : F.Whole) (cV : 3 ≤ V.cols)
    (cF : 3 ≤ F.cols) (hn : ∀ i ∈ F.data, 0 ≤ i) {m : Mesh (Pt ℚ)} (hm : m.WF) {facets verts : List Nat} (hf : FacetEnum m facets)
    (hv : VertEnum m verts) (h0 : 0 < facets.length) (hVr : V.rows = verts.length) (hFr : F.rows = facets.length)
    (hp : ∀ i v, verts[i]? = some v → ∀ k : Fin 3, V.at i k.val = m.pos v k)
    (hc : ∀ i g, facets[i]? = some g → m.next (m.next (m.next g)) = g ∧ verts[(F.at i 0).toNat]? = some (m.vert g) ∧
      verts[(F.at i 1).toNat]? = some (m.vert (m.next g)) ∧ verts[(F.at i 2).toNat]? = some (m.vert (m.next (m.next g)))) :
    ∃ text N, dump t V F = some text ∧ buildRead readDec (readOff text) = some N ∧ SameUpTo (fun x => (t x : ℚ) / 10) m N := by
  have hv0 : 0 < V.rows := by
    have hg := (hc 0 facets[0] (List.getElem?_eq_getElem h0)).2.1
    rw [List.getElem?_eq_some_iff] at hg
    obtain ⟨h, _⟩ := hg
    omega
  obtain ⟨text, h1, h2⟩ := read_dump t hV hF cV cF hv0 (by omega) hn
  have e1 : (List.range V.rows).flatMap (fun i => coords (fixed1 t) (point V i)) = verts.flatMap (fun v => coords (fixed1 t) (m.pos v)) := by
    rw [List.flatMap_def, List.flatMap_def]
    congr 1
    apply List.ext_getElem (by simp [hVr])
    intro i h1 h2
    rw [List.getElem_map, List.getElem_map, List.getElem_range]
    congr 1
    funext k
    exact hp i _ (List.getElem?_eq_getElem _) k
  have pos : ∀ {j v : Nat}, verts[j]? = some v → j = verts.idxOf v := by
    intro j v h
    rw [List.getElem?_eq_some_iff] at h
    obtain ⟨hj, rfl⟩ := h
    exact (hv.nodup.idxOf_getElem j hj).symm
  have e2 : (List.range F.rows).map (face F) = faceLists m facets verts.idxOf := by
    unfold faceLists
    apply List.ext_getElem (by simp [hFr])
    intro i h1 h2
    rw [List.getElem_map, List.getElem_map, List.getElem_range]
    have hi : i < facets.length := by simpa using h2
    obtain ⟨c0, c1, c2, c3⟩ := hc i _ (List.getElem?_eq_getElem hi)
    rw [around_three hm (hf.mem _ (List.getElem_mem hi)) c0]
    show [_, _, _] = [_, _, _]
    rw [pos c1, pos c2, pos c3]
  obtain ⟨N, h3, h4⟩ := build_text (shw := fixed1 t) readDec hm hf hv
  refine ⟨text, N, h1, by rw [h2, e1, e2]; exact h3, ?_⟩
  have : (fun x => readDec (fixed1 t x)) = fun x => (t x : ℚ) / 10 := funext (readDec_fixed1 ht)
  rwa [this] at h4

/-- C117 is false beyond tenths: different vertices are written with the same coordinates. -/
theorem C117_counterexample_tenths {t : ℚ → ℤ} (ht : Nearest t) (x : ℚ) (h0 : 0 ≤ x) (h : x < 1 / 20) : fixed1 t x = fixed1 t 0 := by
  have h1 := ht 0
  have h2 := ht x
  rw [abs_le] at h1 h2
  have near : ∀ z : ℤ, (z : ℚ) < 1 → (-1 : ℚ) < z → z = 0 := by
    intro z h1 h2
    have h1' : z < 1 := by exact_mod_cast h1
    have h2' : -1 < z := by exact_mod_cast h2
    omega
  have e1 : t 0 = 0 := near _ (by linarith [h1.1]) (by linarith [h1.2])
  have e2 : t x = 0 := near _ (by linarith [h2.1]) (by linarith [h2.2])
  unfold fixed1
  rw [e1, e2, if_neg (by linarith), if_neg (by linarith)]

/-- C117 is false for tables without rows, and for vertices in two columns: the block is left. -/
theorem C117_counterexample_shape (t : ℚ → ℤ) {V : Table ℚ} {F : Table Int} (hV : V.Whole) (h : V.rows = 0 ∨ F.rows = 0 ∨ V.cols = 2) :
    dump t V F = none := by
  unfold dump
  split
  · rfl
  · rename_i h0
    have hc : V.cols = 2 := by tauto
    obtain ⟨n, hr⟩ : ∃ n, V.rows = n + 1 := ⟨V.rows - 1, by omega⟩
    have hlast : vertexText t V n = none := by
      have : V.cell n 2 = none := by
        unfold Table.cell
        rw [List.getElem?_eq_none_iff, hV, hr, hc]; omega
      unfold vertexText
      rw [this]
      cases V.cell n 0 <;> cases V.cell n 1 <;> rfl
    have : (List.range V.rows).mapM (vertexText t V) = none := by
      rw [hr, List.range_succ, List.mapM_append]
      cases (List.range n).mapM (vertexText t V) <;> simp [hlast]
    rw [this]; rfl

/-! ### Names -/

/-- **C117, the name**: `stem.h5` is converted to `stem.OFF` if the name has at most 254 characters; a longer one is stored over the end of
the buffer; a name that does not end with `.h5` is refused. -/
theorem C117_name (path : List Char) :
    (∀ stem : List Char, stem ≠ [] → path = stem ++ ".h5".toList →
      outName path = if path.length ≤ 254 then .name (stem ++ ".OFF".toList) else .overrun) ∧
    ((¬ ∃ stem : List Char, stem ≠ [] ∧ path = stem ++ ".h5".toList) → outName path = .refused) := by
  constructor
  · rintro stem hs rfl
    have hl : 0 < stem.length := List.length_pos_of_ne_nil hs
    have e : (stem ++ ".h5".toList).length = stem.length + 3 := by simp
    have g : ∀ j, (stem ++ ".h5".toList)[stem.length + j]? = (".h5".toList)[j]? := fun j => by
      rw [List.getElem?_append_right (by omega)]; congr 1; omega
    have s2 : ((stem ++ ".h5".toList).set (stem.length + 1) 'O').set (stem.length + 2) 'F' ++ ['F'] = stem ++ ".OFF".toList := by
      rw [List.set_append_right _ _ (by omega), List.set_append_right _ _ (by omega), List.append_assoc]
      congr 1
      rw [show stem.length + 1 - stem.length = 1 by omega, show stem.length + 2 - stem.length = 2 by omega]
      rfl
    unfold outName
    simp only [e]
    rw [show stem.length + 3 - 1 = stem.length + 2 by omega, show stem.length + 3 - 2 = stem.length + 1 by omega,
      show stem.length + 3 - 3 = stem.length + 0 by omega, g, g, g, if_neg, s2]
    · by_cases h : stem.length + 3 ≤ 254
      · rw [if_neg (by omega), if_pos h]
      · rw [if_pos (by omega), if_neg h]
    · rintro (h | h | h | h)
      · omega
      · exact h rfl
      · exact h rfl
      · exact h rfl
  · intro h
    unfold outName
    simp only
    rw [if_pos]
    by_contra hc
    simp only [not_or, not_not, not_le] at hc
    obtain ⟨h1, h2, h3, h4⟩ := hc
    refine h ⟨path.take (path.length - 3), ?_, ?_⟩
    · intro hh
      have := congrArg List.length hh
      rw [List.length_take, List.length_nil] at this
      omega
    · conv_lhs => rw [← List.take_append_drop (path.length - 3) path]
      congr 1
      have hd : (path.drop (path.length - 3)).length = 3 := by rw [List.length_drop]; omega
      have hg : ∀ j, (path.drop (path.length - 3))[j]? = path[path.length - 3 + j]? := fun j => List.getElem?_drop
      apply List.ext_getElem?
      intro j
      match j with
      | 0 => rw [hg, Nat.add_zero, h4]; rfl
      | 1 => rw [hg, show path.length - 3 + 1 = path.length - 2 by omega, h3]; rfl
      | 2 => rw [hg, show path.length - 3 + 2 = path.length - 1 by omega, h2]; rfl
      | k + 3 => rw [List.getElem?_eq_none (by omega), List.getElem?_eq_none (by simp)]

/-- **C117, the names**: different inputs have different outputs, and no output is taken for an input. -/
theorem C117_names {p q : List Char} {s : List Char} (h : outName p = .name s) :
    (outName q = .name s → p = q) ∧ outName s = .refused := by
  have key : ∀ p, outName p = .name s → ∃ stem : List Char, p = stem ++ ".h5".toList ∧ s = stem ++ ".OFF".toList := by
    intro p hp
    by_cases he : ∃ stem : List Char, stem ≠ [] ∧ p = stem ++ ".h5".toList
    · obtain ⟨stem, h1, h2⟩ := he
      have := (C117_name p).1 stem h1 h2
      rw [hp] at this
      split at this
      · exact ⟨stem, h2, OutName.name.inj this⟩
      · simp at this
    · have := (C117_name p).2 he
      rw [hp] at this
      simp at this
  obtain ⟨a, rfl, rfl⟩ := key p h
  constructor
  · intro hq
    obtain ⟨b, rfl, e⟩ := key q hq
    rw [List.append_cancel_right e]
  · refine (C117_name _).2 ?_
    rintro ⟨b, _, e⟩
    have := congrArg List.getLast? e
    simp at this

/-! ### Non-vacuity -/

theorem near_round : Nearest (fun x => round (10 * x)) := fun x => abs_sub_round (10 * x)

/-- Four vertices of a tetrahedron and its triangles. -/
def exV : Table ℚ := ⟨4, 3, [0, 0, 0, 1, 0, 0, 0, 3 / 2, 0, 0, 0, -1 / 4]⟩
/-- Its triangles, with a fourth column. -/
def exF : Table Int := ⟨4, 4, [0, 2, 1, 7, 0, 1, 3, 7, 1, 2, 3, 7, 0, 3, 2, 7]⟩

example : (dump (fun x => round (10 * x)) exV exF).map String.ofList =
    some "OFF\n4 4 0\n\n0.0 0.0 0.0\n1.0 0.0 0.0\n0.0 1.5 0.0\n0.0 0.0 -0.2\n3\t0 2 1\n3\t0 1 3\n3\t1 2 3\n3\t0 3 2\n" := by decide +kernel

example : ∃ text words ps, dump (fun x => round (10 * x)) exV exF = some text ∧
    readOff text = some (words, (List.range exF.rows).map (fun i => [(exF.at i 0).toNat, (exF.at i 1).toNat, (exF.at i 2).toNat])) ∧
    points readDec words = ps ∧ ps.length = 4 := by
  obtain ⟨a, b, c, h1, h2, h3, h4, _⟩ := C117_contents_partial near_round (V := exV) (F := exF) rfl rfl (by decide) (by decide) (by decide)
    (by decide) (by decide)
  exact ⟨a, b, c, h1, h2, h3, h4⟩

/-- The tetrahedron of the tables as a mesh. -/
def exTet : Mesh (Pt ℚ) where
  darts := Finset.range 12
  next d := if d % 3 = 2 then d - 2 else d + 1
  opp d := [4, 9, 7, 10, 0, 6, 5, 2, 11, 1, 3, 8].getD d 0
  face d := d / 3
  vert d := [0, 2, 1, 0, 1, 3, 1, 2, 3, 0, 3, 2].getD d 0
  pos v := point exV v
  nd := 12
  nf := 4
  nv := 4

example : ∃ text N, dump (fun x => round (10 * x)) exV exF = some text ∧ buildRead readDec (readOff text) = some N ∧
    SameUpTo (fun x => (round (10 * x) : ℚ) / 10) exTet N := by
  have hw := Mesh.check_wf (m := exTet) (k := 5) (h0 := 0) (ds := List.range 12) (by decide +kernel)
  refine C117_surface_partial (V := exV) (F := exF) (m := exTet) near_round (facets := [0, 3, 6, 9]) (verts := [0, 1, 2, 3]) rfl rfl (by decide) (by decide) (by decide) hw.1
    ⟨by decide +kernel, by decide +kernel, by decide +kernel⟩ ⟨by decide, fun v => ?_⟩ (by decide) rfl rfl ?_ ?_
  · constructor
    · intro h
      simp only [List.mem_cons, List.not_mem_nil, or_false] at h
      rcases h with rfl | rfl | rfl | rfl
      · exact ⟨0, by decide +kernel, by decide +kernel⟩
      · exact ⟨2, by decide +kernel, by decide +kernel⟩
      · exact ⟨1, by decide +kernel, by decide +kernel⟩
      · exact ⟨5, by decide +kernel, by decide +kernel⟩
    · rintro ⟨d, hd, rfl⟩
      revert d
      decide +kernel
  · intro i v h k
    match i with
    | 0 | 1 | 2 | 3 => injection h with h; subst h; rfl
    | i + 4 => simp at h
  · intro i g h
    match i with
    | 0 | 1 | 2 | 3 => injection h with h; subst h; decide +kernel
    | i + 4 => simp at h

example : outName "data/a.h5".toList = .name "data/a.OFF".toList ∧ outName "data/a.off".toList = .refused ∧ outName ".h5".toList = .refused :=
  ⟨by decide +kernel, by decide +kernel, by decide +kernel⟩

example : ∃ V : Table ℚ, V.Whole ∧ V.cols = 2 ∧ dump (fun x => round (10 * x)) V exF = none :=
  ⟨⟨1, 2, [0, 0]⟩, rfl, rfl, C117_counterexample_shape _ rfl (.inr (.inr rfl))⟩

end TDP.H5
