import Mathlib.Data.List.Basic
import Mathlib.Tactic.Linarith
/-!
# The text of an object on its way into the mesh
(src/spatial/spatial_common.cpp:99-127, 131-135, src/PPMC/mymesh.cpp:53-55)

`get_mesh` copies the characters of the line, without the terminating NUL, into a block of exactly that many bytes, and the
constructor of the mesh reads the block as a C string: it goes on into whatever the heap holds behind the block.
-/
namespace TDP.Text

/-- `boost::replace_all(input_line, "|", "\n")` (spatial_common.cpp:104). -/
def bar (c : Char) : Char := if c = '|' then '\n' else c

/-- `get_mesh` (spatial_common.cpp:100-112) and `is.str(data)` (mymesh.cpp:53-54): the text the stream holds, or `none` if
`get_mesh` returns NULL. `heap` is what follows the block in memory: any characters (a C string ends at the first NUL; a heap
without any NUL is cut at its end here). -/
def streamText (replace : Bool) (line heap : List Char) : Option (List Char) :=
  if line = [] then none
  else some (((if replace then line.map bar else line) ++ heap).takeWhile (fun c => c != Char.ofNat 0))

/-- Characters skipped by `>>`. -/
def isSpace (c : Char) : Bool := c = ' ' || c = '\n' || c = '\t' || c = '\r' || c = Char.ofNat 11 || c = Char.ofNat 12

/-- One formatted read: skip white space, take characters up to the next white space or the end; fails when nothing is left.
(A number is read as a whole word here; `>>` also stops in front of a character that cannot continue the number.) -/
def word (s : List Char) : Option (List Char × List Char) :=
  let s := s.dropWhile isSpace
  if s = [] then none else some (s.takeWhile (fun c => !isSpace c), s.dropWhile (fun c => !isSpace c))

/-- A count or an index: decimal digits. -/
def natOf (w : List Char) : Option Nat :=
  if w ≠ [] ∧ w.all Char.isDigit then some (w.foldl (fun n c => 10 * n + (c.toNat - 48)) 0) else none

/-- `n` words. -/
def wordsN : Nat → List Char → Option (List (List Char) × List Char)
  | 0, s => some ([], s)
  | n + 1, s => do
    let (w, s) ← word s
    let (ws, s) ← wordsN n s
    some (w :: ws, s)

/-- One facet: its number of corners and their indices. -/
def readFacet (s : List Char) : Option (List Nat × List Char) := do
  let (w, s) ← word s
  let k ← natOf w
  let (ws, s) ← wordsN k s
  let is ← ws.mapM natOf
  some (is, s)

/-- `n` facets. -/
def readFacets : Nat → List Char → Option (List (List Nat) × List Char)
  | 0, s => some ([], s)
  | n + 1, s => do
    let (f, s) ← readFacet s
    let (fs, s) ← readFacets n s
    some (f :: fs, s)

/-- `is >> *this` (mymesh.cpp:55): the OFF reader of CGAL reads the word `OFF`, the three counts, the coordinates and the facets,
and nothing behind them. The coordinates are kept as words. Comments and the optional variants of the format are left out. -/
def readOff (s : List Char) : Option (List (List Char) × List (List Nat)) := do
  let (h, s) ← word s
  if h ≠ "OFF".toList then none
  let (a, s) ← word s
  let nv ← natOf a
  let (b, s) ← word s
  let nf ← natOf b
  let (_, s) ← word s
  let (ps, s) ← wordsN (3 * nv) s
  let (fs, _) ← readFacets nf s
  some (ps, fs)

/-- The object `get_mesh` builds from a line with this heap behind its copy; `none`: NULL, or a stream in failed state. -/
def getMesh (replace : Bool) (line heap : List Char) : Option (List (List Char) × List (List Nat)) :=
  (streamText replace line heap).bind readOff

/-! ### Specification -/

/-- Words separated by white space: the text is `ws` with non-empty white space behind every word (and possibly in front). -/
inductive Words : List Char → List (List Char) → Prop
  | nil (sp : List Char) (h : ∀ c ∈ sp, isSpace c = true) : Words sp []
  | cons (sp w : List Char) (c : Char) (s : List Char) (ws : List (List Char)) (hsp : ∀ c ∈ sp, isSpace c = true) (hw : w ≠ [])
      (hns : ∀ c ∈ w, isSpace c = false) (hc : isSpace c = true) (hs : Words s ws) : Words (sp ++ w ++ c :: s) (w :: ws)

/-- The words of a facet: the number of its corners, then that many indices. -/
def FacetWords (ws : List (List Char)) (f : List Nat) : Prop := (ws.map natOf) = some f.length :: f.map some

/-- The words announce this object: header, counts, three coordinates per vertex, the facets, and anything behind. -/
def Announces (ws : List (List Char)) (ps : List (List Char)) (fs : List (List Nat)) : Prop :=
  ∃ a b c fws rest, ws = "OFF".toList :: a :: b :: c :: (ps ++ fws.flatten ++ rest) ∧ 3 * (natOf a).getD 0 = ps.length ∧
    natOf a ≠ none ∧ natOf b = some fs.length ∧ List.Forall₂ FacetWords fws fs

/-! ### Reading words -/

theorem takeWhile_word (w : List Char) (c : Char) (s : List Char) (hns : ∀ c ∈ w, isSpace c = false) (hc : isSpace c = true) :
    (w ++ c :: s).takeWhile (fun c => !isSpace c) = w ∧ (w ++ c :: s).dropWhile (fun c => !isSpace c) = c :: s := by
  induction w with
  | nil => simp [hc]
  | cons x w ih =>
    have := ih (fun c h => hns c (List.mem_cons_of_mem _ h))
    simp [hns x List.mem_cons_self, this.1, this.2]

theorem dropWhile_space (sp s : List Char) (h : ∀ c ∈ sp, isSpace c = true) :
    (sp ++ s).dropWhile isSpace = s.dropWhile isSpace := by
  induction sp with
  | nil => rfl
  | cons x sp ih => simp [h x List.mem_cons_self, ih (fun c hc => h c (List.mem_cons_of_mem _ hc))]

theorem word_cons (sp w : List Char) (c : Char) (s : List Char) (hsp : ∀ c ∈ sp, isSpace c = true) (hw : w ≠ [])
    (hns : ∀ c ∈ w, isSpace c = false) (hc : isSpace c = true) : word (sp ++ w ++ c :: s) = some (w, c :: s) := by
  unfold word
  simp only [List.append_assoc]
  rw [dropWhile_space sp _ hsp]
  have h1 : (w ++ c :: s).dropWhile isSpace = w ++ c :: s := by
    cases w with
    | nil => exact absurd rfl hw
    | cons x w => simp [hns x List.mem_cons_self]
  rw [h1, if_neg (by simp), (takeWhile_word w c s hns hc).1, (takeWhile_word w c s hns hc).2]

/-- The rest of the text after its first words. -/
def Rest (s : List Char) (ws : List (List Char)) (junk : List Char) : Prop := ∃ t, s = t ++ junk ∧ Words t ws

theorem Words.sep {c : Char} (hc : isSpace c = true) {s : List Char} {ws : List (List Char)} (h : Words s ws) : Words (c :: s) ws := by
  cases h with
  | nil sp h => exact .nil _ (by intro x hx; rcases List.mem_cons.mp hx with rfl | hx; exacts [hc, h x hx])
  | cons sp w d s ws hsp hw hns hd hs =>
    have := Words.cons (c :: sp) w d s ws (by intro x hx; rcases List.mem_cons.mp hx with rfl | hx; exacts [hc, hsp x hx]) hw hns hd hs
    simpa using this

theorem word_rest {s junk : List Char} {w : List Char} {ws : List (List Char)} (h : Rest s (w :: ws) junk) :
    ∃ s', word s = some (w, s') ∧ Rest s' ws junk := by
  obtain ⟨t, rfl, ht⟩ := h
  cases ht with
  | cons sp w c t ws hsp hw hns hc hs =>
    refine ⟨c :: t ++ junk, ?_, c :: t, rfl, hs.sep hc⟩
    have := word_cons sp w c (t ++ junk) hsp hw hns hc
    simpa using this

theorem wordsN_rest (vs : List (List Char)) : ∀ {s junk : List Char} {ws : List (List Char)}, Rest s (vs ++ ws) junk →
    ∃ s', wordsN vs.length s = some (vs, s') ∧ Rest s' ws junk := by
  induction vs with
  | nil => intro s junk ws h; exact ⟨s, rfl, h⟩
  | cons v vs ih =>
    intro s junk ws h
    obtain ⟨s1, h1, r1⟩ := word_rest h
    obtain ⟨s2, h2, r2⟩ := ih r1
    exact ⟨s2, by simp [wordsN, h1, h2], r2⟩

theorem mapM_natOf (ws : List (List Char)) (f : List Nat) (h : ws.map natOf = f.map some) : ws.mapM natOf = some f := by
  induction ws generalizing f with
  | nil => cases f with
    | nil => rfl
    | cons x f => simp at h
  | cons w ws ih =>
    cases f with
    | nil => simp at h
    | cons x f =>
      simp only [List.map_cons, List.cons.injEq] at h
      simp [h.1, ih f h.2]

theorem readFacet_rest {fw : List (List Char)} {f : List Nat} (hf : FacetWords fw f) {s junk : List Char} {ws : List (List Char)}
    (h : Rest s (fw ++ ws) junk) : ∃ s', readFacet s = some (f, s') ∧ Rest s' ws junk := by
  cases fw with
  | nil => simp [FacetWords] at hf
  | cons k fw =>
    simp only [FacetWords, List.map_cons, List.cons.injEq] at hf
    have hl : fw.length = f.length := by simpa using congrArg List.length hf.2
    obtain ⟨s1, h1, r1⟩ := word_rest h
    obtain ⟨s2, h2, r2⟩ := wordsN_rest fw r1
    rw [hl] at h2
    exact ⟨s2, by simp [readFacet, h1, hf.1, h2, mapM_natOf fw f hf.2], r2⟩

theorem readFacets_rest {fws : List (List (List Char))} {fs : List (List Nat)} (hf : List.Forall₂ FacetWords fws fs) :
    ∀ {s junk : List Char} {ws : List (List Char)}, Rest s (fws.flatten ++ ws) junk → ∃ s', readFacets fs.length s = some (fs, s') := by
  induction hf with
  | nil => intro s junk ws _; exact ⟨s, rfl⟩
  | cons hf _ ih =>
    intro s junk ws h
    rw [List.flatten_cons, List.append_assoc] at h
    obtain ⟨s1, h1, r1⟩ := readFacet_rest hf h
    obtain ⟨s2, h2⟩ := ih r1
    exact ⟨s2, by simp [readFacets, h1, h2]⟩

theorem readOff_rest {ws ps : List (List Char)} {fs : List (List Nat)} (ha : Announces ws ps fs) {s junk : List Char}
    (h : Rest s ws junk) : readOff s = some (ps, fs) := by
  obtain ⟨a, b, c, fws, rest, rfl, h1, h2, h3, h4⟩ := ha
  obtain ⟨s1, e1, r1⟩ := word_rest h
  obtain ⟨s2, e2, r2⟩ := word_rest r1
  obtain ⟨s3, e3, r3⟩ := word_rest r2
  obtain ⟨s4, e4, r4⟩ := word_rest r3
  rw [List.append_assoc] at r4
  obtain ⟨s5, e5, r5⟩ := wordsN_rest ps r4
  obtain ⟨s6, e6⟩ := readFacets_rest h4 r5
  obtain ⟨nv, hv⟩ := Option.ne_none_iff_exists'.mp h2
  rw [hv, Option.getD_some] at h1
  rw [← h1] at e5
  simp [readOff, e1, e2, hv, e3, h3, e4, e5, e6]

theorem takeWhile_append_all {p : Char → Bool} (s t : List Char) (h : ∀ c ∈ s, p c = true) :
    (s ++ t).takeWhile p = s ++ t.takeWhile p := by
  induction s with
  | nil => rfl
  | cons x s ih => simp [h x List.mem_cons_self, ih (fun c hc => h c (List.mem_cons_of_mem _ hc))]

/-- C89 (partial: every word of the line, the last one too, must be followed by white space or a bar). Whatever the heap holds
behind the copy, the mesh is built from the words of the line alone. -/
theorem C89_text_partial (line heap : List Char) (ws ps : List (List Char)) (fs : List (List Nat))
    (h0 : ∀ c ∈ line, c ≠ Char.ofNat 0) (hw : Words (line.map fun c => if c = '|' then '\n' else c) ws) (ha : Announces ws ps fs) :
    getMesh true line heap = some (ps, fs) := by
  have hne : line ≠ [] := by
    rintro rfl
    obtain ⟨a, b, c, fws, rest, rfl, _⟩ := ha
    rw [List.map_nil] at hw
    generalize hx : ([] : List Char) = x at hw
    cases hw with
    | cons sp w c s ws hsp hw' hns hc hs => simp at hx
  unfold getMesh streamText
  rw [if_neg hne, if_pos rfl, Option.bind_some]
  refine readOff_rest ha (junk := heap.takeWhile (fun c => c != Char.ofNat 0)) ⟨_, ?_, hw⟩
  rw [takeWhile_append_all]
  · rfl
  · intro c hc
    obtain ⟨d, hd, rfl⟩ := List.mem_map.mp hc
    unfold bar
    by_cases hb : d = '|'
    · rw [if_pos hb]; decide
    · rw [if_neg hb]; simpa using h0 d hd

/-- C89 (partial: the heap behind the copy begins with a NUL). Then the line is read as it is, however it ends; nothing is
assumed about its contents. -/
theorem C89_text_nul_partial (replace : Bool) (line heap : List Char) (h0 : ∀ c ∈ line, c ≠ Char.ofNat 0) (hl : line ≠ []) :
    streamText replace line (Char.ofNat 0 :: heap) = some (if replace then line.map (fun c => if c = '|' then '\n' else c) else line) := by
  unfold streamText
  rw [if_neg hl, takeWhile_append_all]
  · simp only [List.takeWhile_cons, bne_self_eq_false, Bool.false_eq_true, if_false, List.append_nil]; rfl
  · intro c hc
    cases replace with
    | false => simpa using h0 c hc
    | true =>
      obtain ⟨d, hd, rfl⟩ := List.mem_map.mp hc
      unfold bar
      by_cases hb : d = '|'
      · rw [if_pos hb]; decide
      · rw [if_neg hb]; simpa using h0 d hd

/-- A tetrahedron, its line ending with the last index. -/
def exLine : List Char := "OFF|4 4 0|0 0 0|1 0 0|0 1 0|0 0 1|3 0 2 1|3 0 1 3|3 1 2 3|3 0 3 2".toList

/-- C89 is false without the separator behind the last word: the same line names vertex 2 or vertex 27 in its last facet,
depending on what happens to be in memory; and an empty line gives no mesh. -/
theorem C89_counterexample :
    ((getMesh true exLine [Char.ofNat 0]).map (·.2) = some [[0, 2, 1], [0, 1, 3], [1, 2, 3], [0, 3, 2]]) ∧
    ((getMesh true exLine ['7', Char.ofNat 0]).map (·.2) = some [[0, 2, 1], [0, 1, 3], [1, 2, 3], [0, 3, 27]]) ∧
    (∀ heap, getMesh true [] heap = none) := by
  refine ⟨by decide +kernel, by decide +kernel, fun _ => rfl⟩

/-- The words of a text, as a check for the example: split at white space. -/
theorem words_of (s : List Char) (c : Char) (hc : isSpace c = true) : ∃ ws, Words (s ++ [c]) ws := by
  have key : ∀ n (s : List Char), s.length = n → ∀ pre : List Char, (∀ c ∈ pre, isSpace c = false) → ∃ ws, Words (pre ++ (s ++ [c])) ws := by
    intro n
    induction n with
    | zero =>
      intro s hs pre hp
      obtain rfl := List.length_eq_zero_iff.mp hs
      by_cases h : pre = []
      · subst h; exact ⟨[], .nil _ (by simpa using hc)⟩
      · exact ⟨[pre], by simpa using Words.cons [] pre c [] [] (by simp) h hp hc (.nil [] (by simp))⟩
    | succ n ih =>
      intro s hs pre hp
      cases s with
      | nil => simp at hs
      | cons x s =>
        by_cases hx : isSpace x = true
        · obtain ⟨ws, hws⟩ := ih s (by simpa using hs) [] (by simp)
          by_cases h : pre = []
          · subst h; exact ⟨ws, by simpa using hws.sep hx⟩
          · exact ⟨pre :: ws, by simpa using Words.cons [] pre x (s ++ [c]) ws (by simp) h hp hx (by simpa using hws)⟩
        · obtain ⟨ws, hws⟩ := ih s (by simpa using hs) (pre ++ [x]) (by
            intro d hd
            rcases List.mem_append.mp hd with hd | hd
            · exact hp d hd
            · simp at hd; subst hd; simpa using hx)
          exact ⟨ws, by simpa using hws⟩
  simpa using key _ s rfl [] (by simp)

/-- The hypotheses of `C89_text_partial` are met by the tetrahedron with a bar at the end of its line. -/
example : ∃ ws ps fs, Words ((exLine ++ ['|']).map fun c => if c = '|' then '\n' else c) ws ∧ Announces ws ps fs ∧
    fs = [[0, 2, 1], [0, 1, 3], [1, 2, 3], [0, 3, 2]] := by
  obtain ⟨ws, hws⟩ := words_of (exLine.map fun c => if c = '|' then '\n' else c) '\n' rfl
  have hl : (exLine ++ ['|']).map (fun c => if c = '|' then '\n' else c) = (exLine.map fun c => if c = '|' then '\n' else c) ++ ['\n'] := by
    simp
  rw [← hl] at hws
  -- the words are those `wordsN` finds
  have hread : ∀ n vs t, wordsN n ((exLine ++ ['|']).map fun c => if c = '|' then '\n' else c) = some (vs, t) → n ≤ ws.length → vs = ws.take n := by
    intro n vs t hv hn
    obtain ⟨t', h, _⟩ := wordsN_rest (ws.take n) (s := (exLine ++ ['|']).map fun c => if c = '|' then '\n' else c) (junk := [])
      (ws := ws.drop n) ⟨_, (List.append_nil _).symm, by rwa [List.take_append_drop]⟩
    rw [List.length_take, Nat.min_eq_left hn, hv] at h
    simpa using congrArg (fun o => o.map Prod.fst) h
  have hlen : 32 ≤ ws.length := by
    by_contra hlt
    obtain ⟨t', h, t, ht, r⟩ := wordsN_rest ws (s := (exLine ++ ['|']).map fun c => if c = '|' then '\n' else c) (junk := []) (ws := [])
      ⟨_, (List.append_nil _).symm, by simpa using hws⟩
    have hsp : word t' = none := by
      rw [ht]
      generalize hz : ([] : List (List Char)) = z at r
      cases r with
      | nil sp hsp =>
        unfold word
        rw [dropWhile_space t [] hsp]; rfl
      | cons => simp at hz
    have : ∀ k, k < 32 → (wordsN k ((exLine ++ ['|']).map fun c => if c = '|' then '\n' else c)).any (fun x => (word x.2).isSome) = true := by
      decide +kernel
    have := this ws.length (by omega)
    rw [h] at this
    simp [hsp] at this
  have h32 : ∃ t, wordsN 32 ((exLine ++ ['|']).map fun c => if c = '|' then '\n' else c) = some
      (["OFF", "4", "4", "0", "0", "0", "0", "1", "0", "0", "0", "1", "0", "0", "0", "1", "3", "0", "2", "1", "3", "0", "1", "3", "3", "1", "2", "3",
        "3", "0", "3", "2"].map String.toList, t) := ⟨['\n'], by decide +kernel⟩
  obtain ⟨t, h32⟩ := h32
  have hw := hread 32 _ t h32 hlen
  refine ⟨ws, (["0", "0", "0", "1", "0", "0", "0", "1", "0", "0", "0", "1"].map String.toList), _, hws, ?_, rfl⟩
  refine ⟨"4".toList, "4".toList, "0".toList,
    [["3", "0", "2", "1"], ["3", "0", "1", "3"], ["3", "1", "2", "3"], ["3", "0", "3", "2"]].map (·.map String.toList), ws.drop 32, ?_, ?_, ?_, ?_, ?_⟩
  · conv_lhs => rw [← List.take_append_drop 32 ws, ← hw]
    rfl
  · decide +kernel
  · decide +kernel
  · decide +kernel
  · refine .cons ?_ (.cons ?_ (.cons ?_ (.cons ?_ .nil))) <;> (unfold FacetWords; decide +kernel)

end TDP.Text
