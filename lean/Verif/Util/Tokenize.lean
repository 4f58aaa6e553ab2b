import Mathlib.Data.List.Basic
import Mathlib.Data.List.SplitOn
/-! C49: `tokenize` (util/util.h:183-265). Strings are lists of characters. -/
namespace TDP.Util

/-- The variables of the loop: `ch` (0 before the first character), `current_quote`, `quoted`, `token`, `result`. -/
structure Tok where
  ch : Char
  cq : Char
  quoted : Bool
  token : List Char
  result : List (List Char)
deriving DecidableEq

/-- One character (util.h:207-255). -/
def tokStep (delims : List Char) (keep : Bool) (quote : List Char) (s : Tok) (c : Char) : Tok :=
  -- 212-228: quotes
  let q : Bool × Char × Bool :=   -- quoted, current_quote, add_char
    if !quote.isEmpty && quote.contains c then
      if !s.quoted then (true, c, false)
      else if s.cq = c then (false, Char.ofNat 0, false)
      else (s.quoted, s.cq, true)
    else (s.quoted, s.cq, true)
  -- 230-237: delimiters
  let complete := !q.1 && delims.contains c
  let add := if complete then false else q.2.2
  let token := if add then s.token ++ [c] else s.token
  -- 246-256: a complete token
  if complete then
    { ch := c, cq := q.2.1, quoted := q.1, token := [], result := if token.isEmpty then (if keep then s.result ++ [[]] else s.result) else s.result ++ [token] }
  else { ch := c, cq := q.2.1, quoted := q.1, token := token, result := s.result }

/-- The final token (util.h:258-263). -/
def finish (delims : List Char) (keep : Bool) (s : Tok) : List (List Char) :=
  if s.token.isEmpty = false then s.result ++ [s.token] else if keep && delims.contains s.ch then s.result ++ [[]] else s.result

/-- `tokenize(str, result, delimiters, keepBlankFields, quote)`: what `result` holds afterwards. -/
def tokenize (str delims : List Char) (keep : Bool) (quote : List Char) : List (List Char) :=
  if delims.isEmpty then []                                   -- 194-195
  else
    finish delims keep (str.foldl (tokStep delims keep quote) { ch := Char.ofNat 0, cq := Char.ofNat 0, quoted := false, token := [], result := [] })

/-! ## Specification -/

/-- The fields of a string between delimiters, blank ones included; nothing for the empty string. -/
def fields (delims str : List Char) : List (List Char) := if str = [] then [] else str.splitOnP (fun c => delims.contains c)

/-! ## Without quote characters -/

theorem tokStep_noquote (delims : List Char) (keep : Bool) (s : Tok) (c : Char) (hq : s.quoted = false) :
    tokStep delims keep [] s c =
      if delims.contains c then { ch := c, cq := s.cq, quoted := false, token := [], result := if s.token.isEmpty then (if keep then s.result ++ [[]] else s.result) else s.result ++ [s.token] }
      else { ch := c, cq := s.cq, quoted := false, token := s.token ++ [c], result := s.result } := by
  unfold tokStep
  by_cases h : delims.contains c = true
  · simp only [List.isEmpty_nil, Bool.not_true, Bool.false_and, Bool.false_eq_true, if_false, hq, Bool.not_false, Bool.true_and, h, if_true]
  · simp only [List.isEmpty_nil, Bool.not_true, Bool.false_and, Bool.false_eq_true, if_false, hq, Bool.not_false, Bool.true_and, h, if_true]

def keepF (keep : Bool) (l : List (List Char)) : List (List Char) := if keep then l else l.filter (fun t => !t.isEmpty)

theorem keepF_append (keep : Bool) (a b : List (List Char)) : keepF keep (a ++ b) = keepF keep a ++ keepF keep b := by
  cases keep <;> simp [keepF]

theorem keepF_single (keep : Bool) (t : List Char) : keepF keep [t] = if t.isEmpty then (if keep then [[]] else []) else [t] := by
  cases keep <;> cases t <;> simp [keepF]

theorem modifyHead_nil (l : List (List Char)) : l.modifyHead (([] : List Char) ++ ·) = l := by cases l <;> simp [List.modifyHead]

theorem finish_eq (delims : List Char) (keep : Bool) (s : Tok) (hc : s.token = [] → delims.contains s.ch = true) :
    finish delims keep s = s.result ++ keepF keep [s.token] := by
  unfold finish
  by_cases ht : s.token = []
  · rw [if_neg (by simp [ht]), hc ht, ht]
    cases keep <;> simp [keepF]
  · rw [if_pos (by simp [ht]), keepF_single, if_neg (by simp [ht])]

theorem fold_noquote (delims : List Char) (keep : Bool) (str : List Char) : ∀ (s : Tok), s.quoted = false →
    (s.token = [] → delims.contains s.ch = true) →
    finish delims keep (str.foldl (tokStep delims keep []) s) =
      s.result ++ keepF keep ((str.splitOnP (fun c => delims.contains c)).modifyHead (s.token ++ ·)) := by
  induction str with
  | nil =>
    intro s hq hc
    rw [List.foldl_nil, finish_eq _ _ _ hc]
    simp [List.modifyHead]
  | cons c str ih =>
    intro s hq hc
    rw [List.foldl_cons, tokStep_noquote _ _ _ _ hq, List.splitOnP_cons_eq_if_modifyHead]
    by_cases h : delims.contains c = true
    · rw [if_pos h, if_pos h, ih _ rfl (fun _ => h), modifyHead_nil]
      have : ([] :: List.splitOnP (fun c => delims.contains c) str).modifyHead (s.token ++ ·) = [s.token] ++ List.splitOnP (fun c => delims.contains c) str := by
        simp [List.modifyHead]
      rw [this, keepF_append, keepF_single, ← List.append_assoc]
      congr 1
      by_cases ht : s.token.isEmpty = true
      · rw [if_pos ht]
        cases keep <;> simp [ht]
      · rw [if_neg ht]; simp [ht]
    · rw [if_neg h, if_neg h, ih _ rfl (fun hh => by simp at hh)]
      congr 2
      cases List.splitOnP (fun c => delims.contains c) str <;> simp [List.modifyHead]

/-- C49. With delimiters, without quote characters and keeping blank fields, the result is the list of fields. With
delimiters that hold the zero character the empty string counts as ending in a delimiter; that case is excluded. -/
theorem C49_fields (str delims : List Char) (hd : delims ≠ []) (h0 : Char.ofNat 0 ∉ delims) : tokenize str delims true [] = fields delims str := by
  have hd' : delims.isEmpty = false := by simp [hd]
  unfold tokenize fields
  rw [hd', if_neg (by simp)]
  cases str with
  | nil => simp [finish, h0]
  | cons c str =>
    rw [if_neg (by simp), List.foldl_cons, tokStep_noquote _ _ _ _ rfl, List.splitOnP_cons_eq_if_modifyHead]
    by_cases hc : delims.contains c = true
    · rw [if_pos hc, if_pos hc, fold_noquote _ _ _ _ rfl (fun _ => hc), modifyHead_nil]
      simp [keepF]
    · rw [if_neg hc, if_neg hc, fold_noquote _ _ _ _ rfl (fun hh => by simp at hh)]
      simp [keepF]

theorem foldF_ch (delims : List Char) (str : List Char) (s : Tok) (ch : Char) (quote : List Char) :
    finish delims false (str.foldl (tokStep delims false quote) s) = finish delims false (str.foldl (tokStep delims false quote) { s with ch := ch }) := by
  cases str with
  | nil => simp [finish]
  | cons c str => rfl

/-- C49. Without quote characters and blank fields, the result is the list of non-blank fields (no exception). -/
theorem C49_nonblank (str delims : List Char) (hd : delims ≠ []) :
    tokenize str delims false [] = (fields delims str).filter (fun t => !t.isEmpty) := by
  have hd' : delims.isEmpty = false := by simp [hd]
  obtain ⟨d, ds, rfl⟩ : ∃ d ds, delims = d :: ds := by cases delims with
    | nil => exact absurd rfl hd
    | cons d ds => exact ⟨d, ds, rfl⟩
  have hf := fold_noquote (d :: ds) false str { ch := d, cq := Char.ofNat 0, quoted := false, token := [], result := [] } rfl (fun _ => by simp)
  have e := foldF_ch (d :: ds) str { ch := Char.ofNat 0, cq := Char.ofNat 0, quoted := false, token := [], result := [] } d []
  unfold tokenize
  rw [hd', if_neg (by simp)]
  have : finish (d :: ds) false (str.foldl (tokStep (d :: ds) false []) { ch := Char.ofNat 0, cq := Char.ofNat 0, quoted := false, token := [], result := [] }) =
      (fields (d :: ds) str).filter (fun t => !t.isEmpty) := by
    rw [e, hf]
    unfold fields keepF
    rw [List.nil_append]
    by_cases hs : str = []
    · subst hs; simp
    · rw [if_neg hs]
      simp only [Bool.false_eq_true, if_false]
      congr 1
      cases List.splitOnP (fun c => (d :: ds).contains c) str <;> simp [List.modifyHead]
  exact this

/-- What `splitOnP` keeps: joined, the fields give all characters that are not delimiters, in order. -/
theorem splitOnP_flatten (p : Char → Bool) (l : List Char) : (l.splitOnP p).flatten = l.filter (fun c => !p c) ∧ ∀ t ∈ l.splitOnP p, ∀ c ∈ t, p c = false := by
  induction l with
  | nil => simp
  | cons a l ih =>
    rw [List.splitOnP_cons_eq_if_modifyHead]
    by_cases h : p a = true
    · rw [if_pos h]
      refine ⟨by simp [ih.1, h], fun t ht => ?_⟩
      rcases List.mem_cons.1 ht with rfl | ht
      · intro c hc; exact absurd hc (by simp)
      · exact ih.2 t ht
    · rw [if_neg h]
      have hne := List.splitOnP_ne_nil p l
      cases hl : List.splitOnP p l with
      | nil => exact absurd hl hne
      | cons x xs =>
        rw [hl] at ih
        have h' : p a = false := by simpa using h
        refine ⟨?_, fun t ht => ?_⟩
        · rw [List.filter_cons, if_pos (by simp [h']), ← ih.1]
          simp [List.modifyHead]
        · rcases List.mem_cons.1 ht with rfl | ht
          · intro c hc
            rcases List.mem_cons.1 hc with rfl | hc
            · exact h'
            · exact ih.2 x (List.mem_cons_self ..) c hc
          · exact ih.2 t (List.mem_cons_of_mem _ ht)

/-- C49. Without quote characters, for both settings of `keepBlankFields`: no returned token holds a delimiter, the
tokens together hold every other character of the string, in order, and blank tokens appear only on request. -/
theorem C49_characters (str delims : List Char) (keep : Bool) (hd : delims ≠ []) (h0 : Char.ofNat 0 ∉ delims) :
    (∀ t ∈ tokenize str delims keep [], ∀ c ∈ t, c ∉ delims) ∧
    (tokenize str delims keep []).flatten = str.filter (fun c => decide (c ∉ delims)) ∧
    (keep = false → ∀ t ∈ tokenize str delims keep [], t ≠ []) := by
  have key : ∀ t ∈ fields delims str, ∀ c ∈ t, c ∉ delims := by
    intro t ht c hc
    unfold fields at ht
    by_cases hs : str = []
    · rw [if_pos hs] at ht; exact absurd ht (by simp)
    · rw [if_neg hs] at ht
      have := (splitOnP_flatten _ _).2 t ht c hc
      simpa using this
  have kf : (fields delims str).flatten = str.filter (fun c => decide (c ∉ delims)) := by
    unfold fields
    by_cases hs : str = []
    · subst hs; simp
    · rw [if_neg hs, (splitOnP_flatten _ _).1]
      congr 1
      funext c
      simp
  cases keep with
  | true =>
    rw [C49_fields str delims hd h0]
    exact ⟨key, kf, fun hh => by simp at hh⟩
  | false =>
    rw [C49_nonblank str delims hd]
    refine ⟨fun t ht => key t (List.mem_filter.1 ht).1, ?_, fun _ t ht => by simpa using (List.mem_filter.1 ht).2⟩
    rw [← kf]
    generalize fields delims str = f
    induction f with
    | nil => rfl
    | cons t f ih =>
      rw [List.filter_cons]
      cases t with
      | nil => simpa using ih
      | cons c t => simp [ih]

/-! ## With quote characters -/

/-- Specification: reading with quotes. Every character is a separator (`none`), kept (`some [c]`) or a quote mark that is
dropped (`some []`); `q` is the open quote mark, if any. -/
def marks (delims quote : List Char) : Option Char → List Char → List (Option (List Char))
  | _, [] => []
  | none, c :: str => if c ∈ quote then some [] :: marks delims quote (some c) str
      else if c ∈ delims then none :: marks delims quote none str else some [c] :: marks delims quote none str
  | some q, c :: str => if c = q then some [] :: marks delims quote none str else some [c] :: marks delims quote (some q) str

/-- The text between separators. -/
def between : List Char → List (Option (List Char)) → List (List Char)
  | t, [] => [t]
  | t, none :: l => t :: between [] l
  | t, some x :: l => between (t ++ x) l

def qOf (s : Tok) : Option Char := if s.quoted then some s.cq else none

theorem fold_quote (delims quote : List Char) (hdisj : ∀ c ∈ quote, c ∉ delims) (str : List Char) : ∀ (s : Tok), (s.quoted = true → s.cq ∈ quote) →
    finish delims false (str.foldl (tokStep delims false quote) s) =
      s.result ++ (between s.token (marks delims quote (qOf s) str)).filter (fun t => !t.isEmpty) := by
  induction str with
  | nil =>
    intro s hs
    simp only [List.foldl_nil, finish, marks, between, Bool.false_and, Bool.false_eq_true, if_false]
    cases s.token <;> simp
  | cons c str ih =>
    intro s hs
    rw [List.foldl_cons]
    obtain ⟨ch, cq, quoted, token, result⟩ := s
    simp only at hs
    cases quoted with
    | false =>
      by_cases hc : c ∈ quote
      · have hqe : quote.isEmpty = false := by cases quote with
          | nil => exact absurd hc (by simp)
          | cons _ _ => rfl
        have : tokStep delims false quote ⟨ch, cq, false, token, result⟩ c = ⟨c, c, true, token, result⟩ := by
          simp [tokStep, hqe, hc]
        rw [this, ih _ (fun _ => hc)]
        simp [qOf, marks, hc, between]
      · by_cases hd : c ∈ delims
        · have : tokStep delims false quote ⟨ch, cq, false, token, result⟩ c =
              ⟨c, cq, false, [], if token.isEmpty then result else result ++ [token]⟩ := by
            simp [tokStep, hc, hd]
          rw [this, ih _ (fun hh => by simp at hh)]
          simp only [qOf, Bool.false_eq_true, if_false, marks, hc, hd, if_true, between]
          cases token <;> simp
        · have : tokStep delims false quote ⟨ch, cq, false, token, result⟩ c = ⟨c, cq, false, token ++ [c], result⟩ := by
            simp [tokStep, hc, hd]
          rw [this, ih _ (fun hh => by simp at hh)]
          simp [qOf, marks, hc, hd, between]
    | true =>
      have hcq := hs rfl
      by_cases hc : c = cq
      · subst hc
        have hqe : quote.isEmpty = false := by cases quote with
          | nil => exact absurd hcq (by simp)
          | cons _ _ => rfl
        have : tokStep delims false quote ⟨ch, c, true, token, result⟩ c = ⟨c, Char.ofNat 0, false, token, result⟩ := by
          simp [tokStep, hqe, hcq, hdisj c hcq]
        rw [this, ih _ (fun hh => by simp at hh)]
        simp [qOf, marks, between]
      · have : tokStep delims false quote ⟨ch, cq, true, token, result⟩ c = ⟨c, cq, true, token ++ [c], result⟩ := by
          by_cases hq : c ∈ quote
          · have hqe : quote.isEmpty = false := by cases quote with
              | nil => exact absurd hq (by simp)
              | cons _ _ => rfl
            simp [tokStep, hqe, hq, Ne.symm hc]
          · simp [tokStep, hq]
        rw [this, ih _ (fun _ => hcq)]
        simp [qOf, marks, hc, between]

/-- C49. With quote characters (none of them a delimiter), without blank fields: quoted text loses its quote marks and is
never split; the result is the list of non-blank fields. -/
theorem C49_quoted (str delims quote : List Char) (hd : delims ≠ []) (hdisj : ∀ c ∈ quote, c ∉ delims) :
    tokenize str delims false quote = (between [] (marks delims quote none str)).filter (fun t => !t.isEmpty) := by
  have hd' : delims.isEmpty = false := by simp [hd]
  unfold tokenize
  rw [hd', if_neg (by simp)]
  exact fold_quote delims quote hdisj str ⟨Char.ofNat 0, Char.ofNat 0, false, [], []⟩ (fun hh => by simp at hh)

/-- A quoted delimiter is kept; a blank quoted last field is lost even with `keepBlankFields`. -/
example : tokenize "a 'b c' d".toList " ".toList false "'".toList = ["a".toList, "b c".toList, "d".toList] := by decide +kernel
example : tokenize "a,,b,".toList ",".toList true [] = ["a".toList, [], "b".toList, []] := by decide +kernel
example : ",".toList ≠ [] ∧ Char.ofNat 0 ∉ ",".toList := by decide +kernel
theorem C49_blank_quoted_lost : tokenize "a,''".toList ",".toList true "'".toList = ["a".toList] := by decide +kernel

end TDP.Util
