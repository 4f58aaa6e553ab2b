import Mathlib.Data.List.Nodup
import Mathlib.Data.List.Basic
/-!
# C120: the files below a directory (src/util/util.h:107-139)

Paths are their characters. A file system is what `stat`, `opendir` and `readdir` answer, and does not change meanwhile.
-/
namespace TDP.Files

/-- `stat`: `none` if it fails (a broken link, too many links, no permission), else whether the path is a regular file. `entries`: the names
`readdir` gives, in its order, `.` and `..` among them; `none` if `opendir` fails. -/
structure FS where
  stat : List Char → Option Bool
  entries : List Char → Option (List (List Char))

/-- The entry `..` or `.` (util.h:129-130). -/
def isDots (e : List Char) : Bool := e = "..".toList || e = ".".toList

/-- `ss<<path<<"/"<<ent->d_name` (util.h:133-134). -/
def join (path e : List Char) : List Char := path ++ '/' :: e

/-- `list_files` (util.h:119-139); `acc` is `f_list`. `is_file` (util.h:113-117) uses what `stat` did not set if it fails: `none`. `fuel` bounds the depth. -/
def listFiles (fs : FS) : Nat → List Char → List (List Char) → Option (List (List Char))
  | 0, _, _ => none
  | fuel + 1, path, acc =>
    match fs.stat path with
    | none => none
    | some true => some (acc ++ [path])
    | some false =>
      match fs.entries path with
      | none => some acc
      | some es => es.foldlM (fun acc e => if isDots e then some acc else listFiles fs fuel (join path e) acc) acc

/-! ### Specification -/

/-- `p/e` for an entry `e` of the directory `p` other than `.` and `..`. -/
def Child (fs : FS) (p q : List Char) : Prop :=
  fs.stat p = some false ∧ ∃ es e, fs.entries p = some es ∧ e ∈ es ∧ e ≠ ['.', '.'] ∧ e ≠ ['.'] ∧ q = p ++ ['/'] ++ e

/-- The path itself, and everything in the directories below it. -/
inductive Below (fs : FS) : List Char → List Char → Prop
  | refl (p) : Below fs p p
  | step {p q r} : Child fs p q → Below fs q r → Below fs p r

/-- No endless descent. -/
inductive Finite (fs : FS) : List Char → Prop
  | mk {p} : (∀ q, Child fs p q → Finite fs q) → Finite fs p

/-- A file system as systems have them, from a path on: `stat` succeeds, names in a directory are different and without slashes. -/
def Sane (fs : FS) (path : List Char) : Prop :=
  ∀ q, Below fs path q → fs.stat q ≠ none ∧ ∀ es, fs.entries q = some es → es.Nodup ∧ ∀ e ∈ es, '/' ∉ e

/-! ### Proofs -/

theorem isDots_iff (e : List Char) : isDots e = false ↔ e ≠ ['.', '.'] ∧ e ≠ ['.'] := by
  unfold isDots
  simp

theorem below_prefix {fs : FS} {p q : List Char} (h : Below fs p q) : q = p ∨ ∃ r, q = p ++ '/' :: r := by
  induction h with
  | refl => exact Or.inl rfl
  | step hc _ ih =>
    obtain ⟨_, es, e, _, _, _, _, rfl⟩ := hc
    right
    rcases ih with rfl | ⟨r, rfl⟩
    · exact ⟨e, by simp⟩
    · exact ⟨e ++ '/' :: r, by simp⟩

theorem cut_eq : ∀ {e e' s s' : List Char}, '/' ∉ e → '/' ∉ e' → (s = [] ∨ ∃ r, s = '/' :: r) → (s' = [] ∨ ∃ r, s' = '/' :: r) →
    e ++ s = e' ++ s' → e = e'
  | [], [], _, _, _, _, _, _, _ => rfl
  | [], c :: e', s, s', _, h', hs, _, h => by
    rcases hs with rfl | ⟨r, rfl⟩
    · simp at h
    · simp only [List.nil_append, List.cons_append, List.cons.injEq] at h
      exact absurd (by rw [h.1]; exact List.mem_cons_self) h'
  | c :: e, [], s, s', h', _, _, hs, h => by
    rcases hs with rfl | ⟨r, rfl⟩
    · simp at h
    · simp only [List.nil_append, List.cons_append, List.cons.injEq] at h
      exact absurd (by rw [← h.1]; exact List.mem_cons_self) h'
  | c :: e, c' :: e', s, s', h1, h2, hs, hs', h => by
    simp only [List.cons_append, List.cons.injEq] at h
    rw [h.1, cut_eq (fun x => h1 (List.mem_cons_of_mem _ x)) (fun x => h2 (List.mem_cons_of_mem _ x)) hs hs' h.2]

/-- Two entries have nothing in common below them. -/
theorem below_disjoint {fs : FS} {p e e' q : List Char} (h1 : '/' ∉ e) (h2 : '/' ∉ e') (a : Below fs (join p e) q) (b : Below fs (join p e') q) :
    e = e' := by
  have key : ∀ {f : List Char}, Below fs (join p f) q → ∃ s, (s = [] ∨ ∃ r, s = '/' :: r) ∧ q = p ++ '/' :: (f ++ s) := by
    intro f h
    rcases below_prefix h with h | ⟨r, h⟩
    · exact ⟨[], Or.inl rfl, by rw [h, join, List.append_nil]⟩
    · exact ⟨'/' :: r, Or.inr ⟨r, rfl⟩, by rw [h, join]; simp⟩
  obtain ⟨s, hs, e1⟩ := key a
  obtain ⟨s', hs', e2⟩ := key b
  rw [e1] at e2
  have := List.append_cancel_left e2
  injection this with _ this
  exact cut_eq h1 h2 hs hs' this

/-- **C120** (partial: no path below fails to resolve). From a path with no endless descent, `list_files` returns, and adds the regular
files at and below the path, each once. -/
theorem C120_files_partial (fs : FS) (path : List Char) (hf : Finite fs path) (hs : Sane fs path) :
    ∃ files : List (List Char), (∀ acc, ∃ K, ∀ fuel, K ≤ fuel → listFiles fs fuel path acc = some (acc ++ files)) ∧ files.Nodup ∧
      ∀ q, q ∈ files ↔ Below fs path q ∧ fs.stat q = some true := by
  induction hf with
  | @mk p hc ih =>
    cases hst : fs.stat p with
    | none => exact absurd hst (hs p (.refl p)).1
    | some b =>
      cases b with
      | true =>
        refine ⟨[p], fun acc => ⟨1, fun n hn => ?_⟩, List.nodup_singleton _, fun q => ?_⟩
        · obtain ⟨n, rfl⟩ : ∃ m, n = m + 1 := ⟨n - 1, by omega⟩
          simp only [listFiles, hst]
        · rw [List.mem_singleton]
          constructor
          · rintro rfl; exact ⟨.refl _, hst⟩
          · rintro ⟨h, _⟩
            cases h with
            | refl => rfl
            | step c _ => rw [c.1] at hst; cases hst
      | false =>
        cases hes : fs.entries p with
        | none =>
          refine ⟨[], fun acc => ⟨1, fun n hn => ?_⟩, List.nodup_nil, fun q => ?_⟩
          · obtain ⟨n, rfl⟩ : ∃ m, n = m + 1 := ⟨n - 1, by omega⟩
            simp only [listFiles, hst, hes, List.append_nil]
          · constructor
            · intro h; cases h
            · rintro ⟨h, h'⟩
              cases h with
              | refl => rw [hst] at h'; cases h'
              | step c _ =>
                obtain ⟨_, es, _, h1, _⟩ := c
                rw [hes] at h1; cases h1
        | some es =>
          obtain ⟨hn, hsl⟩ := (hs p (.refl p)).2 es hes
          have child : ∀ e ∈ es, isDots e = false → Child fs p (join p e) := fun e he hd =>
            ⟨hst, es, e, hes, he, ((isDots_iff e).1 hd).1, ((isDots_iff e).1 hd).2, by simp [join]⟩
          have fold : ∀ l : List (List Char), (∀ e ∈ l, e ∈ es) → l.Nodup → ∃ files : List (List Char),
              (∀ acc, ∃ K, ∀ fuel, K ≤ fuel → l.foldlM (fun acc e => if isDots e then some acc else listFiles fs fuel (join p e) acc) acc =
                some (acc ++ files)) ∧ files.Nodup ∧
              ∀ q, q ∈ files ↔ ∃ e ∈ l, isDots e = false ∧ Below fs (join p e) q ∧ fs.stat q = some true := by
            intro l
            induction l with
            | nil => exact fun _ _ => ⟨[], fun acc => ⟨0, fun n _ => by simp⟩, List.nodup_nil, fun q => by simp⟩
            | cons e l ihl =>
              intro hl hnd
              rw [List.nodup_cons] at hnd
              obtain ⟨f2, a2, n2, m2⟩ := ihl (fun x hx => hl x (List.mem_cons_of_mem _ hx)) hnd.2
              cases hd : isDots e with
              | true =>
                refine ⟨f2, fun acc => ?_, n2, fun q => ?_⟩
                · obtain ⟨K, hK⟩ := a2 acc
                  refine ⟨K, fun n hn => ?_⟩
                  rw [List.foldlM_cons, hd, if_pos rfl]
                  exact hK n hn
                · rw [m2]
                  simp [hd]
              | false =>
                have c := child e (hl e List.mem_cons_self) hd
                obtain ⟨f1, a1, n1, m1⟩ := ih _ c (fun q hq => hs q (.step c hq))
                refine ⟨f1 ++ f2, fun acc => ?_, ?_, fun q => ?_⟩
                · obtain ⟨K1, h1⟩ := a1 acc
                  obtain ⟨K2, h2⟩ := a2 (acc ++ f1)
                  refine ⟨max K1 K2, fun n hn => ?_⟩
                  rw [List.foldlM_cons, hd, if_neg (by simp), h1 n (Nat.le_trans (Nat.le_max_left _ _) hn)]
                  exact (h2 n (Nat.le_trans (Nat.le_max_right _ _) hn)).trans (by rw [List.append_assoc])
                · rw [List.nodup_append]
                  refine ⟨n1, n2, fun x hx y hy hxy => ?_⟩
                  subst hxy
                  obtain ⟨e', he', _, hb, _⟩ := (m2 x).1 hy
                  have := below_disjoint (hsl e (hl e List.mem_cons_self)) (hsl e' (hl e' (List.mem_cons_of_mem _ he'))) ((m1 x).1 hx).1 hb
                  rw [this] at hnd
                  exact hnd.1 he'
                · rw [List.mem_append, m1, m2]
                  simp [hd]
          obtain ⟨files, a, n, m⟩ := fold es (fun _ h => h) hn
          refine ⟨files, fun acc => ?_, n, fun q => ?_⟩
          · obtain ⟨K, hK⟩ := a acc
            refine ⟨K + 1, fun n hn => ?_⟩
            obtain ⟨n, rfl⟩ : ∃ m, n = m + 1 := ⟨n - 1, by omega⟩
            simp only [listFiles, hst, hes]
            exact hK n (by omega)
          · rw [m]
            constructor
            · rintro ⟨e, he, hd, hb, hq⟩
              exact ⟨.step (child e he hd) hb, hq⟩
            · rintro ⟨h, hq⟩
              cases h with
              | refl => rw [hst] at hq; cases hq
              | step c hb =>
                obtain ⟨_, es', e, h1, h2, h3, h4, rfl⟩ := c
                rw [hes] at h1
                injection h1 with h1
                subst h1
                exact ⟨e, h2, (isDots_iff e).2 ⟨h3, h4⟩, by simpa [join] using hb, hq⟩

/-- C120 is false otherwise: one entry that does not resolve (a broken link) and the listing of its directory uses an uninitialised structure. -/
theorem C120_counterexample (fs : FS) {path e : List Char} {es : List (List Char)} (h1 : fs.stat path = some false)
    (h2 : fs.entries path = some es) (h3 : e ∈ es) (h4 : e ≠ "..".toList ∧ e ≠ ".".toList) (h5 : fs.stat (path ++ '/' :: e) = none)
    (fuel : Nat) (acc : List (List Char)) : listFiles fs fuel path acc = none := by
  cases fuel with
  | zero => rfl
  | succ n =>
    simp only [listFiles, h1, h2]
    have bad : ∀ acc, (if isDots e then some acc else listFiles fs n (join path e) acc) = none := by
      intro acc
      rw [(isDots_iff e).2 h4, if_neg (by simp)]
      cases n with
      | zero => rfl
      | succ n =>
        have : fs.stat (join path e) = none := h5
        simp only [listFiles, this]
    obtain ⟨a, b, rfl⟩ := List.append_of_mem h3
    rw [List.foldlM_append]
    cases a.foldlM (fun acc e => if isDots e then some acc else listFiles fs n (join path e) acc) acc with
    | none => rfl
    | some x =>
      rw [Option.bind_eq_bind, Option.bind_some, List.foldlM_cons, bad]
      rfl

/-- A directory `d` with a file and a directory that holds a file. -/
def exFS : FS where
  stat := fun p => if p = "d".toList ∨ p = "d/b".toList then some false else some true
  entries := fun p => if p = "d".toList then some [".".toList, "..".toList, "a".toList, "b".toList]
    else if p = "d/b".toList then some ["..".toList, "a".toList, ".".toList] else none

example : listFiles exFS 3 "d".toList [] = some ["d/a".toList, "d/b/a".toList] := by decide +kernel

theorem exFS_leaf {p : List Char} (h : exFS.stat p = some true) : Finite exFS p := .mk fun q c => by rw [c.1] at h; cases h

/-- It meets the condition of C120 that the descent ends. -/
example : Finite exFS "d".toList := by
  refine .mk fun q c => ?_
  obtain ⟨_, es, e, h1, h2, h3, h4, rfl⟩ := c
  have : es = [".".toList, "..".toList, "a".toList, "b".toList] := by
    have : exFS.entries "d".toList = some [".".toList, "..".toList, "a".toList, "b".toList] := by decide +kernel
    rw [this] at h1; injection h1 with h1; exact h1.symm
  subst this
  simp only [List.mem_cons, List.not_mem_nil, or_false] at h2
  rcases h2 with rfl | rfl | rfl | rfl
  · exact absurd rfl h4
  · exact absurd rfl h3
  · exact exFS_leaf (by decide +kernel)
  · refine .mk fun q c => ?_
    obtain ⟨_, es, e, h1, h2, h3, h4, rfl⟩ := c
    have : es = ["..".toList, "a".toList, ".".toList] := by
      have : exFS.entries "d/b".toList = some ["..".toList, "a".toList, ".".toList] := by decide +kernel
      have h1' : exFS.entries "d/b".toList = some es := h1
      rw [this] at h1'; injection h1' with h1'; exact h1'.symm
    subst this
    simp only [List.mem_cons, List.not_mem_nil, or_false] at h2
    rcases h2 with rfl | rfl | rfl
    · exact absurd rfl h3
    · exact exFS_leaf (by decide +kernel)
    · exact absurd rfl h4

/-- It is sane. -/
example : Sane exFS "d".toList := by
  intro q _
  refine ⟨?_, fun es h => ?_⟩
  · unfold exFS; dsimp only; split <;> simp
  · unfold exFS at h
    dsimp only at h
    split at h
    · injection h with h; subst h; decide
    · split at h
      · injection h with h; subst h; decide
      · cases h

end TDP.Files
