import Verif.RTree.Model
import Mathlib.Data.List.Basic
import Mathlib.Algebra.Order.Field.Rat
import Mathlib.Tactic.Linarith
import Mathlib.Tactic.Ring
/-! Splitting a full node. -/
namespace TDP.RTree
variable {n : Nat} {K D : Type} [LinearOrder K]

/-! ## Rectangles -/

/-- `b` contains `a`. -/
def Rect.Le (a b : Rect n K) : Prop := ∀ i, b.min i ≤ a.min i ∧ a.max i ≤ b.max i

theorem Rect.Le.refl (a : Rect n K) : a.Le a := fun _ => ⟨le_rfl, le_rfl⟩
theorem Rect.Le.trans {a b c : Rect n K} (h : a.Le b) (h' : b.Le c) : a.Le c :=
  fun i => ⟨le_trans (h' i).1 (h i).1, le_trans (h i).2 (h' i).2⟩
theorem Rect.Le.antisymm {a b : Rect n K} (h : a.Le b) (h' : b.Le a) : a = b := by
  ext i
  · exact le_antisymm (h' i).1 (h i).1
  · exact le_antisymm (h i).2 (h' i).2
theorem le_combine_left (a b : Rect n K) : a.Le (combine a b) := fun _ => ⟨min_le_left _ _, le_max_left _ _⟩
theorem le_combine_right (a b : Rect n K) : b.Le (combine a b) := fun _ => ⟨min_le_right _ _, le_max_right _ _⟩
theorem combine_le {a b c : Rect n K} (h : a.Le c) (h' : b.Le c) : (combine a b).Le c :=
  fun i => ⟨le_min (h i).1 (h' i).1, max_le (h i).2 (h' i).2⟩
theorem combine_eq_right {a b : Rect n K} (h : a.Le b) : combine a b = b :=
  Rect.Le.antisymm (combine_le h (Rect.Le.refl b)) (le_combine_right a b)

theorem foldl_combine_le : ∀ (rs : List (Rect n K)) (r : Rect n K),
    r.Le (rs.foldl combine r) ∧ (∀ x ∈ rs, x.Le (rs.foldl combine r)) ∧
    ∀ b, r.Le b → (∀ x ∈ rs, x.Le b) → (rs.foldl combine r).Le b
  | [], r => ⟨Rect.Le.refl r, by simp, fun _ h _ => h⟩
  | a :: rs, r => by
      obtain ⟨h1, h2, h3⟩ := foldl_combine_le rs (combine r a)
      refine ⟨(le_combine_left r a).trans h1, ?_, ?_⟩
      · intro x hx
        rcases List.mem_cons.1 hx with rfl | hx
        · exact (le_combine_right r x).trans h1
        · exact h2 x hx
      · intro b hb hx
        exact h3 b (combine_le hb (hx a (List.mem_cons_self ..))) (fun x hx' => hx x (List.mem_cons_of_mem _ hx'))

/-- The cover is the smallest rectangle that contains all. -/
theorem coverOf_spec {rs : List (Rect n K)} {c : Rect n K} (h : coverOf rs = some c) :
    (∀ x ∈ rs, x.Le c) ∧ ∀ b, (∀ x ∈ rs, x.Le b) → c.Le b := by
  cases rs with
  | nil => simp [coverOf] at h
  | cons r rs =>
    simp only [coverOf, Option.some.injEq] at h
    subst h
    obtain ⟨h1, h2, h3⟩ := foldl_combine_le rs r
    refine ⟨?_, ?_⟩
    · intro x hx
      rcases List.mem_cons.1 hx with rfl | hx
      · exact h1
      · exact h2 x hx
    · intro b hb
      exact h3 b (hb r (List.mem_cons_self ..)) (fun x hx => hb x (List.mem_cons_of_mem _ hx))

theorem coverOf_some {rs : List (Rect n K)} (h : rs ≠ []) : ∃ c, coverOf rs = some c := by
  cases rs with
  | nil => exact absurd rfl h
  | cons r rs => exact ⟨_, rfl⟩

/-- Any two lists with the same upper bounds have the same cover. -/
theorem coverOf_eq {rs : List (Rect n K)} {c : Rect n K} (hne : rs ≠ []) (h1 : ∀ x ∈ rs, x.Le c)
    (h2 : ∀ b, (∀ x ∈ rs, x.Le b) → c.Le b) : coverOf rs = some c := by
  obtain ⟨c', h⟩ := coverOf_some hne
  obtain ⟨a, b⟩ := coverOf_spec h
  rw [h, Rect.Le.antisymm (b c h1) (h2 c' a)]

theorem overlap_mono {q a b : Rect n K} (h : overlap q a = true) (hab : a.Le b) : overlap q b = true := by
  unfold overlap at h ⊢
  rw [decide_eq_true_eq] at h ⊢
  intro i hi
  have h1 := h i
  push Not at h1
  rcases hi with hi | hi
  · exact absurd (lt_of_lt_of_le hi (le_trans h1.1 (hab i).2)) (lt_irrefl _)
  · exact absurd (lt_of_lt_of_le hi (le_trans (hab i).1 h1.2)) (lt_irrefl _)

/-- What splitting needs of volumes of the rectangles satisfying `Ok`: larger rectangles do not have a smaller volume, and volumes are
representable. -/
structure VolOk (P : Params n K) (Ok : Rect n K → Prop) : Prop where
  comb : ∀ a b, Ok a → Ok b → Ok (combine a b)
  mono : ∀ a b, Ok a → Ok b → a.Le b → P.vol a ≤ P.vol b
  rep : ∀ a, Ok a → P.F.rnd (P.vol a) = P.vol a

theorem VolOk.foldl {P : Params n K} {Ok : Rect n K → Prop} (h : VolOk P Ok) : ∀ (rs : List (Rect n K)) (r : Rect n K), Ok r →
    (∀ x ∈ rs, Ok x) → Ok (rs.foldl combine r)
  | [], _, hr, _ => hr
  | a :: rs, r, hr, hx => by
      exact VolOk.foldl h rs _ (h.comb _ _ hr (hx a (List.mem_cons_self ..))) (fun x hx' => hx x (List.mem_cons_of_mem _ hx'))

theorem VolOk.cover {P : Params n K} {Ok : Rect n K → Prop} (h : VolOk P Ok) {rs : List (Rect n K)} {c : Rect n K}
    (hc : coverOf rs = some c) (hx : ∀ x ∈ rs, Ok x) : Ok c := by
  cases rs with
  | nil => simp [coverOf] at hc
  | cons r rs =>
    simp only [coverOf, Option.some.injEq] at hc
    subst hc
    exact h.foldl rs r (hx r (List.mem_cons_self ..)) (fun x hx' => hx x (List.mem_cons_of_mem _ hx'))

/-! ## Choosing a branch -/

theorem pickLoop_lt (P : Params n K) (r : Rect n K) : ∀ (rs : List (Rect n K)) (i : Nat) (st : Option (Nat × ℚ × ℚ)),
    (∀ s, st = some s → s.1 < i) → (st = none → rs ≠ []) → pickLoop P r i st rs < i + rs.length
  | [], i, none, _, h => absurd rfl (h rfl)
  | [], i, some s, h, _ => by simpa [pickLoop] using h s rfl
  | c :: cs, i, st, h, _ => by
      have key : ∀ s : Nat × ℚ × ℚ, s.1 < i + 1 → pickLoop P r (i + 1) (some s) cs < i + (cs.length + 1) := by
        intro s hs
        have := pickLoop_lt P r cs (i + 1) (some s) (by intro s' h'; injection h' with h'; subst h'; exact hs) (by simp)
        omega
      rw [List.length_cons]
      cases st with
      | none => simp only [pickLoop]; exact key _ (by simp)
      | some s =>
        obtain ⟨best, ba, bi⟩ := s
        have hb := h _ rfl
        simp only [pickLoop]
        split
        · exact key _ (by simp)
        · split
          · exact key _ (by simp)
          · exact key _ (by simp at hb ⊢; omega)

theorem pickBranch_lt (P : Params n K) (r : Rect n K) {rs : List (Rect n K)} (h : rs ≠ []) : pickBranch P r rs < rs.length := by
  have := pickLoop_lt P r rs 0 none (by simp) (fun _ => h)
  rw [Nat.zero_add] at this
  exact this

/-! ## The partition -/

/-- Counters agree with the partition, up to `ph` branches of the first group that were given to the second one afterwards. -/
structure PInv (N ph : Nat) (v : PVars n K) : Prop where
  len : v.part.length = N
  cnt : ∀ g, v.cnt g = v.part.count (some g) + (if g then 0 else ph)

theorem count3 : ∀ l : List (Option Bool), l.count none + l.count (some false) + l.count (some true) = l.length
  | [] => rfl
  | a :: l => by
      have ih := count3 l
      rw [List.count_cons, List.count_cons, List.count_cons, List.length_cons]
      rcases a with _ | _ | _ <;> simp <;> omega

theorem PInv.total {N ph : Nat} {v : PVars n K} (h : PInv N ph v) : v.part.count none + v.cnt false + v.cnt true = N + ph := by
  have := count3 v.part
  rw [h.len] at this
  rw [h.cnt, h.cnt]
  simp
  omega

theorem initVars_inv (N : Nat) (junk : Rect n K) : PInv N 0 (initVars N junk) where
  len := by simp [initVars]
  cnt := by intro g; simp [initVars, List.count_replicate]

theorem classify_inv {N ph : Nat} {P : Params n K} {buf : List (Rect n K)} {v : PVars n K} {i : Nat} {g : Bool} (hb : buf.length = N)
    (h : PInv N ph v) (hi : v.part[i]? = some none) :
    PInv N ph (classify P buf i g v) ∧ (classify P buf i g v).cnt = upd v.cnt g (v.cnt g + 1) ∧
    (∀ j, (classify P buf i g v).part[j]? = some none ↔ j ≠ i ∧ v.part[j]? = some none) := by
  have hlt : i < v.part.length := by
    rcases List.getElem?_eq_some_iff.1 hi with ⟨h, _⟩; exact h
  have hib : i < buf.length := by rw [hb, ← h.len]; exact hlt
  have hge : v.part[i] = none := by
    rcases List.getElem?_eq_some_iff.1 hi with ⟨_, h⟩; exact h
  obtain ⟨C, A, e⟩ : ∃ C A, classify P buf i g v = ⟨v.part.set i (some g), upd v.cnt g (v.cnt g + 1), C, A⟩ := by
    unfold classify
    rw [List.getElem?_eq_getElem hib]
    exact ⟨_, _, rfl⟩
  rw [e]
  refine ⟨⟨by rw [List.length_set]; exact h.len, ?_⟩, rfl, ?_⟩
  · intro g'
    show upd v.cnt g (v.cnt g + 1) g' = _
    rw [List.count_set hlt, hge]
    unfold upd
    by_cases hg : g' = g
    · subst hg
      simp [h.cnt]
      omega
    · rw [if_neg hg, h.cnt]
      have : (some g == some g') = false := by simpa using Ne.symm hg
      simp [this]
  · intro j
    show (v.part.set i (some g))[j]? = some none ↔ _
    rw [List.getElem?_set]
    by_cases hj : i = j
    · subst hj
      simp [hlt]
    · rw [if_neg hj]
      exact ⟨fun h => ⟨Ne.symm hj, h⟩, fun h => h.2⟩

theorem upd_same {α : Type} (f : Bool → α) (g : Bool) (x : α) : upd f g x g = x := by simp [upd]
theorem upd_ne {α : Type} (f : Bool → α) {g b : Bool} (x : α) (h : b ≠ g) : upd f g x b = f b := by simp [upd, h]

theorem seedLoop_spec (P : Params n K) (buf : List (Rect n K)) : ∀ (ps : List (Nat × Nat)) (st : ℚ × Nat × Nat),
    (seedLoop P buf st ps).2 ∈ ps ∨ (seedLoop P buf st ps = st ∧
      ∀ p ∈ ps, ∀ ra rb, buf[p.1]? = some ra → buf[p.2]? = some rb → waste P ra rb ≤ st.1)
  | [], st => Or.inr ⟨rfl, by simp⟩
  | (a, b) :: ps, st => by
      unfold seedLoop
      cases ha : buf[a]? with
      | none =>
        simp only
        rcases seedLoop_spec P buf ps st with h | ⟨h1, h2⟩
        · exact Or.inl (List.mem_cons_of_mem _ h)
        · refine Or.inr ⟨h1, ?_⟩
          intro p hp ra rb e1 e2
          rcases List.mem_cons.1 hp with rfl | hp
          · simp [ha] at e1
          · exact h2 p hp ra rb e1 e2
      | some ra =>
        cases hb : buf[b]? with
        | none =>
          simp only
          rcases seedLoop_spec P buf ps st with h | ⟨h1, h2⟩
          · exact Or.inl (List.mem_cons_of_mem _ h)
          · refine Or.inr ⟨h1, ?_⟩
            intro p hp ra rb e1 e2
            rcases List.mem_cons.1 hp with rfl | hp
            · simp [hb] at e2
            · exact h2 p hp ra rb e1 e2
        | some rb =>
          simp only
          by_cases hw : waste P ra rb > st.1
          · rw [if_pos hw]
            left
            rcases seedLoop_spec P buf ps (waste P ra rb, a, b) with h | ⟨h1, _⟩
            · exact List.mem_cons_of_mem _ h
            · rw [h1]; exact List.mem_cons_self ..
          · rw [if_neg hw]
            rcases seedLoop_spec P buf ps st with h | ⟨h1, h2⟩
            · exact Or.inl (List.mem_cons_of_mem _ h)
            · refine Or.inr ⟨h1, ?_⟩
              intro p hp ra' rb' e1 e2
              rcases List.mem_cons.1 hp with rfl | hp
              · rw [ha] at e1; rw [hb] at e2
                injection e1 with e1; injection e2 with e2
                subst e1; subst e2
                exact not_lt.1 hw
              · exact h2 p hp ra' rb' e1 e2

theorem mem_seedPairs {N a b : Nat} : (a, b) ∈ seedPairs N ↔ a < b ∧ b < N := by
  unfold seedPairs
  simp only [List.mem_flatMap, List.mem_map, List.mem_range, Prod.mk.injEq]
  constructor
  · rintro ⟨x, hx, y, hy, rfl, rfl⟩
    rw [List.mem_drop_iff_getElem] at hy
    obtain ⟨j, hj, e⟩ := hy
    simp at hj e
    omega
  · rintro ⟨h1, h2⟩
    refine ⟨a, by omega, b, ?_, rfl, rfl⟩
    rw [List.mem_drop_iff_getElem]
    refine ⟨b - (a + 1), by simp; omega, by simp; omega⟩

/-- What the waste of a pair is at least. -/
theorem waste_ge {P : Params n K} {Ok : Rect n K → Prop} (h : VolOk P Ok) {a b : Rect n K} (ha : Ok a) (hb : Ok b) :
    -P.vol b ≤ waste P a b := by
  have h1 : 0 ≤ P.F.rnd (P.vol (combine a b) - P.vol a) :=
    P.F.nonneg (sub_nonneg.2 (h.mono _ _ ha (h.comb _ _ ha hb) (le_combine_left a b)))
  unfold waste
  have := P.F.mono (show -P.vol b ≤ P.F.rnd (P.vol (combine a b) - P.vol a) - P.vol b by linarith)
  rwa [P.F.neg, h.rep b hb] at this

/-- If no pair of seeds is chosen, all rectangles but the first have the volume of the cover. -/
theorem no_seeds {P : Params n K} {Ok : Rect n K → Prop} (h : VolOk P Ok) {buf : List (Rect n K)} {c : Rect n K} (hok : ∀ r ∈ buf, Ok r)
    (hc : coverOf buf = some c) (hw : ∀ p ∈ seedPairs buf.length, ∀ ra rb, buf[p.1]? = some ra → buf[p.2]? = some rb →
      waste P ra rb ≤ P.F.rnd (-P.vol c - 1)) {j : Nat} {r x : Rect n K} (hj : 1 ≤ j) (hr : buf[j]? = some r) (hx : Ok x) (hrx : r.Le x)
    (hxc : x.Le c) : P.vol x = P.vol c := by
  obtain ⟨hlt, e⟩ := List.getElem?_eq_some_iff.1 hr
  have hm : r ∈ buf := e ▸ List.getElem_mem hlt
  have h0 : 0 < buf.length := by omega
  have hcok := h.cover hc hok
  have h1 := hw (0, j) (mem_seedPairs.2 ⟨by omega, hlt⟩) buf[0] r (List.getElem?_eq_getElem h0) hr
  have h2 := waste_ge h (hok _ (List.getElem_mem h0)) (hok r hm)
  have h3 := P.F.mono (show -P.vol c - 1 ≤ -P.vol c by linarith)
  rw [P.F.neg, h.rep c hcok] at h3
  have h4 := h.mono r x (hok r hm) hx hrx
  have h5 := h.mono x c hx hcok hxc
  linarith

/-- Once something is chosen it stays chosen. -/
theorem chooseLoop_keep (P : Params n K) (v : PVars n K) : ∀ (rs : List (Rect n K)) (i : Nat) (st : ℚ × Nat × Bool),
    (0 ≤ st.1 ∧ v.part[st.2.1]? = some none) →
    0 ≤ (chooseLoop P v i st rs).1 ∧ v.part[(chooseLoop P v i st rs).2.1]? = some none
  | [], _, _, h => h
  | r :: rs, i, st, h => by
      unfold chooseLoop
      by_cases hp : v.part[i]? = some none
      · rw [if_pos hp]
        simp only
        obtain ⟨d, hd⟩ : ∃ d, growthDiff P v r = d := ⟨_, rfl⟩
        rw [hd]
        obtain ⟨df, hdf⟩ : ∃ df, (if d ≥ 0 then d else -d) = df := ⟨_, rfl⟩
        rw [hdf]
        by_cases c1 : df > st.1
        · rw [if_pos c1]; exact chooseLoop_keep P v rs _ _ ⟨le_of_lt (lt_of_le_of_lt h.1 c1), hp⟩
        · rw [if_neg c1]
          by_cases c2 : df = st.1 ∧ v.cnt (decide ¬d ≥ 0) < v.cnt st.2.2
          · rw [if_pos c2]; exact chooseLoop_keep P v rs _ _ ⟨h.1, hp⟩
          · rw [if_neg c2]; exact chooseLoop_keep P v rs _ _ h
      · rw [if_neg hp]; exact chooseLoop_keep P v rs _ _ h

theorem chooseLoop_spec (P : Params n K) (v : PVars n K) : ∀ (rs : List (Rect n K)) (i : Nat) (st : ℚ × Nat × Bool),
    (st.1 = -1 ∨ (0 ≤ st.1 ∧ v.part[st.2.1]? = some none)) →
    (0 ≤ (chooseLoop P v i st rs).1 ∧ v.part[(chooseLoop P v i st rs).2.1]? = some none) ∨
    ∀ j < rs.length, v.part[i + j]? ≠ some none
  | [], i, st, h => by right; simp
  | r :: rs, i, st, h => by
      have keyShift : (∀ j < rs.length, v.part[i + 1 + j]? ≠ some none) → v.part[i]? ≠ some none →
          ∀ j < (r :: rs).length, v.part[i + j]? ≠ some none := by
        intro h1 h2 j hj
        cases j with
        | zero => exact h2
        | succ j =>
          have := h1 j (by simpa using hj)
          rwa [show i + 1 + j = i + (j + 1) by omega] at this
      unfold chooseLoop
      by_cases hp : v.part[i]? = some none
      · rw [if_pos hp]
        left
        simp only
        obtain ⟨d, hd⟩ : ∃ d, growthDiff P v r = d := ⟨_, rfl⟩
        rw [hd]
        obtain ⟨df, hdf⟩ : ∃ df, (if d ≥ 0 then d else -d) = df := ⟨_, rfl⟩
        rw [hdf]
        have hdiff : 0 ≤ df := by
          rw [← hdf]
          by_cases h0 : d ≥ 0
          · rw [if_pos h0]; exact h0
          · rw [if_neg h0]; linarith
        rcases h with h | h
        · rw [if_pos (by rw [h]; linarith)]
          exact chooseLoop_keep P v _ _ _ ⟨hdiff, hp⟩
        · by_cases c1 : df > st.1
          · rw [if_pos c1]; exact chooseLoop_keep P v _ _ _ ⟨hdiff, hp⟩
          · rw [if_neg c1]
            by_cases c2 : df = st.1 ∧ v.cnt (decide ¬d ≥ 0) < v.cnt st.2.2
            · rw [if_pos c2]; exact chooseLoop_keep P v _ _ _ ⟨h.1, hp⟩
            · rw [if_neg c2]; exact chooseLoop_keep P v _ _ _ h
      · rw [if_neg hp]
        rcases chooseLoop_spec P v rs (i + 1) st h with h' | h'
        · exact Or.inl h'
        · exact Or.inr (keyShift h' hp)

theorem exists_untaken {N ph : Nat} {v : PVars n K} (h : PInv N ph v) (hlt : v.cnt false + v.cnt true < N) :
    ∃ j < N, v.part[j]? = some none := by
  have ht := h.total
  have hpos : 0 < v.part.count none := by omega
  obtain ⟨j, hj, e⟩ := List.mem_iff_getElem.1 (List.count_pos_iff.1 hpos)
  exact ⟨j, h.len ▸ hj, by rw [List.getElem?_eq_getElem hj, e]⟩

/-- The main loop. -/
theorem partLoop_spec {N : Nat} (P : Params n K) (buf : List (Rect n K)) (hb : buf.length = N) (hN : 2 ≤ N - P.minNodes) :
    ∀ (fuel : Nat) (st : Nat × Bool) (v : PVars n K), PInv N 0 v → (∀ g, 1 ≤ v.cnt g ∧ v.cnt g ≤ N - P.minNodes) →
    N ≤ fuel + (v.cnt false + v.cnt true) →
    let v' := partLoop P buf fuel st v
    PInv N 0 v' ∧ (∀ g, 1 ≤ v'.cnt g ∧ v'.cnt g ≤ N - P.minNodes) ∧
      (v'.cnt false + v'.cnt true = N ∨ v'.cnt false = N - P.minNodes ∨ v'.cnt true = N - P.minNodes)
  | 0, st, v, h, hc, hf => by
      have := h.total
      exact ⟨h, hc, Or.inl (by simp only [partLoop]; omega)⟩
  | fuel + 1, st, v, h, hc, hf => by
      simp only [partLoop]
      by_cases hcond : v.cnt false + v.cnt true < buf.length ∧ v.cnt false < buf.length - P.minNodes ∧ v.cnt true < buf.length - P.minNodes
      · rw [if_pos hcond]
        rw [hb] at hcond
        have hch : v.part[(chooseLoop P v 0 (-1, st.1, st.2) buf).2.1]? = some none := by
          rcases chooseLoop_spec P v buf 0 (-1, st.1, st.2) (Or.inl rfl) with h' | h'
          · exact h'.2
          · obtain ⟨j, hj, e⟩ := exists_untaken h hcond.1
            exact absurd e (by simpa using h' j (by rw [hb]; exact hj))
        obtain ⟨i1, i2, _⟩ := classify_inv (P := P) (g := (chooseLoop P v 0 (-1, st.1, st.2) buf).2.2) hb h hch
        have hsum : (classify P buf (chooseLoop P v 0 (-1, st.1, st.2) buf).2.1 (chooseLoop P v 0 (-1, st.1, st.2) buf).2.2 v).cnt false +
            (classify P buf (chooseLoop P v 0 (-1, st.1, st.2) buf).2.1 (chooseLoop P v 0 (-1, st.1, st.2) buf).2.2 v).cnt true =
            v.cnt false + v.cnt true + 1 := by
          rw [i2]
          cases (chooseLoop P v 0 (-1, st.1, st.2) buf).2.2
          · rw [upd_same, upd_ne _ _ (by decide)]; omega
          · rw [upd_same, upd_ne _ _ (by decide)]; omega
        refine partLoop_spec P buf hb hN fuel _ _ i1 ?_ (by omega)
        intro g
        rw [i2]
        by_cases hg : g = (chooseLoop P v 0 (-1, st.1, st.2) buf).2.2
        · rw [hg, upd_same]
          have := hc (chooseLoop P v 0 (-1, st.1, st.2) buf).2.2
          have h2 : v.cnt (chooseLoop P v 0 (-1, st.1, st.2) buf).2.2 < N - P.minNodes := by
            cases (chooseLoop P v 0 (-1, st.1, st.2) buf).2.2
            · exact hcond.2.1
            · exact hcond.2.2
          omega
        · rw [upd_ne _ _ hg]; exact hc g
      · rw [if_neg hcond]
        refine ⟨h, hc, ?_⟩
        rw [hb] at hcond
        have := h.total
        have h0 := hc false
        have h1 := hc true
        by_contra hno
        apply hcond
        omega

theorem restLoop_spec {N ph : Nat} (P : Params n K) (buf : List (Rect n K)) (hb : buf.length = N) (g : Bool) :
    ∀ (is : List Nat) (v : PVars n K), PInv N ph v →
    let v' := restLoop P buf g is v
    PInv N ph v' ∧ v'.cnt (!g) = v.cnt (!g) ∧ ∀ j, v'.part[j]? = some none ↔ j ∉ is ∧ v.part[j]? = some none
  | [], v, h => ⟨h, rfl, by simp [restLoop]⟩
  | i :: is, v, h => by
      simp only [restLoop]
      by_cases hi : v.part[i]? = some none
      · rw [if_pos hi]
        obtain ⟨a, b, c⟩ := classify_inv (P := P) (g := g) hb h hi
        obtain ⟨r1, r2, r3⟩ := restLoop_spec P buf hb g is _ a
        refine ⟨r1, ?_, ?_⟩
        · rw [r2, b, upd_ne _ _ (by cases g <;> decide)]
        · intro j
          rw [r3 j, c j, List.mem_cons]
          tauto
      · rw [if_neg hi]
        obtain ⟨r1, r2, r3⟩ := restLoop_spec P buf hb g is _ h
        refine ⟨r1, r2, ?_⟩
        intro j
        rw [r3 j, List.mem_cons]
        constructor
        · rintro ⟨x, y⟩
          refine ⟨?_, y⟩
          rintro (rfl | hj)
          · exact hi y
          · exact x hj
        · rintro ⟨x, y⟩
          exact ⟨fun hj => x (Or.inr hj), y⟩

theorem chooseLoop_group (P : Params n K) (v : PVars n K) : ∀ (rs : List (Rect n K)) (i : Nat) (st : ℚ × Nat × Bool), st.2.2 = false →
    (∀ j r, rs[j]? = some r → v.part[i + j]? = some none → 0 ≤ growthDiff P v r) → (chooseLoop P v i st rs).2.2 = false
  | [], _, _, h, _ => h
  | r :: rs, i, st, h, hd => by
      have next : ∀ st' : ℚ × Nat × Bool, st'.2.2 = false → (chooseLoop P v (i + 1) st' rs).2.2 = false := by
        intro st' h'
        refine chooseLoop_group P v rs (i + 1) st' h' ?_
        intro j r' hr hp
        exact hd (j + 1) r' (by simpa using hr) (by rwa [show i + (j + 1) = i + 1 + j by omega])
      unfold chooseLoop
      by_cases hp : v.part[i]? = some none
      · rw [if_pos hp]
        have h0 := hd 0 r rfl hp
        simp only
        have hg : decide (¬ growthDiff P v r ≥ 0) = false := by simpa using h0
        rw [hg]
        by_cases c1 : (if growthDiff P v r ≥ 0 then growthDiff P v r else -growthDiff P v r) > st.1
        · rw [if_pos c1]; exact next _ rfl
        · rw [if_neg c1]
          by_cases c2 : (if growthDiff P v r ≥ 0 then growthDiff P v r else -growthDiff P v r) = st.1 ∧ v.cnt false < v.cnt st.2.2
          · rw [if_pos c2]; exact next _ rfl
          · rw [if_neg c2]; exact next _ h
      · rw [if_neg hp]; exact next _ h

/-- The state of `ChoosePartition` when no pair of seeds was chosen: the first branch counts in both groups, and nothing else is in the
second group. -/
structure Flat (P : Params n K) (Ok : Rect n K → Prop) (buf : List (Rect n K)) (c : Rect n K) (v : PVars n K) : Prop where
  inv : PInv buf.length 1 v
  one : v.cnt true = 1
  first : v.part[0]? ≠ some none
  ok : ∀ g, Ok (v.cover g) ∧ (v.cover g).Le c ∧ v.area g = P.vol (v.cover g)
  le : (v.cover true).Le (v.cover false)

theorem classify_eq {P : Params n K} {buf : List (Rect n K)} {v : PVars n K} {i : Nat} {g : Bool} {r : Rect n K} (hr : buf[i]? = some r) :
    (classify P buf i g v).cover = upd v.cover g (if v.cnt g = 0 then r else combine r (v.cover g)) ∧
    (classify P buf i g v).area = upd v.area g (P.vol (if v.cnt g = 0 then r else combine r (v.cover g))) := by
  unfold classify
  rw [hr]
  exact ⟨rfl, rfl⟩

theorem flat_loop {P : Params n K} {Ok : Rect n K → Prop} (hV : VolOk P Ok) {buf : List (Rect n K)} {c : Rect n K} (hok : ∀ r ∈ buf, Ok r)
    (hc : coverOf buf = some c) (hmin : 2 ≤ P.minNodes) (hN : P.minNodes + 2 ≤ buf.length)
    (hw : ∀ p ∈ seedPairs buf.length, ∀ ra rb, buf[p.1]? = some ra → buf[p.2]? = some rb → waste P ra rb ≤ P.F.rnd (-P.vol c - 1)) :
    ∀ (fuel : Nat) (i : Nat) (v : PVars n K), Flat P Ok buf c v → 1 ≤ v.cnt false → v.cnt false ≤ buf.length - P.minNodes →
    buf.length ≤ fuel + v.cnt false →
    Flat P Ok buf c (partLoop P buf fuel (i, false) v) ∧ (partLoop P buf fuel (i, false) v).cnt false = buf.length - P.minNodes
  | 0, i, v, h, h1, h2, hf => by omega
  | fuel + 1, i, v, h, h1, h2, hf => by
      simp only [partLoop]
      have hone := h.one
      by_cases hcond : v.cnt false + v.cnt true < buf.length ∧ v.cnt false < buf.length - P.minNodes ∧ v.cnt true < buf.length - P.minNodes
      · rw [if_pos hcond]
        have hch : v.part[(chooseLoop P v 0 (-1, i, false) buf).2.1]? = some none := by
          rcases chooseLoop_spec P v buf 0 (-1, i, false) (Or.inl rfl) with h' | h'
          · exact h'.2
          · obtain ⟨j, hj, e⟩ := exists_untaken h.inv hcond.1
            exact absurd e (by simpa using h' j hj)
        have hgrp : (chooseLoop P v 0 (-1, i, false) buf).2.2 = false := by
          refine chooseLoop_group P v buf 0 _ rfl ?_
          intro j r hr hp
          rw [Nat.zero_add] at hp
          have hj : 1 ≤ j := by
            rcases Nat.eq_zero_or_pos j with rfl | hj
            · exact absurd hp h.first
            · exact hj
          have hrm : r ∈ buf := List.mem_of_getElem? hr
          have hrc := (coverOf_spec hc).1 r hrm
          have vol : ∀ g, P.vol (combine r (v.cover g)) = P.vol c := by
            intro g
            exact no_seeds hV hok hc hw hj hr (hV.comb _ _ (hok r hrm) (h.ok g).1) (le_combine_left _ _) (combine_le hrc (h.ok g).2.1)
          unfold growthDiff
          rw [vol, vol, (h.ok true).2.2, (h.ok false).2.2]
          refine P.F.nonneg (sub_nonneg.2 (P.F.mono ?_))
          have := hV.mono _ _ (h.ok true).1 (h.ok false).1 h.le
          linarith
        obtain ⟨k, hk⟩ : ∃ k, (chooseLoop P v 0 (-1, i, false) buf).2.1 = k := ⟨_, rfl⟩
        rw [hgrp, hk]
        rw [hk] at hch
        obtain ⟨i1, i2, i3⟩ := classify_inv (P := P) (g := false) rfl h.inv hch
        have hkl : k < buf.length := by
          rw [← h.inv.len]
          exact (List.getElem?_eq_some_iff.1 hch).1
        obtain ⟨e1, e2⟩ := classify_eq (P := P) (v := v) (g := false) (List.getElem?_eq_getElem hkl)
        rw [if_neg (by omega)] at e1 e2
        have hrm : buf[k] ∈ buf := List.getElem_mem hkl
        refine flat_loop hV hok hc hmin hN hw fuel k _ ⟨i1, ?_, ?_, ?_, ?_⟩ ?_ ?_ ?_
        · rw [i2, upd_ne _ _ (by decide)]; exact hone
        · intro h0
          exact h.first ((i3 0).1 h0).2
        · intro g
          rw [e1, e2]
          cases g
          · rw [upd_same, upd_same]
            exact ⟨hV.comb _ _ (hok _ hrm) (h.ok false).1, combine_le ((coverOf_spec hc).1 _ hrm) (h.ok false).2.1, rfl⟩
          · rw [upd_ne _ _ (by decide), upd_ne _ _ (by decide)]; exact h.ok true
        · rw [e1, upd_same, upd_ne _ _ (by decide)]
          exact h.le.trans (le_combine_right _ _)
        · rw [i2, upd_same]; omega
        · rw [i2, upd_same]; omega
        · rw [i2, upd_same]; omega
      · rw [if_neg hcond]
        refine ⟨h, ?_⟩
        by_contra hne
        apply hcond
        omega

/-- `ChoosePartition` assigns every branch to a group, and no group is smaller than the minimum allows. -/
theorem choosePartition_spec {P : Params n K} {Ok : Rect n K → Prop} (hV : VolOk P Ok) {N : Nat} {buf : List (Rect n K)} {c : Rect n K}
    (hb : buf.length = N) (hmin : 2 ≤ P.minNodes) (hN : P.minNodes + 2 ≤ N) (hok : ∀ r ∈ buf, Ok r) (hc : coverOf buf = some c) :
    let v := choosePartition P buf (P.vol c) c
    v.part.length = N ∧ v.part.count none = 0 ∧ ∀ g, min P.minNodes (N - 1 - P.minNodes) ≤ v.part.count (some g) := by
  intro v
  -- the seeds
  have h0 := initVars_inv N c
  by_cases hseed : (seedLoop P buf (P.F.rnd (-P.vol c - 1), 0, 0) (seedPairs buf.length)).2 ∈ seedPairs buf.length
  swap
  · -- no seeds
    obtain ⟨hs, hw⟩ := (seedLoop_spec P buf (seedPairs buf.length) (P.F.rnd (-P.vol c - 1), 0, 0)).resolve_left hseed
    have l0 : 0 < buf.length := by omega
    have hr0 : buf[0]? = some buf[0] := List.getElem?_eq_getElem l0
    have hb0 : buf[0] ∈ buf := List.getElem_mem l0
    obtain ⟨u, hu⟩ : ∃ u, pickSeeds P buf (P.vol c) (initVars buf.length c) = u := ⟨_, rfl⟩
    have hu' : u = ⟨(List.replicate buf.length (none : Option Bool)).set 0 (some true), fun _ => 1, fun _ => buf[0], fun _ => P.vol buf[0]⟩ := by
      rw [← hu]
      unfold pickSeeds
      rw [hs]
      simp only [classify, hr0, initVars]
      simp only [List.set_set, upd]
      congr 1 <;> · funext g; cases g <;> simp [upd]
    have hcount : ∀ o : Option Bool, ((List.replicate buf.length (none : Option Bool)).set 0 (some true)).count o =
        (if o = none then buf.length - 1 else if o = some true then 1 else 0) := by
      intro o
      rw [List.count_set (by simpa using l0)]
      simp only [List.getElem_replicate, List.count_replicate]
      rcases o with _ | _ | _ <;> simp
    have hflat : Flat P Ok buf c u := by
      rw [hu']
      refine ⟨⟨by simp, ?_⟩, rfl, ?_, ?_, Rect.Le.refl _⟩
      · intro g
        simp only [hcount]
        cases g <;> simp
      · simp [l0]
      · intro _
        exact ⟨hok _ hb0, (coverOf_spec hc).1 _ hb0, rfl⟩
    have huc : u.cnt false = 1 := by rw [hu']
    obtain ⟨f1, f2⟩ := flat_loop hV hok hc hmin (by omega) hw buf.length 0 u hflat (by omega) (by omega) (by omega)
    obtain ⟨w, hw'⟩ : ∃ w, partLoop P buf buf.length (0, false) u = w := ⟨_, rfl⟩
    rw [hw'] at f1 f2
    have hv : v = restLoop P buf true (List.range buf.length) w := by
      have h1 := f1.one
      simp only [v, choosePartition]
      rw [hu, hw', if_pos (by omega), f2]
      simp
    obtain ⟨r1, r2, r3⟩ := restLoop_spec P buf rfl true (List.range buf.length) w f1.inv
    rw [← hv] at r1 r2 r3
    have hnone : v.part.count none = 0 := by
      rw [List.count_eq_zero]
      intro hm
      obtain ⟨j, hj, e⟩ := List.mem_iff_getElem.1 hm
      have := (r3 j).1 (by rw [List.getElem?_eq_getElem hj, e])
      exact this.1 (List.mem_range.2 (by rw [← r1.len]; exact hj))
    have h3 := count3 v.part
    have hcf := r1.cnt false
    have hlen := r1.len
    simp only [Bool.not_true] at r2
    simp only [Bool.false_eq_true, if_false] at hcf
    refine ⟨by rw [hlen, hb], hnone, ?_⟩
    intro g
    cases g <;> omega
  obtain ⟨hab, hbN⟩ := mem_seedPairs.1 hseed
  obtain ⟨s, hs⟩ : ∃ s, seedLoop P buf (P.F.rnd (-P.vol c - 1), 0, 0) (seedPairs buf.length) = s := ⟨_, rfl⟩
  rw [hs, hb] at hbN
  rw [hs] at hab
  have hsa : s.2.1 < N := lt_trans hab hbN
  have hr : ∀ j < N, (initVars N c).part[j]? = some none := by
    intro j hj
    simp only [initVars]
    rw [List.getElem?_replicate, if_pos hj]
  obtain ⟨a1, a2, a3⟩ := classify_inv (P := P) (g := false) hb h0 (hr s.2.1 hsa)
  obtain ⟨b1, b2, _⟩ := classify_inv (P := P) (g := true) hb a1 ((a3 s.2.2).2 ⟨Nat.ne_of_gt hab, hr s.2.2 hbN⟩)
  have hv1 : pickSeeds P buf (P.vol c) (initVars buf.length c) =
      classify P buf s.2.2 true (classify P buf s.2.1 false (initVars N c)) := by
    unfold pickSeeds
    rw [hs, hb]
  have hcnt1 : ∀ g, (pickSeeds P buf (P.vol c) (initVars buf.length c)).cnt g = 1 := by
    intro g
    rw [hv1, b2, a2]
    cases g
    · rw [upd_ne _ _ (by decide), upd_same]; simp [initVars]
    · rw [upd_same, upd_ne _ _ (by decide)]; simp [initVars]
  obtain ⟨p1, p2, p3⟩ := partLoop_spec P buf hb (by omega) buf.length (0, false) (pickSeeds P buf (P.vol c) (initVars buf.length c))
    (by rw [hv1]; exact b1) (by intro g; rw [hcnt1]; omega) (by omega)
  obtain ⟨w, hw⟩ : ∃ w, partLoop P buf buf.length (0, false) (pickSeeds P buf (P.vol c) (initVars buf.length c)) = w := ⟨_, rfl⟩
  rw [hw] at p1 p2 p3
  have hv : v = if w.cnt false + w.cnt true < buf.length then
      restLoop P buf (decide (w.cnt false ≥ buf.length - P.minNodes)) (List.range buf.length) w else w := by
    simp only [v, choosePartition]
    rw [hw]
  have hf := p2 false
  have ht := p2 true
  have htot := p1.total
  by_cases hlt : w.cnt false + w.cnt true < buf.length
  · rw [if_pos hlt] at hv
    obtain ⟨r1, r2, r3⟩ := restLoop_spec P buf hb (decide (w.cnt false ≥ buf.length - P.minNodes)) (List.range buf.length) w p1
    rw [← hv] at r1 r2 r3
    have hnone : v.part.count none = 0 := by
      rw [List.count_eq_zero]
      intro hm
      obtain ⟨j, hj, e⟩ := List.mem_iff_getElem.1 hm
      have := (r3 j).1 (by rw [List.getElem?_eq_getElem hj, e])
      exact this.1 (List.mem_range.2 (by rw [hb, ← r1.len]; exact hj))
    have htv := r1.total
    have cf := r1.cnt false
    have ct := r1.cnt true
    simp only [if_true, Bool.false_eq_true, if_false, Nat.add_zero] at cf ct
    refine ⟨r1.len, hnone, ?_⟩
    by_cases hg : w.cnt false ≥ buf.length - P.minNodes
    · rw [decide_eq_true hg] at r2
      simp only [Bool.not_true] at r2
      intro g
      cases g <;> omega
    · rw [decide_eq_false hg] at r2
      simp only [Bool.not_false] at r2
      intro g
      cases g <;> omega
  · rw [if_neg hlt] at hv
    rw [hv]
    have cf := p1.cnt false
    have ct := p1.cnt true
    simp only [if_true, Bool.false_eq_true, if_false, Nat.add_zero] at cf ct
    refine ⟨p1.len, by omega, ?_⟩
    intro g
    cases g <;> omega

theorem loadNodes_spec {α : Type} (M : Nat) : ∀ (l : List (α × Option Bool)) (A B : List α), (∀ x ∈ l, x.2 ≠ none) →
    A.length + l.countP (fun x => x.2 = some false) ≤ M → B.length + l.countP (fun x => x.2 = some true) ≤ M →
    loadNodes M l (A, B) = some (A ++ (l.filter (fun x => x.2 = some false)).map Prod.fst,
      B ++ (l.filter (fun x => x.2 = some true)).map Prod.fst)
  | [], A, B, _, _, _ => by simp [loadNodes]
  | (b, none) :: l, A, B, h, _, _ => absurd rfl (h _ (List.mem_cons_self ..))
  | (b, some false) :: l, A, B, h, h1, h2 => by
      simp only [List.countP_cons] at h1 h2
      simp at h1 h2
      unfold loadNodes
      rw [if_pos (by omega), loadNodes_spec M l (A ++ [b]) B (fun x hx => h x (List.mem_cons_of_mem _ hx)) (by simp; omega) (by omega)]
      simp
  | (b, some true) :: l, A, B, h, h1, h2 => by
      simp only [List.countP_cons] at h1 h2
      simp at h1 h2
      unfold loadNodes
      rw [if_pos (by omega), loadNodes_spec M l A (B ++ [b]) (fun x hx => h x (List.mem_cons_of_mem _ hx)) (by omega) (by simp; omega)]
      simp

theorem countP_zip {α : Type} (o : Option Bool) : ∀ (l : List α) (p : List (Option Bool)), p.length = l.length →
    (l.zip p).countP (fun x => x.2 = o) = p.count o
  | [], [], _ => rfl
  | a :: l, x :: p, h => by
      rw [List.zip_cons_cons, List.countP_cons, countP_zip o l p (by simpa using h), List.count_cons]
      simp
  | [], _ :: _, h => by simp at h
  | _ :: _, [], h => by simp at h

/-- Smallest number of branches a split leaves. -/
def minFill (P : Params n K) : Nat := min P.minNodes (P.maxNodes - P.minNodes)

/-- `SplitNode` succeeds, loses and duplicates nothing and respects the limits. -/
theorem split_spec {α : Type} {P : Params n K} {Ok : Rect n K → Prop} (hV : VolOk P Ok) (h1 : 2 ≤ P.minNodes)
    (h2 : P.minNodes < P.maxNodes) {buf : List (Rect n K × α)} (hl : buf.length = P.maxNodes + 1) (hok : ∀ p ∈ buf, Ok p.1) :
    ∃ A B, split P buf = some (A, B) ∧ (A ++ B).Perm buf ∧ minFill P ≤ A.length ∧ A.length ≤ P.maxNodes ∧
      minFill P ≤ B.length ∧ B.length ≤ P.maxNodes := by
  have hne : buf.map Prod.fst ≠ [] := by
    intro h
    have := congrArg List.length h
    simp at this
    rw [this] at hl
    simp at hl
  obtain ⟨c, hc⟩ := coverOf_some hne
  have hspec := choosePartition_spec hV (N := P.maxNodes + 1) (buf := buf.map Prod.fst) (c := c) (by simpa using hl) h1 (by omega)
    (by intro r hr; obtain ⟨p, hp, rfl⟩ := List.mem_map.1 hr; exact hok p hp) hc
  obtain ⟨v, hv⟩ : ∃ v, choosePartition P (buf.map Prod.fst) (P.vol c) c = v := ⟨_, rfl⟩
  simp only [hv] at hspec
  obtain ⟨q1, q2, q4⟩ := hspec
  have q3 := count3 v.part
  rw [q1, q2] at q3
  have hf := q4 false
  have ht := q4 true
  have hlen : v.part.length = buf.length := by rw [q1, hl]
  have hnone : ∀ x ∈ buf.zip v.part, x.2 ≠ none := by
    intro x hx hn
    have hm := (List.of_mem_zip hx).2
    rw [hn] at hm
    have hp := List.count_pos_iff.2 hm
    omega
  have hload := loadNodes_spec P.maxNodes (buf.zip v.part) [] [] hnone
    (by rw [countP_zip _ _ _ hlen]; simp; omega) (by rw [countP_zip _ _ _ hlen]; simp; omega)
  refine ⟨((buf.zip v.part).filter (fun x => x.2 = some false)).map Prod.fst,
    ((buf.zip v.part).filter (fun x => x.2 = some true)).map Prod.fst, ?_, ?_, ?_, ?_, ?_, ?_⟩
  · unfold split
    rw [hc]
    simp only
    rw [hv, hload]
    simp
  · rw [← List.map_append]
    have hfil : (buf.zip v.part).filter (fun x => x.2 = some true) = (buf.zip v.part).filter (fun x => !decide (x.2 = some false)) := by
      refine List.filter_congr ?_
      rintro ⟨x, o⟩ hx
      have := hnone _ hx
      rcases o with _ | _ | _
      · exact absurd rfl this
      · rfl
      · rfl
    rw [hfil]
    have := (List.filter_append_perm (fun x : (Rect n K × α) × Option Bool => decide (x.2 = some false)) (buf.zip v.part)).map Prod.fst
    rwa [List.map_fst_zip (by omega)] at this
  all_goals
    rw [List.length_map, ← List.countP_eq_length_filter, countP_zip _ _ _ hlen]
    first
    | (unfold minFill; omega)
    | omega

end TDP.RTree
