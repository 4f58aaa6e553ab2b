import Verif.RTree.Remove
import Verif.RTree.File
/-! Search, count, copy and iteration. -/
namespace TDP.RTree
variable {n : Nat} {K D : Type} [LinearOrder K] {P : Params n K} {Ok : Rect n K → Prop}

/-! ## Search -/

theorem visit_append {S : Type} (cb : S → D → S × Bool) : ∀ (xs ys : List D) (st : S × Nat),
    visit cb st (xs ++ ys) = if (visit cb st xs).2 then visit cb (visit cb st xs).1 ys else visit cb st xs
  | [], ys, st => by simp [visit]
  | x :: xs, ys, st => by
      have ih := visit_append cb xs ys
      by_cases h : (cb st.1 x).2 = true
      · simp [visit, h, ih]
      · simp [visit, h]

/-- What a query of a list of entries reports. -/
def hits (q : Rect n K) (L : List (Rect n K × D)) : List D := (L.filter (fun p => overlap q p.1)).map Prod.snd

theorem hits_append (q : Rect n K) (a b : List (Rect n K × D)) : hits q (a ++ b) = hits q a ++ hits q b := by
  simp [hits]

theorem searchKids_spec {S : Type} (cb : S → D → S × Bool) (q : Rect n K) {l : Nat}
    (f : S × Nat → Node n K D → Option ((S × Nat) × Bool)) : ∀ (bs : List (Rect n K × Node n K D)) (st : S × Nat),
    (∀ p ∈ bs, Good P Ok l p.2 ∧ nodeCover p.2 = some p.1) →
    (∀ p ∈ bs, ∀ st, f st p.2 = some (visit cb st (hits q (entries l p.2)))) →
    searchKids q f st bs = some (visit cb st (hits q (bs.flatMap (fun p => entries l p.2))))
  | [], st, _, _ => rfl
  | (r, c) :: bs, st, hg, hf => by
      have ih := fun st => searchKids_spec cb q f bs st (fun p hp => hg p (List.mem_cons_of_mem _ hp))
        (fun p hp => hf p (List.mem_cons_of_mem _ hp))
      rw [List.flatMap_cons, hits_append, visit_append]
      unfold searchKids
      by_cases ho : overlap q r = true
      · rw [if_pos ho]
        have h1 := hf (r, c) (List.mem_cons_self ..) st
        simp only at h1
        rw [h1]
        obtain ⟨⟨st', b⟩, hv⟩ : ∃ v, visit cb st (hits q (entries l c)) = v := ⟨_, rfl⟩
        rw [hv]
        cases b with
        | true => simp only [if_true]; exact ih st'
        | false => rfl
      · rw [if_neg ho]
        have h0 : hits q (entries l c) = [] := by
          unfold hits
          rw [List.map_eq_nil_iff, List.filter_eq_nil_iff]
          intro e he hov
          obtain ⟨g1, g2⟩ := hg (r, c) (List.mem_cons_self ..)
          exact ho (overlap_mono hov (entries_le g1 g2 e he))
        simp only
        rw [h0]
        simp only [visit, if_true]
        exact ih st

theorem searchRec_spec {S : Type} (cb : S → D → S × Bool) (q : Rect n K) : ∀ {l : Nat} {t : Node n K D} (fuel : Nat) (st : S × Nat),
    Good P Ok l t → l + 1 ≤ fuel → searchRec cb q fuel st t = some (visit cb st (hits q (entries l t)))
  | 0, .leaf bs, fuel + 1, st, _, _ => rfl
  | l + 1, .inner k bs, fuel + 1, st, h, hf => by
      unfold searchRec
      exact searchKids_spec (P := P) (Ok := Ok) cb q _ bs st (fun p hp => ⟨(h.2.2 p hp).1, (h.2.2 p hp).2.2⟩)
        (fun p hp st => searchRec_spec cb q fuel st (h.2.2 p hp).1 (by omega))
  | _, _, 0, _, _, hf => by omega
  | 0, .inner _ _, _ + 1, _, h, _ => h.elim
  | _ + 1, .leaf _, _ + 1, _, h, _ => h.elim

/-! ## Count and copy -/

theorem mapM_some {α β : Type} {f : α → Option β} {g : α → β} : ∀ (l : List α), (∀ x ∈ l, f x = some (g x)) → l.mapM f = some (l.map g)
  | [], _ => rfl
  | x :: xs, h => by
      rw [List.mapM_cons, h x (List.mem_cons_self ..), mapM_some xs (fun y hy => h y (List.mem_cons_of_mem _ hy))]
      rfl

theorem countRec_spec : ∀ {l : Nat} {t : Node n K D} (fuel : Nat), Good P Ok l t → l + 1 ≤ fuel →
    countRec fuel t = some (entries l t).length
  | 0, .leaf bs, fuel + 1, _, _ => rfl
  | l + 1, .inner k bs, fuel + 1, h, hf => by
      unfold countRec
      rw [mapM_some (g := fun p => (entries l p.2).length) bs (fun p hp => countRec_spec fuel (h.2.2 p hp).1 (by omega))]
      simp [entries, List.length_flatMap]
  | _, _, 0, _, hf => by omega
  | 0, .inner _ _, _ + 1, h, _ => h.elim
  | _ + 1, .leaf _, _ + 1, h, _ => h.elim

theorem copyRec_spec : ∀ {l : Nat} {t : Node n K D} (fuel : Nat), Good P Ok l t → l + 1 ≤ fuel → copyRec fuel t = some t
  | 0, .leaf bs, fuel + 1, _, _ => by simp [copyRec]
  | l + 1, .inner k bs, fuel + 1, h, hf => by
      unfold copyRec
      rw [mapM_some (g := id) bs (fun p hp => by rw [copyRec_spec fuel (h.2.2 p hp).1 (by omega)]; rfl)]
      simp
  | _, _, 0, _, hf => by omega
  | 0, .inner _ _, _ + 1, h, _ => h.elim
  | _ + 1, .leaf _, _ + 1, h, _ => h.elim

/-! ## Iteration -/

/-- What is left of one element of the stack. -/
def rest : Node n K D × Nat → List (Rect n K × D)
  | (.leaf bs, i) => bs.drop i
  | (.inner k bs, i) => (bs.drop i).flatMap (fun p => entries k p.2)

/-- The stack is in order: levels grow from the top to the bottom, and every position exists. -/
def StackOk (P : Params n K) (Ok : Rect n K → Prop) (L : Nat) : Nat → Stack n K D → Prop
  | _, [] => True
  | l, (t, i) :: s => l ≤ t.level ∧ t.level ≤ L ∧ Good P Ok t.level t ∧ i < t.count ∧ StackOk P Ok L (t.level + 1) s

theorem StackOk.mono {L : Nat} : ∀ {l l' : Nat} {s : Stack n K D}, StackOk P Ok L l s → l' ≤ l → StackOk P Ok L l' s
  | _, _, [], _, _ => trivial
  | _, _, (_, _) :: _, ⟨a, b⟩, h => ⟨le_trans h a, b⟩

theorem StackOk.length {L : Nat} : ∀ {l : Nat} {s : Stack n K D}, StackOk P Ok L l s → s.length + l ≤ L + 1 ∨ s = []
  | _, [], _ => Or.inr rfl
  | l, (t, i) :: s, ⟨a, b, _, _, e⟩ => by
      left
      rw [List.length_cons]
      rcases StackOk.length e with h | rfl
      · omega
      · simp; omega

theorem StackOk.room {L : Nat} (hL : L + 1 ≤ maxStack) {l : Nat} {s : Stack n K D} (h : StackOk P Ok L (l + 1) s) : s.length < maxStack := by
  rcases h.length with h | rfl
  · omega
  · show 0 < 32; omega

/-- The top of the stack is a leaf. -/
def Ready : Stack n K D → Prop
  | (.leaf _, _) :: _ => True
  | _ => False

omit [LinearOrder K] in
theorem drop_flat {k i : Nat} {bs : List (Rect n K × Node n K D)} {p : Rect n K × Node n K D} (h : bs[i]? = some p) :
    (bs.drop i).flatMap (fun p => entries k p.2) = entries k p.2 ++ (bs.drop (i + 1)).flatMap (fun p => entries k p.2) := by
  obtain ⟨hi, rfl⟩ := List.getElem?_eq_some_iff.1 h
  rw [List.drop_eq_getElem_cons hi, List.flatMap_cons]

/-- The stack after the element for the siblings is pushed, if there are any. -/
theorem push_sibling {L l : Nat} (hL : L + 1 ≤ maxStack) {k i : Nat} {bs : List (Rect n K × Node n K D)} {s : Stack n K D}
    (hk : k + 1 ≤ L) (hg : Good P Ok (k + 1) (.inner k bs)) (hl : l ≤ k + 1) (hs : StackOk P Ok L (k + 2) s) :
    ∃ s', (if i < bs.length then push (.inner k bs, i) s else some s) = some s' ∧ StackOk P Ok L l s' ∧
      s'.flatMap rest = (bs.drop i).flatMap (fun p => entries k p.2) ++ s.flatMap rest := by
  by_cases h : i < bs.length
  · rw [if_pos h]
    unfold push
    rw [if_pos (hs.room hL)]
    exact ⟨_, rfl, ⟨hl, hk, hg, h, hs⟩, by simp [rest]⟩
  · rw [if_neg h, List.drop_eq_nil_of_le (not_lt.1 h)]
    exact ⟨s, rfl, hs.mono (by omega), by simp⟩

theorem findNext_inner (hC : Cfg P Ok) {L : Nat} (hL : L + 1 ≤ maxStack) : ∀ (k : Nat) (fuel : Nat) (bs : List (Rect n K × Node n K D)) (i : Nat)
    (s : Stack n K D), StackOk P Ok L 0 ((.inner k bs, i) :: s) → k + 1 ≤ fuel →
    ∃ s', findNext fuel ((.inner k bs, i) :: s) = some (s', true) ∧ StackOk P Ok L 0 s' ∧ Ready s' ∧
      s'.flatMap rest = rest (.inner k bs, i) ++ s.flatMap rest
  | k, fuel, bs, i, s, ⟨_, hkL, hg, hi, hs⟩, hf => by
      obtain ⟨fuel, rfl⟩ : ∃ f, fuel = f + 1 := ⟨fuel - 1, by omega⟩
      change k + 1 ≤ L at hkL
      change Good P Ok (k + 1) (.inner k bs) at hg
      change i < bs.length at hi
      obtain ⟨⟨r, c⟩, hp⟩ : ∃ p, bs[i]? = some p := ⟨_, List.getElem?_eq_getElem hi⟩
      obtain ⟨g1, g2, g3⟩ := hg.2.2 (r, c) (List.mem_of_getElem? hp)
      have hlev := good_level g1
      change c.level = k at hlev
      obtain ⟨s1, e1, h1, h2⟩ := push_sibling (l := k + 1) (i := i + 1) hL hkL hg (by omega) hs
      have hroom := h1.room hL
      have hc1 : 0 < c.count := lt_of_lt_of_le Nat.zero_lt_one (le_trans hC.fill g2)
      have hs2 : StackOk P Ok L 0 ((c, 0) :: s1) := ⟨Nat.zero_le _, by omega, by rw [hlev]; exact g1, hc1, by rw [hlev]; exact h1⟩
      have hrest : rest (.inner k bs, i) ++ s.flatMap rest = entries k c ++ s1.flatMap rest := by
        rw [h2, ← List.append_assoc]
        show (bs.drop i).flatMap _ ++ _ = _
        rw [drop_flat hp]
      unfold findNext
      rw [e1, hp]
      simp only
      unfold push
      rw [if_pos hroom]
      simp only
      cases c with
      | leaf cs =>
        rw [if_pos (show (Node.leaf cs).level = 0 from rfl)]
        refine ⟨_, rfl, hs2, trivial, ?_⟩
        rw [hrest]
        simp [rest, entries]
      | inner k' cs =>
        have hk' : k = k' + 1 := hlev.symm
        subst hk'
        rw [if_neg (by simp [Node.level])]
        obtain ⟨s', e', a, b, c'⟩ := findNext_inner hC hL k' fuel cs 0 s1 hs2 (by omega)
        refine ⟨s', e', a, b, ?_⟩
        rw [c', hrest]
        rfl

theorem findNext_ready (hC : Cfg P Ok) {L : Nat} (hL : L + 1 ≤ maxStack) {s : Stack n K D} (hs : StackOk P Ok L 0 s) (hr : Ready s) {fuel : Nat}
    (hf : L + 2 ≤ fuel) : ∃ e s' b, getAt s = some e ∧ findNext fuel s = some (s', b) ∧ StackOk P Ok L 0 s' ∧ (Ready s' ∨ s' = []) ∧
      s.flatMap rest = e :: s'.flatMap rest := by
  obtain ⟨fuel, rfl⟩ : ∃ f, fuel = f + 1 := ⟨fuel - 1, by omega⟩
  match s, hr with
  | (.leaf bs, i) :: s, _ =>
    obtain ⟨_, hL0, hg, hi, hs⟩ := hs
    change i < bs.length at hi
    have hrest : ∀ s'' : List (Rect n K × D), rest (.leaf bs, i) ++ s'' = bs[i] :: (bs.drop (i + 1) ++ s'') := by
      intro s''
      show bs.drop i ++ s'' = _
      rw [List.drop_eq_getElem_cons hi, List.cons_append]
    refine ⟨bs[i], ?_⟩
    unfold findNext
    by_cases h : i + 1 < bs.length
    · rw [if_pos h]
      unfold push
      rw [if_pos (hs.room hL)]
      refine ⟨_, true, List.getElem?_eq_getElem hi, rfl, ⟨Nat.zero_le _, hL0, hg, h, hs⟩, Or.inl trivial, ?_⟩
      rw [List.flatMap_cons, hrest]
      rfl
    · rw [if_neg h]
      have h0 : bs.drop (i + 1) = [] := List.drop_eq_nil_of_le (not_lt.1 h)
      rw [h0] at hrest
      match s, hs with
      | [], _ =>
        obtain ⟨fuel, rfl⟩ : ∃ f, fuel = f + 1 := ⟨fuel - 1, by omega⟩
        refine ⟨[], false, List.getElem?_eq_getElem hi, rfl, trivial, Or.inr rfl, ?_⟩
        rw [List.flatMap_cons, hrest]
        rfl
      | (.leaf cs, j) :: s, hs =>
        have := hs.1
        simp [Node.level] at this
      | (.inner k cs, j) :: s, hs =>
        have hk := hs.2.1
        change k + 1 ≤ L at hk
        obtain ⟨s', e', a, b, c'⟩ := findNext_inner hC hL k fuel cs j s (hs.mono (by omega)) (by omega)
        refine ⟨s', true, List.getElem?_eq_getElem hi, e', a, Or.inl b, ?_⟩
        rw [List.flatMap_cons, hrest, c', List.flatMap_cons]
        rfl

theorem iterLoop_spec (hC : Cfg P Ok) {L : Nat} (hL : L + 1 ≤ maxStack) {depth : Nat} (hd : L + 2 ≤ depth) : ∀ (fuel : Nat) (s : Stack n K D),
    StackOk P Ok L 0 s → (Ready s ∨ s = []) → (s.flatMap rest).length + 1 ≤ fuel → iterLoop depth fuel s = some (s.flatMap rest)
  | 0, s, _, _, hf => by omega
  | fuel + 1, s, hs, hr, hf => by
      unfold iterLoop
      rcases hr with hr | rfl
      · obtain ⟨e, s', b, h1, h2, h3, h4, h5⟩ := findNext_ready hC hL hs hr hd
        have hn : isNull s = false := by
          cases s with
          | nil => exact hr.elim
          | cons => rfl
        rw [hn, if_neg (by simp), h1, h2]
        simp only
        rw [h5] at hf ⊢
        rw [List.length_cons] at hf
        rw [iterLoop_spec hC hL hd fuel s' h3 h4 (by omega)]
        rfl
      · rfl

theorem getFirst_spec (hC : Cfg P Ok) {L : Nat} (hL : L + 1 ≤ maxStack) : ∀ (l : Nat) (t : Node n K D) (s : Stack n K D) (fuel : Nat), Good P Ok l t →
    1 ≤ t.count → l ≤ L → StackOk P Ok L (l + 1) s → l + 1 ≤ fuel →
    ∃ s', getFirst fuel t s = some s' ∧ StackOk P Ok L 0 s' ∧ Ready s' ∧ s'.flatMap rest = entries l t ++ s.flatMap rest
  | 0, .leaf bs, s, fuel + 1, ht, hc, hlL, hs, _ => by
      unfold getFirst
      change 1 ≤ bs.length at hc
      rw [if_pos (by omega)]
      unfold push
      rw [if_pos (hs.room hL)]
      exact ⟨_, rfl, ⟨Nat.zero_le _, hlL, ht, hc, hs⟩, trivial, by simp [rest, entries]⟩
  | l + 1, .inner k bs, s, fuel + 1, ht, hc, hlL, hs, hf => by
      unfold getFirst
      obtain ⟨hkl, h2, h3⟩ := id ht
      subst hkl
      change 1 ≤ bs.length at hc
      obtain ⟨⟨r, c⟩, hp⟩ : ∃ p, bs[0]? = some p := ⟨_, List.getElem?_eq_getElem (by omega)⟩
      obtain ⟨g1, g2, _⟩ := h3 (r, c) (List.mem_of_getElem? hp)
      obtain ⟨s1, e1, k1, k2⟩ := push_sibling (l := k + 1) (i := 1) hL hlL ht (by omega) hs
      rw [show (if bs.length > 1 then push (Node.inner k bs, 1) s else some s) = some s1 from e1, hp]
      simp only
      obtain ⟨s', e', a, b, c'⟩ := getFirst_spec hC hL k c s1 fuel g1 (le_trans hC.fill g2) (by omega) k1 (by omega)
      refine ⟨s', e', a, b, ?_⟩
      rw [c', k2, ← List.append_assoc]
      have := drop_flat (k := k) hp
      rw [List.drop_zero] at this
      simp only [entries]
      rw [this]
  | _, _, _, 0, _, _, _, _, hf => by omega
  | 0, .inner _ _, _, _ + 1, h, _, _, _, _ => h.elim
  | _ + 1, .leaf _, _, _ + 1, h, _, _, _, _ => h.elim

/-- The number of entries grows exponentially with the level. -/
theorem pow_le_entries (hf : 2 ≤ minFill P) : ∀ {l : Nat} {t : Node n K D}, Good P Ok l t → 2 ≤ t.count → 2 ^ (l + 1) ≤ (entries l t).length
  | 0, .leaf bs, _, hc => by simpa [entries, Node.count] using hc
  | l + 1, .inner k bs, h, hc => by
      have key : ∀ cs : List (Rect n K × Node n K D), (∀ p ∈ cs, p ∈ bs) →
          cs.length * 2 ^ (l + 1) ≤ (cs.flatMap (fun p => entries l p.2)).length := by
        intro cs
        induction cs with
        | nil => simp
        | cons p cs ih =>
          intro hsub
          have hp := h.2.2 p (hsub p (List.mem_cons_self ..))
          have h1 := pow_le_entries hf hp.1 (le_trans hf hp.2.1)
          have h2 := ih (fun x hx => hsub x (List.mem_cons_of_mem _ hx))
          rw [List.length_cons, List.flatMap_cons, List.length_append, Nat.succ_mul]
          omega
      have h1 := key bs (fun _ h => h)
      have hc' : 2 ≤ bs.length := hc
      have h2 : 2 * 2 ^ (l + 1) ≤ bs.length * 2 ^ (l + 1) := Nat.mul_le_mul_right _ hc'
      simp only [entries]
      rw [pow_succ 2 (l + 1)]
      omega
  | 0, .inner _ _, h, _ => h.elim
  | _ + 1, .leaf _, h, _ => h.elim

theorem root_level_lt (hfill : 2 ≤ minFill P) {l : Nat} {t : Node n K D} (ht : Root P Ok l t) {k : Nat} (hk : 1 ≤ k)
    (h : (entries l t).length < 2 ^ (k + 1)) : l < k := by
  by_cases hl : 1 ≤ l
  · have h1 := pow_le_entries hfill ht.1 (ht.2 hl)
    have h2 : 2 ^ (l + 1) < 2 ^ (k + 1) := lt_of_le_of_lt h1 h
    have := (Nat.pow_lt_pow_iff_right (a := 2) (by norm_num)).1 h2
    omega
  · omega

theorem iterate_spec (hC : Cfg P Ok) (hfill : 2 ≤ minFill P) {l : Nat} {t : Node n K D} (ht : Root P Ok l t)
    (hsmall : (entries l t).length < 2 ^ 33) {depth fuel : Nat} (hd : l + 2 ≤ depth) (hf : (entries l t).length + 1 ≤ fuel) :
    iterate depth fuel t = some (entries l t) := by
  have hl : l < 32 := root_level_lt hfill ht (by norm_num) hsmall
  unfold iterate
  rw [good_level ht.1]
  by_cases hc : 1 ≤ t.count
  · obtain ⟨s', e, a, b, c⟩ := getFirst_spec hC (L := l) (by show l + 1 ≤ 32; omega) l t [] (l + 1) ht.1 hc le_rfl trivial le_rfl
    rw [e, Option.bind_some]
    simp only [List.flatMap_nil, List.append_nil] at c
    rw [iterLoop_spec hC (by show l + 1 ≤ 32; omega) hd fuel s' a (Or.inl b) (by rw [c]; exact hf), c]
  · cases t with
    | inner k bs =>
      have := ht.2
      cases l with
      | zero => exact ht.1.elim
      | succ l => have := this (by omega); omega
    | leaf bs =>
      cases l with
      | succ l => exact ht.1.elim
      | zero =>
        have : bs = [] := by
          cases bs with
          | nil => rfl
          | cons p bs => simp [Node.count] at hc
        subst this
        obtain ⟨fuel, rfl⟩ : ∃ f, fuel = f + 1 := ⟨fuel - 1, by omega⟩
        rfl

end TDP.RTree
