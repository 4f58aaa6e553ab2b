import Verif.RTree.Insert
/-! Removal. -/
namespace TDP.RTree
variable {n : Nat} {K D : Type} [LinearOrder K] {P : Params n K} {Ok : Rect n K → Prop}

theorem disconnect_perm {α : Type} {bs : List α} {i : Nat} {p : α} (h : bs[i]? = some p) : (p :: disconnect bs i).Perm bs := by
  obtain ⟨b1, b2, hbs, hl, hset⟩ := split_at h
  rcases List.eq_nil_or_concat b2 with h2 | ⟨b2', x, h2⟩
  · subst h2
    have e : disconnect bs i = b1 := by
      unfold disconnect
      rw [hbs, List.getLast?_append]
      simp only [List.getLast?_singleton, Option.some_or]
      rw [← hbs, hset]
      simp
    rw [e, hbs]
    exact (List.perm_append_singleton p b1).symm
  · subst h2
    have e : disconnect bs i = b1 ++ x :: b2' := by
      unfold disconnect
      have hlast : bs.getLast? = some x := by
        rw [hbs, List.concat_eq_append, List.getLast?_append, ← List.cons_append, List.getLast?_append]
        simp
      rw [hlast]
      simp only
      rw [hset, List.concat_eq_append, ← List.cons_append, ← List.append_assoc, List.dropLast_concat]
    rw [e, hbs]
    refine (List.perm_middle (a := p) (l₁ := b1) (l₂ := x :: b2')).symm.trans ?_
    refine List.Perm.append_left b1 (List.Perm.cons p ?_)
    rw [List.concat_eq_append]
    exact (List.perm_append_singleton x b2').symm

/-- Every entry lies in the cover of its node. -/
theorem entries_le : ∀ {l : Nat} {t : Node n K D} {c : Rect n K}, Good P Ok l t → nodeCover t = some c → ∀ e ∈ entries l t, e.1.Le c
  | 0, .leaf bs, c, _, hc, e, he => (coverOf_spec hc).1 _ (List.mem_map.2 ⟨e, he, rfl⟩)
  | l + 1, .inner k bs, c, h, hc, e, he => by
      obtain ⟨p, hp, he⟩ := List.mem_flatMap.1 he
      obtain ⟨a, _, b⟩ := h.2.2 p hp
      exact (entries_le a b e he).trans ((coverOf_spec hc).1 _ (List.mem_map.2 ⟨p, hp, rfl⟩))
  | 0, .inner _ _, _, h, _, _, _ => h.elim
  | _ + 1, .leaf _, _, h, _, _, _ => h.elim

/-- The entries of the nodes waiting to be reinserted. -/
def pending (ls : List (Node n K D)) : Multiset (Rect n K × D) := (ls.map (fun s => ent s.level s)).sum

/-- What removing an entry from a tree of level `l` leads to. -/
structure Removed (P : Params n K) (Ok : Rect n K → Prop) (d : D) (l : Nat) (t t' : Node n K D) (ls : List (Node n K D)) : Prop where
  good : Good P Ok l t'
  cnt : t.count ≤ t'.count + 1
  list : ∀ s ∈ ls, s.level < l ∧ Good P Ok s.level s
  ent : ∃ e : Rect n K × D, e.2 = d ∧ ent l t = ent l t' + pending ls + {e}

/-- The loop over the children. -/
theorem tryChildren_spec {q : Rect n K} {d : D} {l : Nat} {f : Node n K D → Option (Option (Node n K D × List (Node n K D)))} :
    ∀ (bs : List (Rect n K × Node n K D)) (j : Nat),
    (∀ p ∈ bs, Good P Ok l p.2 ∧ minFill P ≤ p.2.count ∧ nodeCover p.2 = some p.1) →
    (∀ p ∈ bs, (f p.2 = some none ∧ ∀ e ∈ entries l p.2, e.2 = d → overlap q e.1 = false) ∨
      ∃ t' ls, f p.2 = some (some (t', ls)) ∧ Removed P Ok d l p.2 t' ls) →
    (tryChildren q f j bs = some none ∧ ∀ p ∈ bs, ∀ e ∈ entries l p.2, e.2 = d → overlap q e.1 = false) ∨
    ∃ i p t' ls, tryChildren q f j bs = some (some (j + i, t', ls)) ∧ bs[i]? = some p ∧ Removed P Ok d l p.2 t' ls
  | [], j, _, _ => Or.inl ⟨rfl, by simp⟩
  | (r, c) :: bs, j, hg, hf => by
      have ih := tryChildren_spec bs (j + 1) (fun p hp => hg p (List.mem_cons_of_mem _ hp)) (fun p hp => hf p (List.mem_cons_of_mem _ hp))
      have next : (∀ e ∈ entries l c, e.2 = d → overlap q e.1 = false) →
          (tryChildren q f (j + 1) bs = some none ∧ ∀ p ∈ (r, c) :: bs, ∀ e ∈ entries l p.2, e.2 = d → overlap q e.1 = false) ∨
          ∃ i p t' ls, tryChildren q f (j + 1) bs = some (some (j + i, t', ls)) ∧ ((r, c) :: bs)[i]? = some p ∧
            Removed P Ok d l p.2 t' ls := by
        intro h0
        rcases ih with ⟨a, b⟩ | ⟨i, p, t', ls, a, b, h⟩
        · left
          refine ⟨a, ?_⟩
          intro p hp
          rcases List.mem_cons.1 hp with rfl | hp
          · exact h0
          · exact b p hp
        · right
          refine ⟨i + 1, p, t', ls, ?_, by simpa using b, h⟩
          rw [a, show j + 1 + i = j + (i + 1) by omega]
      unfold tryChildren
      by_cases ho : overlap q r = true
      · rw [if_pos ho]
        rcases hf (r, c) (List.mem_cons_self ..) with ⟨a, b⟩ | ⟨t', ls, a, b⟩
        · simp only at a
          rw [a]
          exact next b
        · simp only at a
          rw [a]
          exact Or.inr ⟨0, (r, c), t', ls, rfl, rfl, b⟩
      · rw [if_neg ho]
        refine next ?_
        intro e he _
        by_contra hne
        obtain ⟨g1, _, g3⟩ := hg (r, c) (List.mem_cons_self ..)
        exact ho (overlap_mono (by simpa using hne) (entries_le g1 g3 e he))

theorem removeRec_spec [DecidableEq D] (hC : Cfg P Ok) (q : Rect n K) (d : D) : ∀ {l : Nat} {t : Node n K D} (fuel : Nat),
    Good P Ok l t → l + 1 ≤ fuel →
    (removeRec P q d fuel t = some none ∧ ∀ e ∈ entries l t, e.2 = d → overlap q e.1 = false) ∨
    ∃ t' ls, removeRec P q d fuel t = some (some (t', ls)) ∧ Removed P Ok d l t t' ls := by
  intro l
  induction l with
  | zero =>
    intro t fuel ht hf
    obtain ⟨fuel, rfl⟩ : ∃ f, fuel = f + 1 := ⟨fuel - 1, by omega⟩
    cases t with
    | inner k bs => exact ht.elim
    | leaf bs =>
      unfold removeRec
      cases hi : bs.findIdx? (fun p => decide (p.2 = d)) with
      | none =>
        left
        refine ⟨rfl, ?_⟩
        rw [List.findIdx?_eq_none_iff] at hi
        intro e he hd
        have := hi e he
        simp [hd] at this
      | some i =>
        right
        rw [List.findIdx?_eq_some_iff_getElem] at hi
        obtain ⟨hlt, hp, _⟩ := hi
        have hp' : bs[i].2 = d := by simpa using hp
        have hperm := disconnect_perm (List.getElem?_eq_getElem hlt)
        have hlen := hperm.length_eq
        rw [List.length_cons] at hlen
        refine ⟨.leaf (disconnect bs i), [], rfl, ⟨⟨?_, ?_⟩, ?_, by simp, bs[i], hp', ?_⟩⟩
        · have := ht.1; omega
        · exact fun p hp => ht.2 p (hperm.subset (List.mem_cons_of_mem _ hp))
        · simp only [Node.count]; omega
        · simp only [ent, entries, pending, List.map_nil, List.sum_nil, add_zero]
          rw [← Multiset.coe_eq_coe.2 hperm, ← Multiset.cons_coe, ← Multiset.singleton_add, add_comm]
  | succ l ih =>
    intro t fuel ht hf
    obtain ⟨fuel, rfl⟩ : ∃ f, fuel = f + 1 := ⟨fuel - 1, by omega⟩
    cases t with
    | leaf bs => exact ht.elim
    | inner k bs =>
      obtain ⟨rfl, hlen, hbs⟩ := ht
      unfold removeRec
      rcases tryChildren_spec (P := P) (Ok := Ok) (q := q) (d := d) (l := k) (f := removeRec P q d fuel) bs 0 hbs
        (fun p hp => ih fuel (hbs p hp).1 (by omega)) with ⟨a, b⟩ | ⟨i, p, c', ls, a, hp, h⟩
      · left
        rw [a]
        refine ⟨rfl, ?_⟩
        intro e he
        obtain ⟨p, hp, he⟩ := List.mem_flatMap.1 he
        exact b p hp e he
      · right
        rw [a]
        simp only [Nat.zero_add]
        obtain ⟨e, he, hent⟩ := h.ent
        by_cases hm : c'.count ≥ P.minNodes
        · rw [if_pos hm]
          obtain ⟨r, hr⟩ := nodeCover_some (le_trans (le_trans (by norm_num) hC.min) hm)
          rw [hr]
          obtain ⟨b1, b2, hbs', hl1, hset⟩ := split_at hp
          refine ⟨_, _, rfl, ⟨⟨rfl, by rw [List.length_set]; exact hlen, ?_⟩, by simp [Node.count], ?_, e, he, ?_⟩⟩
          · intro x hx
            rcases List.mem_or_eq_of_mem_set hx with hx | rfl
            · exact hbs x hx
            · exact ⟨h.good, le_trans (Nat.min_le_left _ _) hm, hr⟩
          · intro s hs
            exact ⟨Nat.lt_succ_of_lt (h.list s hs).1, (h.list s hs).2⟩
          · rw [hset]
            conv_lhs => rw [hbs']
            simp only [ent, entries, List.flatMap_append, List.flatMap_cons, ← Multiset.coe_add]
            have h3 : (↑(entries k p.2) : Multiset (Rect n K × D)) = ↑(entries k c') + pending ls + {e} := hent
            rw [h3]
            abel
        · rw [if_neg hm]
          have hperm := disconnect_perm hp
          have hl := hperm.length_eq
          rw [List.length_cons] at hl
          refine ⟨_, _, rfl, ⟨⟨rfl, by omega, ?_⟩, by simp only [Node.count]; omega, ?_, e, he, ?_⟩⟩
          · exact fun x hx => hbs x (hperm.subset (List.mem_cons_of_mem _ hx))
          · intro s hs
            rcases List.mem_cons.1 hs with rfl | hs
            · have := good_level h.good
              rw [this]
              exact ⟨Nat.lt_succ_self k, h.good⟩
            · exact ⟨Nat.lt_succ_of_lt (h.list s hs).1, (h.list s hs).2⟩
          · have hx := Multiset.coe_eq_coe.2 (hperm.flatMap_right (fun p => entries k p.2))
            rw [List.flatMap_cons, ← Multiset.coe_add] at hx
            simp only [ent, entries, pending, List.map_cons, List.sum_cons]
            rw [← hx]
            have h3 : (↑(entries k p.2) : Multiset (Rect n K × D)) = ↑(entries k c') + pending ls + {e} := hent
            rw [h3, good_level h.good]
            simp only [pending, ent]
            abel

/-! ## Reinsertion -/

/-- The branches of a good node. -/
theorem branches_good : ∀ {l : Nat} {t : Node n K D}, Good P Ok l t → (∀ b ∈ t.branches, BGood P Ok l b) ∧
    (t.branches.map (bEnt l)).sum = ent l t
  | 0, .leaf bs, h => by
      refine ⟨?_, ?_⟩
      · intro b hb
        obtain ⟨p, hp, rfl⟩ := List.mem_map.1 hb
        exact h.2 p hp
      · simp only [Node.branches, ent, entries]
        clear h
        induction bs with
        | nil => rfl
        | cons p bs ih =>
          rw [List.map_cons, List.map_cons, List.sum_cons, ih, ← Multiset.cons_coe, ← Multiset.singleton_add]
          rfl
  | l + 1, .inner k bs, h => by
      refine ⟨?_, ?_⟩
      · intro b hb
        obtain ⟨p, hp, rfl⟩ := List.mem_map.1 hb
        exact h.2.2 p hp
      · simp only [Node.branches, ent, entries]
        clear h
        induction bs with
        | nil => rfl
        | cons p bs ih =>
          rw [List.map_cons, List.map_cons, List.sum_cons, ih, List.flatMap_cons, ← Multiset.coe_add]
          rfl
  | 0, .inner _ _, h => h.elim
  | _ + 1, .leaf _, h => h.elim

theorem reinsertNode_spec (hC : Cfg P Ok) {lvl : Nat} : ∀ (bs : List (Branch n K D)) {l : Nat} {t : Node n K D},
    (∀ b ∈ bs, BGood P Ok lvl b) → Good P Ok l t → lvl < l → 1 ≤ t.count →
    ∃ l' t', reinsertNode P lvl bs t = some t' ∧ l ≤ l' ∧ Good P Ok l' t' ∧ 1 ≤ t'.count ∧
      ent l' t' = ent l t + (bs.map (bEnt lvl)).sum
  | [], l, t, _, ht, _, hc => ⟨l, t, rfl, le_rfl, ht, hc, by simp⟩
  | b :: bs, l, t, hb, ht, hl, hc => by
      obtain ⟨l1, t1, e1, h1, h2, _, h4, _, h6⟩ := insertRect_spec hC (hb b (List.mem_cons_self ..)) ht (le_of_lt hl) (fun _ => hc)
      obtain ⟨l2, t2, e2, k1, k2, k3, k4⟩ := reinsertNode_spec hC bs (fun b hx => hb b (List.mem_cons_of_mem _ hx)) h2
        (lt_of_lt_of_le hl h1) h4
      refine ⟨l2, t2, ?_, le_trans h1 k1, k2, k3, ?_⟩
      · simp only [reinsertNode, e1, Option.bind_some, e2]
      · rw [k4, h6, List.map_cons, List.sum_cons, add_assoc]

theorem reinsertAll_spec (hC : Cfg P Ok) : ∀ (ls : List (Node n K D)) {l : Nat} {t : Node n K D},
    (∀ s ∈ ls, s.level < l ∧ Good P Ok s.level s) → Good P Ok l t → (ls ≠ [] → 1 ≤ t.count) →
    ∃ l' t', reinsertAll P ls t = some t' ∧ l ≤ l' ∧ Good P Ok l' t' ∧ (t.count = 0 ∨ 1 ≤ t'.count) ∧ (ls = [] → t' = t ∧ l' = l) ∧
      ent l' t' = ent l t + pending ls
  | [], l, t, _, ht, _ => ⟨l, t, rfl, le_rfl, ht, by omega, fun _ => ⟨rfl, rfl⟩, by simp [pending]⟩
  | s :: ls, l, t, hs, ht, hc => by
      obtain ⟨s1, s2⟩ := hs s (List.mem_cons_self ..)
      obtain ⟨b1, b2⟩ := branches_good s2
      obtain ⟨l1, t1, e1, h1, h2, h3, h4⟩ := reinsertNode_spec hC s.branches b1 ht s1 (hc (by simp))
      obtain ⟨l2, t2, e2, k1, k2, k3, _, k5⟩ := reinsertAll_spec hC ls
        (fun x hx => ⟨lt_of_lt_of_le (hs x (List.mem_cons_of_mem _ hx)).1 h1, (hs x (List.mem_cons_of_mem _ hx)).2⟩) h2 (fun _ => h3)
      refine ⟨l2, t2, ?_, le_trans h1 k1, k2, Or.inr (by omega), by simp, ?_⟩
      · simp only [reinsertAll, e1, Option.bind_some, e2]
      · rw [k5, h4, b2]
        simp only [pending, List.map_cons, List.sum_cons]
        abel

/-- A tree of the class: an inner root has at least two children. -/
def Root (P : Params n K) (Ok : Rect n K → Prop) (l : Nat) (t : Node n K D) : Prop := Good P Ok l t ∧ (1 ≤ l → 2 ≤ t.count)

theorem collapse_spec (hfill : 2 ≤ minFill P) {l : Nat} {t : Node n K D} (ht : Good P Ok l t) (hc : 1 ≤ l → 1 ≤ t.count) :
    ∃ l', Root P Ok l' (collapse t) ∧ ent l' (collapse t) = ent l t := by
  cases t with
  | leaf bs =>
    cases l with
    | zero => exact ⟨0, ⟨ht, by omega⟩, rfl⟩
    | succ l => exact ht.elim
  | inner k bs =>
    cases l with
    | zero => exact ht.elim
    | succ l =>
      have hc1 := hc (by omega)
      rcases bs with _ | ⟨⟨r, c⟩, _ | ⟨p, bs⟩⟩
      · simp [Node.count] at hc1
      · obtain ⟨rfl, _, h⟩ := ht
        obtain ⟨g1, g2, _⟩ := h (r, c) (by simp)
        refine ⟨k, ⟨g1, fun _ => le_trans hfill g2⟩, ?_⟩
        simp [collapse, ent, entries]
      · exact ⟨l + 1, ⟨ht, fun _ => by simp [collapse, Node.count]⟩, rfl⟩

theorem remove_spec [DecidableEq D] (hC : Cfg P Ok) (hmax : P.minNodes + 2 ≤ P.maxNodes) (q : Rect n K) (d : D) {l : Nat} {t : Node n K D}
    (ht : Root P Ok l t) :
    (remove P q d t = some t ∧ ∀ e ∈ entries l t, e.2 = d → overlap q e.1 = false) ∨
    ∃ l' t', remove P q d t = some t' ∧ Root P Ok l' t' ∧ ∃ e : Rect n K × D, e.2 = d ∧ ent l t = ent l' t' + {e} := by
  have hm := hC.min
  have hfill : 2 ≤ minFill P := by unfold minFill; omega
  rcases removeRec_spec hC q d (t.level + 1) ht.1 (by rw [good_level ht.1]) with ⟨a, b⟩ | ⟨t1, ls, a, h⟩
  · left
    refine ⟨?_, b⟩
    unfold remove
    rw [a]
  · right
    obtain ⟨e, he, hent⟩ := h.ent
    have hcnt := h.cnt
    have hone : 1 ≤ l → 1 ≤ t1.count := by
      intro hl
      have := ht.2 hl
      omega
    obtain ⟨l2, t2, e2, h2, h3, h4, h5, h6⟩ := reinsertAll_spec hC ls h.list h.good (by
      intro hne
      obtain ⟨s, hs⟩ := List.exists_mem_of_ne_nil _ hne
      have := (h.list s hs).1
      exact hone (by omega))
    obtain ⟨l3, h7, h8⟩ := collapse_spec hfill h3 (by
      intro hl
      rcases h4 with h4 | h4
      · by_cases hls : ls = []
        · obtain ⟨r1, r2⟩ := h5 hls
          subst r2
          exact absurd (hone hl) (by omega)
        · obtain ⟨s, hs⟩ := List.exists_mem_of_ne_nil _ hls
          have := (h.list s hs).1
          have := hone (by omega)
          omega
      · exact h4)
    refine ⟨l3, collapse t2, ?_, h7, e, he, ?_⟩
    · unfold remove
      rw [a]
      simp only [e2, Option.map_some]
    · rw [h8, h6, hent]

theorem insert_spec (hC : Cfg P Ok) {r : Rect n K} {d : D} (hr : Ok r) {l : Nat} {t : Node n K D} (ht : Root P Ok l t) :
    ∃ l' t', insert P r d t = some t' ∧ Root P Ok l' t' ∧ ent l' t' = ent l t + {(r, d)} := by
  obtain ⟨l', t', e, h1, h2, h3, h4, h5, h6⟩ := insertRect_spec hC (b := .data r d) (lvl := 0) hr ht.1 (Nat.zero_le _)
    (fun h => le_trans (by omega) (ht.2 h))
  refine ⟨l', t', e, ⟨h2, ?_⟩, h6⟩
  intro hl
  by_cases hx : l' = l
  · subst hx
    exact le_trans (ht.2 hl) (h3 rfl)
  · exact le_of_eq (h5 hx).symm

end TDP.RTree
