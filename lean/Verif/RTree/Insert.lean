import Verif.RTree.Split
import Mathlib.Data.Multiset.AddSub
import Mathlib.Tactic.Abel
/-! Insertion. -/
namespace TDP.RTree
variable {n : Nat} {K D : Type} [LinearOrder K]

/-- The entries stored in a tree of level `l`. -/
def entries : Nat → Node n K D → List (Rect n K × D)
  | _, .leaf bs => bs
  | 0, .inner _ _ => []
  | l + 1, .inner _ bs => bs.flatMap (fun p => entries l p.2)

/-- A tree of level `l` whose leaves all have the same depth, whose nodes are not over-full, whose nodes below the root are not
under-full, whose rectangles are the covers of their children, and whose entries have rectangles satisfying `Ok`. -/
def Good (P : Params n K) (Ok : Rect n K → Prop) : Nat → Node n K D → Prop
  | 0, .leaf bs => bs.length ≤ P.maxNodes ∧ ∀ p ∈ bs, Ok p.1
  | l + 1, .inner k bs => k = l ∧ bs.length ≤ P.maxNodes ∧
      ∀ p ∈ bs, Good P Ok l p.2 ∧ minFill P ≤ p.2.count ∧ nodeCover p.2 = some p.1
  | _, _ => False

/-- A branch that belongs into a node of level `l`. -/
def BGood (P : Params n K) (Ok : Rect n K → Prop) : Nat → Branch n K D → Prop
  | 0, .data r _ => Ok r
  | l + 1, .sub r c => Good P Ok l c ∧ minFill P ≤ c.count ∧ nodeCover c = some r
  | _, _ => False

/-- Its entries. -/
def bEntries (l : Nat) : Branch n K D → List (Rect n K × D)
  | .data r d => [(r, d)]
  | .sub _ c => entries (l - 1) c

/-- The entries of a tree of level `l`, in no order. -/
def ent (l : Nat) (t : Node n K D) : Multiset (Rect n K × D) := ↑(entries l t)

/-- The entries of a branch, in no order. -/
def bEnt (l : Nat) (b : Branch n K D) : Multiset (Rect n K × D) := ↑(bEntries l b)

/-- Requirements on the parameters: the class' asserts, and `VolOk`. -/
structure Cfg (P : Params n K) (Ok : Rect n K → Prop) : Prop where
  min : 2 ≤ P.minNodes
  max : P.minNodes < P.maxNodes
  vol : VolOk P Ok

theorem Cfg.fill {P : Params n K} {Ok : Rect n K → Prop} (h : Cfg P Ok) : 1 ≤ minFill P := by
  have := h.min; have := h.max
  unfold minFill; omega

variable {P : Params n K} {Ok : Rect n K → Prop}

theorem good_level : ∀ {l : Nat} {t : Node n K D}, Good P Ok l t → t.level = l
  | 0, .leaf _, _ => rfl
  | _ + 1, .inner _ _, h => by simp [Node.level, h.1]
  | 0, .inner _ _, h => h.elim
  | _ + 1, .leaf _, h => h.elim

theorem rects_length (t : Node n K D) : t.rects.length = t.count := by cases t <;> simp [Node.rects, Node.count]

theorem good_ok (hC : Cfg P Ok) : ∀ {l : Nat} {t : Node n K D}, Good P Ok l t → ∀ r ∈ t.rects, Ok r
  | 0, .leaf bs, h, r, hr => by
      obtain ⟨p, hp, rfl⟩ := List.mem_map.1 hr
      exact h.2 p hp
  | l + 1, .inner k bs, h, r, hr => by
      obtain ⟨p, hp, rfl⟩ := List.mem_map.1 hr
      obtain ⟨a, _, c⟩ := h.2.2 p hp
      exact hC.vol.cover c (good_ok hC a)
  | 0, .inner _ _, h, _, _ => h.elim
  | _ + 1, .leaf _, h, _, _ => h.elim

theorem bgood_ok (hC : Cfg P Ok) {l : Nat} {b : Branch n K D} (h : BGood P Ok l b) : Ok b.rect := by
  cases b with
  | data r d =>
    cases l with
    | zero => exact h
    | succ l => exact h.elim
  | sub r c =>
    cases l with
    | zero => exact h.elim
    | succ l => exact hC.vol.cover h.2.2 (good_ok hC h.1)

/-- `x` contains all rectangles of a node. -/
def UB (t : Node n K D) (x : Rect n K) : Prop := ∀ r ∈ t.rects, r.Le x

theorem nodeCover_iff {t : Node n K D} (h : 1 ≤ t.count) {c : Rect n K} : nodeCover t = some c ↔ ∀ x, UB t x ↔ c.Le x := by
  constructor
  · intro hc x
    obtain ⟨a, b⟩ := coverOf_spec hc
    exact ⟨b x, fun hx r hr => (a r hr).trans hx⟩
  · intro hx
    refine coverOf_eq ?_ ((hx c).2 (Rect.Le.refl c)) (fun b hb => (hx b).1 hb)
    intro he
    have := rects_length t
    rw [he] at this
    simp at this
    omega

theorem nodeCover_some {t : Node n K D} (h : 1 ≤ t.count) : ∃ c, nodeCover t = some c := by
  refine coverOf_some ?_
  intro he
  have := rects_length t
  rw [he] at this
  simp at this
  omega

/-! ## Adding one branch -/

theorem addTo_spec {α : Type} (hC : Cfg P Ok) {Q : Rect n K × α → Prop} (hQ : ∀ p, Q p → Ok p.1) {bs : List (Rect n K × α)}
    {b : Rect n K × α} (hl : bs.length ≤ P.maxNodes) (hbs : ∀ p ∈ bs, Q p) (hb : Q b) :
    ∃ bs' o, addTo P bs b = some (bs', o) ∧ bs'.length ≤ P.maxNodes ∧ (∀ p ∈ bs', Q p) ∧
      ((o = none ∧ bs' = bs ++ [b]) ∨
       ∃ bs2, o = some bs2 ∧ bs2.length ≤ P.maxNodes ∧ (∀ p ∈ bs2, Q p) ∧ minFill P ≤ bs'.length ∧ minFill P ≤ bs2.length ∧
         (bs' ++ bs2).Perm (bs ++ [b])) := by
  have hall : ∀ p ∈ bs ++ [b], Q p := by
    intro p hp
    rcases List.mem_append.1 hp with hp | hp
    · exact hbs p hp
    · rw [List.mem_singleton] at hp; subst hp; exact hb
  unfold addTo
  by_cases h : bs.length < P.maxNodes
  · rw [if_pos h]
    exact ⟨_, _, rfl, by simp; omega, hall, Or.inl ⟨rfl, rfl⟩⟩
  · rw [if_neg h]
    obtain ⟨A, B, e, hp, a1, a2, b1, b2⟩ := split_spec hC.vol hC.min hC.max (buf := bs ++ [b]) (by simp; omega)
      (fun p hp => hQ p (hall p hp))
    rw [e]
    refine ⟨A, some B, rfl, a2, fun p hx => hall p (hp.subset (List.mem_append_left _ hx)), Or.inr ⟨B, rfl, b2, ?_, a1, b1, hp⟩⟩
    exact fun p hx => hall p (hp.subset (List.mem_append_right _ hx))

/-- Result of adding a branch below or in a node. -/
structure Added (P : Params n K) (Ok : Rect n K → Prop) (l : Nat) (t : Node n K D) (E : Multiset (Rect n K × D)) (rb : Rect n K)
    (t' : Node n K D) (o : Option (Node n K D)) : Prop where
  good : Good P Ok l t'
  none : o = none → t.count ≤ t'.count ∧ 1 ≤ t'.count ∧ ent l t' = ent l t + E ∧
    ∀ x, UB t' x ↔ UB t x ∧ rb.Le x
  some : ∀ t2, o = some t2 → Good P Ok l t2 ∧ minFill P ≤ t'.count ∧ minFill P ≤ t2.count ∧
    ent l t' + ent l t2 = ent l t + E ∧ ∀ x, (UB t' x ∧ UB t2 x) ↔ UB t x ∧ rb.Le x

theorem ub_perm {t1 t2 t : Node n K D} {rb : Rect n K} (h : (t1.rects ++ t2.rects).Perm (t.rects ++ [rb])) (x : Rect n K) :
    (UB t1 x ∧ UB t2 x) ↔ UB t x ∧ rb.Le x := by
  constructor
  · rintro ⟨a, b⟩
    have key : ∀ r ∈ t.rects ++ [rb], r.Le x := by
      intro r hr
      rcases List.mem_append.1 (h.symm.subset hr) with hr | hr
      · exact a r hr
      · exact b r hr
    exact ⟨fun r hr => key r (List.mem_append_left _ hr), key rb (by simp)⟩
  · rintro ⟨a, b⟩
    have key : ∀ r ∈ t1.rects ++ t2.rects, r.Le x := by
      intro r hr
      rcases List.mem_append.1 (h.subset hr) with hr | hr
      · exact a r hr
      · rw [List.mem_singleton] at hr; subst hr; exact b
    exact ⟨fun r hr => key r (List.mem_append_left _ hr), fun r hr => key r (List.mem_append_right _ hr)⟩

theorem addBranch_spec (hC : Cfg P Ok) : ∀ {l : Nat} {t : Node n K D} {b : Branch n K D}, Good P Ok l t → BGood P Ok l b →
    ∃ t' o, addBranch P b t = some (t', o) ∧ Added P Ok l t (bEnt l b) b.rect t' o ∧
      (o = none → t'.count = t.count + 1)
  | 0, .leaf bs, .data r d, ht, hb => by
      obtain ⟨bs', o, e, h1, h2, h3⟩ := addTo_spec hC (Q := fun p : Rect n K × D => Ok p.1) (fun _ h => h) ht.1 ht.2 (b := (r, d)) hb
      refine ⟨.leaf bs', o.map .leaf, by simp [addBranch, e], ⟨⟨h1, h2⟩, ?_, ?_⟩, ?_⟩
      · intro hn
        rcases h3 with ⟨_, rfl⟩ | ⟨bs2, rfl, _⟩
        · refine ⟨by simp [Node.count], by simp [Node.count], ?_, ?_⟩
          · simp only [ent, bEnt, entries, bEntries, Multiset.coe_add]
          · intro x
            simp [UB, Node.rects, Branch.rect, or_imp, forall_and]
        · simp at hn
      · intro t2 hn
        rcases h3 with ⟨rfl, _⟩ | ⟨bs2, rfl, g1, g2, g3, g4, g5⟩
        · simp at hn
        · simp only [Option.map_some, Option.some.injEq] at hn
          subst hn
          refine ⟨⟨g1, g2⟩, g3, g4, ?_, ?_⟩
          · simp only [ent, bEnt, entries, bEntries, Multiset.coe_add]
            exact Multiset.coe_eq_coe.2 g5
          · refine ub_perm ?_
            simpa [Node.rects, Branch.rect] using g5.map Prod.fst
      · intro hn
        rcases h3 with ⟨_, rfl⟩ | ⟨bs2, rfl, _⟩
        · simp [Node.count]
        · simp at hn
  | l + 1, .inner k bs, .sub r c, ht, hb => by
      obtain ⟨hk, hl, hbs⟩ := ht
      obtain ⟨bs', o, e, h1, h2, h3⟩ := addTo_spec hC
        (Q := fun p : Rect n K × Node n K D => Good P Ok l p.2 ∧ minFill P ≤ p.2.count ∧ nodeCover p.2 = some p.1)
        (fun p h => hC.vol.cover h.2.2 (good_ok hC h.1)) hl hbs (b := (r, c)) hb
      refine ⟨.inner k bs', o.map (.inner k), by simp [addBranch, e], ⟨⟨hk, h1, h2⟩, ?_, ?_⟩, ?_⟩
      · intro hn
        rcases h3 with ⟨_, rfl⟩ | ⟨bs2, rfl, _⟩
        · refine ⟨by simp [Node.count], by simp [Node.count], ?_, ?_⟩
          · simp [ent, bEnt, entries, bEntries]
          · intro x
            simp [UB, Node.rects, Branch.rect, or_imp, forall_and]
        · simp at hn
      · intro t2 hn
        rcases h3 with ⟨rfl, _⟩ | ⟨bs2, rfl, g1, g2, g3, g4, g5⟩
        · simp at hn
        · simp only [Option.map_some, Option.some.injEq] at hn
          subst hn
          refine ⟨⟨hk, g1, g2⟩, g3, g4, ?_, ?_⟩
          · simp only [ent, bEnt, entries, bEntries, Multiset.coe_add]
            have := g5.flatMap_right (fun p => entries l p.2)
            rw [List.flatMap_append, List.flatMap_append] at this
            simpa using Multiset.coe_eq_coe.2 this
          · refine ub_perm ?_
            simpa [Node.rects, Branch.rect] using g5.map Prod.fst
      · intro hn
        rcases h3 with ⟨_, rfl⟩ | ⟨bs2, rfl, _⟩
        · simp [Node.count]
        · simp at hn
  | 0, .inner _ _, _, ht, _ => ht.elim
  | _ + 1, .leaf _, _, ht, _ => ht.elim
  | 0, _, .sub _ _, _, hb => hb.elim
  | _ + 1, _, .data _ _, _, hb => hb.elim

/-! ## Descending -/

theorem split_at {α : Type} {bs : List α} {i : Nat} {p : α} (h : bs[i]? = some p) :
    ∃ b1 b2, bs = b1 ++ p :: b2 ∧ b1.length = i ∧ ∀ y, bs.set i y = b1 ++ y :: b2 := by
  obtain ⟨hi, e⟩ := List.getElem?_eq_some_iff.1 h
  have hl : (bs.take i).length = i := by rw [List.length_take]; omega
  have hbs : bs = bs.take i ++ p :: bs.drop (i + 1) := by
    rw [← e, List.getElem_cons_drop, List.take_append_drop]
  refine ⟨bs.take i, bs.drop (i + 1), hbs, hl, ?_⟩
  intro y
  rw [List.set_eq_take_append_cons_drop, if_pos hi]

theorem insertRec_spec (hC : Cfg P Ok) {b : Branch n K D} {lvl : Nat} (hb : BGood P Ok lvl b) :
    ∀ {l : Nat} {t : Node n K D} (fuel : Nat), Good P Ok l t → lvl ≤ l → (lvl < l → 1 ≤ t.count) → l + 1 ≤ fuel →
    ∃ t' o, insertRec P fuel b lvl t = some (t', o) ∧ Added P Ok l t (bEnt lvl b) b.rect t' o := by
  intro l
  induction l with
  | zero =>
    intro t fuel ht hle _ hf
    obtain ⟨fuel, rfl⟩ : ∃ f, fuel = f + 1 := ⟨fuel - 1, by omega⟩
    have h0 : lvl = 0 := by omega
    subst h0
    obtain ⟨t', o, e, h, _⟩ := addBranch_spec hC ht hb
    refine ⟨t', o, ?_, h⟩
    unfold insertRec
    rw [if_neg (by rw [good_level ht]; omega), if_pos (good_level ht), e]
  | succ l ih =>
    intro t fuel ht hle hcnt hf
    obtain ⟨fuel, rfl⟩ : ∃ f, fuel = f + 1 := ⟨fuel - 1, by omega⟩
    rcases Nat.lt_or_ge lvl (l + 1) with hlt | hge
    · -- go down
      cases t with
      | leaf bs => exact ht.elim
      | inner k bs =>
        have hgood := ht
        obtain ⟨rfl, hlen, hbs⟩ := ht
        have hne : bs.map Prod.fst ≠ [] := by
          intro he
          have := hcnt hlt
          simp only [List.map_eq_nil_iff] at he
          rw [he] at this
          simp [Node.count] at this
        have hi := pickBranch_lt P b.rect hne
        rw [List.length_map] at hi
        obtain ⟨⟨r, c⟩, hrc⟩ : ∃ p, bs[pickBranch P b.rect (bs.map Prod.fst)]? = some p := ⟨_, List.getElem?_eq_getElem hi⟩
        obtain ⟨b1, b2, hbs', hl1, hset⟩ := split_at hrc
        obtain ⟨gc, gf, gr⟩ := hbs (r, c) (by rw [hbs']; simp)
        have hc1 : 1 ≤ c.count := le_trans hC.fill gf
        obtain ⟨c', o, e, ha⟩ := ih fuel gc (by omega) (fun _ => hc1) (by omega)
        have hu := (nodeCover_iff hc1).1 gr
        have hother : ∀ p ∈ b1 ++ b2, Good P Ok k p.2 ∧ minFill P ≤ p.2.count ∧ nodeCover p.2 = some p.1 := by
          intro p hp
          refine hbs p ?_
          rw [hbs']
          rcases List.mem_append.1 hp with hp | hp
          · exact List.mem_append_left _ hp
          · exact List.mem_append_right _ (List.mem_cons_of_mem _ hp)
        obtain ⟨M1, hM1⟩ : ∃ M1 : Multiset (Rect n K × D), M1 = ↑(b1.flatMap (fun p => entries k p.2)) := ⟨_, rfl⟩
        obtain ⟨M2, hM2⟩ : ∃ M2 : Multiset (Rect n K × D), M2 = ↑(b2.flatMap (fun p => entries k p.2)) := ⟨_, rfl⟩
        have hX : ∀ y : Rect n K × Node n K D, ent (k + 1) (.inner k (b1 ++ y :: b2)) = M1 + ent k y.2 + M2 := by
          intro y
          rw [hM1, hM2]
          simp [ent, entries]
        have hE : ent (k + 1) (.inner k bs : Node n K D) = M1 + ent k c + M2 := by
          rw [hbs', hX]
        have hlen' : b1.length + b2.length + 1 ≤ P.maxNodes := by rw [hbs'] at hlen; simp at hlen; omega
        cases o with
        | none =>
          obtain ⟨n1, n2, n3, n4⟩ := ha.none rfl
          have hcov : nodeCover c' = some (combine b.rect r) := by
            rw [nodeCover_iff n2]
            intro x
            rw [n4 x, hu x]
            constructor
            · rintro ⟨h1, h2⟩; exact combine_le h2 h1
            · intro h; exact ⟨(le_combine_right _ _).trans h, (le_combine_left _ _).trans h⟩
          refine ⟨.inner k (b1 ++ (combine b.rect r, c') :: b2), none, ?_, ⟨⟨rfl, by simp; omega, ?_⟩, ?_, by simp⟩⟩
          · unfold insertRec
            rw [if_pos (by rw [good_level hgood]; omega)]
            simp only
            rw [hrc]
            simp only
            rw [e]
            simp only
            rw [hset]
          · intro p hp
            rcases List.mem_append.1 hp with hp | hp
            · exact hother p (List.mem_append_left _ hp)
            · rcases List.mem_cons.1 hp with rfl | hp
              · exact ⟨ha.good, le_trans gf n1, hcov⟩
              · exact hother p (List.mem_append_right _ hp)
          · intro _
            refine ⟨by rw [hbs']; simp [Node.count], by simp [Node.count]; omega, ?_, ?_⟩
            · rw [hE]
              rw [hX]
              simp only
              rw [n3]
              abel
            · intro x
              rw [hbs']
              simp only [UB, Node.rects, List.map_append, List.map_cons, List.mem_append, List.mem_cons, or_imp, forall_and, forall_eq]
              constructor
              · rintro ⟨h1, h2, h3⟩
                exact ⟨⟨h1, (le_combine_right _ _).trans h2, h3⟩, (le_combine_left _ _).trans h2⟩
              · rintro ⟨⟨h1, h2, h3⟩, h4⟩
                exact ⟨h1, combine_le h4 h2, h3⟩
        | some c2 =>
          obtain ⟨s1, s2, s3, s4, s5⟩ := ha.some c2 rfl
          have k1 : 1 ≤ c'.count := le_trans hC.fill s2
          have k2 : 1 ≤ c2.count := le_trans hC.fill s3
          obtain ⟨r1, hr1⟩ := nodeCover_some k1
          obtain ⟨r2, hr2⟩ := nodeCover_some k2
          have hg' : Good P Ok (k + 1) (.inner k (b1 ++ (r1, c') :: b2)) := by
            refine ⟨rfl, by simp; omega, ?_⟩
            intro p hp
            rcases List.mem_append.1 hp with hp | hp
            · exact hother p (List.mem_append_left _ hp)
            · rcases List.mem_cons.1 hp with rfl | hp
              · exact ⟨ha.good, s2, hr1⟩
              · exact hother p (List.mem_append_right _ hp)
          obtain ⟨t', o, e', h, _⟩ := addBranch_spec hC hg' (b := .sub r2 c2) ⟨s1, s3, hr2⟩
          have hE' : ent (k + 1) (.inner k (b1 ++ (r1, c') :: b2)) + bEnt (k + 1) (.sub r2 c2) =
              ent (k + 1) (.inner k bs : Node n K D) + bEnt lvl b := by
            rw [hE]
            rw [hX]
            have : ent k c' + bEnt (k + 1) (.sub r2 c2) = ent k c + bEnt lvl b := s4
            simp only
            calc _ = M1 + (ent k c' + bEnt (k + 1) (.sub r2 c2)) + M2 := by abel
              _ = _ := by rw [this]; abel
          have hUB : ∀ x, (UB (.inner k (b1 ++ (r1, c') :: b2)) x ∧ r2.Le x) ↔ UB (.inner k bs : Node n K D) x ∧ b.rect.Le x := by
            intro x
            have h5 := s5 x
            rw [(nodeCover_iff k1).1 hr1 x, (nodeCover_iff k2).1 hr2 x, hu x] at h5
            rw [hbs']
            simp only [UB, Node.rects, List.map_append, List.map_cons, List.mem_append, List.mem_cons, or_imp, forall_and, forall_eq]
            tauto
          refine ⟨t', o, ?_, ⟨h.good, ?_, ?_⟩⟩
          · unfold insertRec
            rw [if_pos (by rw [good_level hgood]; omega)]
            simp only
            rw [hrc]
            simp only
            rw [e]
            simp only
            rw [hr1, hr2]
            simp only
            rw [hset, e']
          · intro hn
            obtain ⟨m1, m2, m3, m4⟩ := h.none hn
            refine ⟨le_trans (le_of_eq (by rw [hbs']; simp [Node.count])) m1, m2, by rw [m3, hE'], fun x => (m4 x).trans (hUB x)⟩
          · intro t2 hn
            obtain ⟨m1, m2, m3, m4, m5⟩ := h.some t2 hn
            exact ⟨m1, m2, m3, by rw [m4, hE'], fun x => (m5 x).trans (hUB x)⟩
    · have : lvl = l + 1 := by omega
      subst this
      obtain ⟨t', o, e, h, _⟩ := addBranch_spec hC ht hb
      refine ⟨t', o, ?_, h⟩
      unfold insertRec
      rw [if_neg (by rw [good_level ht]; omega), if_pos (good_level ht), e]

/-- `InsertRect`: the tree may grow by one level. -/
theorem insertRect_spec (hC : Cfg P Ok) {b : Branch n K D} {lvl : Nat} (hb : BGood P Ok lvl b) {l : Nat} {t : Node n K D}
    (ht : Good P Ok l t) (hle : lvl ≤ l) (hcnt : lvl < l → 1 ≤ t.count) :
    ∃ l' t', insertRect P b lvl t = some t' ∧ l ≤ l' ∧ Good P Ok l' t' ∧ (l' = l → t.count ≤ t'.count) ∧ 1 ≤ t'.count ∧
      (l' ≠ l → t'.count = 2) ∧
      ent l' t' = ent l t + (bEnt lvl b) := by
  obtain ⟨t', o, e, h⟩ := insertRec_spec hC hb (t.level + 1) ht hle hcnt (by rw [good_level ht])
  cases o with
  | none =>
    obtain ⟨h1, h2, h3, _⟩ := h.none rfl
    refine ⟨l, t', ?_, le_rfl, h.good, fun _ => h1, h2, fun x => absurd rfl x, h3⟩
    unfold insertRect
    rw [e]
  | some t2 =>
    obtain ⟨s1, s2, s3, s4, _⟩ := h.some t2 rfl
    obtain ⟨r1, hr1⟩ := nodeCover_some (le_trans hC.fill s2)
    obtain ⟨r2, hr2⟩ := nodeCover_some (le_trans hC.fill s3)
    have hm := hC.max
    have hm' := hC.min
    refine ⟨l + 1, .inner l [(r1, t'), (r2, t2)], ?_, by omega, ⟨rfl, by simp; omega, ?_⟩, by omega, by simp [Node.count],
      fun _ => by simp [Node.count], ?_⟩
    · unfold insertRect
      rw [e]
      simp only
      rw [hr1, hr2, good_level h.good]
      simp only
      have a1 : addBranch P (.sub r1 t') (.inner l []) = some (.inner l [(r1, t')], none) := by
        simp [addBranch, addTo, show 0 < P.maxNodes by omega]
      have a2 : addBranch P (.sub r2 t2) (.inner l [(r1, t')]) = some (.inner l [(r1, t'), (r2, t2)], none) := by
        simp [addBranch, addTo, show 1 < P.maxNodes by omega]
      rw [a1]
      simp only
      rw [a2]
    · intro p hp
      have : p = (r1, t') ∨ p = (r2, t2) := by simpa using hp
      rcases this with rfl | rfl
      · exact ⟨h.good, s2, hr1⟩
      · exact ⟨s1, s3, hr2⟩
    · rw [← s4]
      simp [ent, entries]

end TDP.RTree
