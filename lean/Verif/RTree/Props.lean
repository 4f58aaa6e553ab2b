import Verif.RTree.FileProof
import Verif.RTree.Vol
/-! # C69 - C72: the R-tree -/
namespace TDP.RTree
variable {n : Nat} {K D : Type} [LinearOrder K] {P : Params n K} {Ok : Rect n K → Prop}

theorem meets_iff {a b : Rect n K} (ha : a.Valid) (hb : b.Valid) : Meets a b ↔ overlap a b = true := by
  unfold overlap
  rw [decide_eq_true_eq]
  constructor
  · rintro ⟨x, h1, h2⟩ i hi
    have := h1 i; have := h2 i
    rcases hi with hi | hi
    · exact absurd (le_trans (h1 i).1 (h2 i).2) (not_le.2 hi)
    · exact absurd (le_trans (h2 i).1 (h1 i).2) (not_le.2 hi)
  · intro h
    refine ⟨fun i => Max.max (a.min i) (b.min i), fun i => ?_, fun i => ?_⟩
    · have := h i
      push Not at this
      exact ⟨le_max_left _ _, max_le (ha i) this.2⟩
    · have := h i
      push Not at this
      exact ⟨le_max_right _ _, max_le this.1 (hb i)⟩

theorem entries_ok : ∀ {l : Nat} {t : Node n K D}, Good P Ok l t → ∀ e ∈ entries l t, Ok e.1
  | 0, .leaf bs, h, e, he => h.2 e he
  | l + 1, .inner k bs, h, e, he => by
      obtain ⟨p, hp, he⟩ := List.mem_flatMap.1 he
      exact entries_ok (h.2.2 p hp).1 e he
  | 0, .inner _ _, h, _, _ => h.elim
  | _ + 1, .leaf _, h, _, _ => h.elim

theorem empty_root : Root P Ok 0 (empty : Node n K D) := ⟨⟨by simp, by simp⟩, by omega⟩

/-- Requirements on the class' parameters: `2 ≤ MINNODES ≤ MAXNODES - 2` (the defaults are 4 and 8), and what splitting needs of volumes. -/
structure Config (P : Params n K) : Prop where
  min : 2 ≤ P.minNodes
  max : P.minNodes + 2 ≤ P.maxNodes
  vol : VolOk P Rect.Valid

theorem Config.cfg (h : Config P) : Cfg P Rect.Valid := ⟨h.min, by have := h.max; omega, h.vol⟩
theorem Config.fill2 (h : Config P) : 2 ≤ minFill P := by
  have := h.min; have := h.max
  unfold minFill; omega

/-- Every history runs, and the tree holds what it should. -/
theorem run_spec [DecidableEq D] (hC : Config P) : ∀ (ops h : List (Op n K D)) {l : Nat} {t : Node n K D}, (∀ op ∈ ops, OpOk op) →
    Root P Rect.Valid l t → Contents h (ent l t) →
    ∃ l' t', run P ops t = some t' ∧ Root P Rect.Valid l' t' ∧ Contents (h ++ ops) (ent l' t')
  | [], h, l, t, _, ht, hM => ⟨l, t, rfl, ht, by rwa [List.append_nil]⟩
  | op :: ops, h, l, t, hops, ht, hM => by
      have next : ∀ {l1 : Nat} {t1 : Node n K D}, Root P Rect.Valid l1 t1 → Contents (h ++ [op]) (ent l1 t1) →
          ∃ l' t', run P ops t1 = some t' ∧ Root P Rect.Valid l' t' ∧ Contents (h ++ op :: ops) (ent l' t') := by
        intro l1 t1 h1 h2
        obtain ⟨l', t', e, a, b⟩ := run_spec hC ops (h ++ [op]) (fun o ho => hops o (List.mem_cons_of_mem _ ho)) h1 h2
        rw [List.append_assoc] at b
        exact ⟨l', t', e, a, b⟩
      have hop := hops op (List.mem_cons_self ..)
      cases op with
      | insert r d =>
        obtain ⟨l1, t1, e, h1, h2⟩ := insert_spec hC.cfg (d := d) hop ht
        obtain ⟨l', t', e', a, b⟩ := next h1 (by rw [h2]; exact Contents.insert r d hM)
        exact ⟨l', t', by simp only [run, e, Option.bind_some, e'], a, b⟩
      | remove r d =>
        rcases remove_spec hC.cfg hC.max r d ht with ⟨e, h1⟩ | ⟨l1, t1, e, h1, x, hx, h2⟩
        · obtain ⟨l', t', e', a, b⟩ := next ht (Contents.missing r d hM (by
            intro x hx hd hm
            have hx' : x ∈ entries l t := hx
            have hv := entries_ok ht.1 x hx'
            rw [meets_iff hop hv, h1 x hx' hd] at hm
            exact absurd hm (by simp)))
          exact ⟨l', t', by simp only [run, e, Option.bind_some, e'], a, b⟩
        · obtain ⟨l', t', e', a, b⟩ := next h1 (Contents.removed r x.1 d (by
            have : x = (x.1, d) := by rw [← hx]
            rw [← this, ← h2]
            exact hM))
          exact ⟨l', t', by simp only [run, e, Option.bind_some, e'], a, b⟩
      | removeAll =>
        obtain ⟨l', t', e', a, b⟩ := next (empty_root (P := P) (Ok := Rect.Valid) (D := D)) (Contents.removeAll hM)
        exact ⟨l', t', by simp only [run, e'], a, b⟩

theorem run_empty [DecidableEq D] (hC : Config P) (ops : List (Op n K D)) (hops : ∀ op ∈ ops, OpOk op) :
    ∃ l t, run P ops empty = some t ∧ Root P Rect.Valid l t ∧ Contents ops (ent l t) := by
  have := run_spec hC ops [] hops (empty_root (P := P) (Ok := Rect.Valid) (D := D)) Contents.new
  simpa using this

/-! ## C69 -/

theorem visit_calls {S : Type} (cb : S → D → S × Bool) : ∀ (ds : List D) (s : S) (c : Nat), ∃ p, Calls cb s ds p ∧
    (visit cb (s, c) ds).1 = (p.foldl (fun s d => (cb s d).1) s, c + p.length)
  | [], s, c => ⟨[], ⟨List.prefix_rfl, by simp, Or.inl rfl⟩, rfl⟩
  | d :: ds, s, c => by
      by_cases h : (cb s d).2 = true
      · obtain ⟨p, ⟨h1, h2, h3⟩, h4⟩ := visit_calls cb ds (cb s d).1 (c + 1)
        refine ⟨d :: p, ⟨List.prefix_cons_inj d |>.2 h1, ?_, ?_⟩, ?_⟩
        · intro a x b e hb
          cases a with
          | nil => simp only [List.nil_append, List.cons.injEq] at e; rw [← e.1]; exact h
          | cons a0 a =>
            simp only [List.cons_append, List.cons.injEq] at e
            rw [← e.1]
            exact h2 a x b e.2 hb
        · rcases h3 with rfl | ⟨a, x, rfl, hx⟩
          · exact Or.inl rfl
          · exact Or.inr ⟨d :: a, x, rfl, hx⟩
        · simp only [visit, h, if_true, List.foldl_cons, List.length_cons]
          rw [h4]
          simp only [Prod.mk.injEq, true_and]
          omega
      · refine ⟨[d], ⟨by simp, ?_, Or.inr ⟨[], d, rfl, by simpa using h⟩⟩, ?_⟩
        · intro a x b e hb
          cases a with
          | nil => simp only [List.nil_append, List.cons.injEq] at e; exact absurd e.2.symm hb
          | cons a0 a => simp at e
        · simp [visit, h]

open Classical in
/-- C69 for coordinates of any ordered type. -/
theorem search_after_any_history [DecidableEq D] (hC : Config P) (ops : List (Op n K D)) (hops : ∀ op ∈ ops, OpOk op) :
    ∃ t L, run P ops empty = some t ∧ Contents ops (L : List (Rect n K × D)) ∧ count t = some L.length ∧ copy t = some t ∧
      ∀ (q : Rect n K), q.Valid → ∀ (S : Type) (cb : S → D → S × Bool) (s : S),
        ∃ p, Calls cb s ((L.filter (fun e => decide (Meets q e.1))).map Prod.snd) p ∧
          search cb q s t = some (p.foldl (fun s d => (cb s d).1) s, p.length) := by
  obtain ⟨l, t, e, ht, hM⟩ := run_empty hC ops hops
  have hlev := good_level ht.1
  refine ⟨t, entries l t, e, hM, ?_, ?_, ?_⟩
  · unfold count
    rw [hlev, countRec_spec (l + 1) ht.1 le_rfl]
  · unfold copy
    rw [hlev, copyRec_spec (l + 1) ht.1 le_rfl]
  · intro q hq S cb s
    have hh : hits q (entries l t) = ((entries l t).filter (fun e => decide (Meets q e.1))).map Prod.snd := by
      unfold hits
      congr 1
      refine List.filter_congr ?_
      intro x hx
      have := meets_iff hq (entries_ok ht.1 x hx)
      by_cases ho : overlap q x.1 = true
      · rw [ho, decide_eq_true (this.2 ho)]
      · rw [Bool.not_eq_true] at ho
        rw [ho, decide_eq_false]
        intro hm
        rw [this.1 hm] at ho
        exact absurd ho (by simp)
    rw [← hh]
    obtain ⟨p, hp, hv⟩ := visit_calls cb (hits q (entries l t)) s 0
    refine ⟨p, hp, ?_⟩
    unfold search
    rw [hlev, searchRec_spec cb q (l + 1) (s, 0) ht.1 le_rfl, Option.map_some, hv, Nat.zero_add]

/-- The default configuration. -/
theorem float_config {maxN minN : Nat} {F : Fp} {lib : Lib} {unit : ℚ} (h2 : 2 ≤ minN) (hm : minN + 2 ≤ maxN) (hu : 0 ≤ unit) :
    Config (floatParams n maxN minN F lib unit) :=
  ⟨h2, hm, sphere_ok hu⟩

open Classical in
/-- C69: after any history of calls with valid boxes, `Search` calls the callback
on exactly the stored entries that meet the query. -/
theorem rtree_search [DecidableEq D] {maxN minN : Nat} {F : Fp} {lib : Lib} {unit : ℚ} (h2 : 2 ≤ minN) (hm : minN + 2 ≤ maxN) (hu : 0 ≤ unit)
    (ops : List (Op n ℚ D)) (hops : ∀ op ∈ ops, OpOk op) :
    ∃ t L, run (floatParams n maxN minN F lib unit) ops empty = some t ∧ Contents ops (L : List (Rect n ℚ × D)) ∧ count t = some L.length ∧
      copy t = some t ∧
      ∀ (q : Rect n ℚ), q.Valid → ∀ (S : Type) (cb : S → D → S × Bool) (s : S),
        ∃ p, Calls cb s ((L.filter (fun e => decide (Meets q e.1))).map Prod.snd) p ∧
          search cb q s t = some (p.foldl (fun s d => (cb s d).1) s, p.length) :=
  search_after_any_history (float_config h2 hm hu) ops hops

/-! ## What the contents are when ids are used once -/

/-- The entries after a history in which `Remove` is given the box the id was inserted with. -/
def expected [DecidableEq D] (ops : List (Op n K D)) : Multiset (Rect n K × D) :=
  ops.foldl (fun M op => match op with
    | .insert r d => M + {(r, d)}
    | .remove r d => M.erase (r, d)
    | .removeAll => 0) 0

/-- In every removal, the entries with that id have the given valid box. -/
def Disciplined [DecidableEq D] (ops : List (Op n K D)) : Prop :=
  ∀ h r d h', ops = h ++ Op.remove r d :: h' → r.Valid ∧ ∀ e ∈ expected h, e.2 = d → e.1 = r

theorem Disciplined.init [DecidableEq D] {h : List (Op n K D)} {op : Op n K D} (hd : Disciplined (h ++ [op])) : Disciplined h :=
  fun h0 r d h' e => hd h0 r d (h' ++ [op]) (by rw [e]; simp)

theorem expected_snoc [DecidableEq D] (h : List (Op n K D)) (op : Op n K D) :
    expected (h ++ [op]) = (match op with
    | .insert r d => expected h + {(r, d)}
    | .remove r d => (expected h).erase (r, d)
    | .removeAll => 0) := by
  unfold expected
  rw [List.foldl_append]
  rfl

theorem contents_expected [DecidableEq D] {ops : List (Op n K D)} {M : Multiset (Rect n K × D)} (hM : Contents ops M) :
    Disciplined ops → M = expected ops := by
  induction hM with
  | new => intro _; rfl
  | insert r d _ ih =>
    intro hd
    rw [expected_snoc]
    simp only
    rw [← ih hd.init]
  | @removed h M r r' d _ ih =>
    intro hd
    rw [expected_snoc]
    have e := ih hd.init
    have hx := (hd h r d [] (by simp)).2 (r', d) (by rw [← e]; simp) rfl
    simp only at hx
    subst hx
    rw [← e, add_comm, Multiset.singleton_add]
    exact (Multiset.erase_cons_head _ _).symm
  | @missing h M r d _ hmiss ih =>
    intro hd
    rw [expected_snoc]
    have e := ih hd.init
    simp only
    rw [← e, Multiset.erase_of_notMem]
    intro hmem
    refine hmiss _ hmem rfl ⟨r.min, fun i => ⟨le_rfl, (hd h r d [] (by simp)).1 i⟩, fun i => ⟨le_rfl, (hd h r d [] (by simp)).1 i⟩⟩
  | removeAll _ _ =>
    intro _
    rw [expected_snoc]

/-! ## C70 -/

theorem shape_of_good : ∀ {l : Nat} {t : Node n K D}, (1 ≤ minFill P) → Good P Ok l t → Shape P.maxNodes (minFill P) l t (entries l t)
  | 0, .leaf bs, _, h => ⟨rfl, h.1⟩
  | l + 1, .inner k bs, hf, h => by
      obtain ⟨h1, h2, h3⟩ := h
      refine ⟨h1, h2, bs.map (fun p => entries l p.2), by simp [entries, List.flatMap], ?_⟩
      rw [List.forall₂_map_right_iff]
      refine List.forall₂_same.2 ?_
      intro p hp
      obtain ⟨g1, g2, g3⟩ := h3 p hp
      have hne : entries l p.2 ≠ [] := by
        have : ∀ {l : Nat} {t : Node n K D}, Good P Ok l t → 1 ≤ t.count → entries l t ≠ [] := by
          intro l
          induction l with
          | zero =>
            intro t ht hc
            cases t with
            | inner => exact ht.elim
            | leaf bs =>
              intro he
              change bs = [] at he
              rw [he] at hc
              simp [Node.count] at hc
          | succ l ih =>
            intro t ht hc
            cases t with
            | leaf => exact ht.elim
            | inner k bs =>
              cases bs with
              | nil => simp [Node.count] at hc
              | cons p bs =>
                have := ht.2.2 p (List.mem_cons_self ..)
                have h1 := ih this.1 (le_trans hf this.2.1)
                intro he
                simp only [entries, List.flatMap_cons, List.append_eq_nil_iff] at he
                exact h1 he.1
        exact this g1 (le_trans hf g2)
      refine ⟨shape_of_good hf g1, g2, hne, ?_⟩
      intro x
      constructor
      · intro hx e he i
        have := entries_le g1 g3 e he i
        exact ⟨le_trans (hx i).1 this.1, le_trans this.2 (hx i).2⟩
      · intro hx
        have key : ∀ {l : Nat} {t : Node n K D} {c : Rect n K}, Good P Ok l t → nodeCover t = some c →
            (∀ e ∈ entries l t, e.1.Le x) → c.Le x := by
          intro l
          induction l with
          | zero =>
            intro t c ht hc hh
            cases t with
            | inner => exact ht.elim
            | leaf bs =>
              refine (coverOf_spec hc).2 x ?_
              intro r hr
              obtain ⟨p, hp, rfl⟩ := List.mem_map.1 hr
              exact hh p hp
          | succ l ih =>
            intro t c ht hc hh
            cases t with
            | leaf => exact ht.elim
            | inner k bs =>
              refine (coverOf_spec hc).2 x ?_
              intro r hr
              obtain ⟨p, hp, rfl⟩ := List.mem_map.1 hr
              obtain ⟨a, _, b⟩ := ht.2.2 p hp
              exact ih a b (fun e he => hh e (List.mem_flatMap.2 ⟨p, hp, he⟩))
        exact key g1 g3 hx
  | 0, .inner _ _, _, h => h.elim
  | _ + 1, .leaf _, _, h => h.elim

/-- C70: the tree stays balanced, its nodes are neither over- nor under-full, its boxes are tight, and its height is logarithmic. -/
theorem rtree_shape [DecidableEq D] {maxN minN : Nat} {F : Fp} {lib : Lib} {unit : ℚ} (h2 : 2 ≤ minN) (hm : minN + 2 ≤ maxN) (hu : 0 ≤ unit)
    (ops : List (Op n ℚ D)) (hops : ∀ op ∈ ops, OpOk op) :
    ∃ t L l, run (floatParams n maxN minN F lib unit) ops empty = some t ∧ Contents ops (L : List (Rect n ℚ × D)) ∧
      Shape maxN (min minN (maxN - minN)) l t L ∧ (1 ≤ l → 2 ≤ t.count ∧ 2 ^ (l + 1) ≤ L.length) := by
  have hC := float_config (n := n) (F := F) (lib := lib) (unit := unit) h2 hm hu
  obtain ⟨l, t, e, ht, hM⟩ := run_empty hC ops hops
  exact ⟨t, entries l t, l, e, hM, shape_of_good hC.cfg.fill ht.1, fun hl => ⟨ht.2 hl, pow_le_entries hC.fill2 ht.1 (ht.2 hl)⟩⟩

/-! ## C71 -/

/-- C71: iterating visits every entry once, and the iterator's fixed stack is large enough for fewer than 2^33 entries. -/
theorem rtree_iterate [DecidableEq D] {maxN minN : Nat} {F : Fp} {lib : Lib} {unit : ℚ} (h2 : 2 ≤ minN) (hm : minN + 2 ≤ maxN) (hu : 0 ≤ unit)
    (ops : List (Op n ℚ D)) (hops : ∀ op ∈ ops, OpOk op) :
    ∃ t L, run (floatParams n maxN minN F lib unit) ops empty = some t ∧ Contents ops (L : List (Rect n ℚ × D)) ∧
      (L.length < 2 ^ 33 → ∀ depth fuel, 33 ≤ depth → L.length < fuel → iterate depth fuel t = some L) := by
  have hC := float_config (n := n) (F := F) (lib := lib) (unit := unit) h2 hm hu
  obtain ⟨l, t, e, ht, hM⟩ := run_empty hC ops hops
  refine ⟨t, entries l t, e, hM, fun hs depth fuel hd hf => iterate_spec hC.cfg hC.fill2 ht hs ?_ hf⟩
  have := root_level_lt hC.fill2 ht (k := 32) (by norm_num) hs
  omega

/-! ## C72 -/

/-- C72: loading a saved tree gives the same tree. `K` is the type of the coordinates that can be stored. -/
theorem rtree_save_load [DecidableEq D] (hC : Config P) (ops : List (Op n K D)) (hops : ∀ op ∈ ops, OpOk op)
    (hmax : P.maxNodes < 2 ^ 31) (CK : Codec K) (CD : Codec D) :
    ∃ t L, run P ops empty = some t ∧ Contents ops (L : List (Rect n K × D)) ∧
      (L.length < 2 ^ 33 → ∀ fuel, 32 ≤ fuel →
        load n P.maxNodes P.minNodes CK CD fuel (save P.maxNodes P.minNodes CK CD t) = some (true, t)) := by
  obtain ⟨l, t, e, ht, hM⟩ := run_empty hC ops hops
  refine ⟨t, entries l t, e, hM, fun hs fuel hf => ?_⟩
  have hl := root_level_lt hC.fill2 ht (k := 32) (by norm_num) hs
  exact load_save CK CD (lt_trans hmax (by norm_num)) ht.1 (by omega) (by omega)

omit [LinearOrder K] in
/-- C72: a file saved with another dimension, node size or size of a type is refused, and the tree is empty afterwards. -/
theorem rtree_load_incompatible {n' maxN minN maxN' minN' : Nat} {K' D' : Type} (CK : Codec K) (CD : Codec D) (CK' : Codec K')
    (CD' : Codec D') (b1 : n < 2 ^ 31 ∧ n' < 2 ^ 31) (b2 : maxN < 2 ^ 31 ∧ maxN' < 2 ^ 31) (b3 : minN < 2 ^ 31 ∧ minN' < 2 ^ 31)
    (b4 : CK.size < 2 ^ 31 ∧ CK'.size < 2 ^ 31) (b5 : CD.size < 2 ^ 31 ∧ CD'.size < 2 ^ 31) (t : Node n' K' D') (fuel : Nat)
    (hne : CD.size ≠ CD'.size ∨ n ≠ n' ∨ CK.size ≠ CK'.size ∨ maxN ≠ maxN' ∨ minN ≠ minN') :
    load n maxN minN CK CD fuel (save maxN' minN' CK' CD' t) = some (false, empty) := by
  unfold load save
  have hh := header_length n' maxN' minN' CK' CD'
  rw [if_neg (by rw [List.length_append, hh]; omega), List.take_left' hh, if_neg]
  intro he
  have w : ∀ {a b : Nat}, a < 2 ^ 31 ∧ b < 2 ^ 31 → b < 2 ^ 32 ∧ a < 2 ^ 32 := by intro a b h; omega
  have := header_inj he (w b1) (w b2) (w b3) (w b4) (w b5)
  omega

end TDP.RTree
