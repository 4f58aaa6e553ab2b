import Verif.SortPart.Model
import Verif.Boxes.Lemmas
/-! Slicing lists, nodes built from their children, reading back what was written. -/
namespace TDP.SortPart
open TDP.Boxes TDP.Octree TDP.Bytes

section Cut
variable {A : Type}

theorem cutFrom_flatten (l : List A) (step : Nat) (hs : 0 < step) (k x : Nat) (hk : l.length < k + x) :
    (cutFrom l step k x).flatten = l.drop x := by
  induction k generalizing x with
  | zero => rw [cutFrom]; rw [List.drop_eq_nil_of_le (by omega)]; rfl
  | succ k ih =>
    rw [cutFrom]
    split
    · rename_i h
      rw [List.flatten_cons, ih (x + step) (by omega)]
      rcases Nat.lt_or_ge (x + step) l.length with h1 | h1
      · rw [Nat.min_eq_right (by omega), Nat.add_sub_cancel_left, ← List.drop_drop, List.take_append_drop]
      · rw [Nat.min_eq_left h1, List.drop_eq_nil_of_le h1, List.append_nil, List.take_of_length_le (by simp)]
    · rw [List.drop_eq_nil_of_le (by omega)]; rfl

theorem cutFrom_ne_nil (l : List A) (step : Nat) (hs : 0 < step) (k x : Nat) : ∀ g ∈ cutFrom l step k x, g ≠ [] := by
  induction k generalizing x with
  | zero => intro g hg; cases hg
  | succ k ih =>
    intro g hg
    rw [cutFrom] at hg
    split at hg
    · rcases List.mem_cons.mp hg with rfl | hg
      · apply List.ne_nil_of_length_pos
        rw [List.length_take, List.length_drop]
        omega
      · exact ih _ g hg
    · cases hg

theorem cutFrom_length_le (l : List A) (step k x m : Nat) (h : l.length ≤ x + m * step) :
    (cutFrom l step k x).length ≤ m := by
  induction k generalizing x m with
  | zero => simp [cutFrom]
  | succ k ih =>
    rw [cutFrom]
    split
    · rename_i hx
      cases m with
      | zero => omega
      | succ m =>
        rw [List.length_cons]
        have := ih (x + step) m (by rw [Nat.succ_mul] at h; omega)
        omega
    · simp

theorem cutFrom_exact (l : List A) (step k x m : Nat) (hs : 0 < step) (h : l.length = x + m * step) (hk : m < k) :
    (cutFrom l step k x).length = m ∧ ∀ g ∈ cutFrom l step k x, g.length = step := by
  induction k generalizing x m with
  | zero => omega
  | succ k ih =>
    rw [cutFrom]
    cases m with
    | zero => rw [if_neg (by omega)]; simp
    | succ m =>
      rw [Nat.succ_mul] at h
      rw [if_pos (by omega)]
      obtain ⟨a1, a2⟩ := ih (x + step) m (by omega) (by omega)
      refine ⟨by rw [List.length_cons, a1], ?_⟩
      intro g hg
      rcases List.mem_cons.mp hg with rfl | hg
      · rw [List.length_take, List.length_drop]; omega
      · exact a2 g hg

theorem step_pos {part : Nat} {l : List A} (hp : 0 < part) (hl : l ≠ []) : 0 < (l.length + part - 1) / part := by
  have := List.length_pos_of_ne_nil hl
  apply Nat.div_pos _ hp
  omega

theorem cut_nil (part : Nat) : cut part ([] : List A) = [] := rfl

theorem cut_flatten (part : Nat) (hp : 0 < part) (l : List A) : (cut part l).flatten = l := by
  by_cases hl : l = []
  · subst hl; rfl
  · unfold cut
    rw [cutFrom_flatten l _ (step_pos hp hl) _ _ (by omega)]
    rfl

theorem cut_ne_nil (part : Nat) (hp : 0 < part) (l : List A) : ∀ g ∈ cut part l, g ≠ [] := by
  by_cases hl : l = []
  · subst hl; intro g hg; cases hg
  · exact cutFrom_ne_nil l _ (step_pos hp hl) _ _

theorem cut_length_le (part : Nat) (hp : 0 < part) (l : List A) : (cut part l).length ≤ part := by
  unfold cut
  apply cutFrom_length_le
  have h1 := Nat.div_add_mod (l.length + part - 1) part
  have h2 := Nat.mod_lt (l.length + part - 1) hp
  rw [Nat.zero_add]
  omega

theorem cut_exact (part m : Nat) (hp : 0 < part) (hm : 0 < m) (l : List A) (h : l.length = part * m) :
    (cut part l).length = part ∧ ∀ g ∈ cut part l, g.length = m := by
  have hstep : (l.length + part - 1) / part = m := by
    rw [h]
    have : part * m + part - 1 = part * m + (part - 1) := by omega
    rw [this, Nat.mul_add_div hp, Nat.div_eq_of_lt (by omega), Nat.add_zero]
  unfold cut
  rw [hstep]
  apply cutFrom_exact l m _ 0 part hm (by omega)
  have := Nat.le_mul_of_pos_right part hm
  omega

end Cut

variable {α : Type} [LinearOrder α] [BoundedOrder α]

/-- A node made by adding the given children to a new node. -/
def fromKids {C : Type} (cb : C → Box α) (cs : C → Nat) (kids : List C) : Nd α C :=
  kids.foldl (fun n c => n.addChild (cb c) (cs c) c) newNd

theorem foldl_kids {C : Type} (cb : C → Box α) (cs : C → Nat) (kids : List C) (n : Nd α C) :
    (kids.foldl (fun n c => n.addChild (cb c) (cs c) c) n).kids = n.kids ++ kids := by
  induction kids generalizing n with
  | nil => simp
  | cons c kids ih => rw [List.foldl_cons, ih]; simp [Nd.addChild]

theorem fromKids_kids {C : Type} (cb : C → Box α) (cs : C → Nat) (kids : List C) : (fromKids cb cs kids).kids = kids := by
  unfold fromKids; rw [foldl_kids]; rfl

theorem foldl_box {C : Type} (cb : C → Box α) (cs : C → Nat) (kids : List C) (n : Nd α C) :
    (kids.foldl (fun n c => n.addChild (cb c) (cs c) c) n).box =
      (kids.map (fun c => Upd.box (cb c))).foldl Box.upd n.box := by
  induction kids generalizing n with
  | nil => rfl
  | cons c kids ih => rw [List.foldl_cons, ih]; rfl

theorem foldl_size {C : Type} (cb : C → Box α) (cs : C → Nat) (kids : List C) (n : Nd α C) :
    (kids.foldl (fun n c => n.addChild (cb c) (cs c) c) n).size = n.size + (kids.map cs).sum := by
  induction kids generalizing n with
  | nil => rfl
  | cons c kids ih => rw [List.foldl_cons, ih]; simp [Nd.addChild]; omega

theorem mkLeaf_spec (objs : List (Obj α)) : (mkLeaf objs).objs = objs ∧ (mkLeaf objs).size = 1 + (objs.map (·.size)).sum ∧
    (mkLeaf objs).box = (objs.map (fun o => Upd.box o.box)).foldl Box.upd emptyBox := by
  have : ∀ (n : Leaf α), (objs.foldl Leaf.addObject n).objs = n.objs ++ objs ∧
      (objs.foldl Leaf.addObject n).size = n.size + (objs.map (·.size)).sum ∧
      (objs.foldl Leaf.addObject n).box = (objs.map (fun o => Upd.box o.box)).foldl Box.upd n.box := by
    induction objs with
    | nil => intro n; simp
    | cons o objs ih =>
      intro n
      obtain ⟨h1, h2, h3⟩ := ih (n.addObject o)
      refine ⟨?_, ?_, ?_⟩
      · rw [List.foldl_cons, h1]; simp [Leaf.addObject]
      · rw [List.foldl_cons, h2]; simp [Leaf.addObject]; omega
      · rw [List.foldl_cons, h3]; rfl
  obtain ⟨h1, h2, h3⟩ := this newLeaf
  exact ⟨by rw [mkLeaf, h1]; rfl, by rw [mkLeaf, h2]; rfl, h3⟩

theorem mkY_eq (sort : Fin 3 → List (Obj α) → List (Obj α)) (pz : Nat) (objs : List (Obj α)) :
    mkY sort pz objs = fromKids (·.box) (·.size) ((cut pz (sort 2 objs)).map mkLeaf) := by
  unfold mkY fromKids; rw [List.foldl_map]

theorem mkX_eq (sort : Fin 3 → List (Obj α) → List (Obj α)) (py pz : Nat) (objs : List (Obj α)) :
    mkX sort py pz objs = fromKids (·.box) (·.size) ((cut py (sort 1 objs)).map (mkY sort pz)) := by
  unfold mkX fromKids; rw [List.foldl_map]

theorem build_eq (sort : Fin 3 → List (Obj α) → List (Obj α)) (numTiles r : Nat) (objs : List (Obj α)) :
    build sort numTiles r objs = fromKids (·.box) (·.size)
      ((cut (parts numTiles r).1 (sort 0 objs)).map (mkX sort (parts numTiles r).2.1 (parts numTiles r).2.2)) := by
  unfold build fromKids; rw [List.foldl_map]

/-- All leaves, in order. -/
def leaves (t : Root α) : List (Leaf α) := t.kids.flatMap (fun x => x.kids.flatMap (fun y => y.kids))

theorem parts_pos (n r : Nat) : 0 < (parts n r).1 ∧ 0 < (parts n r).2.1 ∧ 0 < (parts n r).2.2 := by
  simp only [parts]; omega

theorem parts_le (n r : Nat) (hn : 0 < n) (hr : r * r * r ≤ n) :
    (parts n r).1 * ((parts n r).2.1 * (parts n r).2.2) ≤ n := by
  simp only [parts]
  have hp : max r 1 * max r 1 * max r 1 ≤ n := by
    rcases Nat.eq_zero_or_pos r with h | h
    · subst h; simp; omega
    · rw [Nat.max_eq_left h]; exact hr
  generalize max r 1 = p at hp
  rcases Nat.eq_zero_or_pos p with h | h
  · subst h; simp
  · have h1 : p ≤ n / p / p := by
      rw [Nat.le_div_iff_mul_le h, Nat.le_div_iff_mul_le h]; exact hp
    rw [Nat.max_eq_left (by omega)]
    have h2 := Nat.div_mul_le_self (n / p) p
    have h3 := Nat.div_mul_le_self n p
    calc p * (p * (n / p / p)) = p * (n / p / p * p) := by rw [Nat.mul_comm p (n / p / p)]
      _ ≤ p * (n / p) := Nat.mul_le_mul_left _ h2
      _ ≤ n := by rw [Nat.mul_comm]; exact h3

theorem flatMap_length_le {A B : Type} (l : List A) (f : A → List B) (m : Nat) (h : ∀ x ∈ l, (f x).length ≤ m) :
    (l.flatMap f).length ≤ l.length * m := by
  induction l with
  | nil => simp
  | cons x l ih =>
    have h1 := ih (fun y hy => h y (List.mem_cons_of_mem _ hy))
    have h2 := h x List.mem_cons_self
    rw [List.flatMap_cons, List.length_append, List.length_cons, Nat.succ_mul]
    omega

/-! ### Reading back -/

theorem mapM_some {A B : Type} (l : List A) (f : A → Option B) (g : A → B) (h : ∀ x ∈ l, f x = some (g x)) :
    l.mapM f = some (l.map g) := by
  induction l with
  | nil => rfl
  | cons x l ih =>
    rw [List.mapM_cons, h x List.mem_cons_self, ih (fun y hy => h y (List.mem_cons_of_mem _ hy))]
    rfl

theorem mapM_map' {A B C : Type} (l : List A) (h : A → B) (f : B → Option C) :
    (l.map h).mapM f = l.mapM (fun x => f (h x)) := by
  induction l with
  | nil => rfl
  | cons x l ih => rw [List.map_cons, List.mapM_cons, List.mapM_cons, ih]

theorem range_mapM {A B : Type} (l : List A) (f : A → Option B) (g : A → B)
    (h : ∀ x ∈ l, f x = some (g x)) :
    (List.range l.length).mapM (fun i => (l[i]?).bind f) = some (l.map g) := by
  induction l with
  | nil => rfl
  | cons x l ih =>
    rw [List.length_cons, List.range_succ_eq_map, List.mapM_cons, mapM_map']
    have h1 := ih (fun y hy => h y (List.mem_cons_of_mem _ hy))
    have h2 := h x List.mem_cons_self
    simp only [List.getElem?_cons_succ, List.getElem?_cons_zero, Option.bind_some, h1, h2]
    rfl

theorem leaves_build (sort : Fin 3 → List (Obj α) → List (Obj α)) (n r : Nat) (objs : List (Obj α)) :
    leaves (build sort n r objs) = (cut (parts n r).1 (sort 0 objs)).flatMap (fun gx =>
      (cut (parts n r).2.1 (sort 1 gx)).flatMap (fun gy => (cut (parts n r).2.2 (sort 2 gy)).map mkLeaf)) := by
  unfold leaves
  rw [build_eq, fromKids_kids, List.flatMap_map]
  congr 1; funext gx
  rw [mkX_eq, fromKids_kids, List.flatMap_map]
  congr 1; funext gy
  rw [mkY_eq, fromKids_kids]

theorem flatMap_perm {A B : Type} (L : List (List A)) (F : List A → List B) (o : B → List A)
    (h : ∀ g ∈ L, ((F g).flatMap o).Perm g) : ((L.flatMap F).flatMap o).Perm L.flatten := by
  induction L with
  | nil => simp
  | cons g L ih =>
    rw [List.flatMap_cons, List.flatMap_append, List.flatten_cons]
    exact (h g List.mem_cons_self).append (ih (fun x hx => h x (List.mem_cons_of_mem _ hx)))

theorem leaves_perm (sort : Fin 3 → List (Obj α) → List (Obj α)) (hs : ∀ i l, (sort i l).Perm l) (n r : Nat)
    (objs : List (Obj α)) : ((leaves (build sort n r objs)).flatMap (·.objs)).Perm objs := by
  obtain ⟨p1, p2, p3⟩ := parts_pos n r
  rw [leaves_build]
  refine (flatMap_perm _ _ _ ?_).trans ((cut_flatten _ p1 _).symm ▸ hs 0 objs)
  intro gx _
  refine (flatMap_perm _ _ _ ?_).trans ((cut_flatten _ p2 _).symm ▸ hs 1 gx)
  intro gy _
  rw [List.flatMap_map]
  have : (fun g : List (Obj α) => (mkLeaf g).objs) = id := by funext g; exact (mkLeaf_spec g).1
  rw [this, List.flatMap_id, cut_flatten _ p3]
  exact hs 2 gy

theorem mem_leaves (sort : Fin 3 → List (Obj α) → List (Obj α)) (n r : Nat) (objs : List (Obj α)) (l : Leaf α)
    (hl : l ∈ leaves (build sort n r objs)) : ∃ g, g ≠ [] ∧ l = mkLeaf g := by
  obtain ⟨p1, p2, p3⟩ := parts_pos n r
  rw [leaves_build] at hl
  simp only [List.mem_flatMap, List.mem_map] at hl
  obtain ⟨gx, _, gy, _, g, hg, rfl⟩ := hl
  exact ⟨g, cut_ne_nil _ p3 _ g hg, rfl⟩

theorem leaves_count (sort : Fin 3 → List (Obj α) → List (Obj α)) (n r : Nat) (objs : List (Obj α))
    (hn : 0 < n) (hr : r * r * r ≤ n) : (leaves (build sort n r objs)).length ≤ n := by
  obtain ⟨p1, p2, p3⟩ := parts_pos n r
  rw [leaves_build]
  refine Nat.le_trans (flatMap_length_le _ _ ((parts n r).2.1 * (parts n r).2.2) ?_) ?_
  · intro gx _
    refine Nat.le_trans (flatMap_length_le _ _ (parts n r).2.2 ?_) (Nat.mul_le_mul_right _ (cut_length_le _ p2 _))
    intro gy _
    rw [List.length_map]
    exact cut_length_le _ p3 _
  · exact Nat.le_trans (Nat.mul_le_mul_right _ (cut_length_le _ p1 _)) (parts_le n r hn hr)

/-! ### Regular trees -/

/-- Forget the ghost objects. -/
def Leaf.bare (l : Leaf α) : Leaf α := ⟨l.box, l.size, []⟩
/-- Forget the ghost objects. -/
def bareY (y : YNode α) : YNode α := ⟨y.box, y.size, y.kids.map Leaf.bare⟩
/-- Forget the ghost objects. -/
def bareX (x : XNode α) : XNode α := ⟨x.box, x.size, x.kids.map bareY⟩
/-- Forget the ghost objects. -/
def bare (t : Root α) : Root α := ⟨t.box, t.size, t.kids.map bareX⟩

theorem foldl_map_kids {C D : Type} (f : C → D) (cb : C → Box α) (cs : C → Nat) (db : D → Box α) (ds : D → Nat)
    (hb : ∀ c, db (f c) = cb c) (hs : ∀ c, ds (f c) = cs c) (kids : List C) (n : Nd α C) :
    (kids.map f).foldl (fun n c => n.addChild (db c) (ds c) c) (⟨n.box, n.size, n.kids.map f⟩ : Nd α D) =
      (let m := kids.foldl (fun n c => n.addChild (cb c) (cs c) c) n; ⟨m.box, m.size, m.kids.map f⟩) := by
  induction kids generalizing n with
  | nil => rfl
  | cons c kids ih =>
    rw [List.map_cons, List.foldl_cons, List.foldl_cons, ← ih (n.addChild (cb c) (cs c) c)]
    simp only [Nd.addChild, hb, hs, List.map_append, List.map_cons, List.map_nil]

theorem fromKids_map {C D : Type} (f : C → D) (cb : C → Box α) (cs : C → Nat) (db : D → Box α) (ds : D → Nat)
    (hb : ∀ c, db (f c) = cb c) (hs : ∀ c, ds (f c) = cs c) (kids : List C) :
    fromKids db ds (kids.map f) =
      ⟨(fromKids cb cs kids).box, (fromKids cb cs kids).size, (fromKids cb cs kids).kids.map f⟩ :=
  foldl_map_kids f cb cs db ds hb hs kids newNd

theorem getKids_spec {C : Type} (rd : List Nat → Option (C × List Nat)) (cb : C → Box α) (cs : C → Nat)
    {D : Type} (wr : D → List Nat) (f : D → C) (ds : List D) (n : Nd α C) (s : List Nat)
    (h : ∀ d ∈ ds, ∀ s, rd (wr d ++ s) = some (f d, s)) :
    getKids rd cb cs ds.length n (ds.flatMap wr ++ s) =
      some ((ds.map f).foldl (fun n c => n.addChild (cb c) (cs c) c) n, s) := by
  induction ds generalizing n s with
  | nil => rfl
  | cons d ds ih =>
    rw [List.length_cons, getKids, List.flatMap_cons, List.append_assoc, h d List.mem_cons_self]
    simp only [bind, Option.bind]
    rw [ih _ _ (fun x hx => h x (List.mem_cons_of_mem _ hx)), List.map_cons, List.foldl_cons]

theorem pt3_self (p : Pt α) : pt3 (p 0) (p 1) (p 2) = p := by
  funext i
  match i with
  | 0 => rfl
  | 1 => rfl
  | 2 => rfl

theorem getLeaf_putLeaf (fc : FloatCode α) (l : Leaf α) (hl : l.size < 256 ^ 4) (s : List Nat) :
    getLeaf fc (putLeaf fc l ++ s) = some (l.bare, s) := by
  unfold getLeaf putLeaf
  simp only [List.append_assoc]
  rw [get_put _ _ _ (fc.lt _)]; simp only [bind, Option.bind]
  rw [get_put _ _ _ (fc.lt _)]; simp only
  rw [get_put _ _ _ (fc.lt _)]; simp only
  rw [get_put _ _ _ (fc.lt _)]; simp only
  rw [get_put _ _ _ (fc.lt _)]; simp only
  rw [get_put _ _ _ (fc.lt _)]; simp only
  rw [get_put _ _ _ hl]
  simp only [fc.inv, pure, pt3_self, Leaf.bare]

/-- All nodes of a level have equally many children (and there are some). -/
structure Uniform (t : Root α) (px py pz : Nat) : Prop where
  x : t.kids.length = px
  y : ∀ n ∈ t.kids, n.kids.length = py
  z : ∀ n ∈ t.kids, ∀ m ∈ n.kids, m.kids.length = pz
  px0 : 0 < px
  py0 : 0 < py
  pz0 : 0 < pz

/-- The bytes of a `y` node. -/
def wrY (fc : FloatCode α) (y : YNode α) : List Nat := y.kids.flatMap (putLeaf fc)
/-- The bytes of an `x` node. -/
def wrX (fc : FloatCode α) (x : XNode α) : List Nat := x.kids.flatMap (wrY fc)

theorem persist_uniform (fc : FloatCode α) (t : Root α) (px py pz : Nat) (h : Uniform t px py pz) :
    persist fc t = some (put 8 px ++ put 8 py ++ put 8 pz ++ t.kids.flatMap (wrX fc)) := by
  obtain ⟨hx, hy, hz, h1, h2, h3⟩ := h
  have hz' : ∀ x ∈ t.kids, ∀ y ∈ x.kids, ((List.range pz).mapM (fun z => (y.kids[z]?).bind (fun l => some (putLeaf fc l)))).bind
      (fun zs => some zs.flatten) = some (wrY fc y) := by
    intro x hxm y hym
    rw [← hz x hxm y hym, range_mapM y.kids _ (putLeaf fc) (fun _ _ => rfl)]
    rfl
  have hy' : ∀ x ∈ t.kids, ((List.range py).mapM (fun yi => (x.kids[yi]?).bind (fun y =>
      ((List.range pz).mapM (fun z => (y.kids[z]?).bind (fun l => some (putLeaf fc l)))).bind
        (fun zs => some zs.flatten)))).bind (fun ys => some ys.flatten) = some (wrX fc x) := by
    intro x hxm
    rw [← hy x hxm, range_mapM x.kids _ (wrY fc) (fun y hym => hz' x hxm y hym)]
    rfl
  have hx' := range_mapM t.kids _ (wrX fc) hy'
  unfold persist
  cases hk : t.kids with
  | nil => rw [hk] at hx; simp at hx; omega
  | cons x0 xs =>
    have hpy : x0.kids.length = py := hy x0 (by rw [hk]; exact List.mem_cons_self)
    cases hk0 : x0.kids with
    | nil => rw [hk0] at hpy; simp at hpy; omega
    | cons y0 ys =>
      have hpz : y0.kids.length = pz :=
        hz x0 (by rw [hk]; exact List.mem_cons_self) y0 (by rw [hk0]; exact List.mem_cons_self)
      rw [hk0] at hpy
      rw [hk] at hx hx'
      simp only [bind, pure, hk, hk0, hpy, hpz]
      rw [if_neg (by omega), hx']
      simp only [Option.bind_some]
      rw [hx]
      rfl

theorem load_written (fc : FloatCode α) (kx : List (XNode α)) (px py pz : Nat)
    (hx : kx.length = px) (hy : ∀ n ∈ kx, n.kids.length = py) (hz : ∀ n ∈ kx, ∀ m ∈ n.kids, m.kids.length = pz)
    (hX : ∀ n ∈ kx, n = fromKids (·.box) (·.size) n.kids)
    (hY : ∀ n ∈ kx, ∀ m ∈ n.kids, m = fromKids (·.box) (·.size) m.kids)
    (bx : px < 256 ^ 8) (by' : py < 256 ^ 8) (bz : pz < 256 ^ 8)
    (hs : ∀ n ∈ kx, ∀ m ∈ n.kids, ∀ l ∈ m.kids, l.size < 256 ^ 4) :
    load fc (put 8 px ++ put 8 py ++ put 8 pz ++ kx.flatMap (wrX fc)) =
      some (bare (fromKids (·.box) (·.size) kx)) := by
  have rY : ∀ x ∈ kx, ∀ y ∈ x.kids, ∀ s,
      getKids (getLeaf fc) (·.box) (·.size) pz newNd (wrY fc y ++ s) = some (bareY y, s) := by
    intro x hxm y hym s
    have h1 := getKids_spec (getLeaf fc) (·.box) (·.size) (putLeaf fc) Leaf.bare y.kids newNd s
      (fun l hl s => getLeaf_putLeaf fc l (hs x hxm y hym l hl) s)
    rw [hz x hxm y hym] at h1
    rw [wrY, h1]
    have h2 := fromKids_map (Leaf.bare (α := α)) (·.box) (·.size) (·.box) (·.size) (fun _ => rfl) (fun _ => rfl) y.kids
    rw [fromKids, ← hY x hxm y hym] at h2
    rw [h2]; rfl
  have rX : ∀ x ∈ kx, ∀ s, getKids (fun s => getKids (getLeaf fc) (·.box) (·.size) pz newNd s) (·.box) (·.size) py
      newNd (wrX fc x ++ s) = some (bareX x, s) := by
    intro x hxm s
    have h1 := getKids_spec _ (·.box) (·.size) (wrY fc) bareY x.kids newNd s (rY x hxm)
    rw [hy x hxm] at h1
    rw [wrX, h1]
    have h2 := fromKids_map (bareY (α := α)) (·.box) (·.size) (·.box) (·.size) (fun _ => rfl) (fun _ => rfl) x.kids
    rw [fromKids, ← hX x hxm] at h2
    rw [h2]; rfl
  have h1 := getKids_spec _ (·.box) (·.size) (wrX fc) bareX kx newNd [] rX
  rw [hx, List.append_nil] at h1
  unfold load
  simp only [List.append_assoc]
  rw [get_put _ _ _ bx]; simp only [bind, Option.bind]
  rw [get_put _ _ _ by']; simp only
  rw [get_put _ _ _ bz]; simp only
  rw [h1]
  have h2 := fromKids_map (bareX (α := α)) (·.box) (·.size) (·.box) (·.size) (fun _ => rfl) (fun _ => rfl) kx
  rw [fromKids] at h2
  simp only [h2, pure]
  rfl

end TDP.SortPart
