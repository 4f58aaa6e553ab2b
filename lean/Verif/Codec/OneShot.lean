import Verif.Codec.Props
/-!
# C105: decompressing in one go (src/spatial/spatial_common.cpp:149-166) and step by step

Nothing is assumed about the bytes: they may be damaged.
-/
namespace TDP.Codec

variable {P : Type}

/-- `decompress_mesh(compressed, lod)` (spatial_common.cpp:149-155; with lod 100 also lines 157-166): a `MyMesh` made with that percentage
(mymesh.cpp:28-38), then `completeOperation`. -/
def decompressMesh [Inhabited P] (lg : Nat → Nat) (F : Fp) (grid : Header → Grid P) (env : Env P) (n : Nat) (lod : Int) (data : List Nat) :
    Option (Obj P) := do
  let o ← openObj lg grid data
  completeObj F grid env n { o with lod := ⟨o.lod.curOp, Lod.toUnsigned lod⟩ }

theorem reached_mono (F : Fp) (n k p q : Nat) (h : p ≤ q) (hq : Lod.reached F n k q = true) : Lod.reached F n k p = true := by
  unfold Lod.reached at hq ⊢
  by_cases hn : n = 0
  · rw [if_pos hn] at hq; exact absurd hq (by simp)
  · rw [if_neg hn] at hq ⊢
    have := of_decide_eq_true hq
    exact decide_eq_true (le_trans (by exact_mod_cast h) this)

/-- The object with another percentage. -/
def Obj.withPct (o : Obj P) (p : Nat) : Obj P := { o with lod := ⟨o.lod.curOp, p⟩ }

/-- Going to `p` first and then to `q` is the same as going to `q`. -/
theorem completeObj_trans (F : Fp) (grid : Header → Grid P) (env : Env P) (n : Nat) (p q : Nat) (h : p ≤ q) (o : Obj P) :
    ((completeObj F grid env n (o.withPct p)).bind fun r => completeObj F grid env n (r.withPct q)) =
      completeObj F grid env n (o.withPct q) := by
  obtain ⟨k, hk⟩ : ∃ k, o.nbDec - o.lod.curOp = k := ⟨_, rfl⟩
  induction k generalizing o with
  | zero =>
    rw [completeObj.eq_1 F grid env n (o.withPct p)]
    by_cases hr : Lod.reached F (o.withPct p).nbDec (o.withPct p).lod.curOp (o.withPct p).lod.pct = true
    · rw [if_pos hr]; rfl
    · rw [if_neg hr]
      have hr' : ¬ Lod.reached F (o.withPct q).nbDec (o.withPct q).lod.curOp (o.withPct q).lod.pct = true :=
        fun hc => hr (reached_mono F _ _ p q h hc)
      have hl : ¬ o.lod.curOp < o.nbDec := by omega
      have hlp : ¬ (o.withPct p).lod.curOp < (o.withPct p).nbDec := hl
      have hlq : ¬ (o.withPct q).lod.curOp < (o.withPct q).nbDec := hl
      rw [if_neg hlp, completeObj.eq_1 F grid env n (o.withPct q), if_neg hr', if_neg hlq]; rfl
  | succ k ih =>
    rw [completeObj.eq_1 F grid env n (o.withPct p)]
    by_cases hr : Lod.reached F (o.withPct p).nbDec (o.withPct p).lod.curOp (o.withPct p).lod.pct = true
    · rw [if_pos hr]; rfl
    · rw [if_neg hr]
      have hr' : ¬ Lod.reached F (o.withPct q).nbDec (o.withPct q).lod.curOp (o.withPct q).lod.pct = true :=
        fun hc => hr (reached_mono F _ _ p q h hc)
      have hl : o.lod.curOp < o.nbDec := by omega
      have hlp : (o.withPct p).lod.curOp < (o.withPct p).nbDec := hl
      have hlq : (o.withPct q).lod.curOp < (o.withPct q).nbDec := hl
      rw [if_pos hlp, completeObj.eq_1 F grid env n (o.withPct q), if_neg hr', if_pos hlq]
      show ((match refine (grid o.hd).geo env n 0 1 o.m o.rest with
        | none => none
        | some (m, rest) => completeObj F grid env n ⟨m, o.hd, o.nbDec, rest, ⟨o.lod.curOp + 1, p⟩⟩).bind _) =
        (match refine (grid o.hd).geo env n 0 1 o.m o.rest with
        | none => none
        | some (m, rest) => completeObj F grid env n ⟨m, o.hd, o.nbDec, rest, ⟨o.lod.curOp + 1, q⟩⟩)
      cases refine (grid o.hd).geo env n 0 1 o.m o.rest with
      | none => rfl
      | some r =>
        obtain ⟨m, rest⟩ := r
        exact ih ⟨m, o.hd, o.nbDec, rest, ⟨o.lod.curOp + 1, 0⟩⟩ (by show o.nbDec - (o.lod.curOp + 1) = k; omega)

theorem completeObj_pct (F : Fp) (grid : Header → Grid P) (env : Env P) (n : Nat) (o r : Obj P)
    (h : completeObj F grid env n o = some r) : r.lod.pct = o.lod.pct ∧ r.nbDec = o.nbDec ∧ Lod.reached F r.nbDec r.lod.curOp r.lod.pct = true := by
  obtain ⟨k, hk⟩ : ∃ k, o.nbDec - o.lod.curOp = k := ⟨_, rfl⟩
  induction k generalizing o with
  | zero =>
    rw [completeObj.eq_1] at h
    by_cases hr : Lod.reached F o.nbDec o.lod.curOp o.lod.pct = true
    · rw [if_pos hr] at h; obtain rfl := Option.some.inj h; exact ⟨rfl, rfl, hr⟩
    · rw [if_neg hr, if_neg (by omega)] at h; exact absurd h (by simp)
  | succ k ih =>
    rw [completeObj.eq_1] at h
    by_cases hr : Lod.reached F o.nbDec o.lod.curOp o.lod.pct = true
    · rw [if_pos hr] at h; obtain rfl := Option.some.inj h; exact ⟨rfl, rfl, hr⟩
    · rw [if_neg hr, if_pos (by omega)] at h
      cases hf : refine (grid o.hd).geo env n 0 1 o.m o.rest with
      | none => rw [hf] at h; exact absurd h (by simp)
      | some x =>
        obtain ⟨m, rest⟩ := x
        rw [hf] at h
        exact ih ⟨m, o.hd, o.nbDec, rest, ⟨o.lod.curOp + 1, o.lod.pct⟩⟩ h (by show o.nbDec - (o.lod.curOp + 1) = k; omega)

theorem completeObj_done (F : Fp) (grid : Header → Grid P) (env : Env P) (n : Nat) (o : Obj P)
    (h : Lod.reached F o.nbDec o.lod.curOp o.lod.pct = true) : completeObj F grid env n o = some o := by
  rw [completeObj.eq_1, if_pos h]

/-- From an object that has reached its percentage, a history is one request for the largest. -/
theorem runObj_eq (F : Fp) (grid : Header → Grid P) (env : Env P) (n : Nat) (ps : List Nat) (hp : ∀ p ∈ ps, p < 2 ^ 32) :
    ∀ o : Obj P, Lod.reached F o.nbDec o.lod.curOp o.lod.pct = true →
      runObj F grid env n (ps.map (↑)) o = completeObj F grid env n (o.withPct (ps.foldl max o.lod.pct)) := by
  induction ps with
  | nil => intro o ho; exact (completeObj_done F grid env n o ho).symm
  | cons p ps ih =>
    intro o ho
    have hu : Lod.toUnsigned (p : Int) = p := by
      have := hp p List.mem_cons_self
      unfold Lod.toUnsigned; omega
    have hps : ∀ q ∈ ps, q < 2 ^ 32 := fun q hq => hp q (List.mem_cons_of_mem _ hq)
    have hmax : ∀ (l : List Nat) (a : Nat), a ≤ l.foldl max a := by
      intro l
      induction l with
      | nil => intro a; exact le_refl _
      | cons x l ihl => intro a; exact le_trans (le_max_left a x) (ihl _)
    rw [List.map_cons, List.foldl_cons]
    show (advanceObj F grid env n (p : Int) o).bind (fun r => runObj F grid env n (ps.map (↑)) r) = _
    unfold advanceObj
    rw [hu]
    by_cases hge : o.lod.pct ≥ p
    · rw [if_pos hge, max_eq_left hge]
      exact ih hps o ho
    · rw [if_neg hge, max_eq_right (by omega), ← completeObj_trans F grid env n p (ps.foldl max p) (hmax ps p) o]
      show (completeObj F grid env n (o.withPct p)).bind _ = _
      cases hc : completeObj F grid env n (o.withPct p) with
      | none => rfl
      | some r =>
        obtain ⟨h1, h2, h3⟩ := completeObj_pct F grid env n _ r hc
        show runObj F grid env n (ps.map (↑)) r = completeObj F grid env n (r.withPct (ps.foldl max p))
        rw [ih hps r h3, h1]; rfl

theorem openObj_fresh [Inhabited P] {lg : Nat → Nat} {grid : Header → Grid P} {data : List Nat} {o : Obj P}
    (h : openObj lg grid data = some o) : o.lod = Lod.fresh := by
  unfold openObj at h
  simp only [Option.bind_eq_bind, Option.bind_eq_some_iff] at h
  obtain ⟨⟨d, e⟩, -, m, -, h⟩ := h
  by_cases hc : d.levelNotConvex < d.nbDec
  · rw [if_pos hc] at h; exact absurd h (by simp)
  · rw [if_neg hc] at h
    rw [← Option.some.inj h]

/-- **C105.** Whatever the bytes: decompressing an object with at least one level in one go at `p` per cent has the same result, whether an
object or a failure, as opening it and making any requests of which `p` is the largest. -/
theorem C105_one_go_partial [Inhabited P] (lg : Nat → Nat) (F : Fp) (grid : Header → Grid P) (env : Env P) (n : Nat) (data : List Nat) (o : Obj P)
    (ho : openObj lg grid data = some o) (hn : 1 ≤ o.nbDec) (p : Nat) (ps : List Nat) (hp : p < 2 ^ 32) (hmem : p ∈ ps) (hmax : ∀ q ∈ ps, q ≤ p) :
    decompressMesh lg F grid env n p data = runObj F grid env n (ps.map (↑)) o := by
  have hl := openObj_fresh ho
  have hr : Lod.reached F o.nbDec o.lod.curOp o.lod.pct = true := by
    rw [hl]; unfold Lod.reached; rw [if_neg (by omega)]
    simp [Lod.fresh, F.zero]
  have hf : ps.foldl max o.lod.pct = p := by
    have hub : ∀ (l : List Nat) (a : Nat), a ≤ p → (∀ q ∈ l, q ≤ p) → l.foldl max a ≤ p := by
      intro l
      induction l with
      | nil => intro a ha _; exact ha
      | cons x l ih => intro a ha hq; exact ih _ (max_le ha (hq x List.mem_cons_self)) (fun q h => hq q (List.mem_cons_of_mem _ h))
    have hlb : ∀ (l : List Nat) (a : Nat), (p ∈ l ∨ p ≤ a) → p ≤ l.foldl max a := by
      intro l
      induction l with
      | nil => intro a h; exact h.resolve_left (by simp)
      | cons x l ih =>
        intro a h
        apply ih
        rcases h with h | h
        · rcases List.mem_cons.1 h with h | h
          · exact .inr (h ▸ le_max_right a x)
          · exact .inl h
        · exact .inr (le_trans h (le_max_left a x))
    rw [hl]
    exact le_antisymm (hub ps _ (Nat.zero_le _) hmax) (hlb ps _ (.inl hmem))
  rw [runObj_eq F grid env n ps (fun q hq => lt_of_le_of_lt (hmax q hq) hp) o hr, hf]
  unfold decompressMesh
  rw [ho]
  have hu : Lod.toUnsigned (p : Int) = p := by unfold Lod.toUnsigned; omega
  rw [hu]; rfl

/-- **C105 is false of the code for objects without levels** (C98 says which objects have none): decompressing in one go reads past the
data at every percentage, also at 0, where asking the opened object for 0 per cent does nothing. -/
theorem C105_no_levels_defect [Inhabited P] (lg : Nat → Nat) (F : Fp) (grid : Header → Grid P) (env : Env P) (n : Nat) (data : List Nat)
    (o : Obj P) (ho : openObj lg grid data = some o) (hn : o.nbDec = 0) :
    (∀ lod, decompressMesh lg F grid env n lod data = none) ∧ runObj F grid env n [0] o = some o := by
  have hl := openObj_fresh ho
  constructor
  · intro lod
    unfold decompressMesh
    rw [ho]
    show completeObj F grid env n _ = none
    rw [completeObj.eq_1]
    have h1 : ¬ Lod.reached F o.nbDec o.lod.curOp (Lod.toUnsigned lod) = true := by
      unfold Lod.reached; rw [if_pos hn]; simp
    have h2 : ¬ o.lod.curOp < o.nbDec := by omega
    exact (if_neg h1).trans (if_neg h2)
  · show (advanceObj F grid env n 0 o).bind _ = _
    unfold advanceObj
    have : o.lod.pct ≥ Lod.toUnsigned 0 := by rw [show Lod.toUnsigned 0 = 0 from by decide]; exact Nat.zero_le _
    rw [if_pos this]; rfl

end TDP.Codec
