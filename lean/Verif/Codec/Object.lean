import Verif.Codec.All
import Verif.Codec.Build
import Verif.Codec.Reading
/-! The whole codec: bytes out, bytes in. -/
namespace TDP.Codec
open TDP.Traversal TDP.Blocks TDP.BaseMesh TDP.Stream Function

variable {P : Type}

/-- What CGAL's containers promise: the iterators list every item once, `v->halfedge()` points to `v`, a non-empty list has a
middle. -/
structure Env.Ok (env : Env P) : Prop where
  init : ∀ m : Mesh P, m.darts.Nonempty → env.init m ∈ m.darts
  hit : HitOk env.hit
  order : ∀ m : Mesh P, (env.order m).Nodup ∧ ∀ d, d ∈ env.order m ↔ d ∈ m.darts
  vorder : ∀ m : Mesh P, (env.vorder m).Nodup ∧ ∀ v, v ∈ env.vorder m ↔ ∃ d ∈ m.darts, m.vert d = v
  gates : ∀ m : Mesh P, m.h.WF → OnePerFacet m (env.gates m)

/-- A cell of the quantisation grid. -/
def InCell (bits : Nat) (q : Vec) : Prop :=
  (0 ≤ q.x ∧ q.x < 2 ^ bits) ∧ (0 ≤ q.y ∧ q.y < 2 ^ bits) ∧ (0 ≤ q.z ∧ q.z < 2 ^ bits)

/-- What the arithmetic must satisfy: the centre of a cell is in that cell, and the barycentre of centres is in the box. -/
structure Grid.Ok (g : Grid P) (bits : Nat) : Prop where
  cell : ∀ q, InCell bits q → g.quant (g.dequant q) = q
  bary : ∀ l : List P, l ≠ [] → (∀ p ∈ l, ∃ q, InCell bits q ∧ p = g.dequant q) →
    (0 ≤ (g.quant (g.bary l)).x ∧ (g.quant (g.bary l)).x ≤ 2 ^ bits) ∧
    (0 ≤ (g.quant (g.bary l)).y ∧ (g.quant (g.bary l)).y ≤ 2 ^ bits) ∧
    (0 ≤ (g.quant (g.bary l)).z ∧ (g.quant (g.bary l)).z ≤ 2 ^ bits)

/-- All vertices of the mesh are centres of cells. -/
def Mesh.OnGrid (m : Mesh P) (g : Grid P) (bits : Nat) : Prop :=
  ∀ d ∈ m.darts, ∃ q, InCell bits q ∧ m.pos (m.vert d) = g.dequant q

theorem Grid.Ok.restore {g : Grid P} {bits : Nat} (hg : g.Ok bits) {q : Vec} (hq : InCell bits q) (l : List P) :
    g.geo.insert l (g.geo.residual (g.dequant q) l) = g.dequant q := by
  simp only [Grid.geo, hg.cell q hq]
  congr 1
  cases q
  simp

theorem map_inv {X Y : Type} {f : X → Option Y} {k : Y → X} (hk : ∀ x y, f x = some y → x = k y) (xs : List X) (ys : List Y)
    (h : xs.map f = ys.map some) : xs = ys.map k := by
  induction xs generalizing ys with
  | nil => cases ys with
    | nil => rfl
    | cons => simp at h
  | cons x xs ih => cases ys with
    | nil => simp at h
    | cons y ys =>
      simp only [List.map_cons, List.cons.injEq] at h
      rw [List.map_cons, ← hk x y h.1, ← ih ys h.2]

theorem map_inv2 {X Y : Type} {f : X → Option Y} {k : Y → X} (hk : ∀ x y, f x = some y → x = k y) (xs : List (List X))
    (ys : List (List Y)) (h : xs.map (fun l => l.map f) = ys.map (fun l => l.map some)) : xs = ys.map (fun l => l.map k) := by
  induction xs generalizing ys with
  | nil => cases ys with
    | nil => rfl
    | cons => simp at h
  | cons x xs ih => cases ys with
    | nil => simp at h
    | cons y ys =>
      simp only [List.map_cons, List.cons.injEq] at h
      rw [List.map_cons, ← map_inv hk x y h.1, ← ih ys h.2]

/-- The base mesh read back is the one written. -/
theorem base_iso [Inhabited P] {B : Mesh P} (hB : B.WF) {h0 : Nat} (hh0 : h0 ∈ B.darts) {env : Env P} (he : env.Ok)
    {g : Grid P} {bits : Nat} (hg : g.Ok bits) (hon : B.OnGrid g bits) {hd : Header} {nb : Nat} {d : Decoded}
    (hs : SameMesh { baseOf hd g env (B.src h0) (B.vert h0) B with nbDec := nb } d) :
    ∃ N φ, buildMesh d.faces (d.verts.map (fun p => g.dequant (ofPt p))) = some N ∧ Iso φ B N ∧ N.h.WF ∧ N.Fresh ∧
      N.src (φ h0) = 0 ∧ N.vert (φ h0) = 1 := by
  obtain ⟨_, _, _, _, _, σ, hperm, hσ0, hσ1, hverts, hfaces⟩ := hs
  obtain ⟨vn, vm⟩ := he.vorder B
  have σn : σ.Nodup := hperm.nodup_iff.mpr List.nodup_range
  have hvl : ∀ x ∈ B.darts, (env.vorder B).idxOf (B.vert x) < (env.vorder B).length := fun x hx =>
    List.idxOf_lt_length_iff.mpr ((vm _).mpr ⟨x, hx, rfl⟩)
  have hlen : (baseOf hd g env (B.src h0) (B.vert h0) B).verts.length = (env.vorder B).length := by simp [baseOf]
  have hσm : ∀ i, i < (env.vorder B).length → i ∈ σ := by
    intro i hi
    rw [hperm.mem_iff, List.mem_range]
    change i < (baseOf hd g env (B.src h0) (B.vert h0) B).verts.length
    rw [hlen]; exact hi
  have hσg : ∀ i, i ∈ σ → σ[σ.idxOf i]? = some i := by
    intro i hi
    rw [List.getElem?_eq_getElem (List.idxOf_lt_length_iff.mpr hi), List.getElem_idxOf]
  have hσi : ∀ x i, σ[x]? = some i → x = σ.idxOf i := by
    intro x i h
    obtain ⟨hx, e⟩ := List.getElem?_eq_some_iff.mp h
    rw [← e, List.Nodup.idxOf_getElem σn]
  let nm : Nat → Nat := fun v => σ.idxOf ((env.vorder B).idxOf v)
  have hf : d.faces = faceLists B (env.gates B) nm := by
    have := map_inv2 (k := fun i => σ.idxOf i) hσi _ _ hfaces
    rw [this]
    change (faceLists B (env.gates B) (fun v => (env.vorder B).idxOf v)).map _ = _
    unfold faceLists
    rw [List.map_map]
    apply List.map_congr_left
    intro x _
    simp only [comp_apply, List.map_map]
    rfl
  have hinj : ∀ x ∈ B.darts, ∀ y ∈ B.darts, nm (B.vert x) = nm (B.vert y) → B.vert x = B.vert y := by
    intro x hx y hy h
    have h1 := hσg _ (hσm _ (hvl x hx))
    have h2 := hσg _ (hσm _ (hvl y hy))
    change σ.idxOf _ = σ.idxOf _ at h
    rw [h, h2] at h1
    injection h1 with h1
    exact ((List.idxOf_inj ((vm _).mpr ⟨y, hy, rfl⟩)).mp h1).symm
  have hpts : ∀ x ∈ B.darts, (d.verts.map (fun p => g.dequant (ofPt p)))[nm (B.vert x)]? = some (B.pos (B.vert x)) := by
    intro x hx
    have h1 := congrArg (fun l => l[nm (B.vert x)]?) hverts
    simp only [List.getElem?_map] at h1
    rw [show σ[nm (B.vert x)]? = _ from hσg _ (hσm _ (hvl x hx))] at h1
    simp only [Option.map_some] at h1
    have h2 : (baseOf hd g env (B.src h0) (B.vert h0) B).verts[(env.vorder B).idxOf (B.vert x)]? =
        some (toPt (g.quant (B.pos (B.vert x)))) := by
      simp only [baseOf, List.getElem?_map]
      rw [List.getElem?_eq_getElem (hvl x hx), List.getElem_idxOf]; rfl
    rw [show ({ baseOf hd g env (B.src h0) (B.vert h0) B with nbDec := nb } : Base).verts = (baseOf hd g env (B.src h0) (B.vert h0) B).verts from rfl, h2] at h1
    rw [List.getElem?_map]
    cases hv : d.verts[nm (B.vert x)]? with
    | none => rw [hv] at h1; simp at h1
    | some p =>
      rw [hv] at h1
      simp only [Option.map_some, Option.some.injEq] at h1
      obtain ⟨q, hq, hp⟩ := hon x hx
      rw [hp, hg.cell q hq] at h1
      rw [Option.map_some, h1, hp]
      congr 2
      obtain ⟨⟨a, _⟩, ⟨b, _⟩, ⟨c, _⟩⟩ := hq
      cases q
      simp only [ofPt, toPt] at a b c ⊢
      rw [Int.toNat_of_nonneg a, Int.toNat_of_nonneg b, Int.toNat_of_nonneg c]
  obtain ⟨N, φ, h1, h2, h3, h4, h5⟩ := build_iso hB (he.gates B hB.h) nm hinj _ hpts
  rw [← hf] at h1
  refine ⟨N, φ, h1, h2, h3, h4, ?_, ?_⟩
  · unfold Mesh.src
    rw [← h2.opp h0 hh0, h5 _ (hB.opp_mem hh0)]
    exact (hσi 0 _ hσ0).symm
  · rw [h5 _ hh0]
    exact (hσi 1 _ hσ1).symm

theorem around_ge {B : Mesh P} (hB : B.WF) {d : Nat} (hd : d ∈ B.darts) : 3 ≤ (around B.h d).length := by
  have e : around B.h d = (List.range (minimalPeriod B.next d)).map (fun i => B.next^[i] d) := around_eq hB.h hd
  rw [e, List.length_map, List.length_range]
  obtain ⟨hp, _⟩ := period_spec hB.h.next_mem hB.h.next_inj hd
  have hp' : 0 < minimalPeriod B.next d := hp
  have h1 : minimalPeriod B.next d ≠ 1 := by
    intro h
    have := isPeriodicPt_minimalPeriod B.next d
    rw [h] at this
    exact hB.next_ne hd this
  have h2 : minimalPeriod B.next d ≠ 2 := by
    intro h
    have := isPeriodicPt_minimalPeriod B.next d
    rw [h] at this
    exact hB.deg3 d hd this
  omega

/-- The symbols and base mesh of a compression can be written. -/
theorem base_valid {B : Mesh P} (hB : B.WF) {h0 : Nat} (hh0 : h0 ∈ B.darts) {env : Env P} (he : env.Ok)
    {g : Grid P} {hd : Header} (hg : g.Ok hd.quantBits) (hon : B.OnGrid g hd.quantBits) {nb : Nat}
    (hfl : hd.bb0 < 2 ^ 32 ∧ hd.bb1 < 2 ^ 32 ∧ hd.bb2 < 2 ^ 32 ∧ hd.step < 2 ^ 32)
    (hbits : 1 ≤ hd.quantBits ∧ hd.quantBits ≤ 16) (hnb : nb < 64)
    (hcnt : (env.vorder B).length < 65536 ∧ (env.gates B).length < 65536)
    (hdeg : ∀ d ∈ B.darts, B.deg d ≤ 10) :
    ({ baseOf hd g env (B.src h0) (B.vert h0) B with nbDec := nb } : Base).Valid := by
  obtain ⟨vn, vm⟩ := he.vorder B
  have m0 : B.src h0 ∈ env.vorder B := (vm _).mpr ⟨_, hB.opp_mem hh0, rfl⟩
  have m1 : B.vert h0 ∈ env.vorder B := (vm _).mpr ⟨_, hh0, rfl⟩
  refine ⟨hfl, hbits, ⟨hnb, hbits.1⟩, ?_, ?_, ?_, ?_⟩
  · simpa [baseOf, faceLists] using hcnt
  · simp only [baseOf, List.length_map]
    refine ⟨List.idxOf_lt_length_iff.mpr m0, List.idxOf_lt_length_iff.mpr m1, fun h => ?_⟩
    exact hB.noloop h0 hh0 ((List.idxOf_inj m0).mp h)
  · intro p hp
    obtain ⟨v, hv, rfl⟩ := List.mem_map.mp hp
    obtain ⟨d, hd', rfl⟩ := (vm v).mp hv
    obtain ⟨q, hq, hpq⟩ := hon d hd'
    rw [hpq, hg.cell q hq]
    obtain ⟨a, b, c⟩ := hq
    simp only [toPt, baseOf, Nat.sub_zero]
    have key : ∀ x : Int, 0 ≤ x ∧ x < 2 ^ hd.quantBits → x.toNat < 2 ^ hd.quantBits := by
      intro x hx
      have : (x.toNat : Int) < ((2 ^ hd.quantBits : Nat) : Int) := by
        rw [Int.toNat_of_nonneg hx.1]; push_cast; exact hx.2
      exact_mod_cast this
    exact ⟨key _ a, key _ b, key _ c⟩
  · intro f hf
    obtain ⟨x, hx, rfl⟩ := List.mem_map.mp hf
    have hxm := (he.gates B hB.h).mem x hx
    refine ⟨?_, ?_, ?_⟩
    · rw [List.length_map]; exact around_ge hB hxm
    · rw [List.length_map]; exact hdeg x hxm
    · intro i hi
      obtain ⟨y, hy, rfl⟩ := List.mem_map.mp hi
      simp only [baseOf, List.length_map]
      exact List.idxOf_lt_length_iff.mpr ((vm _).mpr ⟨y, ((mem_around hB.h hxm y).mp hy).1, rfl⟩)

theorem level_valid {M : Mesh P} {g : Grid P} {bits : Nat} (hb : bits ≤ 14) (hg : g.Ok bits) (hon : M.OnGrid g bits)
    {l : LevelSyms Vec} (h : SymsOf g.geo M l.1) : (toLevel l).Valid := by
  have hN : (2 : Int) ^ bits ≤ 16384 := by
    have : (2 : Int) ^ bits ≤ 2 ^ 14 := pow_le_pow_right₀ (by norm_num) hb
    simpa using this
  refine ⟨?_, ⟨-16384, 16384, by decide, by decide, by decide, ?_⟩, ?_⟩
  · obtain ⟨r, hr⟩ := h.1
    have : r ∈ geom (toLevel l) := List.mem_filterMap.mpr ⟨some r, hr, rfl⟩
    intro hnil
    rw [hnil] at this; exact absurd this (by simp)
  · intro v hv
    obtain ⟨x, hx, e⟩ := List.mem_filterMap.mp hv
    have e' : x = some v := e
    rw [e'] at hx
    obtain ⟨d, hd, ps, hne, hps, rfl⟩ := h.2 v hx
    obtain ⟨q, hq, hp⟩ := hon d hd
    have hb := hg.bary ps hne (fun p hp => by
      obtain ⟨e, he, rfl⟩ := hps p hp
      exact hon e he)
    simp only [Grid.geo]
    rw [hp, hg.cell q hq]
    obtain ⟨a, b, c⟩ := hq
    obtain ⟨a', b', c'⟩ := hb
    refine ⟨⟨?_, ?_⟩, ⟨?_, ?_⟩, ⟨?_, ?_⟩⟩ <;> omega
  · intro s hs
    obtain ⟨b, _, rfl⟩ := List.mem_map.mp hs
    cases b <;> simp

/-- Everything the codec promises for a mesh on the grid. -/
theorem object_roundtrip [Inhabited P] (lg : Nat → Nat) (hlg : LogOk lg) (grid : Header → Grid P) (convex : Mesh P → Nat → Bool)
    (env env' : Env P) (he : env.Ok) (he' : env'.Ok) (hd : Header)
    (hfl : hd.bb0 < 2 ^ 32 ∧ hd.bb1 < 2 ^ 32 ∧ hd.bb2 < 2 ^ 32 ∧ hd.step < 2 ^ 32)
    (hbits : 1 ≤ hd.quantBits ∧ hd.quantBits ≤ 14) (hg : (grid hd).Ok hd.quantBits)
    (M : Mesh P) (hM : M.WF) (hs : M.Sep) (first : Nat) (hc : M.Conn first) (hon : M.OnGrid (grid hd) hd.quantBits)
    (hdeg : ∀ d ∈ M.darts, M.deg d ≤ 10) :
    ∃ (L : List (Mesh P × LevelSyms Vec)) (B : Mesh P) (fuel : Nat),
      (∀ n ≥ fuel, compressLevels (grid hd).geo convex env.init env.hit (M.src first) (M.vert first) n n M = some (L, B)) ∧
      Compressed (grid hd).geo M first L B ∧
      ∀ size n, fuel ≤ n → 0 < L.length → L.length < 64 → (env.vorder B).length < 65536 → (env.gates B).length < 65536 →
        27 + 6 * (env.vorder B).length + 32 * (env.gates B).length ≤ size →
        ∃ data o, compress lg size grid convex env n hd M first = some data ∧ openObj lg grid data = some o ∧ o.hd = hd ∧
          o.nbDec = L.length ∧ o.lod = Lod.fresh ∧
          ∀ n' ≥ fuel, ∀ i ≤ L.length, ∃ N ψ rest, refines (grid hd).geo env' n' 0 1 (L.length - i) o.m o.rest = some (N, rest) ∧
            Iso ψ (lodMesh L B i) N ∧ N.h.WF ∧ N.src (ψ first) = 0 ∧ N.vert (ψ first) = 1 ∧ (i = 0 → rest = []) := by
  obtain ⟨L, B, fuel, hcomp, C, hdec⟩ := all_levels (grid hd).geo convex env.init env.hit env'.hit env'.order he.init he.hit
    he'.hit he'.order first _ M le_rfl hM hs hc (fun d hd' l => by
      obtain ⟨q, hq, hp⟩ := hon d hd'
      rw [hp]; exact hg.restore hq l)
  refine ⟨L, B, fuel, fun n hn => hcomp n hn n hn, C, ?_⟩
  intro size n hn hl0 hl64 hv hf hsz
  have hh0 := C.conn.1
  have honB : B.OnGrid (grid hd) hd.quantBits := by
    intro d hd'
    obtain ⟨e, he1, he2⟩ := C.vsub d hd'
    obtain ⟨q, hq, hp⟩ := hon e he1
    exact ⟨q, hq, by rw [C.pos, ← he2, hp]⟩
  generalize hlev : ((L.map (·.2)).reverse.map toLevel) = levels
  have hll : levels.length = L.length := by rw [← hlev]; simp
  have hval := base_valid C.wf hh0 he hg honB (nb := levels.length) hfl ⟨hbits.1, by omega⟩ (by omega) ⟨hv, hf⟩ (C.degs 10 (by omega) hdeg)
  have hlval : ∀ l ∈ levels, l.Valid := by
    intro l hl
    rw [← hlev] at hl
    obtain ⟨x, hx, rfl⟩ := List.mem_map.mp hl
    rw [List.mem_reverse] at hx
    obtain ⟨y, hy, rfl⟩ := List.mem_map.mp hx
    exact level_valid hbits.2 hg hon (C.syms y hy)
  obtain ⟨data, hw, hdl4, hread⟩ := C07_progressive_roundtrip lg hlg (baseOf hd (grid hd) env (B.src first) (B.vert first) B) levels hval
    (by intro h; rw [h] at hll; simp at hll; omega) hlval size (by simpa [baseOf, faceLists] using hsz)
  have hopen : ∃ o, openObj lg grid data = some o ∧ o.hd = hd ∧ o.nbDec = L.length ∧ o.lod = Lod.fresh ∧
      ∃ N φ, o.m = N ∧ Iso φ B N ∧ N.h.WF ∧ N.Fresh ∧ N.src (φ first) = 0 ∧ N.vert (φ first) = 1 ∧
      ∀ k ≤ L.length, ∃ rest, readLevels ((levels.take k).map Level.counts) o.rest = some (levels.take k, rest) ∧ (k = L.length → rest = []) := by
    obtain ⟨d, off, hr, hsame, _⟩ := hread 0 (Nat.zero_le _)
    obtain ⟨N, φ, hb, iφ, wfN, frN, s0, s1⟩ := base_iso C.wf hh0 he hg honB hsame
    unfold readCompressedData at hr
    simp only [Option.bind_eq_bind, Option.bind_eq_some_iff] at hr
    obtain ⟨⟨d', e⟩, hr1, ⟨ls', rest⟩, hr2, hr3⟩ := hr
    simp only [Option.some.injEq, Prod.mk.injEq] at hr3
    obtain ⟨rfl, rfl, _⟩ := hr3
    have hgd : (⟨d'.bb0, d'.bb1, d'.bb2, d'.step, d'.quantBits⟩ : Header) = hd := by
      obtain ⟨⟨e1, e2, e3, e4⟩, e5, _⟩ := hsame
      rw [e1, e2, e3, e4, e5]; rfl
    have hnb : d'.nbDec = L.length := by
      obtain ⟨_, _, e6, _⟩ := hsame
      rw [e6]; exact hll
    have hlc : ¬ d'.levelNotConvex < d'.nbDec := by
      obtain ⟨_, _, e6, _, e7, _⟩ := hsame
      rw [e6, e7]
      change ¬ (levels.length - 0 < levels.length)
      omega
    refine ⟨⟨N, hd, d'.nbDec, data.drop e, Lod.fresh⟩, ?_, rfl, hnb, rfl, N, φ, rfl, iφ, wfN, frN, s0, s1, ?_⟩
    · unfold openObj
      simp only [hr1, Option.bind_eq_bind, Option.bind_some]
      rw [hgd, hb]
      simp only [Option.bind_some]
      rw [if_neg hlc]
    · intro k hk
      obtain ⟨d2, off2, hr', _, hend⟩ := hread k (by omega)
      unfold readCompressedData at hr'
      simp only [Option.bind_eq_bind, Option.bind_eq_some_iff] at hr'
      obtain ⟨⟨d3, e3⟩, hr1', ⟨ls3, rest3⟩, hr2', hr3'⟩ := hr'
      simp only [Option.some.injEq, Prod.mk.injEq] at hr3'
      obtain ⟨rfl, rfl, hoff⟩ := hr3'
      rw [hr1] at hr1'
      simp only [Option.some.injEq, Prod.mk.injEq] at hr1'
      obtain ⟨rfl, rfl⟩ := hr1'
      refine ⟨rest3, hr2', fun hkl => ?_⟩
      have := hend (by omega)
      exact List.length_eq_zero_iff.1 (by omega)
  obtain ⟨o, ho, ohd, onb, olod, N, φ, om, iφ, wfN, frN, s0, s1, hlevels⟩ := hopen
  refine ⟨data, o, ?_, ho, ohd, onb, olod, ?_⟩
  · unfold compress
    simp only
    rw [hcomp n hn n hn]
    simp only [Option.bind_eq_bind, Option.bind_some]
    rw [hlev, ← C.dep.1, ← C.dep.2, hw]
  · intro n' hn' i hi
    obtain ⟨N', ψ, hdl, iψ, wfN', _, t0, t1⟩ := hdec n' hn' φ N iφ wfN frN i hi
    obtain ⟨rest, hr2, hrest⟩ := hlevels (L.length - i) (by omega)
    have htake : levels.take (L.length - i) = (stored L i).map toLevel := by
      rw [← hlev, ← List.map_take, List.take_reverse, stored, List.length_map, List.map_drop]
      congr 4
      omega
    have hcounts : (levels.take (L.length - i)).map Level.counts = (stored L i).map (fun l => (toLevel l).counts) := by
      rw [htake, List.map_map]; rfl
    rw [hcounts, htake] at hr2
    rw [s0, s1] at hdl
    have href := refines_of _ hdl hr2
    have hsl : (stored L i).length = L.length - i := by simp [stored]
    rw [hsl] at href
    rw [om]
    exact ⟨N', ψ, rest, href, iψ, wfN', t0.trans s0, t1.trans s1, fun hi0 => hrest (by omega)⟩

end TDP.Codec
