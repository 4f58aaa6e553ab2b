import Verif.Conc.Base
import Verif.Voxels.Model
/-!
# C101: does compressing the same objects twice give the same voxels?
(src/PPMC/mymesh.cpp:42, src/util/util.h:94-96, src/spatial/himesh.cpp:93-156, src/test/compress.cpp:66-99)

`rand()` has one state for the whole program. Every `MyMesh` constructor calls `srand` with the same constant, and choosing the cores of
the voxels of an object draws numbers. A worker of the compressor constructs two meshes per object (compress.cpp:81-82) and then draws.
-/
namespace TDP.Conc.Repro
open TDP.Conc TDP.Boxes TDP.Voxels

/-- `srand(PPMC_RANDOM_CONSTANT)` (mymesh.cpp:42) and `rand()`: the state set by the first and the step of the second. The C library locks
the state, so each call is atomic. -/
structure Rng (S : Type) where
  seed : S
  next : S → Nat × S

/-- Code that calls `rand()` some number of times, which may depend on the values. -/
inductive Prog (R : Type)
  | done (r : R)
  | draw (k : Nat → Prog R)

/-- The result when nobody else calls `rand()` or `srand()` meanwhile. -/
def Prog.run {S R : Type} (g : Rng S) : Prog R → S → R
  | .done r, _ => r
  | .draw k, s => (k (g.next s).1).run g (g.next s).2

/-! ## Choosing the cores -/

/-- `while(try_round++<10)` (himesh.cpp:118-125) with what follows; `rand()%num_cores+1` (util.h:94-96). An index outside the array is
`none`. -/
def pickProg {R : Type} (m : Nat) (fail : R) : Nat → List Bool → (List Bool → Prog R) → Prog R
  | 0, keep, next => next keep
  | tries + 1, keep, next => .draw fun r =>
      if (r % m + 1) < keep.length then
        if keep.getD (r % m + 1) false then pickProg m fail tries keep next
        else next (keep.set (r % m + 1) true)
      else .done fail

/-- `for(int i=0;i<num_cores;i++)` (himesh.cpp:114-145). -/
def coresProg {R : Type} (m : Nat) (fail : R) : Nat → List Bool → (List Bool → R) → Prog R
  | 0, keep, fin => .done (fin keep)
  | n + 1, keep, fin => pickProg m fail 10 keep (fun keep => coresProg m fail n keep fin)

/-- `HiMesh::get_skeleton_points` (himesh.cpp:93-156) as code that calls `rand()`; `Voxels.sample` with the numbers it draws. -/
def sampleProg {α : Type} (numCores : Nat) (skel : List (Pt α)) : Prog (Option (List (Pt α))) :=
  if skel.length = 0 then .done none
  else if numCores > skel.length then .done (some skel)
  else coresProg numCores none numCores (List.replicate skel.length false)
    (fun keep => some (((skel.zip keep).filter (·.2)).map (·.1)))

/-! ## The workers -/

/-- Where a worker is in the loop of `mycompress` (compress.cpp:76-95). -/
inductive PC (O R : Type)
  | idle
  | built (o : O)                  -- 81 done: `get_mesh` has constructed a mesh
  | drawing (o : O) (p : Prog R)   -- 82 done: inside `generate_voxels`

/-- `rng` is the state of `rand()`; `todo` are the lines a worker is given, in order (any distribution); `out` its objects with their
cores. -/
structure St (S O R : Type) (n : Nat) where
  rng : S
  todo : Fin n → List O
  pc : Fin n → PC O R
  out : Fin n → List (O × R)

section
variable {S O R : Type} {n : Nat}

/-- Before the first line. `rand()` has any state. -/
def start (s : S) (todo : Fin n → List O) : St S O R n := ⟨s, todo, fun _ => .idle, fun _ => []⟩

/-- One step of one worker. `prog o` is the code that chooses the cores of object `o`. -/
inductive Step (g : Rng S) (prog : O → Prog R) : St S O R n → St S O R n → Prop
  | build (s t o rest) : s.pc t = .idle → s.todo t = o :: rest →
      Step g prog s { s with rng := g.seed, todo := upd s.todo t rest, pc := upd s.pc t (.built o) }
  | decode (s t o) : s.pc t = .built o → Step g prog s { s with rng := g.seed, pc := upd s.pc t (.drawing o (prog o)) }
  | draw (s t o k) : s.pc t = .drawing o (.draw k) →
      Step g prog s { s with rng := (g.next s.rng).2, pc := upd s.pc t (.drawing o (k (g.next s.rng).1)) }
  | finish (s t o r) : s.pc t = .drawing o (.done r) →
      Step g prog s { s with pc := upd s.pc t .idle, out := upd s.out t (s.out t ++ [(o, r)]) }

/-! ## Specification -/

/-- What object `o` gets when it is compressed alone. -/
def alone (g : Rng S) (prog : O → Prog R) (o : O) : R := (prog o).run g g.seed

/-- The results possible for some values of `rand()`. -/
inductive Possible : Prog R → R → Prop
  | done (r) : Possible (.done r) r
  | draw (k v r) : Possible (k v) r → Possible (.draw k) r

/-! ## One worker -/

/-- The objects a worker has begun and not finished. -/
def inHand : PC O R → List O
  | .idle => []
  | .built o => [o]
  | .drawing o _ => [o]

structure Inv (g : Rng S) (prog : O → Prog R) (t0 : Fin n) (todo : List O) (s : St S O R n) : Prop where
  others : ∀ t, t ≠ t0 → s.todo t = [] ∧ s.pc t = .idle ∧ s.out t = []
  draws : ∀ o p, s.pc t0 = .drawing o p → p.run g s.rng = alone g prog o
  outs : ∀ o r, (o, r) ∈ s.out t0 → r = alone g prog o
  all : (s.out t0).map Prod.fst ++ inHand (s.pc t0) ++ s.todo t0 = todo

theorem Inv.step {g : Rng S} {prog : O → Prog R} {t0 : Fin n} {todo : List O} {s s' : St S O R n}
    (h : Inv g prog t0 todo s) (st : Step g prog s s') : Inv g prog t0 todo s' := by
  obtain ⟨h1, h2, h3, h4⟩ := h
  cases st with
  | build t o rest hpc htd =>
    have ht : t = t0 := by
      by_contra hne
      rw [(h1 t hne).1] at htd
      exact absurd htd (by simp)
    subst ht
    refine ⟨fun u hu => ⟨?_, ?_, (h1 u hu).2.2⟩, fun o p hp => ?_, h3, ?_⟩
    · exact (upd_ne _ _ hu).trans (h1 u hu).1
    · exact (upd_ne _ _ hu).trans (h1 u hu).2.1
    · replace hp := (upd_same _ _ _).symm.trans hp
      exact absurd hp (by simp)
    · show List.map Prod.fst (s.out t) ++ inHand (upd s.pc t (.built o) t) ++ upd s.todo t rest t = todo
      rw [upd_same, upd_same, ← h4, hpc, htd]
      simp [inHand]
  | decode t o hpc =>
    have ht : t = t0 := by
      by_contra hne
      rw [(h1 t hne).2.1] at hpc
      exact absurd hpc (by simp)
    subst ht
    refine ⟨fun u hu => ⟨(h1 u hu).1, (upd_ne _ _ hu).trans (h1 u hu).2.1, (h1 u hu).2.2⟩, fun o' p hp => ?_, h3, ?_⟩
    · replace hp := (upd_same _ _ _).symm.trans hp
      injection hp with e1 e2
      subst e1; subst e2
      rfl
    · show List.map Prod.fst (s.out t) ++ inHand (upd s.pc t (.drawing o (prog o)) t) ++ s.todo t = todo
      rw [upd_same, ← h4, hpc]
      rfl
  | draw t o k hpc =>
    have ht : t = t0 := by
      by_contra hne
      rw [(h1 t hne).2.1] at hpc
      exact absurd hpc (by simp)
    subst ht
    refine ⟨fun u hu => ⟨(h1 u hu).1, (upd_ne _ _ hu).trans (h1 u hu).2.1, (h1 u hu).2.2⟩, fun o' p hp => ?_, h3, ?_⟩
    · replace hp := (upd_same _ _ _).symm.trans hp
      injection hp with e1 e2
      subst e1; subst e2
      exact h2 o _ hpc
    · show List.map Prod.fst (s.out t) ++ inHand (upd s.pc t (.drawing o (k (g.next s.rng).1)) t) ++ s.todo t = todo
      rw [upd_same, ← h4, hpc]
      rfl
  | finish t o r hpc =>
    have ht : t = t0 := by
      by_contra hne
      rw [(h1 t hne).2.1] at hpc
      exact absurd hpc (by simp)
    subst ht
    refine ⟨fun u hu => ⟨(h1 u hu).1, (upd_ne _ _ hu).trans (h1 u hu).2.1, (upd_ne _ _ hu).trans (h1 u hu).2.2⟩, fun o' p hp => ?_,
      fun o' r' hm => ?_, ?_⟩
    · replace hp := (upd_same _ _ _).symm.trans hp
      exact absurd hp (by simp)
    · replace hm : (o', r') ∈ s.out t ++ [(o, r)] := by
        have e : upd s.out t (s.out t ++ [(o, r)]) t = _ := upd_same _ _ _
        exact e ▸ hm
      rcases List.mem_append.1 hm with hm | hm
      · exact h3 _ _ hm
      · rw [List.mem_singleton] at hm
        injection hm with e1 e2
        subst e1; subst e2
        exact h2 _ _ hpc
    · show List.map Prod.fst (upd s.out t (s.out t ++ [(o, r)]) t) ++ inHand (upd s.pc t (.idle) t) ++ s.todo t = todo
      rw [upd_same, upd_same, ← h4, hpc]
      simp [inHand]

theorem inv_reach {g : Rng S} {prog : O → Prog R} {t0 : Fin n} {s0 : S} {todo : Fin n → List O}
    (hone : ∀ t, t ≠ t0 → todo t = []) {s : St S O R n} (h : Reach (Step g prog) (start s0 todo) s) :
    Inv g prog t0 (todo t0) s :=
  h.inv (Inv g prog t0 (todo t0))
    ⟨fun t ht => ⟨hone t ht, rfl, rfl⟩, fun _ _ hp => absurd hp (by simp [start]), fun _ _ hm => absurd hm (by simp [start]),
      by simp [start, inHand]⟩
    (fun _ _ => Inv.step)

/-- If one worker gets all the lines, then in every execution, whatever the state of `rand()` was before, each object gets the cores it
gets alone, and when the worker has nothing left to do all its objects are there, in the order of the lines. -/
theorem C101_one_worker_partial {g : Rng S} {prog : O → Prog R} {t0 : Fin n} {s0 : S} {todo : Fin n → List O}
    (hone : ∀ t, t ≠ t0 → todo t = []) {s : St S O R n} (h : Reach (Step g prog) (start s0 todo) s) :
    (∀ o r, (o, r) ∈ s.out t0 → r = alone g prog o) ∧
    (s.pc t0 = .idle → s.todo t0 = [] → s.out t0 = (todo t0).map (fun o => (o, alone g prog o))) := by
  have i := inv_reach hone h
  refine ⟨i.outs, fun hp ht => ?_⟩
  have ha := i.all
  rw [hp, ht] at ha
  simp only [inHand, List.append_nil] at ha
  rw [← ha, List.map_map]
  refine (List.map_id _).symm.trans (List.map_congr_left fun e he => ?_)
  have := i.outs e.1 e.2 he
  show e = (e.1, alone g prog e.1)
  rw [← this]

/-! ## Any number of workers -/

structure Any (prog : O → Prog R) (s : St S O R n) : Prop where
  draws : ∀ t o p, s.pc t = .drawing o p → ∀ r, Possible p r → Possible (prog o) r
  outs : ∀ t o r, (o, r) ∈ s.out t → Possible (prog o) r

theorem Any.step {g : Rng S} {prog : O → Prog R} {s s' : St S O R n} (h : Any prog s) (st : Step g prog s s') : Any prog s' := by
  obtain ⟨h1, h2⟩ := h
  have keep : ∀ (t : Fin n) (x : PC O R), (∀ o p, x = .drawing o p → ∀ r, Possible p r → Possible (prog o) r) →
      ∀ u o p, upd s.pc t x u = .drawing o p → ∀ r, Possible p r → Possible (prog o) r := by
    intro t x hx u o p hp
    by_cases hu : u = t
    · subst hu; rw [upd_same] at hp; exact hx o p hp
    · rw [upd_ne _ _ hu] at hp; exact h1 u o p hp
  cases st with
  | build t o rest hpc htd => exact ⟨keep t _ (fun _ _ e => absurd e (by simp)), h2⟩
  | decode t o hpc =>
    refine ⟨keep t _ (fun _ _ e => ?_), h2⟩
    injection e with e1 e2
    subst e1; subst e2
    exact fun r hr => hr
  | draw t o k hpc =>
    refine ⟨keep t _ (fun _ _ e => ?_), h2⟩
    injection e with e1 e2
    subst e1; subst e2
    exact fun r hr => h1 t o _ hpc r (.draw _ _ _ hr)
  | finish t o r hpc =>
    refine ⟨keep t _ (fun _ _ e => absurd e (by simp)), fun u o' r' hm => ?_⟩
    by_cases hu : u = t
    · subst hu
      replace hm : (o', r') ∈ s.out u ++ [(o, r)] := by
        have e : upd s.out u (s.out u ++ [(o, r)]) u = _ := upd_same _ _ _
        exact e ▸ hm
      rcases List.mem_append.1 hm with hm | hm
      · exact h2 _ _ _ hm
      · rw [List.mem_singleton] at hm
        injection hm with e1 e2
        subst e1; subst e2
        exact h1 _ _ _ hpc _ (.done _)
    · replace hm : (o', r') ∈ s.out u := by
        have e : upd s.out t (s.out t ++ [(o, r)]) u = _ := upd_ne _ _ hu
        exact e ▸ hm
      exact h2 _ _ _ hm

/-- Under every schedule of any number of workers each object gets cores that some values of `rand()` give. -/
theorem C101_possible {g : Rng S} {prog : O → Prog R} {s0 : S} {todo : Fin n → List O} {s : St S O R n}
    (h : Reach (Step g prog) (start s0 todo) s) {t : Fin n} {o : O} {r : R} (hm : (o, r) ∈ s.out t) : Possible (prog o) r :=
  (h.inv (Any prog) ⟨fun _ _ _ hp => absurd hp (by simp [start]), fun _ _ _ hm => absurd hm (by simp [start])⟩
    (fun _ _ => Any.step)).outs t o r hm

/-- An object for which no number is drawn gets the same cores under every schedule. -/
theorem C101_no_draw {g : Rng S} {prog : O → Prog R} {s0 : S} {todo : Fin n → List O} {s : St S O R n}
    (h : Reach (Step g prog) (start s0 todo) s) {t : Fin n} {o : O} {r : R} (hm : (o, r) ∈ s.out t)
    (hd : ∃ r0, prog o = .done r0) : r = alone g prog o := by
  obtain ⟨r0, hr⟩ := hd
  have := C101_possible h hm
  rw [hr] at this
  cases this
  unfold alone
  rw [hr]
  rfl

/-! ## What is drawn -/

/-- The values `get_rand_number(m)` gives in the next `len` calls. -/
def draws (g : Rng S) (m : Nat) : Nat → S → List Nat
  | 0, _ => []
  | len + 1, s => ((g.next s).1 % m + 1) :: draws g m len (g.next s).2

end

section
variable {S R : Type}

theorem getElem?_of_lt (keep : List Bool) (i : Nat) (h : i < keep.length) : keep[i]? = some (keep.getD i false) := by
  rw [List.getD_eq_getElem?_getD, List.getElem?_eq_getElem h]
  rfl

theorem pickProg_run (g : Rng S) (m : Nat) (fail : R) (next : List Bool → Prog R) : ∀ (tries : Nat) (keep : List Bool) (s : S) (len : Nat),
    tries ≤ len →
    (pickLoop tries keep (draws g m len s) = none ∧ (pickProg m fail tries keep next).run g s = fail) ∨
    (∃ keep' s' len', len ≤ len' + tries ∧ pickLoop tries keep (draws g m len s) = some (keep', draws g m len' s') ∧
      (pickProg m fail tries keep next).run g s = (next keep').run g s')
  | 0, keep, s, len, _ => .inr ⟨keep, s, len, by omega, rfl, rfl⟩
  | tries + 1, keep, s, 0, h => absurd h (by omega)
  | tries + 1, keep, s, len + 1, h => by
    show (_ ∧ (Prog.run g (if _ then _ else _) _) = fail) ∨ _
    by_cases hl : (g.next s).1 % m + 1 < keep.length
    · by_cases hk : keep.getD ((g.next s).1 % m + 1) false = true
      · rcases pickProg_run g m fail next tries keep (g.next s).2 len (by omega) with ⟨h1, h2⟩ | ⟨k', s', l', h0, h1, h2⟩
        · left
          refine ⟨?_, ?_⟩
          · simp only [draws, pickLoop, getElem?_of_lt keep _ hl, hk]
            exact h1
          · rw [if_pos hl, if_pos hk]
            exact h2
        · right
          refine ⟨k', s', l', by omega, ?_, ?_⟩
          · simp only [draws, pickLoop, getElem?_of_lt keep _ hl, hk]
            exact h1
          · show Prog.run g (if _ then _ else _) _ = _
            rw [if_pos hl, if_pos hk]
            exact h2
      · right
        refine ⟨keep.set ((g.next s).1 % m + 1) true, (g.next s).2, len, by omega, ?_, ?_⟩
        · simp only [draws, pickLoop, getElem?_of_lt keep _ hl, Bool.not_eq_true _ ▸ hk]
        · show Prog.run g (if _ then _ else _) _ = _
          rw [if_pos hl, if_neg hk]
    · left
      refine ⟨?_, ?_⟩
      · simp only [draws, pickLoop, List.getElem?_eq_none (Nat.le_of_not_lt hl)]
      · rw [if_neg hl]
        rfl

theorem coresProg_run (g : Rng S) (m : Nat) (fail : R) (fin : List Bool → R) : ∀ (n : Nat) (keep : List Bool) (s : S) (len : Nat),
    10 * n ≤ len → (coresProg m fail n keep fin).run g s = ((pickAll n keep (draws g m len s)).map fin).getD fail
  | 0, keep, s, len, _ => rfl
  | n + 1, keep, s, len, h => by
    rcases pickProg_run g m fail (fun keep => coresProg m fail n keep fin) 10 keep s len (by omega) with ⟨h1, h2⟩ | ⟨k', s', l', h0, h1, h2⟩
    · show (pickProg m fail 10 keep _).run g s = _
      rw [h2]
      simp [pickAll, h1]
    · show (pickProg m fail 10 keep _).run g s = _
      rw [h2, coresProg_run g m fail fin n k' s' l' (by omega)]
      simp [pickAll, h1]

/-- The code that draws is `get_skeleton_points` (`Voxels.sample`, claim C51) with the numbers drawn; ten per core are enough. -/
theorem sampleProg_run {α : Type} (g : Rng S) (numCores : Nat) (skel : List (Pt α)) (s : S) :
    (sampleProg numCores skel).run g s = sample numCores (draws g numCores (10 * numCores) s) skel := by
  unfold sampleProg sample
  by_cases h1 : skel.length = 0
  · rw [if_pos h1, if_pos h1]; rfl
  · rw [if_neg h1, if_neg h1]
    by_cases h2 : numCores > skel.length
    · rw [if_pos h2, if_pos h2]; rfl
    · rw [if_neg h2, if_neg h2, coresProg_run g numCores none _ numCores _ s (10 * numCores) le_rfl]
      cases pickAll numCores (List.replicate skel.length false) (draws g numCores (10 * numCores) s) <;> rfl

end

/-! ## Several workers -/

section
variable {S O R : Type}

/-- Two workers with one line each, both drawing: there is a schedule in which the first object gets what it gets alone, and one in which
the second number of the sequence goes to the other worker. -/
theorem two_schedules (g : Rng S) (prog : O → Prog R) (s0 : S) (a b : O) (ka kb : Nat → Prog R)
    (ha : prog a = .draw ka) (hb : prog b = .draw kb) :
    ∃ s s' : St S O R 2, Reach (Step g prog) (start s0 (fun t => if t = 0 then [a] else [b])) s ∧
      Reach (Step g prog) (start s0 (fun t => if t = 0 then [a] else [b])) s' ∧
      s.out 0 = [(a, alone g prog a)] ∧
      s'.out 0 = [(a, (ka (g.next g.seed).1).run g (g.next (g.next g.seed).2).2)] := by
  -- a worker that has drawn everything left alone
  have finish : ∀ (p : Prog R) (s : St S O R 2), s.pc 0 = .drawing a p → s.out 0 = [] →
      ∃ s', Reach (Step g prog) s s' ∧ s'.out 0 = [(a, p.run g s.rng)] := by
    intro p
    induction p with
    | done r =>
      intro s hp ho
      refine ⟨_, Reach.single (Step.finish s 0 a r hp), ?_⟩
      show upd s.out 0 (s.out 0 ++ [(a, r)]) 0 = _
      rw [upd_same, ho]
      rfl
    | draw k ih =>
      intro s hp ho
      obtain ⟨s', hr, hs'⟩ := ih (g.next s.rng).1
        { s with rng := (g.next s.rng).2, pc := upd s.pc 0 (.drawing a (k (g.next s.rng).1)) }
        (upd_same s.pc 0 (.drawing a (k (g.next s.rng).1))) ho
      exact ⟨s', (Reach.single (Step.draw s 0 a k hp)).trans hr, hs'⟩
  let st0 : St S O R 2 := start s0 (fun t => if t = 0 then [a] else [b])
  -- both workers construct their meshes, the second one first
  let st1 : St S O R 2 := { st0 with rng := g.seed, todo := upd st0.todo 1 [], pc := upd st0.pc 1 (.built b) }
  let st2 : St S O R 2 := { st1 with rng := g.seed, pc := upd st1.pc 1 (.drawing b (prog b)) }
  let st3 : St S O R 2 := { st2 with rng := g.seed, todo := upd st2.todo 0 [], pc := upd st2.pc 0 (.built a) }
  let st4 : St S O R 2 := { st3 with rng := g.seed, pc := upd st3.pc 0 (.drawing a (prog a)) }
  have h01 : Step g prog st0 st1 := Step.build st0 1 b [] rfl rfl
  have h12 : Step g prog st1 st2 := Step.decode st1 1 b (upd_same st0.pc 1 (.built b))
  have h23 : Step g prog st2 st3 := Step.build st2 0 a [] rfl rfl
  have h34 : Step g prog st3 st4 := Step.decode st3 0 a (upd_same st2.pc 0 (.built a))
  have r4 : Reach (Step g prog) st0 st4 := .step (.step (.step (.step .init h01) h12) h23) h34
  obtain ⟨s, hr, hs⟩ := finish (prog a) st4 (upd_same st3.pc 0 (.drawing a (prog a))) rfl
  -- the first draws once, the second once, then the first goes on
  let st5 : St S O R 2 := { st4 with rng := (g.next g.seed).2, pc := upd st4.pc 0 (.drawing a (ka (g.next g.seed).1)) }
  have h45 : Step g prog st4 st5 := Step.draw st4 0 a ka (by
    show upd st3.pc 0 (.drawing a (prog a)) 0 = _
    rw [upd_same, ha])
  let st6 : St S O R 2 := { st5 with rng := (g.next (g.next g.seed).2).2,
                                     pc := upd st5.pc 1 (.drawing b (kb (g.next (g.next g.seed).2).1)) }
  have h56 : Step g prog st5 st6 := Step.draw st5 1 b kb (by
    show PC.drawing b (prog b) = _
    rw [hb])
  obtain ⟨s', hr', hs'⟩ := finish (ka (g.next g.seed).1) st6 (by
    show upd st5.pc 1 (.drawing b (kb (g.next (g.next g.seed).2).1)) 0 = _
    rw [upd_ne _ _ (by decide)]
    exact upd_same st4.pc 0 (.drawing a (ka (g.next g.seed).1))) rfl
  exact ⟨s, s', r4.trans hr, (Reach.step (Reach.step r4 h45) h56).trans hr', hs, hs'⟩

/-- Whenever the first object comes out differently if the second number is skipped, its result depends on the schedule. -/
theorem C101_depends_on_schedule (g : Rng S) (prog : O → Prog R) (s0 : S) (a b : O) (ka kb : Nat → Prog R)
    (ha : prog a = .draw ka) (hb : prog b = .draw kb)
    (hdiff : (ka (g.next g.seed).1).run g (g.next (g.next g.seed).2).2 ≠ alone g prog a) :
    ∃ s s' : St S O R 2, Reach (Step g prog) (start s0 (fun t => if t = 0 then [a] else [b])) s ∧
      Reach (Step g prog) (start s0 (fun t => if t = 0 then [a] else [b])) s' ∧
      ∃ r r', s.out 0 = [(a, r)] ∧ s'.out 0 = [(a, r')] ∧ r' ≠ r := by
  obtain ⟨s, s', hr, hr', h1, h2⟩ := two_schedules g prog s0 a b ka kb ha hb
  exact ⟨s, s', hr, hr', _, _, h1, h2, hdiff⟩

end

/-! ## Examples -/

namespace Ex

/-- A generator that gives ten even numbers, then odd ones. -/
def g : Rng Nat := ⟨0, fun s => (if s < 11 then 2 * s else 2 * s + 1, s + 1)⟩
/-- A skeleton with three points. -/
def skel : List (Pt Int) := [fun _ => 0, fun _ => 1, fun _ => 2]

theorem alone_one : (sampleProg 2 skel).run g 0 = some [fun _ => 1] := by
  rw [sampleProg_run]
  rfl

/-- Both workers compress objects with this skeleton and want two cores: alone, the first object gets one core. Another schedule gives it
two. -/
theorem C101_counterexample :
    ∃ s s' : St Nat Unit (Option (List (Pt Int))) 2,
      Reach (Step g (fun _ => sampleProg 2 skel)) (start 0 (fun _ => [()])) s ∧
      Reach (Step g (fun _ => sampleProg 2 skel)) (start 0 (fun _ => [()])) s' ∧
      s.out 0 = [((), some [fun _ => 1])] ∧ s'.out 0 = [((), some [fun _ => 1, fun _ => 2])] := by
  obtain ⟨s, s', hr, hr', h1, h2⟩ := two_schedules g (fun _ : Unit => sampleProg 2 skel) 0 () () _ _ rfl rfl
  have e : (fun t : Fin 2 => if t = 0 then [()] else [()]) = fun _ => [()] := by funext t; simp
  rw [e] at hr hr'
  refine ⟨s, s', hr, hr', ?_, h2.trans ?_⟩
  · rw [h1]
    show [((), (sampleProg 2 skel).run g 0)] = _
    rw [alone_one]
  · rfl

/-- One worker, two objects: the state reached at the end. -/
example : ∀ s : St Nat Nat (Option (List (Pt Int))) 2,
    Reach (Step g (fun o => sampleProg o skel)) (start 7 (fun t => if t = 0 then [2, 4] else [])) s → s.pc 0 = .idle → s.todo 0 = [] →
    s.out 0 = [(2, some [fun _ => 1]), (4, some skel)] := by
  intro s h h1 h2
  have := (C101_one_worker_partial (t0 := 0) (by decide) h).2 h1 h2
  rw [this]
  show [(2, (sampleProg 2 skel).run g 0), (4, (sampleProg 4 skel).run g 0)] = _
  rw [alone_one]
  rfl

end Ex

end TDP.Conc.Repro
