import Verif.Conc.Base
import Mathlib.Tactic.FinCases
import Mathlib.Data.Fintype.Basic
/-!
# C104: fetching the objects of one tile from several threads (src/storage/tile.cpp:164-187)

The locks of `retrieve_mesh` are commented out. `fseek` and `fread` are atomic (the C library locks the stream), the position in between is
shared.
-/
namespace TDP.Conc.Retrieve
open TDP.Conc

/-- The data file and the places of the objects in it (`offset`, `data_size` of the wrappers). -/
structure Store where
  bytes : List Nat
  off : Nat → Nat
  size : Nat → Nat

/-- `k` bytes from `p` on (fewer at the end of the file). -/
def Store.piece (f : Store) (p k : Nat) : List Nat := (f.bytes.drop p).take k

/-- Where a thread is in `retrieve_mesh(id)`. `buf` is `mesh_data`. -/
inductive PC
  | idle
  | seek (id : Nat)                              -- 169 true, 172 done
  | read (id : Nat)                              -- 175 done
  | check (id : Nat) (buf : Option (List Nat))   -- before 182
  | make (id : Nat) (buf : Option (List Nat))    -- 182 true

/-- `pos` is the position of `dt_fs`; `mesh id` the bytes from which `objects[id]->mesh` was made, if it is not NULL; `made` all meshes ever
made; `bad` a mesh was made from NULL; `todo` the calls each thread will make. -/
structure St (n : Nat) where
  pos : Nat
  mesh : Nat → Option (List Nat)
  made : List (Nat × List Nat)
  bad : Bool
  todo : Fin n → List Nat
  pc : Fin n → PC

/-- A tile just opened, the file at any position. -/
def start {n : Nat} (pos : Nat) (todo : Fin n → List Nat) : St n := ⟨pos, fun _ => none, [], false, todo, fun _ => .idle⟩

/-- The steps of `retrieve_mesh` (tile.cpp:164-187); a call begins only where `allowed`. -/
inductive Step {n : Nat} (f : Store) (allowed : St n → Fin n → Prop) : St n → St n → Prop
  | call (s t id rest) : allowed s t → s.pc t = .idle → s.todo t = id :: rest → s.mesh id = none →
      Step f allowed s { s with todo := upd s.todo t rest, pc := upd s.pc t (.seek id) }
  | callHave (s t id rest) : allowed s t → s.pc t = .idle → s.todo t = id :: rest → s.mesh id ≠ none →
      Step f allowed s { s with todo := upd s.todo t rest, pc := upd s.pc t (.check id none) }
  | seek (s t id) : s.pc t = .seek id → Step f allowed s { s with pos := f.off id, pc := upd s.pc t (.read id) }
  | read (s t id) : s.pc t = .read id →
      Step f allowed s { s with pos := s.pos + (f.piece s.pos (f.size id)).length,
                                pc := upd s.pc t (.check id (some (f.piece s.pos (f.size id)))) }
  | checkNull (s t id buf) : s.pc t = .check id buf → s.mesh id = none → Step f allowed s { s with pc := upd s.pc t (.make id buf) }
  | checkHave (s t id buf) : s.pc t = .check id buf → s.mesh id ≠ none → Step f allowed s { s with pc := upd s.pc t .idle }
  | make (s t id b) : s.pc t = .make id (some b) →
      Step f allowed s { s with mesh := Function.update s.mesh id (some b), made := s.made ++ [(id, b)], pc := upd s.pc t .idle }
  | makeNull (s t id) : s.pc t = .make id none → Step f allowed s { s with bad := true, pc := upd s.pc t .idle }

/-- No restriction: what the code does. -/
def free {n : Nat} : St n → Fin n → Prop := fun _ _ => True

/-- A call begins only when no other thread is inside a call. -/
def alone {n : Nat} : St n → Fin n → Prop := fun s t => ∀ u, u ≠ t → s.pc u = .idle

/-- The bytes of an object. -/
def Store.data (f : Store) (id : Nat) : List Nat := f.piece (f.off id) (f.size id)

variable {n : Nat} {f : Store}

/-! ## Calls that do not overlap -/

/-- The object a thread is fetching. -/
def inHand : PC → List Nat
  | .idle => []
  | .seek id => [id]
  | .read id => [id]
  | .check id _ => [id]
  | .make id _ => [id]

/-- What is known where a thread is. -/
def Local (f : Store) (s : St n) : PC → Prop
  | .idle => True
  | .seek id => s.mesh id = none
  | .read id => s.mesh id = none ∧ s.pos = f.off id
  | .check id none => s.mesh id ≠ none
  | .check id (some b) => s.mesh id = none ∧ b = f.data id
  | .make id buf => s.mesh id = none ∧ buf = some (f.data id)

structure Inv (f : Store) (s : St n) : Prop where
  one : ∀ t u, s.pc t ≠ .idle → s.pc u ≠ .idle → t = u
  loc : ∀ t, Local f s (s.pc t)
  mesh : ∀ id b, s.mesh id = some b → b = f.data id
  made : ∀ id, s.mesh id = none ↔ ∀ b, (id, b) ∉ s.made
  nodup : (s.made.map Prod.fst).Nodup
  good : s.bad = false

theorem others_idle {s : St n} (h : Inv f s) {t : Fin n} (ht : s.pc t ≠ .idle) {u : Fin n} (hu : u ≠ t) : s.pc u = .idle := by
  by_contra hc
  exact hu (h.one u t hc ht)

/-- All others are idle, one has moved on. -/
theorem one_upd {pc : Fin n → PC} {t : Fin n} {x : PC} (h : ∀ u, u ≠ t → pc u = .idle) (a b : Fin n)
    (ha : upd pc t x a ≠ .idle) (hb : upd pc t x b ≠ .idle) : a = b := by
  have key : ∀ c, upd pc t x c ≠ .idle → c = t := by
    intro c hc
    by_contra hne
    rw [upd_ne _ _ hne] at hc
    exact hc (h c hne)
  rw [key a ha, key b hb]

theorem loc_upd {s : St n} {pc : Fin n → PC} {t : Fin n} {x : PC} (h : ∀ u, u ≠ t → pc u = .idle) (hx : Local f s x) :
    ∀ u, Local f s (upd pc t x u) := by
  intro u
  by_cases hu : u = t
  · subst hu; rw [upd_same]; exact hx
  · rw [upd_ne _ _ hu, h u hu]; trivial

theorem Inv.step {s s' : St n} (h : Inv f s) (st : Step f alone s s') : Inv f s' := by
  cases st with
  | call t id rest ha hpc htd hm => exact ⟨one_upd ha, loc_upd ha hm, h.mesh, h.made, h.nodup, h.good⟩
  | callHave t id rest ha hpc htd hm => exact ⟨one_upd ha, loc_upd ha hm, h.mesh, h.made, h.nodup, h.good⟩
  | seek t id hpc =>
    have ho : ∀ u, u ≠ t → s.pc u = .idle := fun u hu => others_idle h (by rw [hpc]; simp) hu
    have hl := h.loc t
    rw [hpc] at hl
    exact ⟨one_upd ho, loc_upd ho ⟨hl, rfl⟩, h.mesh, h.made, h.nodup, h.good⟩
  | read t id hpc =>
    have ho : ∀ u, u ≠ t → s.pc u = .idle := fun u hu => others_idle h (by rw [hpc]; simp) hu
    have hl := h.loc t
    rw [hpc] at hl
    refine ⟨one_upd ho, loc_upd ho ⟨hl.1, ?_⟩, h.mesh, h.made, h.nodup, h.good⟩
    show f.piece s.pos (f.size id) = f.data id
    rw [hl.2]; rfl
  | checkNull t id buf hpc hm =>
    have ho : ∀ u, u ≠ t → s.pc u = .idle := fun u hu => others_idle h (by rw [hpc]; simp) hu
    have hl := h.loc t
    rw [hpc] at hl
    refine ⟨one_upd ho, loc_upd ho ?_, h.mesh, h.made, h.nodup, h.good⟩
    cases buf with
    | none => exact absurd hm hl
    | some b => exact ⟨hm, by rw [hl.2]⟩
  | checkHave t id buf hpc hm =>
    have ho : ∀ u, u ≠ t → s.pc u = .idle := fun u hu => others_idle h (by rw [hpc]; simp) hu
    exact ⟨one_upd ho, loc_upd ho trivial, h.mesh, h.made, h.nodup, h.good⟩
  | make t id b hpc =>
    have ho : ∀ u, u ≠ t → s.pc u = .idle := fun u hu => others_idle h (by rw [hpc]; simp) hu
    have hl := h.loc t
    rw [hpc] at hl
    have hb : b = f.data id := Option.some.inj hl.2
    refine ⟨one_upd ho, loc_upd ho trivial, ?_, ?_, ?_, h.good⟩
    · intro i c hc
      by_cases hi : i = id
      · subst hi
        replace hc : Function.update s.mesh i (some b) i = some c := hc
        rw [Function.update_self] at hc
        rw [← Option.some.inj hc]; exact hb
      · replace hc : Function.update s.mesh id (some b) i = some c := hc
        rw [Function.update_of_ne hi] at hc
        exact h.mesh i c hc
    · intro i
      show Function.update s.mesh id (some b) i = none ↔ ∀ c, (i, c) ∉ s.made ++ [(id, b)]
      by_cases hi : i = id
      · subst hi
        rw [Function.update_self]
        constructor
        · intro hc; exact absurd hc (by simp)
        · intro hc; exact absurd (List.mem_append_right _ (List.mem_singleton.2 rfl)) (hc b)
      · rw [Function.update_of_ne hi, h.made i]
        constructor
        · intro hc c hm
          rcases List.mem_append.1 hm with hm | hm
          · exact hc c hm
          · rw [List.mem_singleton] at hm
            injection hm with h1 h2
            exact hi h1
        · intro hc c hm; exact hc c (List.mem_append_left _ hm)
    · show ((s.made ++ [(id, b)]).map Prod.fst).Nodup
      rw [List.map_append, List.nodup_append]
      refine ⟨h.nodup, by simp, ?_⟩
      intro x hx y hy he
      simp only [List.map_cons, List.map_nil, List.mem_singleton] at hy
      subst hy
      subst he
      obtain ⟨⟨i, c⟩, hm, rfl⟩ := List.mem_map.1 hx
      exact (h.made _).1 hl.1 c hm
  | makeNull t id hpc =>
    have hl := h.loc t
    rw [hpc] at hl
    exact absurd hl.2 (by simp)

theorem inv_start (pos : Nat) (todo : Fin n → List Nat) : Inv f (start pos todo) where
  one := fun t _ ht => absurd rfl ht
  loc := fun _ => (trivial : Local f (start pos todo) .idle)
  mesh := fun _ _ hm => absurd hm (by simp [start])
  made := fun _ => by simp [start]
  nodup := by simp [start]
  good := rfl

theorem inv_reach {pos : Nat} {todo : Fin n → List Nat} {s : St n} (h : Reach (Step f alone) (start pos todo) s) : Inv f s :=
  h.inv (Inv f) (inv_start pos todo) (fun _ _ => Inv.step)

/-- What each thread has asked for is there, in its hands, or still to be asked for. -/
structure Asked (todo : Fin n → List Nat) (s : St n) : Prop where
  all : ∀ t id, id ∈ todo t → s.mesh id ≠ none ∨ id ∈ inHand (s.pc t) ∨ id ∈ s.todo t

theorem Asked.step {allowed : St n → Fin n → Prop} {todo : Fin n → List Nat} {s s' : St n} (h : Asked todo s) (hb : s'.bad = false)
    (st : Step f allowed s s') : Asked todo s' := by
  have move : ∀ (t : Fin n) (x : PC) (u : Fin n) (id : Nat), (inHand (s.pc t) = inHand x) → id ∈ inHand (s.pc u) → id ∈ inHand (upd s.pc t x u) := by
    intro t x u id he hm
    by_cases hu : u = t
    · subst hu; rw [upd_same, ← he]; exact hm
    · rw [upd_ne _ _ hu]; exact hm
  constructor
  intro u i hi
  cases st with
  | call t id rest ha hpc htd hm =>
    rcases h.all u i hi with h1 | h1 | h1
    · exact .inl h1
    · by_cases hu : u = t
      · subst hu; rw [hpc] at h1; simp [inHand] at h1
      · right; left; show i ∈ inHand (upd s.pc t _ u); rw [upd_ne _ _ hu]; exact h1
    · by_cases hu : u = t
      · subst hu
        rw [htd] at h1
        rcases List.mem_cons.1 h1 with h1 | h1
        · right; left; show i ∈ inHand (upd s.pc u _ u); rw [upd_same]; simp [inHand, h1]
        · right; right; show i ∈ upd s.todo u rest u; rw [upd_same]; exact h1
      · right; right; show i ∈ upd s.todo t rest u; rw [upd_ne _ _ hu]; exact h1
  | callHave t id rest ha hpc htd hm =>
    rcases h.all u i hi with h1 | h1 | h1
    · exact .inl h1
    · by_cases hu : u = t
      · subst hu; rw [hpc] at h1; simp [inHand] at h1
      · right; left; show i ∈ inHand (upd s.pc t _ u); rw [upd_ne _ _ hu]; exact h1
    · by_cases hu : u = t
      · subst hu
        rw [htd] at h1
        rcases List.mem_cons.1 h1 with h1 | h1
        · left; rw [h1]; exact hm
        · right; right; show i ∈ upd s.todo u rest u; rw [upd_same]; exact h1
      · right; right; show i ∈ upd s.todo t rest u; rw [upd_ne _ _ hu]; exact h1
  | seek t id hpc => exact (h.all u i hi).imp_right (.imp_left (move t _ u i (by rw [hpc]; rfl)))
  | read t id hpc => exact (h.all u i hi).imp_right (.imp_left (move t _ u i (by rw [hpc]; rfl)))
  | checkNull t id buf hpc hm => exact (h.all u i hi).imp_right (.imp_left (move t _ u i (by rw [hpc]; rfl)))
  | checkHave t id buf hpc hm =>
    rcases h.all u i hi with h1 | h1 | h1
    · exact .inl h1
    · by_cases hu : u = t
      · subst hu
        rw [hpc] at h1
        simp only [inHand, List.mem_singleton] at h1
        left; rw [h1]; exact hm
      · right; left; show i ∈ inHand (upd s.pc t _ u); rw [upd_ne _ _ hu]; exact h1
    · exact .inr (.inr h1)
  | make t id b hpc =>
    have hmesh : ∀ j, j = id ∨ s.mesh j ≠ none → Function.update s.mesh id (some b) j ≠ none := by
      intro j hj
      by_cases e : j = id
      · rw [e, Function.update_self]; simp
      · rw [Function.update_of_ne e]; exact hj.resolve_left e
    rcases h.all u i hi with h1 | h1 | h1
    · exact .inl (hmesh i (.inr h1))
    · by_cases hu : u = t
      · subst hu
        rw [hpc] at h1
        simp only [inHand, List.mem_singleton] at h1
        exact .inl (hmesh i (.inl h1))
      · right; left; show i ∈ inHand (upd s.pc t _ u); rw [upd_ne _ _ hu]; exact h1
    · exact .inr (.inr h1)
  | makeNull t id hpc => exact absurd hb (by simp)

/-- **C104 (calls that do not overlap).** If threads use a tile one after the other, then in every execution every object fetched has its
own bytes, no object is made twice, none from NULL; and when no thread has anything left to do, everything asked for is there. -/
theorem C104_one_at_a_time_partial {pos : Nat} {todo : Fin n → List Nat} {s : St n} (h : Reach (Step f alone) (start pos todo) s) :
    (∀ id b, s.mesh id = some b → b = (f.bytes.drop (f.off id)).take (f.size id)) ∧ (s.made.map Prod.fst).Nodup ∧ s.bad = false ∧
    ((∀ t, s.pc t = .idle ∧ s.todo t = []) → ∀ t, ∀ id ∈ todo t, s.mesh id = some ((f.bytes.drop (f.off id)).take (f.size id))) := by
  have hi := inv_reach h
  have ha : Asked todo s := by
    clear hi
    induction h with
    | init => exact ⟨fun t id hm => .inr (.inr hm)⟩
    | step hr hst ih => exact ih.step (inv_reach (hr.step hst)).good hst
  refine ⟨hi.mesh, hi.nodup, hi.good, fun hd t id hm => ?_⟩
  rcases ha.all t id hm with h1 | h1 | h1
  · obtain ⟨b, hb⟩ := Option.ne_none_iff_exists'.1 h1
    rw [hb, hi.mesh id b hb]; rfl
  · rw [(hd t).1] at h1; exact absurd h1 (by simp [inHand])
  · rw [(hd t).2] at h1; exact absurd h1 (by simp)

/-- A tile that only one thread uses, as in a join whose tile pairs share no tile, is such a case. -/
theorem C104_one_thread_partial {pos : Nat} {todo : Fin n → List Nat} {t0 : Fin n} (hone : ∀ t, t ≠ t0 → todo t = []) {s : St n}
    (h : Reach (Step f free) (start pos todo) s) :
    (∀ id b, s.mesh id = some b → b = (f.bytes.drop (f.off id)).take (f.size id)) ∧ (s.made.map Prod.fst).Nodup ∧ s.bad = false ∧
    ((s.pc t0 = .idle ∧ s.todo t0 = []) → ∀ id ∈ todo t0, s.mesh id = some ((f.bytes.drop (f.off id)).take (f.size id))) := by
  have key : Reach (Step f alone) (start pos todo) s ∧ ∀ t, t ≠ t0 → s.pc t = .idle ∧ s.todo t = [] := by
    induction h with
    | init => exact ⟨.init, fun t ht => ⟨rfl, hone t ht⟩⟩
    | step hr hst ih =>
      obtain ⟨h1, h2⟩ := ih
      have keep : ∀ {s : St n} (x : PC), (∀ u, u ≠ t0 → s.pc u = .idle ∧ s.todo u = []) →
          ∀ u, u ≠ t0 → upd s.pc t0 x u = .idle ∧ s.todo u = [] := by
        intro s x h u hu
        rw [upd_ne _ _ hu]; exact h u hu
      have isT : ∀ {s : St n} (t : Fin n), (∀ u, u ≠ t0 → s.pc u = .idle ∧ s.todo u = []) → (s.pc t ≠ .idle ∨ s.todo t ≠ []) → t = t0 := by
        intro s t h hne
        by_contra hc
        exact hne.elim (fun x => x (h t hc).1) (fun x => x (h t hc).2)
      cases hst with
      | call t id rest ha hpc htd hm =>
        obtain rfl := isT t h2 (.inr (by rw [htd]; simp))
        exact ⟨h1.step (.call _ _ _ _ (fun u hu => (h2 u hu).1) hpc htd hm), fun u hu => ⟨(keep _ h2 u hu).1, (upd_ne _ _ hu).trans (h2 u hu).2⟩⟩
      | callHave t id rest ha hpc htd hm =>
        obtain rfl := isT t h2 (.inr (by rw [htd]; simp))
        exact ⟨h1.step (.callHave _ _ _ _ (fun u hu => (h2 u hu).1) hpc htd hm),
          fun u hu => ⟨(keep _ h2 u hu).1, (upd_ne _ _ hu).trans (h2 u hu).2⟩⟩
      | seek t id hpc =>
        obtain rfl := isT t h2 (.inl (by rw [hpc]; simp))
        exact ⟨h1.step (.seek _ _ _ hpc), keep _ h2⟩
      | read t id hpc =>
        obtain rfl := isT t h2 (.inl (by rw [hpc]; simp))
        exact ⟨h1.step (.read _ _ _ hpc), keep _ h2⟩
      | checkNull t id buf hpc hm =>
        obtain rfl := isT t h2 (.inl (by rw [hpc]; simp))
        exact ⟨h1.step (.checkNull _ _ _ _ hpc hm), keep _ h2⟩
      | checkHave t id buf hpc hm =>
        obtain rfl := isT t h2 (.inl (by rw [hpc]; simp))
        exact ⟨h1.step (.checkHave _ _ _ _ hpc hm), keep _ h2⟩
      | make t id b hpc =>
        obtain rfl := isT t h2 (.inl (by rw [hpc]; simp))
        exact ⟨h1.step (.make _ _ _ _ hpc), keep _ h2⟩
      | makeNull t id hpc =>
        obtain rfl := isT t h2 (.inl (by rw [hpc]; simp))
        exact ⟨h1.step (.makeNull _ _ _ hpc), keep _ h2⟩
  obtain ⟨a, b, c, d⟩ := C104_one_at_a_time_partial key.1
  refine ⟨a, b, c, fun hd => d (fun t => ?_) t0⟩
  by_cases ht : t = t0
  · rw [ht]; exact hd
  · exact key.2 t ht

/-! ## Any schedule -/

structure AnyInv (f : Store) (s : St n) : Prop where
  null : ∀ t id, s.pc t = .check id none → s.mesh id ≠ none
  make : ∀ t id, s.pc t ≠ .make id none
  buf : ∀ t id b, (s.pc t = .check id (some b) ∨ s.pc t = .make id (some b)) → ∃ p, b = f.piece p (f.size id)
  mesh : ∀ id b, (s.mesh id = some b ∨ (id, b) ∈ s.made) → ∃ p, b = f.piece p (f.size id)
  good : s.bad = false

theorem AnyInv.step {s s' : St n} (h : AnyInv f s) (st : Step f free s s') : AnyInv f s' := by
  have gen : ∀ (s2 : St n) (t : Fin n) (x : PC), s2.pc = upd s.pc t x →
      (∀ id, s.mesh id ≠ none → s2.mesh id ≠ none) → (∀ id, x = .check id none → s2.mesh id ≠ none) → (∀ id, x ≠ .make id none) →
      (∀ id b, (x = .check id (some b) ∨ x = .make id (some b)) → ∃ p, b = f.piece p (f.size id)) →
      (∀ id b, (s2.mesh id = some b ∨ (id, b) ∈ s2.made) → ∃ p, b = f.piece p (f.size id)) → s2.bad = false → AnyInv f s2 := by
    intro s2 t x hpc h1 h2 h3 h4 h5 h6
    refine ⟨?_, ?_, ?_, h5, h6⟩
    · intro u id hu
      rw [hpc] at hu
      by_cases e : u = t
      · rw [e, upd_same] at hu; exact h2 id hu
      · rw [upd_ne _ _ e] at hu; exact h1 id (h.null u id hu)
    · intro u id hu
      rw [hpc] at hu
      by_cases e : u = t
      · rw [e, upd_same] at hu; exact h3 id hu
      · rw [upd_ne _ _ e] at hu; exact h.make u id hu
    · intro u id b hu
      rw [hpc] at hu
      by_cases e : u = t
      · rw [e, upd_same] at hu; exact h4 id b hu
      · rw [upd_ne _ _ e] at hu; exact h.buf u id b hu
  cases st with
  | call t id rest ha hpc htd hm =>
    exact gen _ t _ rfl (fun _ x => x) (by simp) (by simp) (by simp) h.mesh h.good
  | callHave t id rest ha hpc htd hm =>
    refine gen _ t _ rfl (fun _ x => x) ?_ (by simp) (by simp) h.mesh h.good
    intro i hi
    injection hi with e
    rw [← e]; exact hm
  | seek t id hpc => exact gen _ t _ rfl (fun _ x => x) (by simp) (by simp) (by simp) h.mesh h.good
  | read t id hpc =>
    refine gen _ t _ rfl (fun _ x => x) (by simp) (by simp) ?_ h.mesh h.good
    rintro i b (hi | hi)
    · injection hi with e1 e2
      subst e1
      exact ⟨s.pos, (Option.some.inj e2).symm⟩
    · exact absurd hi (by simp)
  | checkNull t id buf hpc hm =>
    cases buf with
    | none => exact absurd hm (h.null t id hpc)
    | some b =>
      refine gen _ t _ rfl (fun _ x => x) (by simp) (by simp) ?_ h.mesh h.good
      rintro i c (hi | hi)
      · exact absurd hi (by simp)
      · injection hi with e1 e2
        subst e1
        obtain rfl := Option.some.inj e2
        exact h.buf t id b (.inl hpc)
  | checkHave t id buf hpc hm => exact gen _ t _ rfl (fun _ x => x) (by simp) (by simp) (by simp) h.mesh h.good
  | make t id b hpc =>
    have hb := h.buf t id b (.inr hpc)
    refine gen _ t _ rfl ?_ (by simp) (by simp) (by simp) ?_ h.good
    · intro i hi
      show Function.update s.mesh id (some b) i ≠ none
      by_cases e : i = id
      · rw [e, Function.update_self]; simp
      · rw [Function.update_of_ne e]; exact hi
    · rintro i c (hc | hc)
      · replace hc : Function.update s.mesh id (some b) i = some c := hc
        by_cases e : i = id
        · subst e
          rw [Function.update_self] at hc
          rw [← Option.some.inj hc]; exact hb
        · rw [Function.update_of_ne e] at hc
          exact h.mesh i c (.inl hc)
      · rcases List.mem_append.1 hc with hc | hc
        · exact h.mesh i c (.inr hc)
        · rw [List.mem_singleton] at hc
          injection hc with e1 e2
          subst e1; subst e2
          exact hb
  | makeNull t id hpc => exact absurd hpc (h.make t id)

/-- **C104 (any schedule).** No mesh is ever made from NULL, and what an object is made from is some piece of the file with at most the
object's size. -/
theorem C104_any_schedule {pos : Nat} {todo : Fin n → List Nat} {s : St n} (h : Reach (Step f free) (start pos todo) s) :
    s.bad = false ∧ ∀ id b, s.mesh id = some b → ∃ p, b = (f.bytes.drop p).take (f.size id) := by
  have := h.inv (AnyInv f) ⟨fun _ _ hp => absurd hp (by simp [start]), fun _ _ => by simp [start],
    fun _ _ _ hp => absurd hp (by simp [start]), fun _ _ hm => absurd hm (by simp [start]), rfl⟩ (fun _ _ => AnyInv.step)
  exact ⟨this.good, fun id b hm => this.mesh id b (.inl hm)⟩

/-! ## What goes wrong -/

/-- Thread 0 fetches `a`, thread 1 fetches `b`. -/
def twoCalls (a b : Nat) : Fin 2 → List Nat := fun t => if t = 0 then [a] else [b]

/-- **C104 is false of the code**, whatever the file and whatever two objects two threads fetch at the same time: in some execution, at the end
of which both calls have returned, the first object has been made from the bytes at the place of the second, the second from those behind. -/
theorem C104_wrong_bytes (f : Store) (pos a b : Nat) (hab : a ≠ b) :
    ∃ s : St 2, Reach (Step f free) (start pos (twoCalls a b)) s ∧ (∀ t, s.pc t = .idle ∧ s.todo t = []) ∧
      s.mesh a = some (f.piece (f.off b) (f.size a)) ∧
      s.mesh b = some (f.piece (f.off b + (f.piece (f.off b) (f.size a)).length) (f.size b)) := by
  obtain ⟨X, hX⟩ : ∃ X, f.piece (f.off b) (f.size a) = X := ⟨_, rfl⟩
  obtain ⟨Y, hY⟩ : ∃ Y, f.piece (f.off b + X.length) (f.size b) = Y := ⟨_, rfl⟩
  let P (x y : PC) : Fin 2 → PC := fun t => if t = 0 then x else y
  let T (x y : List Nat) : Fin 2 → List Nat := fun t => if t = 0 then x else y
  have u0 : ∀ x y z : PC, upd (P x y) 0 z = P z y := by
    intro x y z; funext t; fin_cases t <;> rfl
  have u1 : ∀ x y z : PC, upd (P x y) 1 z = P x z := by
    intro x y z; funext t; fin_cases t <;> rfl
  have t0 : ∀ x y z : List Nat, upd (T x y) 0 z = T z y := by
    intro x y z; funext t; fin_cases t <;> rfl
  have t1 : ∀ x y z : List Nat, upd (T x y) 1 z = T x z := by
    intro x y z; funext t; fin_cases t <;> rfl
  have e0 : (start pos (twoCalls a b) : St 2) = ⟨pos, fun _ => none, [], false, T [a] [b], P .idle .idle⟩ := by
    unfold start twoCalls
    congr 1
    funext t; fin_cases t <;> rfl
  have c1 : Step f free ⟨pos, fun _ => none, [], false, T [a] [b], P .idle .idle⟩
      ⟨pos, fun _ => none, [], false, T [] [b], P (.seek a) .idle⟩ := by
    have := Step.call (f := f) (allowed := free) ⟨pos, fun _ => none, [], false, T [a] [b], P .idle .idle⟩ 0 a [] trivial rfl rfl rfl
    simpa only [u0, t0] using this
  have c2 : Step f free ⟨pos, fun _ => none, [], false, T [] [b], P (.seek a) .idle⟩
      ⟨pos, fun _ => none, [], false, T [] [], P (.seek a) (.seek b)⟩ := by
    have := Step.call (f := f) (allowed := free) ⟨pos, fun _ => none, [], false, T [] [b], P (.seek a) .idle⟩ 1 b [] trivial rfl rfl rfl
    simpa only [u1, t1] using this
  have c3 : Step f free ⟨pos, fun _ => none, [], false, T [] [], P (.seek a) (.seek b)⟩
      ⟨f.off a, fun _ => none, [], false, T [] [], P (.read a) (.seek b)⟩ := by
    have := Step.seek (f := f) (allowed := free) ⟨pos, fun _ => none, [], false, T [] [], P (.seek a) (.seek b)⟩ 0 a rfl
    simpa only [u0] using this
  have c4 : Step f free ⟨f.off a, fun _ => none, [], false, T [] [], P (.read a) (.seek b)⟩
      ⟨f.off b, fun _ => none, [], false, T [] [], P (.read a) (.read b)⟩ := by
    have := Step.seek (f := f) (allowed := free) ⟨f.off a, fun _ => none, [], false, T [] [], P (.read a) (.seek b)⟩ 1 b rfl
    simpa only [u1] using this
  have c5 : Step f free ⟨f.off b, fun _ => none, [], false, T [] [], P (.read a) (.read b)⟩
      ⟨f.off b + X.length, fun _ => none, [], false, T [] [], P (.check a (some X)) (.read b)⟩ := by
    have := Step.read (f := f) (allowed := free) ⟨f.off b, fun _ => none, [], false, T [] [], P (.read a) (.read b)⟩ 0 a rfl
    simpa only [u0, hX] using this
  have c6 : Step f free ⟨f.off b + X.length, fun _ => none, [], false, T [] [], P (.check a (some X)) (.read b)⟩
      ⟨f.off b + X.length + Y.length, fun _ => none, [], false, T [] [], P (.check a (some X)) (.check b (some Y))⟩ := by
    have := Step.read (f := f) (allowed := free)
      ⟨f.off b + X.length, fun _ => none, [], false, T [] [], P (.check a (some X)) (.read b)⟩ 1 b rfl
    simpa only [u1, hY] using this
  obtain ⟨q, hq⟩ : ∃ q, f.off b + X.length + Y.length = q := ⟨_, rfl⟩
  rw [hq] at c6
  have c7 : Step f free ⟨q, fun _ => none, [], false, T [] [], P (.check a (some X)) (.check b (some Y))⟩
      ⟨q, fun _ => none, [], false, T [] [], P (.make a (some X)) (.check b (some Y))⟩ := by
    have := Step.checkNull (f := f) (allowed := free)
      ⟨q, fun _ => none, [], false, T [] [], P (.check a (some X)) (.check b (some Y))⟩ 0 a (some X) rfl rfl
    simpa only [u0] using this
  have c8 : Step f free ⟨q, fun _ => none, [], false, T [] [], P (.make a (some X)) (.check b (some Y))⟩
      ⟨q, Function.update (fun _ => none) a (some X), [(a, X)], false, T [] [], P .idle (.check b (some Y))⟩ := by
    have := Step.make (f := f) (allowed := free)
      ⟨q, fun _ => none, [], false, T [] [], P (.make a (some X)) (.check b (some Y))⟩ 0 a X rfl
    simpa only [u0, List.nil_append] using this
  have hbn : Function.update (fun _ : Nat => (none : Option (List Nat))) a (some X) b = none := Function.update_of_ne (Ne.symm hab) _ _
  have c9 : Step f free ⟨q, Function.update (fun _ => none) a (some X), [(a, X)], false, T [] [], P .idle (.check b (some Y))⟩
      ⟨q, Function.update (fun _ => none) a (some X), [(a, X)], false, T [] [], P .idle (.make b (some Y))⟩ := by
    have := Step.checkNull (f := f) (allowed := free)
      ⟨q, Function.update (fun _ => none) a (some X), [(a, X)], false, T [] [], P .idle (.check b (some Y))⟩ 1 b (some Y) rfl hbn
    simpa only [u1] using this
  have c10 : Step f free ⟨q, Function.update (fun _ => none) a (some X), [(a, X)], false, T [] [], P .idle (.make b (some Y))⟩
      ⟨q, Function.update (Function.update (fun _ => none) a (some X)) b (some Y), [(a, X), (b, Y)], false, T [] [], P .idle .idle⟩ := by
    have := Step.make (f := f) (allowed := free)
      ⟨q, Function.update (fun _ => none) a (some X), [(a, X)], false, T [] [], P .idle (.make b (some Y))⟩ 1 b Y rfl
    simpa only [u1, List.singleton_append] using this
  refine ⟨⟨q, Function.update (Function.update (fun _ => none) a (some X)) b (some Y), [(a, X), (b, Y)], false, T [] [], P .idle .idle⟩,
    ?_, ?_, ?_, ?_⟩
  · rw [e0]
    exact ((((((((((Reach.init.step c1).step c2).step c3).step c4).step c5).step c6).step c7).step c8).step c9).step c10)
  · intro t
    fin_cases t <;> exact ⟨rfl, rfl⟩
  · show Function.update (Function.update (fun _ : Nat => (none : Option (List Nat))) a (some X)) b (some Y) a = _
    rw [Function.update_of_ne hab, Function.update_self, hX]
  · show Function.update (Function.update (fun _ : Nat => (none : Option (List Nat))) a (some X)) b (some Y) b = _
    rw [Function.update_self, hX, hY]

/-- So if the two have equally many bytes, the first object silently becomes the second one. -/
theorem C104_becomes_other (f : Store) (pos a b : Nat) (hab : a ≠ b) (hsize : f.size a = f.size b) :
    ∃ s : St 2, Reach (Step f free) (start pos (twoCalls a b)) s ∧ (∀ t, s.pc t = .idle ∧ s.todo t = []) ∧ s.mesh a = some (f.data b) := by
  obtain ⟨s, h1, h2, h3, -⟩ := C104_wrong_bytes f pos a b hab
  exact ⟨s, h1, h2, by rw [h3, hsize]; rfl⟩

/-- A file with two objects of two bytes. -/
def exStore : Store := ⟨[1, 2, 3, 4], fun i => 2 * i, fun _ => 2⟩

/-- Fetched one after the other, each has its bytes; at the same time, object 0 may be made from those of object 1. -/
example : exStore.data 0 = [1, 2] ∧ exStore.data 1 = [3, 4] ∧
    ∃ s : St 2, Reach (Step exStore free) (start 0 (twoCalls 0 1)) s ∧ s.mesh 0 = some [3, 4] ∧ s.mesh 1 = some [] := by
  obtain ⟨s, h1, -, h3, h4⟩ := C104_wrong_bytes exStore 0 0 1 (by decide)
  exact ⟨by decide +kernel, by decide +kernel, s, h1, h3.trans (by decide +kernel), h4.trans (by decide +kernel)⟩

end TDP.Conc.Retrieve
