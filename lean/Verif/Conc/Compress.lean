import Verif.Conc.Base
import Mathlib.Data.Multiset.Basic
/-! C47: the compression tool (test/compress.cpp): handing lines to workers and writing records. -/
namespace TDP.Conc.Compress
open TDP.Conc

/-- `QUEUE_SIZE` (compress.cpp:33). -/
def queueSize : Nat := 100

/-- The main thread (compress.cpp:142-172). `k` is `num_objects`. -/
inductive MPC (L : Type) (n : Nat)
  | get (k : Nat)                          -- 142: `getline`
  | scan (k : Nat) (l : L) (i : Nat)       -- 145-146: looking for a free worker
  | write (k : Nat) (l : L) (i : Fin n)    -- 147: about to store the line
  | flag (k : Nat) (i : Fin n)             -- 148: about to set `is_working`
  | next (k : Nat)                         -- 159-165: counting; the limit
  | stopping                               -- 167
  | done                                   -- 169: joining

/-- A worker (compress.cpp:65-99). A buffered record is a line with the chunks written for it. `fin` tells the final
flush (96) from one in the loop (88). -/
inductive WPC (L C : Type)
  | top1 (buf : List (L × List C))                                     -- 76: reads `stop`
  | top2 (buf : List (L × List C))                                     -- 76: `stop` was set; reads `is_working`
  | top3 (buf : List (L × List C))                                     -- 77: reads `is_working`
  | read (buf : List (L × List C))                                     -- 81-86
  | flushLock (fin : Bool) (buf : List (L × List C))                   -- 46
  | flushNext (fin : Bool) (buf : List (L × List C))                   -- 47, holding the lock
  | flushRec (fin : Bool) (e : L × List C) (rem : List C) (buf : List (L × List C)) -- 48-59, holding the lock
  | flushUnlock (fin : Bool)                                           -- 61, holding the lock
  | clear (buf : List (L × List C))                                    -- 92
  | setFree (buf : List (L × List C))                                  -- 93
  | done

/-- What belongs to one worker: its state, `is_working[id]` and `processing_line[id]` (`none` when cleared). -/
structure Slot (L C : Type) where
  pc : WPC L C
  working : Bool
  line : Option L

/-- Shared state. Ghosts: `given`, the lines read so far; `out`, the records completely written. -/
structure St (L C : Type) (n : Nat) where
  todo : List L
  stop : Bool
  file : List C
  olock : Option (Fin n)
  mpc : MPC L n
  w : Fin n → Slot L C
  given : List L
  out : List (L × List C)

/-- Everything initialised, workers created (compress.cpp:118-136). The workers' first log message is left out. -/
def start {L C : Type} (n : Nat) (input : List L) : St L C n :=
  { todo := input, stop := false, file := [], olock := none, mpc := .get 0, w := fun _ => ⟨.top1 [], false, none⟩, given := [], out := [] }

/-- One step of one thread. `rec l r`: compressing line `l` may produce the chunks `r` (the sizes, the data and the
voxels written by 48-55); it is a relation because voxels are generated from random samples. Every line is assumed
to hold a mesh (for others `get_mesh` returns NULL, which is dereferenced). `max` is `maximum_lines`. -/
inductive Step {L C : Type} {n : Nat} (rec : L → List C → Prop) (max : Int) : St L C n → St L C n → Prop
  | get (s k l r) : s.mpc = .get k → s.todo = l :: r → Step rec max s { s with todo := r, given := s.given ++ [l], mpc := .scan k l 0 }
  | eof (s k) : s.mpc = .get k → s.todo = [] → Step rec max s { s with mpc := .stopping }
  | scanBusy (s k l) (i : Fin n) : s.mpc = .scan k l i → (s.w i).working = true → Step rec max s { s with mpc := .scan k l (i + 1) }
  | scanFree (s k l) (i : Fin n) : s.mpc = .scan k l i → (s.w i).working = false → Step rec max s { s with mpc := .write k l i }
  | scanAgain (s k l) : s.mpc = .scan k l n → Step rec max s { s with mpc := .scan k l 0 }
  | write (s k l) (i : Fin n) : s.mpc = .write k l i →
      Step rec max s { s with w := upd s.w i { s.w i with line := some l }, mpc := .flag k i }
  | flag (s k) (i : Fin n) : s.mpc = .flag k i →
      Step rec max s { s with w := upd s.w i { s.w i with working := true }, mpc := .next k }
  | limit (s) (k : Nat) : s.mpc = .next k → (k + 1 : Int) = max → Step rec max s { s with mpc := .stopping }
  | more (s) (k : Nat) : s.mpc = .next k → (k + 1 : Int) ≠ max → Step rec max s { s with mpc := .get (k + 1) }
  | stop (s) : s.mpc = .stopping → Step rec max s { s with stop := true, mpc := .done }
  | top1Go (s t buf) : (s.w t).pc = .top1 buf → s.stop = false → Step rec max s { s with w := upd s.w t { s.w t with pc := .top3 buf } }
  | top1Stop (s t buf) : (s.w t).pc = .top1 buf → s.stop = true → Step rec max s { s with w := upd s.w t { s.w t with pc := .top2 buf } }
  | top2Go (s t buf) : (s.w t).pc = .top2 buf → (s.w t).working = true →
      Step rec max s { s with w := upd s.w t { s.w t with pc := .top3 buf } }
  | top2End (s t buf) : (s.w t).pc = .top2 buf → (s.w t).working = false →
      Step rec max s { s with w := upd s.w t { s.w t with pc := .flushLock true buf } }
  | top3Wait (s t buf) : (s.w t).pc = .top3 buf → (s.w t).working = false →
      Step rec max s { s with w := upd s.w t { s.w t with pc := .top1 buf } }
  | top3Go (s t buf) : (s.w t).pc = .top3 buf → (s.w t).working = true →
      Step rec max s { s with w := upd s.w t { s.w t with pc := .read buf } }
  | read (s t buf l r) : (s.w t).pc = .read buf → (s.w t).line = some l → rec l r →
      Step rec max s { s with w := upd s.w t { s.w t with
        pc := if (buf ++ [(l, r)]).length ≥ queueSize then .flushLock false (buf ++ [(l, r)]) else .clear (buf ++ [(l, r)]) } }
  | flushLock (s t fin buf) : (s.w t).pc = .flushLock fin buf → s.olock = none →
      Step rec max s { s with olock := some t, w := upd s.w t { s.w t with pc := .flushNext fin buf } }
  | flushNext (s t fin e buf) : (s.w t).pc = .flushNext fin (e :: buf) →
      Step rec max s { s with w := upd s.w t { s.w t with pc := .flushRec fin e e.2 buf } }
  | flushEnd (s t fin) : (s.w t).pc = .flushNext fin [] →
      Step rec max s { s with w := upd s.w t { s.w t with pc := .flushUnlock fin } }
  | chunk (s t fin e c rem buf) : (s.w t).pc = .flushRec fin e (c :: rem) buf →
      Step rec max s { s with file := s.file ++ [c], w := upd s.w t { s.w t with pc := .flushRec fin e rem buf } }
  | recEnd (s t fin e buf) : (s.w t).pc = .flushRec fin e [] buf →
      Step rec max s { s with out := s.out ++ [e], w := upd s.w t { s.w t with pc := .flushNext fin buf } }
  | unlockGo (s t) : (s.w t).pc = .flushUnlock false →
      Step rec max s { s with olock := none, w := upd s.w t { s.w t with pc := .clear [] } }
  | unlockEnd (s t) : (s.w t).pc = .flushUnlock true →
      Step rec max s { s with olock := none, w := upd s.w t { s.w t with pc := .done } }
  | clear (s t buf) : (s.w t).pc = .clear buf → Step rec max s { s with w := upd s.w t { s.w t with line := none, pc := .setFree buf } }
  | setFree (s t buf) : (s.w t).pc = .setFree buf → Step rec max s { s with w := upd s.w t { s.w t with working := false, pc := .top1 buf } }

/-- Specification: the lines the tool is asked to process. -/
def wanted {L : Type} (max : Int) (input : List L) : List L := if max ≤ 0 then input else input.take max.toNat

/-! ## Invariants -/

def holds {L C : Type} (x : Slot L C) : Prop := match x.pc with
  | .flushNext _ _ | .flushRec _ _ _ _ | .flushUnlock _ => True
  | _ => False

/-- The records a worker has in its buffer. -/
def bufOf {L C : Type} : WPC L C → List (L × List C)
  | .top1 buf | .top2 buf | .top3 buf | .read buf | .flushLock _ buf | .flushNext _ buf | .clear buf | .setFree buf => buf
  | .flushRec _ e _ buf => e :: buf
  | .flushUnlock _ | .done => []

/-- Is the line in the slot still to be processed? -/
def fresh {L C : Type} : WPC L C → Bool
  | .top1 _ | .top2 _ | .top3 _ | .read _ => true
  | _ => false

def inHand {L C : Type} (x : Slot L C) : Multiset L :=
  (((bufOf x.pc).map Prod.fst : List L) : Multiset L) + (if fresh x.pc then (x.line.toList : Multiset L) else 0)

def mHand {L : Type} {n : Nat} : MPC L n → Multiset L
  | .scan _ l _ | .write _ l _ => {l}
  | _ => 0

def isWr {L : Type} {n : Nat} (m : MPC L n) (t : Fin n) : Prop := match m with
  | .write _ _ i => i = t
  | _ => False
def isFl {L : Type} {n : Nat} (m : MPC L n) (t : Fin n) : Prop := match m with
  | .flag _ i => i = t
  | _ => False

/-- The handshake between the main thread and a worker. -/
def slotInv {L C : Type} (wr fl : Prop) (stop : Bool) (x : Slot L C) : Prop := match x.pc with
  | .top1 _ | .top3 _ => (x.working = true → x.line.isSome = true ∧ ¬ wr ∧ ¬ fl) ∧ (x.working = false → (x.line.isSome = true ↔ fl))
  | .top2 _ => (x.working = true → x.line.isSome = true ∧ ¬ wr ∧ ¬ fl) ∧ (x.working = false → (x.line.isSome = true ↔ fl)) ∧ stop = true
  | .read _ | .clear _ | .flushLock false _ | .flushNext false _ | .flushRec false _ _ _ | .flushUnlock false =>
      x.working = true ∧ x.line.isSome = true ∧ ¬ wr ∧ ¬ fl
  | .setFree _ => x.working = true ∧ x.line = none ∧ ¬ wr ∧ ¬ fl
  | .flushLock true _ | .flushNext true _ | .flushRec true _ _ _ | .flushUnlock true | .done =>
      stop = true ∧ x.working = false ∧ x.line = none

/-- What has been written of the current record. -/
def fileInv {L C : Type} (file : List C) (out : List (L × List C)) (x : WPC L C) : Prop := match x with
  | .flushRec _ e rem _ => ∃ w, e.2 = w ++ rem ∧ file = (out.map Prod.snd).flatten ++ w
  | .flushNext _ _ | .flushUnlock _ => file = (out.map Prod.snd).flatten
  | _ => True

def minv {L C : Type} {n : Nat} (max : Int) (input : List L) (s : St L C n) : MPC L n → Prop
  | .get k => s.given.length = k ∧ (0 < max → (k : Int) < max)
  | .scan k _ _ | .write k _ _ | .flag k _ | .next k => s.given.length = k + 1 ∧ (0 < max → (k : Int) < max)
  | .stopping | .done => s.given = wanted max input

structure Inv {L C : Type} {n : Nat} (rec : L → List C → Prop) (max : Int) (input : List L) (s : St L C n) : Prop where
  l : LockInv holds s.w s.olock
  sd : s.stop = true ↔ s.mpc = .done
  m : minv max input s s.mpc
  g : input = s.given ++ s.todo
  sl : ∀ t, slotInv (isWr s.mpc t) (isFl s.mpc t) s.stop (s.w t)
  fi : ∀ t, fileInv s.file s.out (s.w t).pc
  fr : s.olock = none → s.file = (s.out.map Prod.snd).flatten
  rb : ∀ t, ∀ e ∈ bufOf (s.w t).pc, rec e.1 e.2
  ro : ∀ e ∈ s.out, rec e.1 e.2
  cons : (mHand s.mpc + ((s.out.map Prod.fst : List L) : Multiset L)) + ∑ t, inHand (s.w t) = (s.given : Multiset L)

theorem all_upd {n : Nat} {A : Type} {p : Fin n → A → Prop} {f : Fin n → A} (h : ∀ t, p t (f t)) (t : Fin n) {x : A}
    (hx : p t x) : ∀ u, p u (upd f t x u) := by
  intro u
  by_cases hu : u = t
  · subst hu; rw [upd_same]; exact hx
  · rw [upd_ne _ _ hu]; exact h u

theorem inv_start {L C : Type} {n : Nat} (rec : L → List C → Prop) (max : Int) (input : List L) :
    Inv rec max input (start n input) where
  l := fun t => by simp [start, holds]
  sd := by simp [start]
  m := by simp [start, minv]
  g := by simp [start]
  sl := fun t => by simp [start, slotInv, isFl]
  fi := fun t => by simp [start, fileInv]
  fr := fun _ => by simp [start]
  rb := fun t => by simp [start, bufOf]
  ro := by simp [start]
  cons := by simp [start, inHand, mHand, bufOf, fresh]

/-- A worker's move that leaves the shared parts alone. -/
theorem inv_local {L C : Type} {n : Nat} {rec : L → List C → Prop} {max : Int} {input : List L} {s : St L C n}
    (h : Inv rec max input s) (t : Fin n) (x : Slot L C) (h1 : holds x ↔ holds (s.w t))
    (h2 : slotInv (isWr s.mpc t) (isFl s.mpc t) s.stop x) (h3 : fileInv s.file s.out x.pc)
    (h4 : ∀ e ∈ bufOf x.pc, rec e.1 e.2) (h5 : inHand x = inHand (s.w t)) :
    Inv rec max input { s with w := upd s.w t x } where
  l := h.l.keep h1
  sd := h.sd
  m := by
    have := h.m
    show minv max input { s with w := upd s.w t x } s.mpc
    cases hm : s.mpc <;> rw [hm] at this <;> exact this
  g := h.g
  sl := all_upd (p := fun t x => slotInv (isWr s.mpc t) (isFl s.mpc t) s.stop x) h.sl t h2
  fi := all_upd (p := fun _ (x : Slot L C) => fileInv s.file s.out x.pc) h.fi t h3
  fr := h.fr
  rb := all_upd (p := fun _ (x : Slot L C) => ∀ e ∈ bufOf x.pc, rec e.1 e.2) h.rb t h4
  ro := h.ro
  cons := sum_upd_conserve inHand _ _ _ h.cons (by rw [h5])

/-- A move of the main thread that touches neither slots nor flags. -/
theorem inv_main {L C : Type} {n : Nat} {rec : L → List C → Prop} {max : Int} {input : List L} {s : St L C n}
    (h : Inv rec max input s) (m' : MPC L n) (hnd : s.mpc ≠ .done) (hnd' : m' ≠ .done)
    (h1 : minv max input s m') (h2 : ∀ t, slotInv (isWr m' t) (isFl m' t) s.stop (s.w t)) (h3 : mHand m' = mHand s.mpc) :
    Inv rec max input { s with mpc := m' } where
  l := h.l
  sd := by
    have : s.stop = false := by rw [← Bool.not_eq_true, h.sd]; exact hnd
    rw [this]; simp [hnd']
  m := by
    show minv max input { s with mpc := m' } m'
    cases m' <;> exact h1
  g := h.g
  sl := h2
  fi := h.fi
  fr := h.fr
  rb := h.rb
  ro := h.ro
  cons := by show (mHand m' + _) + _ = _; rw [h3]; exact h.cons

theorem slot_of_free {L C : Type} {wr fl wr' fl' : Prop} {stop : Bool} {x : Slot L C} (h : slotInv wr fl stop x)
    (e1 : wr' → wr) (e2 : fl' ↔ fl) : slotInv wr' fl' stop x := by
  obtain ⟨pc, wk, ln⟩ := x
  cases pc <;> first
    | (simp only [slotInv] at h ⊢; grind)
    | (rename_i fin _; cases fin <;> simp only [slotInv] at h ⊢ <;> grind)
    | (rename_i fin _ _ _; cases fin <;> simp only [slotInv] at h ⊢ <;> grind)
    | (rename_i fin; cases fin <;> simp only [slotInv] at h ⊢ <;> grind)

/-- A slot whose flag is off while the program runs is waiting. -/
theorem slot_waiting {L C : Type} {wr fl : Prop} {x : Slot L C} (h : slotInv wr fl false x) (hw : x.working = false) :
    (∃ buf, x.pc = .top1 buf) ∨ (∃ buf, x.pc = .top3 buf) := by
  obtain ⟨pc, wk, ln⟩ := x
  simp only at hw
  cases pc with
  | top1 b => exact Or.inl ⟨b, rfl⟩
  | top3 b => exact Or.inr ⟨b, rfl⟩
  | top2 b => simp [slotInv] at h
  | read b => simp [slotInv, hw] at h
  | flushLock f b => cases f <;> simp [slotInv, hw] at h
  | flushNext f b => cases f <;> simp [slotInv, hw] at h
  | flushRec f e r b => cases f <;> simp [slotInv, hw] at h
  | flushUnlock f => cases f <;> simp [slotInv, hw] at h
  | clear b => simp [slotInv, hw] at h
  | setFree b => simp [slotInv, hw] at h
  | done => simp [slotInv] at h

theorem wanted_all {L : Type} {max : Int} {input : List L} (h : 0 < max → (input.length : Int) < max) : input = wanted max input := by
  unfold wanted
  by_cases hm : max ≤ 0
  · rw [if_pos hm]
  · rw [if_neg hm, List.take_of_length_le]
    have := h (by omega)
    omega

theorem wanted_limit {L : Type} {max : Int} {a b : List L} (h : (a.length : Int) = max) (hp : 0 < max) : a = wanted max (a ++ b) := by
  unfold wanted
  rw [if_neg (by omega)]
  have : max.toNat = a.length := by omega
  rw [this, List.take_left]

theorem inv_step {L C : Type} {n : Nat} {rec : L → List C → Prop} {max : Int} {input : List L} {s s' : St L C n}
    (h : Inv rec max input s) (st : Step rec max s s') : Inv rec max input s' := by
  have hstop : s.mpc ≠ .done → s.stop = false := by
    intro hne; rw [← Bool.not_eq_true, h.sd]; exact hne
  cases st with
  | get k l r hm ht =>
    have m := h.m; rw [hm] at m
    have c := h.cons; rw [hm] at c
    refine ⟨h.l, ?_, ?_, ?_, ?_, h.fi, h.fr, h.rb, h.ro, ?_⟩
    · rw [hstop (by rw [hm]; simp)]; simp
    · exact ⟨by show (s.given ++ [l]).length = k + 1; rw [List.length_append]; simp [m.1], m.2⟩
    · show input = s.given ++ [l] ++ r
      rw [h.g, ht]; simp
    · intro t; have := h.sl t; rw [hm] at this
      exact slot_of_free this (fun h => h) Iff.rfl
    · show (({l} : Multiset L) + _) + _ = ((s.given ++ [l] : List L) : Multiset L)
      rw [← Multiset.coe_add, ← c]
      show _ = (0 + _) + _ + ({l} : Multiset L)
      rw [zero_add]; ac_rfl
  | eof k hm ht =>
    have m := h.m; rw [hm] at m
    have g := h.g; rw [ht, List.append_nil] at g
    refine inv_main h _ (by rw [hm]; simp) (by simp) ?_ (fun t => ?_) (by rw [hm]; rfl)
    · show s.given = wanted max input
      rw [← g]
      exact wanted_all (by rw [g, m.1]; exact m.2)
    · have := h.sl t; rw [hm] at this; exact this
  | scanBusy k l i hm hw =>
    have m := h.m; rw [hm] at m
    refine inv_main h _ (by rw [hm]; simp) (by simp) m (fun t => ?_) (by rw [hm]; rfl)
    have := h.sl t; rw [hm] at this; exact this
  | scanFree k l i hm hw =>
    have m := h.m; rw [hm] at m
    refine inv_main h _ (by rw [hm]; simp) (by simp) m (fun t => ?_) (by rw [hm]; rfl)
    have hs := h.sl t; rw [hm] at hs
    have hsf := hstop (by rw [hm]; simp)
    rw [hsf] at hs ⊢
    by_cases ht : i = t
    · subst ht
      rcases slot_waiting hs hw with ⟨b, hb⟩ | ⟨b, hb⟩ <;> unfold slotInv at hs ⊢ <;> rw [hb] at hs ⊢ <;>
        simp only [hw] at hs ⊢ <;> simp [isFl] at hs ⊢ <;> exact hs
    · exact slot_of_free hs (fun hh => absurd hh ht) Iff.rfl
  | scanAgain k l hm =>
    have m := h.m; rw [hm] at m
    refine inv_main h _ (by rw [hm]; simp) (by simp) m (fun t => ?_) (by rw [hm]; rfl)
    have := h.sl t; rw [hm] at this; exact this
  | write k l i hm =>
    have m := h.m; rw [hm] at m
    have hsf := hstop (by rw [hm]; simp)
    have hsi := h.sl i; rw [hm, hsf] at hsi
    -- the slot is free and empty
    have key : (s.w i).working = false ∧ (s.w i).line = none ∧ fresh (s.w i).pc = true := by
      have hwr : isWr (MPC.write k l i) i := rfl
      have hfl : ¬ isFl (MPC.write k l i) i := fun hh => hh
      have hw : (s.w i).working = false := by
        by_contra hw
        rw [Bool.not_eq_false] at hw
        generalize hx : s.w i = x at hsi hw
        obtain ⟨pc, wk, ln⟩ := x
        simp only at hw
        subst hw
        cases pc with
        | top1 b => exact (hsi.1 rfl).2.1 hwr
        | top2 b => exact (hsi.1 rfl).2.1 hwr
        | top3 b => exact (hsi.1 rfl).2.1 hwr
        | read b => exact hsi.2.2.1 hwr
        | flushLock f b => cases f
                           · exact hsi.2.2.1 hwr
                           · exact absurd hsi.1 (by simp)
        | flushNext f b => cases f
                           · exact hsi.2.2.1 hwr
                           · exact absurd hsi.1 (by simp)
        | flushRec f e r b => cases f
                              · exact hsi.2.2.1 hwr
                              · exact absurd hsi.1 (by simp)
        | flushUnlock f => cases f
                           · exact hsi.2.2.1 hwr
                           · exact absurd hsi.1 (by simp)
        | clear b => exact hsi.2.2.1 hwr
        | setFree b => exact hsi.2.2.1 hwr
        | done => exact absurd hsi.1 (by simp)
      refine ⟨hw, ?_, ?_⟩
      · rcases slot_waiting hsi hw with ⟨b, hb⟩ | ⟨b, hb⟩ <;> unfold slotInv at hsi <;> rw [hb] at hsi <;>
          · have := hsi.2 hw
            cases hl : (s.w i).line with
            | none => rfl
            | some x => rw [hl] at this; exact absurd (this.1 rfl) hfl
      · rcases slot_waiting hsi hw with ⟨b, hb⟩ | ⟨b, hb⟩ <;> rw [hb] <;> rfl
    have c := h.cons; rw [hm] at c
    refine ⟨h.l.keep (x := { s.w i with line := some l }) (by rfl), ?_, m, h.g, ?_, ?_, h.fr, ?_, h.ro, ?_⟩
    · rw [hsf]; simp
    · show ∀ t, slotInv (isWr (MPC.flag k i) t) (isFl (MPC.flag k i) t) s.stop (upd s.w i _ t)
      intro t
      by_cases ht : t = i
      · subst ht
        rw [upd_same]
        rcases slot_waiting hsi key.1 with ⟨b, hb⟩ | ⟨b, hb⟩ <;> unfold slotInv <;> simp only [hb] <;>
          exact ⟨fun hh => by rw [key.1] at hh; exact absurd hh (by simp), fun _ => by simp [isFl]⟩
      · rw [upd_ne _ _ ht]
        have := h.sl t; rw [hm] at this
        exact slot_of_free this (fun hh => absurd hh (fun hh => hh)) ⟨fun hh => absurd hh.symm ht, fun hh => absurd hh (fun hh => hh)⟩
    · exact all_upd (p := fun _ (x : Slot L C) => fileInv s.file s.out x.pc) h.fi i (h.fi i)
    · exact all_upd (p := fun _ (x : Slot L C) => ∀ e ∈ bufOf x.pc, rec e.1 e.2) h.rb i (h.rb i)
    · refine sum_upd_conserve inHand _ _ _ c ?_
      unfold inHand
      simp only [key.2.1, key.2.2, mHand, if_true, Option.toList_some, Option.toList_none, Multiset.coe_nil, Multiset.coe_singleton]
      rw [zero_add, add_zero]; ac_rfl
  | flag k i hm =>
    have m := h.m; rw [hm] at m
    have hsf := hstop (by rw [hm]; simp)
    have hsi := h.sl i; rw [hm, hsf] at hsi
    have hfl : isFl (MPC.flag (L := L) k i) i := rfl
    have c := h.cons; rw [hm] at c
    have hwf : (s.w i).working = false := by
      by_contra hw
      rw [Bool.not_eq_false] at hw
      generalize hx : s.w i = x at hsi hw
      obtain ⟨pc, wk, ln⟩ := x
      simp only at hw
      subst hw
      cases pc with
      | top1 b => exact (hsi.1 rfl).2.2 hfl
      | top2 b => exact (hsi.1 rfl).2.2 hfl
      | top3 b => exact (hsi.1 rfl).2.2 hfl
      | read b => exact hsi.2.2.2 hfl
      | flushLock f b => cases f
                         · exact hsi.2.2.2 hfl
                         · exact absurd hsi.1 (by simp)
      | flushNext f b => cases f
                         · exact hsi.2.2.2 hfl
                         · exact absurd hsi.1 (by simp)
      | flushRec f e r b => cases f
                            · exact hsi.2.2.2 hfl
                            · exact absurd hsi.1 (by simp)
      | flushUnlock f => cases f
                         · exact hsi.2.2.2 hfl
                         · exact absurd hsi.1 (by simp)
      | clear b => exact hsi.2.2.2 hfl
      | setFree b => exact hsi.2.2.2 hfl
      | done => exact absurd hsi.1 (by simp)
    refine ⟨h.l.keep (x := { s.w i with working := true }) (by rfl), ?_, m, h.g, ?_, ?_, h.fr, ?_, h.ro, ?_⟩
    · rw [hsf]; simp
    · show ∀ t, slotInv (isWr (MPC.next k) t) (isFl (MPC.next k) t) s.stop (upd s.w i _ t)
      intro t
      by_cases ht : t = i
      · subst ht
        rw [upd_same]
        rcases slot_waiting hsi hwf with ⟨b, hb⟩ | ⟨b, hb⟩ <;> unfold slotInv at hsi ⊢ <;> rw [hb] at hsi <;> simp only [hb] <;>
          exact ⟨fun _ => ⟨(hsi.2 hwf).2 hfl, fun hh => hh, fun hh => hh⟩, fun hh => by simp at hh⟩
      · rw [upd_ne _ _ ht]
        have := h.sl t; rw [hm] at this
        exact slot_of_free this (fun hh => absurd hh (fun hh => hh)) ⟨fun hh => absurd hh (fun hh => hh), fun hh => absurd hh.symm ht⟩
    · exact all_upd (p := fun _ (x : Slot L C) => fileInv s.file s.out x.pc) h.fi i (h.fi i)
    · exact all_upd (p := fun _ (x : Slot L C) => ∀ e ∈ bufOf x.pc, rec e.1 e.2) h.rb i (h.rb i)
    · exact sum_upd_conserve inHand _ _ _ c rfl
  | limit k hm hk =>
    have m := h.m; rw [hm] at m
    refine inv_main h _ (by rw [hm]; simp) (by simp) ?_ (fun t => ?_) (by rw [hm]; rfl)
    · show s.given = wanted max input
      rw [h.g]
      exact wanted_limit (by rw [m.1]; push_cast; exact hk) (by omega)
    · have := h.sl t; rw [hm] at this; exact this
  | more k hm hk =>
    have m := h.m; rw [hm] at m
    refine inv_main h _ (by rw [hm]; simp) (by simp) ⟨m.1, fun hp => ?_⟩ (fun t => ?_) (by rw [hm]; rfl)
    · have := m.2 hp; push_cast; omega
    · have := h.sl t; rw [hm] at this; exact this
  | stop hm =>
    have m := h.m; rw [hm] at m
    have c := h.cons; rw [hm] at c
    have hsf := hstop (by rw [hm]; simp)
    refine ⟨h.l, by simp, m, h.g, fun t => ?_, h.fi, h.fr, h.rb, h.ro, c⟩
    have hs := h.sl t; rw [hm, hsf] at hs
    show slotInv False False true (s.w t)
    have hs : slotInv False False false (s.w t) := hs
    generalize s.w t = x at hs
    obtain ⟨pc, wk, ln⟩ := x
    cases pc with
    | top2 b => exact absurd hs.2.2 (by simp)
    | flushLock f b => cases f
                       · exact hs
                       · exact absurd hs.1 (by simp)
    | flushNext f b => cases f
                       · exact hs
                       · exact absurd hs.1 (by simp)
    | flushRec f e r b => cases f
                          · exact hs
                          · exact absurd hs.1 (by simp)
    | flushUnlock f => cases f
                       · exact hs
                       · exact absurd hs.1 (by simp)
    | done => exact absurd hs.1 (by simp)
    | top1 b => exact hs
    | top3 b => exact hs
    | read b => exact hs
    | clear b => exact hs
    | setFree b => exact hs
  | top1Go t buf hpc hs =>
    have hsl := h.sl t; unfold slotInv at hsl; rw [hpc] at hsl
    have hrb := h.rb t; rw [hpc] at hrb
    exact inv_local h t _ (by simp [holds, hpc]) hsl trivial hrb (by simp [inHand, hpc, bufOf, fresh])
  | top1Stop t buf hpc hs =>
    have hsl := h.sl t; unfold slotInv at hsl; rw [hpc] at hsl
    have hrb := h.rb t; rw [hpc] at hrb
    exact inv_local h t _ (by simp [holds, hpc]) ⟨hsl.1, hsl.2, hs⟩ trivial hrb (by simp [inHand, hpc, bufOf, fresh])
  | top2Go t buf hpc hs =>
    have hsl := h.sl t; unfold slotInv at hsl; rw [hpc] at hsl
    have hrb := h.rb t; rw [hpc] at hrb
    exact inv_local h t _ (by simp [holds, hpc]) ⟨hsl.1, hsl.2.1⟩ trivial hrb (by simp [inHand, hpc, bufOf, fresh])
  | top2End t buf hpc hs =>
    have hsl := h.sl t; unfold slotInv at hsl; rw [hpc] at hsl
    have hrb := h.rb t; rw [hpc] at hrb
    have hmd := h.sd.1 hsl.2.2
    have hln : (s.w t).line = none := by
      have := hsl.2.1 hs
      rw [hmd] at this
      cases hl : (s.w t).line with
      | none => rfl
      | some x => rw [hl] at this; exact absurd (this.1 rfl) (fun hh => hh)
    exact inv_local h t _ (by simp [holds, hpc]) ⟨hsl.2.2, hs, hln⟩ trivial hrb (by simp [inHand, hpc, bufOf, fresh, hln])
  | top3Wait t buf hpc hs =>
    have hsl := h.sl t; unfold slotInv at hsl; rw [hpc] at hsl
    have hrb := h.rb t; rw [hpc] at hrb
    exact inv_local h t _ (by simp [holds, hpc]) hsl trivial hrb (by simp [inHand, hpc, bufOf, fresh])
  | top3Go t buf hpc hs =>
    have hsl := h.sl t; unfold slotInv at hsl; rw [hpc] at hsl
    have hrb := h.rb t; rw [hpc] at hrb
    exact inv_local h t _ (by simp [holds, hpc]) ⟨hs, hsl.1 hs⟩ trivial hrb (by simp [inHand, hpc, bufOf, fresh])
  | read t buf l r hpc hl hr =>
    have hsl := h.sl t; unfold slotInv at hsl; rw [hpc] at hsl
    have hrb := h.rb t; rw [hpc] at hrb
    have hrb' : ∀ e ∈ buf ++ [(l, r)], rec e.1 e.2 := by
      intro e he
      rcases List.mem_append.1 he with he | he
      · exact hrb e he
      · rw [List.mem_singleton.1 he]; exact hr
    have hh : ((((buf ++ [(l, r)]).map Prod.fst : List L) : Multiset L)) = ((buf.map Prod.fst : List L) : Multiset L) + {l} := by
      rw [List.map_append, ← Multiset.coe_add]; rfl
    by_cases hq : (buf ++ [(l, r)]).length ≥ queueSize
    · rw [if_pos hq]
      exact inv_local h t _ (by simp [holds, hpc]) hsl trivial hrb'
        (by simp only [inHand, hpc, bufOf, fresh, hl, hh, if_true, Bool.false_eq_true, if_false, add_zero]; rfl)
    · rw [if_neg hq]
      exact inv_local h t _ (by simp [holds, hpc]) hsl trivial hrb'
        (by simp only [inHand, hpc, bufOf, fresh, hl, hh, if_true, Bool.false_eq_true, if_false, add_zero]; rfl)
  | flushLock t fin buf hpc hl =>
    have hsl := h.sl t; unfold slotInv at hsl; rw [hpc] at hsl
    have hrb := h.rb t; rw [hpc] at hrb
    have hL := h.l; rw [hl] at hL
    have hf := h.fr hl
    refine ⟨hL.acquire trivial, h.sd, h.m, h.g, ?_, ?_, fun hh => by simp at hh, ?_, h.ro, ?_⟩
    · exact all_upd (p := fun t x => slotInv (isWr s.mpc t) (isFl s.mpc t) s.stop x) h.sl t (by cases fin <;> exact hsl)
    · exact all_upd (p := fun _ (x : Slot L C) => fileInv s.file s.out x.pc) h.fi t hf
    · exact all_upd (p := fun _ (x : Slot L C) => ∀ e ∈ bufOf x.pc, rec e.1 e.2) h.rb t hrb
    · exact sum_upd_conserve inHand _ _ _ h.cons (by simp [inHand, hpc, bufOf, fresh])
  | flushNext t fin e buf hpc =>
    have hsl := h.sl t; unfold slotInv at hsl; rw [hpc] at hsl
    have hrb := h.rb t; rw [hpc] at hrb
    have hf := h.fi t; rw [hpc] at hf
    exact inv_local h t _ (by simp [holds, hpc]) (by cases fin <;> exact hsl) ⟨[], rfl, by rw [List.append_nil]; exact hf⟩ hrb
      (by simp [inHand, hpc, bufOf, fresh])
  | flushEnd t fin hpc =>
    have hsl := h.sl t; unfold slotInv at hsl; rw [hpc] at hsl
    have hf := h.fi t; rw [hpc] at hf
    exact inv_local h t _ (by simp [holds, hpc]) (by cases fin <;> exact hsl) hf (by simp [bufOf])
      (by simp [inHand, hpc, bufOf, fresh])
  | chunk t fin e c rem buf hpc =>
    have hsl := h.sl t; unfold slotInv at hsl; rw [hpc] at hsl
    have hrb := h.rb t; rw [hpc] at hrb
    have hf := h.fi t; rw [hpc] at hf
    obtain ⟨w, hw1, hw2⟩ := hf
    have hh : holds (s.w t) := by simp [holds, hpc]
    refine ⟨h.l.keep (by simp [holds, hpc]), h.sd, h.m, h.g, ?_, ?_, ?_, ?_, h.ro, ?_⟩
    · exact all_upd (p := fun t x => slotInv (isWr s.mpc t) (isFl s.mpc t) s.stop x) h.sl t (by cases fin <;> exact hsl)
    · intro u
      show fileInv (s.file ++ [c]) s.out (upd s.w t _ u).pc
      by_cases hu : u = t
      · subst hu; rw [upd_same]
        exact ⟨w ++ [c], by rw [hw1]; simp, by rw [hw2]; simp⟩
      · rw [upd_ne _ _ hu]
        have hn : ¬ holds (s.w u) := fun hq => hu (h.l.unique hq hh)
        cases hx : (s.w u).pc <;> simp [holds, hx] at hn <;> trivial
    · intro hn
      have := (h.l t).1 hh
      rw [show s.olock = none from hn] at this
      exact absurd this (by simp)
    · exact all_upd (p := fun _ (x : Slot L C) => ∀ e ∈ bufOf x.pc, rec e.1 e.2) h.rb t hrb
    · exact sum_upd_conserve inHand _ _ _ h.cons (by simp [inHand, hpc, bufOf, fresh])
  | recEnd t fin e buf hpc =>
    have hsl := h.sl t; unfold slotInv at hsl; rw [hpc] at hsl
    have hrb := h.rb t; rw [hpc] at hrb
    have hf := h.fi t; rw [hpc] at hf
    obtain ⟨w, hw1, hw2⟩ := hf
    have hh : holds (s.w t) := by simp [holds, hpc]
    have hfo : s.file = ((s.out ++ [e]).map Prod.snd).flatten := by
      rw [hw2, List.map_append, List.flatten_append]
      rw [List.append_nil] at hw1
      simp [hw1]
    refine ⟨h.l.keep (by simp [holds, hpc]), h.sd, h.m, h.g, ?_, ?_, ?_, ?_, ?_, ?_⟩
    · exact all_upd (p := fun t x => slotInv (isWr s.mpc t) (isFl s.mpc t) s.stop x) h.sl t (by cases fin <;> exact hsl)
    · intro u
      show fileInv s.file (s.out ++ [e]) (upd s.w t _ u).pc
      by_cases hu : u = t
      · subst hu; rw [upd_same]; exact hfo
      · rw [upd_ne _ _ hu]
        have hn : ¬ holds (s.w u) := fun hq => hu (h.l.unique hq hh)
        cases hx : (s.w u).pc <;> simp [holds, hx] at hn <;> trivial
    · intro _; exact hfo
    · exact all_upd (p := fun _ (x : Slot L C) => ∀ e ∈ bufOf x.pc, rec e.1 e.2) h.rb t (fun e' he => hrb e' (List.mem_cons_of_mem _ he))
    · intro e' he
      rcases List.mem_append.1 he with he | he
      · exact h.ro e' he
      · rw [List.mem_singleton.1 he]; exact hrb e (List.mem_cons_self ..)
    · refine sum_upd_conserve inHand _ _ _ h.cons ?_
      simp only [inHand, hpc, bufOf, fresh, Bool.false_eq_true, if_false, add_zero]
      have e1 : (((s.out ++ [e]).map Prod.fst : List L) : Multiset L) = ((s.out.map Prod.fst : List L) : Multiset L) + {e.1} := by
        rw [List.map_append, ← Multiset.coe_add]; rfl
      have e2 : (((e :: buf).map Prod.fst : List L) : Multiset L) = {e.1} + ((buf.map Prod.fst : List L) : Multiset L) := by
        rw [List.map_cons, ← Multiset.cons_coe, ← Multiset.singleton_add]
      rw [e1, e2]
      ac_rfl
  | unlockGo t hpc =>
    have hsl := h.sl t; unfold slotInv at hsl; rw [hpc] at hsl
    have hf := h.fi t; rw [hpc] at hf
    have hh : holds (s.w t) := by simp [holds, hpc]
    refine ⟨h.l.release (t := t) hh (fun hq => hq), h.sd, h.m, h.g, ?_, ?_, fun _ => hf, ?_, h.ro, ?_⟩
    · exact all_upd (p := fun t x => slotInv (isWr s.mpc t) (isFl s.mpc t) s.stop x) h.sl t hsl
    · exact all_upd (p := fun _ (x : Slot L C) => fileInv s.file s.out x.pc) h.fi t trivial
    · exact all_upd (p := fun _ (x : Slot L C) => ∀ e ∈ bufOf x.pc, rec e.1 e.2) h.rb t (by simp [bufOf])
    · exact sum_upd_conserve inHand _ _ _ h.cons (by simp [inHand, hpc, bufOf, fresh])
  | unlockEnd t hpc =>
    have hsl := h.sl t; unfold slotInv at hsl; rw [hpc] at hsl
    have hf := h.fi t; rw [hpc] at hf
    have hh : holds (s.w t) := by simp [holds, hpc]
    refine ⟨h.l.release (t := t) hh (fun hq => hq), h.sd, h.m, h.g, ?_, ?_, fun _ => hf, ?_, h.ro, ?_⟩
    · exact all_upd (p := fun t x => slotInv (isWr s.mpc t) (isFl s.mpc t) s.stop x) h.sl t hsl
    · exact all_upd (p := fun _ (x : Slot L C) => fileInv s.file s.out x.pc) h.fi t trivial
    · exact all_upd (p := fun _ (x : Slot L C) => ∀ e ∈ bufOf x.pc, rec e.1 e.2) h.rb t (by simp [bufOf])
    · exact sum_upd_conserve inHand _ _ _ h.cons (by simp [inHand, hpc, bufOf, fresh])
  | clear t buf hpc =>
    have hsl := h.sl t; unfold slotInv at hsl; rw [hpc] at hsl
    have hrb := h.rb t; rw [hpc] at hrb
    exact inv_local h t _ (by simp [holds, hpc]) ⟨hsl.1, rfl, hsl.2.2⟩ trivial hrb (by simp [inHand, hpc, bufOf, fresh])
  | setFree t buf hpc =>
    have hsl := h.sl t; unfold slotInv at hsl; rw [hpc] at hsl
    have hrb := h.rb t; rw [hpc] at hrb
    refine inv_local h t _ (by simp [holds, hpc]) ⟨fun hh => by simp at hh, fun _ => ?_⟩ trivial hrb
      (by simp [inHand, hpc, bufOf, fresh, hsl.2.1])
    simp only [hsl.2.1]
    exact ⟨fun hh => by simp at hh, fun hh => absurd hh hsl.2.2.2⟩

theorem inv_reach {L C : Type} {n : Nat} {rec : L → List C → Prop} {max : Int} {input : List L} {s : St L C n}
    (h : Reach (Step rec max) (start n input) s) : Inv rec max input s :=
  h.inv (Inv rec max input) (inv_start rec max input) (fun _ _ a b => inv_step a b)

/-- C47. When all workers have finished, the file is the concatenation of records, one for every line asked for (the
first `maximum_lines` lines), each exactly once and each in one piece, in some order; each record is a possible result
of compressing its line. Holds for every number of workers (at least one) and every schedule. -/
theorem C47_every_line_once {L C : Type} {n : Nat} (hn : 0 < n) (rec : L → List C → Prop) (max : Int) (input : List L) (s : St L C n)
    (h : Reach (Step rec max) (start n input) s) (hd : ∀ t, (s.w t).pc = .done) :
    ∃ recs : List (L × List C), s.file = (recs.map Prod.snd).flatten ∧ (recs.map Prod.fst).Perm (wanted max input) ∧
      ∀ e ∈ recs, rec e.1 e.2 := by
  have I := inv_reach h
  have hlock : s.olock = none := by
    cases hl : s.olock with
    | none => rfl
    | some t => have := (I.l t).2 hl; simp [holds, hd t] at this
  have hstop : s.stop = true := by
    have := I.sl ⟨0, hn⟩
    unfold slotInv at this
    rw [hd] at this
    exact this.1
  have hm := I.sd.1 hstop
  have hg := I.m
  rw [hm] at hg
  have hg : s.given = wanted max input := hg
  refine ⟨s.out, I.fr hlock, ?_, I.ro⟩
  have c := I.cons
  rw [hm, sum_zero_of_forall inHand s.w (fun t => by simp [inHand, hd t, bufOf, fresh]), hg] at c
  simp only [mHand, zero_add, add_zero] at c
  exact Multiset.coe_eq_coe.1 c

/-- C47. At every moment (so also if the tool is killed) the file holds complete records, followed by at most the
beginning of one more. -/
theorem C47_records_contiguous {L C : Type} {n : Nat} (rec : L → List C → Prop) (max : Int) (input : List L) (s : St L C n)
    (h : Reach (Step rec max) (start n input) s) :
    ∃ (recs : List (L × List C)) (part : List C), s.file = (recs.map Prod.snd).flatten ++ part ∧ (∀ e ∈ recs, rec e.1 e.2) ∧
      (part = [] ∨ ∃ l rest, rec l (part ++ rest)) := by
  have I := inv_reach h
  cases hl : s.olock with
  | none => exact ⟨s.out, [], by rw [List.append_nil]; exact I.fr hl, I.ro, Or.inl rfl⟩
  | some t =>
    have hh := (I.l t).2 hl
    have hf := I.fi t
    have hb := I.rb t
    cases hx : (s.w t).pc with
    | flushNext f b => rw [hx] at hf; exact ⟨s.out, [], by rw [List.append_nil]; exact hf, I.ro, Or.inl rfl⟩
    | flushUnlock f => rw [hx] at hf; exact ⟨s.out, [], by rw [List.append_nil]; exact hf, I.ro, Or.inl rfl⟩
    | flushRec f e rem b =>
      rw [hx] at hf hb
      obtain ⟨w, hw1, hw2⟩ := hf
      exact ⟨s.out, w, hw2, I.ro, Or.inr ⟨e.1, rem, by rw [← hw1]; exact hb e (List.mem_cons_self ..)⟩⟩
    | _ => simp [holds, hx] at hh

/-! ## Every run can be finished -/

def mrank {L : Type} {n : Nat} : MPC L n → Nat
  | .get _ => 10 | .scan _ _ i => 200 + (n - i) | .write _ _ _ => 150 | .flag _ _ => 140 | .next _ => 12 | .stopping => 5 | .done => 0
def wrank {L C : Type} (x : Slot L C) : Nat := (if x.working then 100 else 0) + 4 * (bufOf x.pc).length + match x.pc with
  | .top1 _ => 20 | .top2 _ => 19 | .top3 _ => 21 | .read _ => 11 | .flushLock _ _ => 5 | .flushNext _ _ => 4 | .flushRec _ _ _ _ => 3
  | .flushUnlock _ => 3 | .clear _ => 2 | .setFree _ => 1 | .done => 0
/-- Chunks still to be written of the current record. -/
def crank {L C : Type} (x : Slot L C) : Nat := match x.pc with
  | .flushRec _ _ rem _ => rem.length
  | _ => 0
def m1 {L C : Type} {n : Nat} (s : St L C n) : Nat := ((300 + n) * s.todo.length + mrank s.mpc) + ∑ t, wrank (s.w t)
def m2 {L C : Type} {n : Nat} (s : St L C n) : Nat := ∑ t, crank (s.w t)
def Less {L C : Type} {n : Nat} (s' s : St L C n) : Prop := m1 s' < m1 s ∨ (m1 s' = m1 s ∧ m2 s' < m2 s)

theorem less_w {L C : Type} {n : Nat} (s s' : St L C n) (t : Fin n) (x : Slot L C) (h1 : s'.todo = s.todo) (h2 : s'.mpc = s.mpc)
    (h3 : s'.w = upd s.w t x) (h : wrank x < wrank (s.w t)) : Less s' s := by
  refine Or.inl ?_
  unfold m1
  rw [h1, h2, h3]
  exact sum_upd_lt wrank s.w t x (by omega)

theorem less_c {L C : Type} {n : Nat} (s s' : St L C n) (t : Fin n) (x : Slot L C) (h1 : s'.todo = s.todo) (h2 : s'.mpc = s.mpc)
    (h3 : s'.w = upd s.w t x) (h : wrank x = wrank (s.w t)) (h' : crank x < crank (s.w t)) : Less s' s := by
  refine Or.inr ⟨?_, ?_⟩
  · unfold m1
    rw [h1, h2, h3]
    have := sum_upd wrank s.w t x
    omega
  · unfold m2
    rw [h3]
    have := sum_upd crank s.w t x
    omega

theorem upd_upd {n : Nat} {A : Type} (f : Fin n → A) (t : Fin n) (x y : A) : upd (upd f t x) t y = upd f t y := Function.update_idem ..

/-- The holder of the lock can go on. -/
theorem holder_moves {L C : Type} {n : Nat} {rec : L → List C → Prop} {max : Int} (s : St L C n) (t : Fin n) (h : holds (s.w t)) :
    ∃ s', Step rec max s s' ∧ Less s' s := by
  unfold holds at h
  cases hpc : (s.w t).pc with
  | flushNext fin buf =>
    cases buf with
    | nil => exact ⟨_, Step.flushEnd s t fin hpc, less_w _ _ t _ rfl rfl rfl (by simp [wrank, hpc, bufOf])⟩
    | cons e buf => exact ⟨_, Step.flushNext s t fin e buf hpc, less_w _ _ t _ rfl rfl rfl (by simp [wrank, hpc, bufOf])⟩
  | flushRec fin e rem buf =>
    cases rem with
    | nil => exact ⟨_, Step.recEnd s t fin e buf hpc, less_w _ _ t _ rfl rfl rfl (by simp [wrank, hpc, bufOf]; omega)⟩
    | cons c rem => exact ⟨_, Step.chunk s t fin e c rem buf hpc, less_c _ _ t _ rfl rfl rfl (by simp [wrank, hpc, bufOf]) (by simp [crank, hpc])⟩
  | flushUnlock fin =>
    cases fin with
    | true => exact ⟨_, Step.unlockEnd s t hpc, less_w _ _ t _ rfl rfl rfl (by simp [wrank, hpc, bufOf])⟩
    | false => exact ⟨_, Step.unlockGo s t hpc, less_w _ _ t _ rfl rfl rfl (by simp [wrank, hpc, bufOf])⟩
  | _ => simp [hpc] at h

/-- Lines handed out are lines asked for. -/
theorem Inv.given_wanted {L C : Type} {n : Nat} {rec : L → List C → Prop} {max : Int} {input : List L} {s : St L C n}
    (I : Inv rec max input s) : ∀ l ∈ s.given, l ∈ wanted max input := by
  have key : (0 < max → (s.given.length : Int) ≤ max) → ∀ l ∈ s.given, l ∈ wanted max input := by
    intro hle l hl
    unfold wanted
    by_cases hm : max ≤ 0
    · rw [if_pos hm, I.g]; exact List.mem_append_left _ hl
    · rw [if_neg hm, I.g, List.take_append]
      refine List.mem_append_left _ ?_
      rw [List.take_of_length_le (by have := hle (by omega); omega)]
      exact hl
  have hm := I.m
  cases hp : s.mpc <;> rw [hp] at hm <;> simp only [minv] at hm
  case stopping => intro l hl; rw [← hm]; exact hl
  case done => intro l hl; rw [← hm]; exact hl
  all_goals
    apply key
    intro h0
    have := hm.2 h0
    omega

/-- The line a worker is about to read is one asked for. -/
theorem Inv.line_wanted {L C : Type} {n : Nat} {rec : L → List C → Prop} {max : Int} {input : List L} {s : St L C n}
    (I : Inv rec max input s) {t : Fin n} {buf : List (L × List C)} {l : L} (hpc : (s.w t).pc = .read buf) (hl : (s.w t).line = some l) :
    l ∈ wanted max input := by
  apply I.given_wanted
  rw [← Multiset.mem_coe, ← I.cons, Multiset.mem_add]
  right
  rw [Multiset.mem_sum]
  refine ⟨t, Finset.mem_univ t, ?_⟩
  simp [inHand, hpc, fresh, hl]

/-- A worker that has work, or has been told to stop, can go on when the lock is free. -/
theorem worker_moves {L C : Type} {n : Nat} {rec : L → List C → Prop} {max : Int} {input : List L} (hrec : ∀ l ∈ wanted max input, ∃ r, rec l r) {s : St L C n}
    (I : Inv rec max input s) (t : Fin n) (hl : s.olock = none) (hw : (s.w t).working = true ∨ s.stop = true) (hd : (s.w t).pc ≠ .done) :
    ∃ s', Reach (Step rec max) s s' ∧ Less s' s := by
  have hsl := I.sl t
  unfold slotInv at hsl
  cases hpc : (s.w t).pc with
  | done => exact absurd hpc hd
  | flushNext fin buf => obtain ⟨s', a, b⟩ := holder_moves (rec := rec) (max := max) s t (by simp [holds, hpc]); exact ⟨s', .single a, b⟩
  | flushRec fin e rem buf => obtain ⟨s', a, b⟩ := holder_moves (rec := rec) (max := max) s t (by simp [holds, hpc]); exact ⟨s', .single a, b⟩
  | flushUnlock fin => obtain ⟨s', a, b⟩ := holder_moves (rec := rec) (max := max) s t (by simp [holds, hpc]); exact ⟨s', .single a, b⟩
  | flushLock fin buf => exact ⟨_, .single (Step.flushLock s t fin buf hpc hl), less_w _ _ t _ rfl rfl rfl (by simp [wrank, hpc, bufOf])⟩
  | clear buf => exact ⟨_, .single (Step.clear s t buf hpc), less_w _ _ t _ rfl rfl rfl (by simp [wrank, hpc, bufOf])⟩
  | setFree buf =>
    rw [hpc] at hsl
    exact ⟨_, .single (Step.setFree s t buf hpc), less_w _ _ t _ rfl rfl rfl (by simp only [wrank, hpc, bufOf, hsl.1, Bool.false_eq_true, if_false, if_true]; omega)⟩
  | read buf =>
    rw [hpc] at hsl
    obtain ⟨l, hln⟩ := Option.isSome_iff_exists.1 hsl.2.1
    obtain ⟨r, hr⟩ := hrec l (I.line_wanted hpc hln)
    refine ⟨_, .single (Step.read s t buf l r hpc hln hr), less_w _ _ t _ rfl rfl rfl ?_⟩
    by_cases hq : (buf ++ [(l, r)]).length ≥ queueSize
    · rw [if_pos hq]; simp [wrank, hpc, bufOf]; omega
    · rw [if_neg hq]; simp [wrank, hpc, bufOf]; omega
  | top3 buf =>
    cases hwk : (s.w t).working with
    | true => exact ⟨_, .single (Step.top3Go s t buf hpc hwk), less_w _ _ t _ rfl rfl rfl (by simp [wrank, hpc, bufOf])⟩
    | false => exact ⟨_, .single (Step.top3Wait s t buf hpc hwk), less_w _ _ t _ rfl rfl rfl (by simp [wrank, hpc, bufOf])⟩
  | top2 buf =>
    cases hwk : (s.w t).working with
    | true =>
      have a := Step.top2Go (rec := rec) (max := max) s t buf hpc hwk
      have b := Step.top3Go (rec := rec) (max := max) { s with w := upd s.w t { s.w t with pc := .top3 buf } } t buf (by simp [upd_same]) (by simp [upd_same, hwk])
      exact ⟨_, .step (.single a) b, less_w _ _ t { s.w t with pc := .read buf } rfl rfl (by simp [upd_same, upd_upd]) (by simp [wrank, hpc, bufOf])⟩
    | false => exact ⟨_, .single (Step.top2End s t buf hpc hwk), less_w _ _ t _ rfl rfl rfl (by simp [wrank, hpc, bufOf])⟩
  | top1 buf =>
    cases hst : s.stop with
    | true => exact ⟨_, .single (Step.top1Stop s t buf hpc hst), less_w _ _ t _ rfl rfl rfl (by simp [wrank, hpc, bufOf])⟩
    | false =>
      have hwk : (s.w t).working = true := by simpa [hst] using hw
      have a := Step.top1Go (rec := rec) (max := max) s t buf hpc hst
      have b := Step.top3Go (rec := rec) (max := max) { s with w := upd s.w t { s.w t with pc := .top3 buf } } t buf (by simp [upd_same]) (by simp [upd_same, hwk])
      exact ⟨_, .step (.single a) b, less_w _ _ t { s.w t with pc := .read buf } rfl rfl (by simp [upd_same, upd_upd]) (by simp [wrank, hpc, bufOf])⟩

theorem scan_le {L C : Type} {n : Nat} {rec : L → List C → Prop} {max : Int} {input : List L} {s : St L C n}
    (h : Reach (Step rec max) (start n input) s) : ∀ k l i, s.mpc = .scan k l i → i ≤ n := by
  refine h.inv (fun s => ∀ k l i, s.mpc = .scan k l i → i ≤ n) (by intro k l i hh; simp [start] at hh) ?_
  intro s s' ih st
  cases st <;> intro k' l' i' hh <;> simp only at hh <;> first
    | exact ih _ _ _ hh
    | (cases hh; omega)
    | (exact absurd hh (by simp))

/-- One more round of progress, as long as not everything has finished. -/
theorem progress {L C : Type} {n : Nat} (hn : 0 < n) {rec : L → List C → Prop} {max : Int} {input : List L} (hrec : ∀ l ∈ wanted max input, ∃ r, rec l r) {s : St L C n}
    (h : Reach (Step rec max) (start n input) s) (hd : ¬ (s.mpc = .done ∧ ∀ t, (s.w t).pc = .done)) :
    ∃ s', Reach (Step rec max) s s' ∧ Less s' s := by
  have I := inv_reach h
  cases hl : s.olock with
  | some t => obtain ⟨s', a, b⟩ := holder_moves (rec := rec) (max := max) s t ((I.l t).2 hl); exact ⟨s', .single a, b⟩
  | none =>
    have hbusy : ∀ t, (s.w t).working = true → ∃ s', Reach (Step rec max) s s' ∧ Less s' s := by
      intro t ht
      refine worker_moves hrec I t hl (Or.inl ht) ?_
      intro hpc
      have := I.sl t
      unfold slotInv at this
      rw [hpc] at this
      rw [ht] at this
      exact absurd this.2.1 (by simp)
    cases hm : s.mpc with
    | get k =>
      cases ht : s.todo with
      | nil => exact ⟨_, .single (Step.eof s k hm ht), Or.inl (by simp [m1, hm, mrank])⟩
      | cons l r => exact ⟨_, .single (Step.get s k l r hm ht), Or.inl (by simp only [m1, hm, mrank, ht, List.length_cons, Nat.mul_succ]; omega)⟩
    | scan k l i =>
      have hi := scan_le h k l i hm
      by_cases hin : i = n
      · subst hin
        cases hwk : (s.w ⟨0, hn⟩).working with
        | true => exact hbusy _ hwk
        | false =>
          have a := Step.scanAgain (rec := rec) (max := max) s k l hm
          have b := Step.scanFree (rec := rec) (max := max) { s with mpc := .scan k l 0 } k l ⟨0, hn⟩ rfl hwk
          exact ⟨_, .step (.single a) b, Or.inl (by simp only [m1, hm, mrank]; omega)⟩
      · obtain ⟨i, rfl⟩ : ∃ j : Fin n, i = j := ⟨⟨i, by omega⟩, rfl⟩
        cases hwk : (s.w i).working with
        | true => exact hbusy _ hwk
        | false => exact ⟨_, .single (Step.scanFree s k l i hm hwk), Or.inl (by simp only [m1, hm, mrank]; omega)⟩
    | write k l i =>
      refine ⟨_, .single (Step.write s k l i hm), Or.inl ?_⟩
      simp only [m1, hm, mrank]
      exact sum_upd_lt wrank s.w i _ (by simp only [wrank]; omega)
    | flag k i =>
      refine ⟨_, .single (Step.flag s k i hm), Or.inl ?_⟩
      simp only [m1, hm, mrank]
      refine sum_upd_lt wrank s.w i _ ?_
      simp only [wrank, if_true]
      omega
    | next k =>
      by_cases hx : (k + 1 : Int) = max
      · exact ⟨_, .single (Step.limit s k hm hx), Or.inl (by simp only [m1, hm, mrank]; omega)⟩
      · exact ⟨_, .single (Step.more s k hm hx), Or.inl (by simp only [m1, hm, mrank]; omega)⟩
    | stopping => exact ⟨_, .single (Step.stop s hm), Or.inl (by simp only [m1, hm, mrank]; omega)⟩
    | done =>
      have hst := I.sd.2 hm
      have : ∃ t, (s.w t).pc ≠ .done := by
        by_contra hh
        exact hd ⟨hm, fun t => by by_contra hx; exact hh ⟨t, hx⟩⟩
      obtain ⟨t, ht⟩ := this
      exact worker_moves hrec I t hl (Or.inr hst) ht

/-- C47. Whatever has happened so far, the run can be finished: there is no deadlock, and no worker waits for ever on a
line that is not coming. Every line asked for is assumed to have a record (to hold a mesh). -/
theorem C47_can_finish {L C : Type} {n : Nat} (hn : 0 < n) (rec : L → List C → Prop) (max : Int) (input : List L) (hrec : ∀ l ∈ wanted max input, ∃ r, rec l r)
    (s : St L C n) (h : Reach (Step rec max) (start n input) s) :
    ∃ s', Reach (Step rec max) s s' ∧ s'.mpc = .done ∧ ∀ t, (s'.w t).pc = .done := by
  have main : ∀ (a b : Nat) (s : St L C n), m1 s = a → m2 s = b → Reach (Step rec max) (start n input) s →
      ∃ s', Reach (Step rec max) s s' ∧ s'.mpc = .done ∧ ∀ t, (s'.w t).pc = .done := by
    intro a
    induction a using Nat.strong_induction_on with
    | _ a iha =>
      intro b
      induction b using Nat.strong_induction_on with
      | _ b ihb =>
        intro s ha hb h
        by_cases hd : s.mpc = .done ∧ ∀ t, (s.w t).pc = .done
        · exact ⟨s, .init, hd⟩
        · obtain ⟨s', hr, hless⟩ := progress hn hrec h hd
          rcases hless with hless | ⟨he, hless⟩
          · obtain ⟨s'', h1, h2⟩ := iha (m1 s') (by omega) (m2 s') s' rfl rfl (h.trans hr)
            exact ⟨s'', hr.trans h1, h2⟩
          · obtain ⟨s'', h1, h2⟩ := ihb (m2 s') (by omega) s' (by omega) rfl (h.trans hr)
            exact ⟨s'', hr.trans h1, h2⟩
  exact main _ _ s rfl rfl h

/-- The hypotheses of the theorems above can be met: three lines, a limit of two, two workers; some run finishes, and its
file holds the records of the first two lines. -/
example : ∃ s : St Nat Nat 2, Reach (Step (fun l r => r = [l, l]) 2) (start 2 [7, 8, 9]) s ∧ (∀ t, (s.w t).pc = .done) ∧
    (s.file = [7, 7, 8, 8] ∨ s.file = [8, 8, 7, 7]) := by
  obtain ⟨s, h, _, hd⟩ := C47_can_finish (n := 2) (by decide) (fun (l : Nat) (r : List Nat) => r = [l, l]) 2 [7, 8, 9] (fun l _ => ⟨_, rfl⟩) _ .init
  refine ⟨s, h, hd, ?_⟩
  obtain ⟨recs, hf, hp, hr⟩ := C47_every_line_once (by decide) _ _ _ s h hd
  have hw : wanted 2 [7, 8, 9] = [7, 8] := by decide
  rw [hw] at hp
  have hlen := hp.length_eq
  obtain ⟨e1, e2, rfl⟩ : ∃ e1 e2, recs = [e1, e2] := by
    match recs, hlen with
    | [e1, e2], _ => exact ⟨e1, e2, rfl⟩
  have h1 := hr e1 (by simp)
  have h2 := hr e2 (by simp)
  simp only [List.map_cons, List.map_nil, List.flatten_cons, List.flatten_nil, h1, h2] at hf
  have : e1.1 = 7 ∧ e2.1 = 8 ∨ e1.1 = 8 ∧ e2.1 = 7 := by
    simp only [List.map_cons, List.map_nil] at hp
    have a1 := hp.subset (show e1.1 ∈ [e1.1, e2.1] by simp)
    have a2 := hp.subset (show e2.1 ∈ [e1.1, e2.1] by simp)
    have b1 := hp.symm.subset (show 7 ∈ [7, 8] by simp)
    have b2 := hp.symm.subset (show 8 ∈ [7, 8] by simp)
    simp only [List.mem_cons, List.not_mem_nil, or_false] at a1 a2 b1 b2
    omega
  rcases this with ⟨a, b⟩ | ⟨a, b⟩ <;> rw [a, b] at hf <;> simp [hf]

end TDP.Conc.Compress
