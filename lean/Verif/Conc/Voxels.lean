import Verif.Conc.Base
import Mathlib.Data.Multiset.Basic
/-! C46: boxes of the sampled input lines (partition.cpp:21-146). -/
namespace TDP.Conc.GetVoxels
open TDP.Conc

/-- The main thread in `get_voxels` (partition.cpp:103-145), with its local buffer. -/
inductive MPC (L : Type)
  | read (buf : List L)    -- 111: `getline`, sampling
  | lock (buf : List L)    -- 124: buffer full, at `pthread_mutex_lock`
  | push (rest : List L)   -- 125-127, holding the lock
  | unlock                 -- 128, holding the lock; then the buffer is cleared
  | wait (buf : List L)    -- 132: waiting for the queue to get short
  | done                   -- 140: `complete` was set, joining the workers

/-- A worker in `get_mbbs_unit` (partition.cpp:31-76), with its local boxes `acc` and local lines `loc`. -/
inductive WPC (L B : Type)
  | top1 (acc : List B)                                  -- 39: reads `complete`
  | top2 (acc : List B)                                  -- 39: `complete` was set; looks at the queue
  | lock (acc : List B)                                  -- 42, at `pthread_mutex_lock`
  | fetch (k : Nat) (loc : List L) (acc : List B)        -- 43-49, `k` rounds done, holding the lock
  | unlock (loc : List L) (acc : List B)                 -- 50, holding the lock
  | proc (loc : List L) (acc : List B)                   -- 51-68
  | endLock (acc : List B)                               -- 71, at `pthread_mutex_lock`
  | endInsert (acc : List B)                             -- 72, holding the lock
  | endUnlock                                            -- 74, holding the lock
  | done

/-- Shared state. `pushed` is a ghost: all lines put into the queue so far, in order. `lock` is the global mutex:
`some none` means held by the main thread. -/
structure St (L B : Type) (n : Nat) where
  todo : List L
  queue : List L
  complete : Bool
  voxels : List B
  lock : Option (Option (Fin n))
  mpc : MPC L
  pc : Fin n → WPC L B
  pushed : List L

/-- Workers started, nothing read. `lines` are the lines that pass the sampling (`get_rand_sample`), in file order:
lines that do not are skipped without other effect. -/
def start {L B : Type} (n : Nat) (lines : List L) : St L B n :=
  { todo := lines, queue := [], complete := false, voxels := [], lock := none, mpc := .read [], pc := fun _ => .top1 [], pushed := [] }

/-- One step of one thread. `parse` is `get_mesh` followed by taking the box: `none` when no mesh results
(partition.cpp:57-66). Waiting (usleep loops) is not being able to move. -/
inductive Step {L B : Type} {n : Nat} (parse : L → Option B) : St L B n → St L B n → Prop
  | readMore (s l r buf) : s.mpc = .read buf → s.todo = l :: r → buf.length + 1 ≠ 10 →
      Step parse s { s with todo := r, mpc := .wait (buf ++ [l]) }
  | readFull (s l r buf) : s.mpc = .read buf → s.todo = l :: r → buf.length + 1 = 10 →
      Step parse s { s with todo := r, mpc := .lock (buf ++ [l]) }
  | readEnd (s buf) : s.mpc = .read buf → s.todo = [] → Step parse s { s with complete := true, mpc := .done }
  | mLock (s buf) : s.mpc = .lock buf → s.lock = none → Step parse s { s with lock := some none, mpc := .push buf }
  | mPush (s l r) : s.mpc = .push (l :: r) →
      Step parse s { s with queue := s.queue ++ [l], pushed := s.pushed ++ [l], mpc := .push r }
  | mPushed (s) : s.mpc = .push [] → Step parse s { s with mpc := .unlock }
  | mUnlock (s) : s.mpc = .unlock → Step parse s { s with lock := none, mpc := .wait [] }
  | mWait (s buf) : s.mpc = .wait buf → s.queue.length ≤ n * 10 → Step parse s { s with mpc := .read buf }
  | topGo (s t acc) : s.pc t = .top1 acc → s.complete = false → Step parse s { s with pc := upd s.pc t (.lock acc) }
  | topNext (s t acc) : s.pc t = .top1 acc → s.complete = true → Step parse s { s with pc := upd s.pc t (.top2 acc) }
  | top2Go (s t acc) : s.pc t = .top2 acc → s.queue ≠ [] → Step parse s { s with pc := upd s.pc t (.lock acc) }
  | top2End (s t acc) : s.pc t = .top2 acc → s.queue = [] → Step parse s { s with pc := upd s.pc t (.endLock acc) }
  | wLock (s t acc) : s.pc t = .lock acc → s.lock = none →
      Step parse s { s with lock := some (some t), pc := upd s.pc t (.fetch 0 [] acc) }
  | fetch (s t k loc acc l r) : s.pc t = .fetch k loc acc → k < 10 → s.queue = l :: r →
      Step parse s { s with queue := r, pc := upd s.pc t (.fetch (k + 1) (loc ++ [l]) acc) }
  | fetched (s t k loc acc) : s.pc t = .fetch k loc acc → (¬ k < 10 ∨ s.queue = []) →
      Step parse s { s with pc := upd s.pc t (.unlock loc acc) }
  | wUnlock (s t loc acc) : s.pc t = .unlock loc acc → Step parse s { s with lock := none, pc := upd s.pc t (.proc loc acc) }
  | proc (s t l loc acc) : s.pc t = .proc (l :: loc) acc →
      Step parse s { s with pc := upd s.pc t (.proc loc (acc ++ (parse l).toList)) }
  | procEnd (s t acc) : s.pc t = .proc [] acc → Step parse s { s with pc := upd s.pc t (.top1 acc) }
  | eLock (s t acc) : s.pc t = .endLock acc → s.lock = none →
      Step parse s { s with lock := some (some t), pc := upd s.pc t (.endInsert acc) }
  | eInsert (s t acc) : s.pc t = .endInsert acc →
      Step parse s { s with voxels := s.voxels ++ acc, pc := upd s.pc t .endUnlock }
  | eUnlock (s t) : s.pc t = .endUnlock → Step parse s { s with lock := none, pc := upd s.pc t .done }

/-! ## Invariants -/

def mholds {L : Type} : MPC L → Prop
  | .push _ | .unlock => True
  | _ => False
def wholds {L B : Type} : WPC L B → Prop
  | .fetch _ _ _ | .unlock _ _ | .endInsert _ | .endUnlock => True
  | _ => False

/-- The boxes of some lines. -/
def boxes {L B : Type} (parse : L → Option B) (l : List L) : Multiset B := (l.filterMap parse : List B)

theorem boxes_nil {L B : Type} (parse : L → Option B) : boxes parse [] = 0 := rfl
theorem boxes_append {L B : Type} (parse : L → Option B) (a b : List L) : boxes parse (a ++ b) = boxes parse a + boxes parse b := by
  unfold boxes; rw [List.filterMap_append, Multiset.coe_add]
theorem boxes_single {L B : Type} (parse : L → Option B) (l : L) : boxes parse [l] = ((parse l).toList : Multiset B) := by
  unfold boxes; cases h : parse l <;> simp [h]
theorem boxes_cons {L B : Type} (parse : L → Option B) (l : L) (r : List L) :
    boxes parse (l :: r) = ((parse l).toList : Multiset B) + boxes parse r := by
  rw [← boxes_single, ← boxes_append]; rfl

/-- What a worker has in its hands. -/
def inHand {L B : Type} (parse : L → Option B) : WPC L B → Multiset B
  | .top1 acc | .top2 acc | .lock acc | .endLock acc | .endInsert acc => acc
  | .fetch _ loc acc | .unlock loc acc | .proc loc acc => boxes parse loc + acc
  | .endUnlock | .done => 0

/-- Where the lines read are. -/
def minv {L B : Type} {n : Nat} (lines : List L) (s : St L B n) : MPC L → Prop
  | .read buf | .wait buf => lines = s.pushed ++ buf ++ s.todo ∧ 10 ∣ s.pushed.length ∧ buf.length < 10
  | .lock buf => lines = s.pushed ++ buf ++ s.todo ∧ 10 ∣ s.pushed.length ∧ buf.length = 10
  | .push rest => lines = s.pushed ++ rest ++ s.todo ∧ 10 ∣ s.pushed.length + rest.length
  | .unlock => lines = s.pushed ++ s.todo ∧ 10 ∣ s.pushed.length
  | .done => s.pushed = lines.take (10 * (lines.length / 10))

/-- What a worker knows. -/
def local' {L B : Type} (complete : Bool) (queue : List L) : WPC L B → Prop
  | .top2 _ => complete = true
  | .endLock _ | .endInsert _ | .endUnlock | .done => complete = true ∧ queue = []
  | _ => True

structure Inv {L B : Type} {n : Nat} (parse : L → Option B) (lines : List L) (s : St L B n) : Prop where
  lw : LockInv wholds s.pc (s.lock.bind id)
  lm : mholds s.mpc ↔ s.lock = some none
  cd : s.complete = true ↔ s.mpc = .done
  m : minv lines s s.mpc
  loc : ∀ t, local' s.complete s.queue (s.pc t)
  cons : (boxes parse s.queue + (s.voxels : Multiset B)) + ∑ t, inHand parse (s.pc t) = boxes parse s.pushed

theorem loc_upd {L B : Type} {n : Nat} {c : Bool} {q : List L} {pc : Fin n → WPC L B} (h : ∀ t, local' c q (pc t)) (t : Fin n)
    {x : WPC L B} (hx : local' c q x) : ∀ u, local' c q (upd pc t x u) := by
  intro u
  by_cases hu : u = t
  · subst hu; rw [upd_same]; exact hx
  · rw [upd_ne _ _ hu]; exact h u

/-- While the main thread is at work no worker has left. -/
theorem loc_mono {L B : Type} {c c' : Bool} {q q' : List L} {x : WPC L B} (h : local' c q x)
    (hc : c = true → c' = true) (hq : c = true → q = [] → q' = []) : local' c' q' x := by
  cases x <;> simp only [local'] at h ⊢
  · exact hc h
  all_goals exact ⟨hc h.1, hq h.1 h.2⟩

theorem take_multiple {L : Type} (a b : List L) (h : 10 ∣ a.length) (hb : b.length < 10) :
    a = (a ++ b).take (10 * ((a ++ b).length / 10)) := by
  obtain ⟨k, hk⟩ := h
  have : (a ++ b).length / 10 = k := by rw [List.length_append, hk]; omega
  rw [this, ← hk, List.take_left]

theorem inv_start {L B : Type} {n : Nat} (parse : L → Option B) (lines : List L) : Inv parse lines (start (B := B) n lines) where
  lw := fun t => by simp [start, wholds]
  lm := by simp [start, mholds]
  cd := by simp [start]
  m := by simp [start, minv]
  loc := fun t => by simp [start, local']
  cons := by simp [start, inHand, boxes_nil]

theorem inv_step {L B : Type} {n : Nat} {parse : L → Option B} {lines : List L} {s s' : St L B n} (h : Inv parse lines s)
    (st : Step parse s s') : Inv parse lines s' := by
  obtain ⟨lw, lm, cd, m, loc, cons⟩ := h
  cases st with
  | readMore l r buf hm ht hb =>
    rw [hm] at m lm cd
    obtain ⟨m1, m2, m3⟩ := m
    refine ⟨lw, by simpa [mholds] using lm, by simpa using cd, ?_, loc, cons⟩
    refine ⟨?_, m2, ?_⟩
    · show lines = s.pushed ++ (buf ++ [l]) ++ r
      rw [m1, ht]; simp
    · rw [List.length_append]; simp; omega
  | readFull l r buf hm ht hb =>
    rw [hm] at m lm cd
    obtain ⟨m1, m2, m3⟩ := m
    refine ⟨lw, by simpa [mholds] using lm, by simpa using cd, ?_, loc, cons⟩
    refine ⟨?_, m2, ?_⟩
    · show lines = s.pushed ++ (buf ++ [l]) ++ r
      rw [m1, ht]; simp
    · rw [List.length_append]; simpa using hb
  | readEnd buf hm ht =>
    rw [hm] at m lm cd
    obtain ⟨m1, m2, m3⟩ := m
    have hc : s.complete = false := by
      rw [← Bool.not_eq_true, cd]; simp
    refine ⟨lw, by simpa [mholds] using lm, by simp, ?_, fun t => ?_, cons⟩
    · show s.pushed = _
      rw [m1, ht, List.append_nil]
      exact take_multiple _ _ m2 m3
    · exact loc_mono (loc t) (fun _ => rfl) (fun _ h => h)
  | mLock buf hm hl =>
    rw [hm] at m cd
    obtain ⟨m1, m2, m3⟩ := m
    refine ⟨?_, by simp [mholds], by simpa using cd, ⟨m1, ?_⟩, loc, cons⟩
    · rw [hl] at lw; exact lw
    · show 10 ∣ s.pushed.length + buf.length
      rw [m3]; omega
  | mPush l r hm =>
    rw [hm] at m cd lm
    obtain ⟨m1, m2⟩ := m
    have hc : ¬ s.complete = true := by rw [cd]; simp
    refine ⟨lw, by simpa [mholds] using lm, by simpa using cd, ⟨?_, ?_⟩, fun t => ?_, ?_⟩
    · show lines = s.pushed ++ [l] ++ r ++ s.todo
      rw [m1]; simp
    · show 10 ∣ (s.pushed ++ [l]).length + r.length
      simp at m2 ⊢; omega
    · exact loc_mono (loc t) (fun h => h) (fun h => absurd h hc)
    · show (boxes parse (s.queue ++ [l]) + (s.voxels : Multiset B)) + _ = boxes parse (s.pushed ++ [l])
      rw [boxes_append, boxes_append, ← cons]
      ac_rfl
  | mPushed hm =>
    rw [hm] at m cd lm
    obtain ⟨m1, m2⟩ := m
    exact ⟨lw, by simpa [mholds] using lm, by simpa using cd, ⟨by simpa using m1, by simpa using m2⟩, loc, cons⟩
  | mUnlock hm =>
    rw [hm] at m cd lm
    have hl : s.lock = some none := lm.1 trivial
    refine ⟨?_, by simp [mholds], by simpa using cd, ⟨by simpa using m.1, m.2, by simp⟩, loc, cons⟩
    rw [hl] at lw; exact lw
  | mWait buf hm hq =>
    rw [hm] at m cd lm
    exact ⟨lw, by simpa [mholds] using lm, by simpa using cd, m, loc, cons⟩
  | topGo t acc hpc hc =>
    exact ⟨lw.keep (by rw [hpc]; simp [wholds]), lm, cd, m, loc_upd loc t trivial,
      sum_upd_conserve (inHand parse) _ _ _ cons (by rw [hpc]; rfl)⟩
  | topNext t acc hpc hc =>
    exact ⟨lw.keep (by rw [hpc]; simp [wholds]), lm, cd, m, loc_upd loc t hc,
      sum_upd_conserve (inHand parse) _ _ _ cons (by rw [hpc]; rfl)⟩
  | top2Go t acc hpc hq =>
    exact ⟨lw.keep (by rw [hpc]; simp [wholds]), lm, cd, m, loc_upd loc t trivial,
      sum_upd_conserve (inHand parse) _ _ _ cons (by rw [hpc]; rfl)⟩
  | top2End t acc hpc hq =>
    have := loc t
    rw [hpc] at this
    exact ⟨lw.keep (by rw [hpc]; simp [wholds]), lm, cd, m, loc_upd loc t ⟨this, hq⟩,
      sum_upd_conserve (inHand parse) _ _ _ cons (by rw [hpc]; rfl)⟩
  | wLock t acc hpc hl =>
    rw [hl] at lw lm
    exact ⟨LockInv.acquire (t := t) lw trivial, by simpa using lm, cd, m, loc_upd loc t trivial,
      sum_upd_conserve (inHand parse) _ _ _ cons (by rw [hpc]; simp [inHand, boxes_nil])⟩
  | fetch t k loc' acc l r hpc hk hq =>
    refine ⟨lw.keep (by rw [hpc]; simp [wholds]), lm, cd, m, ?_, ?_⟩
    · refine loc_upd (fun u => ?_) t trivial
      exact loc_mono (loc u) (fun h => h) (fun _ h => by rw [hq] at h; exact absurd h (by simp))
    · refine sum_upd_conserve (inHand parse) _ _ _ cons ?_
      rw [hpc, hq]
      show (boxes parse r + _) + (boxes parse (loc' ++ [l]) + _) = (boxes parse (l :: r) + _) + (boxes parse loc' + _)
      rw [boxes_append, boxes_single, boxes_cons]
      ac_rfl
  | fetched t k loc' acc hpc hk =>
    exact ⟨lw.keep (by rw [hpc]; simp [wholds]), lm, cd, m, loc_upd loc t trivial,
      sum_upd_conserve (inHand parse) _ _ _ cons (by rw [hpc]; rfl)⟩
  | wUnlock t loc' acc hpc =>
    have hl := (lw t).1 (by rw [hpc]; trivial)
    refine ⟨?_, ?_, cd, m, loc_upd loc t trivial, sum_upd_conserve (inHand parse) _ _ _ cons (by rw [hpc]; rfl)⟩
    · exact LockInv.release (t := t) lw (by rw [hpc]; trivial) (fun h => h)
    · rw [lm]
      constructor
      · intro h; rw [h] at hl; simp at hl
      · intro h; simp at h
  | proc t l loc' acc hpc =>
    refine ⟨lw.keep (by rw [hpc]; simp [wholds]), lm, cd, m, loc_upd loc t trivial, ?_⟩
    refine sum_upd_conserve (inHand parse) _ _ _ cons ?_
    rw [hpc]
    show _ + (boxes parse loc' + ((acc ++ (parse l).toList : List B) : Multiset B)) = _ + (boxes parse (l :: loc') + (acc : Multiset B))
    rw [boxes_cons, ← Multiset.coe_add]
    ac_rfl
  | procEnd t acc hpc =>
    exact ⟨lw.keep (by rw [hpc]; simp [wholds]), lm, cd, m, loc_upd loc t trivial,
      sum_upd_conserve (inHand parse) _ _ _ cons (by rw [hpc]; simp [inHand, boxes_nil])⟩
  | eLock t acc hpc hl =>
    have := loc t
    rw [hpc] at this
    rw [hl] at lw lm
    exact ⟨LockInv.acquire (t := t) lw trivial, by simpa using lm, cd, m, loc_upd loc t this,
      sum_upd_conserve (inHand parse) _ _ _ cons (by rw [hpc]; rfl)⟩
  | eInsert t acc hpc =>
    have := loc t
    rw [hpc] at this
    refine ⟨lw.keep (by rw [hpc]; simp [wholds]), lm, cd, m, loc_upd loc t this, ?_⟩
    refine sum_upd_conserve (inHand parse) _ _ _ cons ?_
    rw [hpc]
    show (_ + ((s.voxels ++ acc : List B) : Multiset B)) + 0 = (_ + (s.voxels : Multiset B)) + (acc : Multiset B)
    rw [← Multiset.coe_add, add_zero, add_assoc]
  | eUnlock t hpc =>
    have hl := (lw t).1 (by rw [hpc]; trivial)
    have := loc t
    rw [hpc] at this
    refine ⟨?_, ?_, cd, m, loc_upd loc t this, sum_upd_conserve (inHand parse) _ _ _ cons (by rw [hpc]; rfl)⟩
    · exact LockInv.release (t := t) lw (by rw [hpc]; trivial) (fun h => h)
    · rw [lm]
      constructor
      · intro h; rw [h] at hl; simp at hl
      · intro h; simp at h

theorem inv_reach {L B : Type} {n : Nat} {parse : L → Option B} {lines : List L} {s : St L B n}
    (h : Reach (Step parse) (start n lines) s) : Inv parse lines s :=
  h.inv (Inv parse lines) (inv_start parse lines) (fun _ _ a b => inv_step a b)

/-- C46, as far as it holds: when all workers have finished, the boxes are those of the sampled lines in full batches
of ten: every line of `lines.take (10 * (lines.length / 10))` with a mesh contributes its box exactly once, no matter
how the threads are scheduled. (Missing: the last `lines.length % 10` lines, which the code never hands over; the
theorem shows that they are lost.) -/
theorem C46_full_batches_partial {L B : Type} {n : Nat} (hn : 0 < n) (parse : L → Option B) (lines : List L) (s : St L B n)
    (h : Reach (Step parse) (start n lines) s) (hd : ∀ t, s.pc t = .done) :
    s.voxels.Perm ((lines.take (10 * (lines.length / 10))).filterMap parse) := by
  obtain ⟨lw, lm, cd, m, loc, cons⟩ := inv_reach h
  have h0 := loc ⟨0, hn⟩
  rw [hd] at h0
  obtain ⟨hc, hq⟩ : s.complete = true ∧ s.queue = [] := h0
  have hm := cd.1 hc
  rw [hm] at m
  have hp : s.pushed = lines.take (10 * (lines.length / 10)) := m
  rw [hq, boxes_nil, zero_add, sum_zero_of_forall (inHand parse) s.pc (fun t => by rw [hd t]; rfl), add_zero, hp] at cons
  exact Multiset.coe_eq_coe.1 cons

/-- When the number of sampled lines is a multiple of ten, C46 holds as stated. -/
theorem C46_multiple_of_ten_partial {L B : Type} {n : Nat} (hn : 0 < n) (parse : L → Option B) (lines : List L) (s : St L B n)
    (h : Reach (Step parse) (start n lines) s) (hd : ∀ t, s.pc t = .done) (h10 : 10 ∣ lines.length) :
    s.voxels.Perm (lines.filterMap parse) := by
  have := C46_full_batches_partial hn parse lines s h hd
  rwa [Nat.mul_div_cancel' h10, List.take_length] at this

/-- C46 is false of the code: with fewer than ten sampled lines no box is produced at all, under any schedule. -/
theorem C46_small_input_lost {L B : Type} {n : Nat} (hn : 0 < n) (parse : L → Option B) (lines : List L) (s : St L B n)
    (h : Reach (Step parse) (start n lines) s) (hd : ∀ t, s.pc t = .done) (h10 : lines.length < 10) : s.voxels = [] := by
  have := C46_full_batches_partial hn parse lines s h hd
  have e : lines.length / 10 = 0 := by omega
  rw [e] at this
  simpa using this

/-! ## Every run can be finished -/

def mrank {L : Type} : MPC L → Nat
  | .read buf => 50 * buf.length + 1
  | .wait buf => 50 * buf.length + 2
  | .lock buf => 50 * buf.length + 5
  | .push rest => 50 * rest.length + 4
  | .unlock => 3
  | .done => 0
def wrank {L B : Type} : WPC L B → Nat
  | .top1 _ => 8 | .top2 _ => 7 | .endLock _ => 6 | .endInsert _ => 5 | .endUnlock => 4 | .done => 0
  | .lock _ => 20
  | .fetch _ loc _ => 19 + 3 * loc.length
  | .unlock loc _ => 18 + 3 * loc.length
  | .proc loc _ => 16 + 3 * loc.length
def measure {L B : Type} {n : Nat} (s : St L B n) : Nat :=
  (60 * s.todo.length + 40 * s.queue.length + mrank s.mpc) + ∑ t, wrank (s.pc t)

/-- From every reachable state that is not final the threads can get nearer to the end. -/
theorem progress {L B : Type} {n : Nat} (hn : 0 < n) (parse : L → Option B) (lines : List L) (s : St L B n)
    (h : Reach (Step parse) (start n lines) s) (hd : ¬ ((∀ t, s.pc t = .done) ∧ s.mpc = .done)) :
    ∃ s', Reach (Step parse) s s' ∧ measure s' < measure s := by
  obtain ⟨lw, lm, cd, m, loc, cons⟩ := inv_reach h
  -- a worker's move
  have wm : ∀ (s1 s2 : St L B n) (t : Fin n) (x : WPC L B), s2.pc = upd s1.pc t x →
      (60 * s2.todo.length + 40 * s2.queue.length + mrank s2.mpc) + wrank x <
        (60 * s1.todo.length + 40 * s1.queue.length + mrank s1.mpc) + wrank (s1.pc t) → measure s2 < measure s1 := by
    intro s1 s2 t x he hlt
    unfold measure
    rw [he]
    exact sum_upd_lt wrank s1.pc t x hlt
  -- the lock holder
  have hold : ∀ t, wholds (s.pc t) → ∃ s', Reach (Step parse) s s' ∧ measure s' < measure s := by
    intro t ht
    cases hx : s.pc t with
    | fetch k loc' acc =>
      by_cases hk : k < 10
      · cases hq : s.queue with
        | nil => exact ⟨_, Reach.single (Step.fetched s t k loc' acc hx (Or.inr hq)), wm _ _ t _ rfl (by rw [hx]; simp [wrank])⟩
        | cons l r =>
          refine ⟨_, Reach.single (Step.fetch s t k loc' acc l r hx hk hq), wm _ _ t _ rfl ?_⟩
          rw [hx, hq]; simp only [wrank, List.length_append, List.length_cons, List.length_nil]; omega
      · exact ⟨_, Reach.single (Step.fetched s t k loc' acc hx (Or.inl hk)), wm _ _ t _ rfl (by rw [hx]; simp [wrank])⟩
    | unlock loc' acc => exact ⟨_, Reach.single (Step.wUnlock s t loc' acc hx), wm _ _ t _ rfl (by rw [hx]; simp [wrank])⟩
    | endInsert acc => exact ⟨_, Reach.single (Step.eInsert s t acc hx), wm _ _ t _ rfl (by rw [hx]; simp [wrank])⟩
    | endUnlock => exact ⟨_, Reach.single (Step.eUnlock s t hx), wm _ _ t _ rfl (by rw [hx]; simp [wrank])⟩
    | _ => rw [hx] at ht; exact absurd ht (fun h => h)
  by_cases hl : s.lock = none
  · -- a worker about to fetch, with something to fetch
    have go : ∀ (s1 : St L B n) (t : Fin n) (acc : List B), s1.pc t = .lock acc → s1.lock = none → s1.queue ≠ [] →
        ∃ s2, Reach (Step parse) s1 s2 ∧ measure s2 + 30 < measure s1 := by
      intro s1 t acc hx hl hq
      cases hq' : s1.queue with
      | nil => exact absurd hq' hq
      | cons l r =>
        have st1 := Step.wLock (parse := parse) s1 t acc hx hl
        have st2 := Step.fetch (parse := parse) { s1 with lock := some (some t), pc := upd s1.pc t (.fetch 0 [] acc) } t 0 [] acc l r
          (upd_same ..) (by omega) hq'
        refine ⟨_, (Reach.single st1).step st2, ?_⟩
        have e : upd (upd s1.pc t (.fetch 0 [] acc)) t (.fetch (0 + 1) ([] ++ [l]) acc) = upd s1.pc t (.fetch (0 + 1) ([] ++ [l]) acc) :=
          Function.update_idem ..
        have := sum_upd wrank s1.pc t (.fetch (0 + 1) ([] ++ [l]) acc)
        unfold measure
        simp only [e]
        rw [hx] at this
        rw [hq']
        simp only [wrank, List.length_append, List.length_cons, List.length_nil] at this ⊢
        omega
    by_cases hmd : s.mpc = .done
    · have hc := cd.2 hmd
      have : ¬ ∀ t, s.pc t = .done := fun hh => hd ⟨hh, hmd⟩
      rw [not_forall] at this
      obtain ⟨t, ht⟩ := this
      cases hx : s.pc t with
      | top1 acc => exact ⟨_, Reach.single (Step.topNext s t acc hx hc), wm _ _ t _ rfl (by rw [hx]; simp [wrank])⟩
      | top2 acc =>
        by_cases hq : s.queue = []
        · exact ⟨_, Reach.single (Step.top2End s t acc hx hq), wm _ _ t _ rfl (by rw [hx]; simp [wrank])⟩
        · have st := Step.top2Go (parse := parse) s t acc hx hq
          obtain ⟨s2, r2, m2⟩ := go { s with pc := upd s.pc t (.lock acc) } t acc (upd_same ..) hl hq
          refine ⟨s2, (Reach.single st).trans r2, ?_⟩
          have := sum_upd wrank s.pc t (.lock acc)
          rw [hx] at this
          unfold measure at m2 ⊢
          simp only [wrank] at this m2 ⊢
          omega
      | lock acc => exact ⟨_, Reach.single (Step.wLock s t acc hx hl), wm _ _ t _ rfl (by rw [hx]; simp [wrank])⟩
      | proc loc' acc =>
        cases loc' with
        | nil => exact ⟨_, Reach.single (Step.procEnd s t acc hx), wm _ _ t _ rfl (by rw [hx]; simp [wrank])⟩
        | cons l r => exact ⟨_, Reach.single (Step.proc s t l r acc hx), wm _ _ t _ rfl (by rw [hx]; simp [wrank])⟩
      | endLock acc => exact ⟨_, Reach.single (Step.eLock s t acc hx hl), wm _ _ t _ rfl (by rw [hx]; simp [wrank])⟩
      | done => exact absurd hx ht
      | fetch k a b => exact hold t (by rw [hx]; trivial)
      | unlock a b => exact hold t (by rw [hx]; trivial)
      | endInsert a => exact hold t (by rw [hx]; trivial)
      | endUnlock => exact hold t (by rw [hx]; trivial)
    · have hc : s.complete = false := by rw [← Bool.not_eq_true, cd]; exact hmd
      cases hx : s.mpc with
      | done => exact absurd hx hmd
      | read buf =>
        cases ht : s.todo with
        | nil =>
          refine ⟨_, Reach.single (Step.readEnd s buf hx ht), ?_⟩
          unfold measure; rw [hx, ht]; simp only [mrank]; omega
        | cons l r =>
          by_cases hb : buf.length + 1 = 10
          · refine ⟨_, Reach.single (Step.readFull s l r buf hx ht hb), ?_⟩
            unfold measure; rw [hx, ht]; simp only [mrank, List.length_append, List.length_cons, List.length_nil]; omega
          · refine ⟨_, Reach.single (Step.readMore s l r buf hx ht hb), ?_⟩
            unfold measure; rw [hx, ht]; simp only [mrank, List.length_append, List.length_cons, List.length_nil]; omega
      | lock buf =>
        refine ⟨_, Reach.single (Step.mLock s buf hx hl), ?_⟩
        unfold measure; rw [hx]; simp only [mrank]; omega
      | push r => rw [hx, hl] at lm; exact absurd (lm.1 trivial) (by simp)
      | unlock => rw [hx, hl] at lm; exact absurd (lm.1 trivial) (by simp)
      | wait buf =>
        by_cases hq : s.queue.length ≤ n * 10
        · refine ⟨_, Reach.single (Step.mWait s buf hx hq), ?_⟩
          unfold measure; rw [hx]; simp only [mrank]; omega
        · have hne : s.queue ≠ [] := by intro hh; rw [hh] at hq; simp at hq
          obtain ⟨t⟩ : Nonempty (Fin n) := ⟨⟨0, hn⟩⟩
          have hloc := loc t
          cases hx : s.pc t with
          | top1 acc =>
            have st := Step.topGo (parse := parse) s t acc hx hc
            obtain ⟨s2, r2, m2⟩ := go { s with pc := upd s.pc t (.lock acc) } t acc (upd_same ..) hl hne
            refine ⟨s2, (Reach.single st).trans r2, ?_⟩
            have := sum_upd wrank s.pc t (.lock acc)
            rw [hx] at this
            unfold measure at m2 ⊢
            simp only [wrank] at this m2 ⊢
            omega
          | top2 acc => rw [hx] at hloc; have hloc : s.complete = true := hloc; rw [hc] at hloc; exact absurd hloc (by simp)
          | lock acc => exact ⟨_, Reach.single (Step.wLock s t acc hx hl), wm _ _ t _ rfl (by rw [hx]; simp [wrank])⟩
          | proc loc' acc =>
            cases loc' with
            | nil => exact ⟨_, Reach.single (Step.procEnd s t acc hx), wm _ _ t _ rfl (by rw [hx]; simp [wrank])⟩
            | cons l r => exact ⟨_, Reach.single (Step.proc s t l r acc hx), wm _ _ t _ rfl (by rw [hx]; simp [wrank])⟩
          | endLock acc => rw [hx] at hloc; have hloc := hloc.1; rw [hc] at hloc; exact absurd hloc (by simp)
          | done => rw [hx] at hloc; have hloc := hloc.1; rw [hc] at hloc; exact absurd hloc (by simp)
          | fetch k a b => exact hold t (by rw [hx]; trivial)
          | unlock a b => exact hold t (by rw [hx]; trivial)
          | endInsert a => exact hold t (by rw [hx]; trivial)
          | endUnlock => exact hold t (by rw [hx]; trivial)
  · cases hl' : s.lock with
    | none => exact absurd hl' hl
    | some x =>
      cases x with
      | some t => exact hold t ((lw t).2 (by rw [hl']; rfl))
      | none =>
        have := lm.2 hl'
        cases hx : s.mpc with
        | push rest =>
          cases rest with
          | nil =>
            refine ⟨_, Reach.single (Step.mPushed s hx), ?_⟩
            unfold measure; rw [hx]; simp only [mrank]; omega
          | cons l r =>
            refine ⟨_, Reach.single (Step.mPush s l r hx), ?_⟩
            unfold measure; rw [hx]; simp only [mrank, List.length_append, List.length_cons, List.length_nil]; omega
        | unlock =>
          refine ⟨_, Reach.single (Step.mUnlock s hx), ?_⟩
          unfold measure; rw [hx]; simp only [mrank, List.length_nil]; omega
        | _ => rw [hx] at this; exact absurd this (fun h => h)

/-- Whatever has happened so far, with at least one worker the run can be completed: no deadlock, and no state from
which the end is out of reach. -/
theorem C46_can_finish {L B : Type} {n : Nat} (hn : 0 < n) (parse : L → Option B) (lines : List L) (s : St L B n)
    (h : Reach (Step parse) (start n lines) s) : ∃ s', Reach (Step parse) s s' ∧ ∀ t, s'.pc t = .done := by
  generalize hm : measure s = k
  induction k using Nat.strong_induction_on generalizing s with
  | _ k ih =>
    by_cases hd : (∀ t, s.pc t = .done) ∧ s.mpc = .done
    · exact ⟨s, Reach.init, hd.1⟩
    · obtain ⟨s1, r1, m1⟩ := progress hn parse lines s h hd
      obtain ⟨s2, r2, e⟩ := ih (measure s1) (by omega) s1 (h.trans r1) rfl
      exact ⟨s2, r1.trans r2, e⟩

/-- Non-vacuity: 23 lines, 3 workers; the run ends, and exactly the boxes of the first 20 lines are there. -/
example : ∃ s : St Nat Nat 3, Reach (Step some) (start 3 (List.range 23)) s ∧ s.voxels.Perm (List.range 20) := by
  obtain ⟨s, hr, hd⟩ := C46_can_finish (n := 3) (by omega) some (List.range 23) _ Reach.init
  refine ⟨s, hr, ?_⟩
  have := C46_full_batches_partial (by omega) some (List.range 23) s hr hd
  exact this

end TDP.Conc.GetVoxels
