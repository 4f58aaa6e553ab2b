import Verif.Measures.Surface
/-!
# C92: the average Laplacian vector of a facet (src/PPMC/mymeshUtils.cpp:155-190)
-/
namespace TDP.Measures
open TDP.Codec TDP.Traversal Function

/-- An integer vector. -/
abbrev Z3 := Fin 3 → Int

/-- `do heh2 = heh2->prev()->opposite(); while (heh2->isNew());` (mymeshUtils.cpp:176-178). -/
def skipNew (m : Mesh R3) (isNew : Nat → Bool) : Nat → Nat → Option Nat
  | 0, _ => none
  | k + 1, d => if isNew (m.opp (m.prev d)) then skipNew m isNew k (m.opp (m.prev d)) else some (m.opp (m.prev d))

/-- The loop over the neighbours (mymeshUtils.cpp:169-180): `q` is `getQuantizedPos`, `v` the vertex of `heh`, `start` is
`heh_next`. -/
def lapLoop (m : Mesh R3) (isNew : Nat → Bool) (q : R3 → Z3) (v start n : Nat) : Nat → Nat → Z3 → Option Z3
  | 0, _, _ => none
  | k + 1, heh2, acc =>
      let acc := acc + (q (m.pos (m.vert heh2)) - q (m.pos v))
      match skipNew m isNew n heh2 with
      | none => none
      | some d => if d = start then some acc else lapLoop m isNew q v start n k d acc

/-- `vector / number` of integer vectors. -/
def divZ (a : Z3) (k : Nat) : Z3 := fun c => (a c).tdiv (k : Int)

/-- `avgLaplacianVect` (mymeshUtils.cpp:158-190); `n` bounds the two inner loops. -/
def avgLaplacianVect (m : Mesh R3) (isNew : Nat → Bool) (q : R3 → Z3) (n : Nat) (gate : Nat) : Option Z3 :=
  ((around m.h gate).foldl (fun (s : Option Z3) heh =>
      s.bind fun sum => (lapLoop m isNew q (m.vert heh) (m.next heh) n n (m.next heh) 0).map fun lap =>
        sum + divZ lap (vertexDegreeNotNew m isNew heh)) (some 0)).map
    (fun sum => divZ sum (m.deg gate))

/-! ### Proof -/

/-- The rotation the other way. -/
abbrev back (m : Mesh R3) (d : Nat) : Nat := m.opp (m.prev d)

theorem back_mem {m : Mesh R3} (hm : m.WF) {d : Nat} (hd : d ∈ m.darts) : back m d ∈ m.darts :=
  hm.opp_mem (prev_spec hm hd).1

theorem rot_back {m : Mesh R3} (hm : m.WF) {d : Nat} (hd : d ∈ m.darts) : m.rot (back m d) = d := by
  unfold Mesh.rot back
  rw [hm.opp_opp (prev_spec hm hd).1, (prev_spec hm hd).2]

theorem src_back {m : Mesh R3} (hm : m.WF) {d : Nat} (hd : d ∈ m.darts) : m.src (back m d) = m.src d := by
  have := hm.src_rot (back_mem hm hd)
  rw [rot_back hm hd] at this
  exact this.symm

theorem back_rot {m : Mesh R3} (hm : m.WF) {d : Nat} (hd : d ∈ m.darts) : back m (m.rot d) = d :=
  hm.rot_inj (back_mem hm (hm.rot_mem hd)) hd (rot_back hm (hm.rot_mem hd))

theorem back_iterate_mem {m : Mesh R3} (hm : m.WF) {d : Nat} (hd : d ∈ m.darts) (i : Nat) : (back m)^[i] d ∈ m.darts := by
  induction i with
  | zero => exact hd
  | succ i ih => rw [iterate_succ_apply']; exact back_mem hm ih

/-- Going on from the `i`-th halfedge of the backward circle: the first later one that is not new. -/
theorem skip_eq {m : Mesh R3} (isNew : Nat → Bool) (d : Nat) (j : Nat) (hj : isNew ((back m)^[j] d) = false) :
    ∀ i < j, (∀ k, i < k → k < j → isNew ((back m)^[k] d) = true) → ∀ n, j - i ≤ n →
      skipNew m isNew n ((back m)^[i] d) = some ((back m)^[j] d) := by
  intro i hi hall n hn
  induction n generalizing i with
  | zero => omega
  | succ n ih =>
    have e : m.opp (m.prev ((back m)^[i] d)) = (back m)^[i + 1] d := (iterate_succ_apply' (back m) i d).symm
    rw [skipNew, e]
    by_cases hlast : i + 1 = j
    · rw [hlast, hj]; rfl
    · rw [hall (i + 1) (by omega) (by omega), if_pos rfl]
      exact ih (i + 1) (by omega) (fun k h1 h2 => hall k (by omega) h2) (by omega)

/-- The value added for the `i`-th halfedge of the backward circle. -/
def term (m : Mesh R3) (isNew : Nat → Bool) (q : R3 → Z3) (v d i : Nat) : Z3 :=
  if isNew ((back m)^[i] d) then 0 else q (m.pos (m.vert ((back m)^[i] d))) - q (m.pos v)

theorem lapLoop_eq {m : Mesh R3} (isNew : Nat → Bool) (q : R3 → Z3) (v d N : Nat) (hd : isNew d = false)
    (hper : (back m)^[N] d = d) (hne : ∀ i, 0 < i → i < N → (back m)^[i] d ≠ d) (n : Nat) (hn : N ≤ n) :
    ∀ k i acc, i < N → N - i ≤ k → isNew ((back m)^[i] d) = false →
      lapLoop m isNew q v d n k ((back m)^[i] d) acc = some (acc + ∑ j ∈ Finset.Ico i N, term m isNew q v d j) := by
  intro k
  induction k with
  | zero => intro i acc h1 h2; omega
  | succ k ih =>
    intro i acc hi hk hnew
    have hex : ∃ j, i < j ∧ isNew ((back m)^[j] d) = false := ⟨N, hi, by rw [hper]; exact hd⟩
    obtain ⟨j, hj⟩ : ∃ j, Nat.find hex = j := ⟨_, rfl⟩
    have hj1 : i < j ∧ isNew ((back m)^[j] d) = false := by rw [← hj]; exact Nat.find_spec hex
    have hjN : j ≤ N := by rw [← hj]; exact Nat.find_min' hex ⟨hi, by rw [hper]; exact hd⟩
    have hmin : ∀ x, i < x → x < j → isNew ((back m)^[x] d) = true := by
      intro x h1 h2
      have := Nat.find_min hex (m := x) (by omega)
      by_contra hc
      exact this ⟨h1, by simpa using hc⟩
    rw [lapLoop, skip_eq isNew d j hj1.2 i hj1.1 hmin n (by omega)]
    simp only
    have hgap : ∑ x ∈ Finset.Ico i j, term m isNew q v d x = q (m.pos (m.vert ((back m)^[i] d))) - q (m.pos v) := by
      rw [Finset.sum_eq_sum_Ico_succ_bot hj1.1, Finset.sum_eq_zero, add_zero]
      · unfold term; rw [hnew]; rfl
      · intro x hx
        rw [Finset.mem_Ico] at hx
        unfold term
        rw [hmin x (by omega) hx.2, if_pos rfl]
    by_cases hlast : j = N
    · rw [hlast, hper, if_pos rfl, ← hgap, hlast]
    · rw [if_neg (hne j (by omega) (by omega)), ih j _ (by omega) (by omega) hj1.2, ← hgap, add_assoc,
        Finset.sum_Ico_consecutive _ hj1.1.le hjN]

/-- What the loop over the neighbours computes. -/
theorem lap_sum {m : Mesh R3} (hm : m.WF) (isNew : Nat → Bool) (q : R3 → Z3) {d : Nat} (hd : d ∈ m.darts) (v : Nat)
    (hnew : isNew d = false) (n : Nat) (hn : m.darts.card ≤ n) :
    lapLoop m isNew q v d n n d 0 =
      some (∑ e ∈ m.darts.filter (fun e => m.src e = m.src d ∧ isNew e = false), (q (m.pos (m.vert e)) - q (m.pos v))) := by
  obtain ⟨hN, hNc⟩ := period_spec (S := m.darts) (fun x hx => hm.rot_mem hx) (fun x hx y hy => hm.rot_inj hx hy) hd
  obtain ⟨N, hNe⟩ : ∃ N, minimalPeriod m.rot d = N := ⟨_, rfl⟩
  rw [hNe] at hN hNc
  have hrotN : m.rot^[N] d = d := by rw [← hNe]; exact iterate_minimalPeriod
  -- the backward circle is the circle read backwards
  have hback : ∀ i ≤ N, (back m)^[i] d = m.rot^[N - i] d := by
    intro i
    induction i with
    | zero => intro _; rw [Nat.sub_zero, hrotN]; rfl
    | succ i ih =>
      intro hi
      rw [iterate_succ_apply', ih (by omega), show N - i = (N - (i + 1)) + 1 by omega, iterate_succ_apply',
        back_rot hm (iterate_mem (S := m.darts) (fun x hx => hm.rot_mem hx) hd _)]
  have hper : (back m)^[N] d = d := by rw [hback N le_rfl, Nat.sub_self]; rfl
  have hinj : ∀ i < N, ∀ j < N, m.rot^[i] d = m.rot^[j] d → i = j := by
    intro i hi j hj he
    rw [← hNe] at hi hj
    exact iterate_injOn_Iio_minimalPeriod hi hj he
  have hne : ∀ i, 0 < i → i < N → (back m)^[i] d ≠ d := by
    intro i h1 h2 he
    rw [hback i h2.le] at he
    have := hinj (N - i) (by omega) 0 (by omega) (by rw [he]; rfl)
    omega
  have h := lapLoop_eq isNew q v d N hnew hper hne n (by omega) n 0 0 hN (by omega) hnew
  rw [zero_add] at h
  simp only [iterate_zero, id_eq] at h
  rw [h]
  congr 1
  obtain ⟨g, hg⟩ : ∃ g : Nat → Z3, g = fun e => if isNew e then 0 else q (m.pos (m.vert e)) - q (m.pos v) := ⟨_, rfl⟩
  have e1 : ∑ j ∈ Finset.Ico 0 N, term m isNew q v d j = ∑ j ∈ Finset.range N, g ((back m)^[j] d) := by
    rw [← Finset.range_eq_Ico, hg]; rfl
  have e2 : (Finset.range N).image (fun j => (back m)^[j] d) = m.darts.filter (fun e => m.src e = m.src d) := by
    ext e
    rw [Finset.mem_image, Finset.mem_filter]
    constructor
    · rintro ⟨j, hj, rfl⟩
      have hj' := Finset.mem_range.mp hj
      rw [hback j hj'.le]
      exact ⟨iterate_mem (S := m.darts) (fun x hx => hm.rot_mem hx) hd _, src_iterate hm hd _⟩
    · rintro ⟨he, hs⟩
      obtain ⟨i, hi, hie⟩ := ring_index hm hd he hs
      rw [hNe] at hi
      by_cases h0 : i = 0
      · subst h0; exact ⟨0, Finset.mem_range.mpr hN, hie⟩
      · refine ⟨N - i, Finset.mem_range.mpr (by omega), ?_⟩
        rw [hback (N - i) (by omega), show N - (N - i) = i by omega, hie]
  have e3 : ∀ i ∈ Finset.range N, ∀ j ∈ Finset.range N, (back m)^[i] d = (back m)^[j] d → i = j := by
    intro i hi j hj he
    have hi := Finset.mem_range.mp hi
    have hj := Finset.mem_range.mp hj
    by_contra hne'
    rcases Nat.eq_zero_or_pos i with h0 | h0
    · subst h0; exact hne j (by omega) hj he.symm
    · rcases Nat.eq_zero_or_pos j with h1 | h1
      · subst h1; exact hne i h0 hi he
      · rw [hback i hi.le, hback j hj.le] at he
        have := hinj (N - i) (by omega) (N - j) (by omega) he
        omega
  rw [e1, ← Finset.sum_image (f := g) (g := fun j => (back m)^[j] d) (fun i hi j hj he => e3 i hi j hj he), e2,
    ← Finset.filter_filter, Finset.sum_filter (p := fun e => isNew e = false)]
  refine Finset.sum_congr rfl (fun e _ => ?_)
  rw [hg]
  cases h : isNew e <;> simp [h]

/-- The Laplacian of the vertex that `h` points to: the mean of the vectors to its neighbours along edges that are not new,
each coordinate truncated to an integer. -/
def laplacianAt (m : Mesh R3) (isNew : Nat → Bool) (q : R3 → Z3) (h : Nat) : Z3 := fun c =>
  ((∑ e ∈ m.darts.filter (fun e => m.src e = m.vert h ∧ isNew e = false), (q (m.pos (m.vert e)) - q (m.pos (m.vert h))) c) : Int).tdiv
    ((m.darts.filter (fun e => m.vert e = m.vert h ∧ isNew e = false)).card : Int)

/-- **C92 (Laplacian).** On a facet none of whose halfedges is new, the loops end, and the result is the truncated mean, over the
corners, of their Laplacians. -/
theorem C92_laplacian (m : Mesh R3) (hm : m.WF) (isNew : Nat → Bool) (q : R3 → Z3) (gate : Nat) (hg : gate ∈ m.darts)
    (hnew : ∀ d ∈ m.darts, m.face d = m.face gate → isNew d = false) (n : Nat) (hn : m.darts.card ≤ n) :
    avgLaplacianVect m isNew q n gate = some (fun c =>
      ((∑ d ∈ m.darts.filter (fun d => m.face d = m.face gate), laplacianAt m isNew q d c) : Int).tdiv
        ((m.darts.filter (fun d => m.face d = m.face gate)).card : Int)) := by
  have one : ∀ d ∈ around m.h gate, (lapLoop m isNew q (m.vert d) (m.next d) n n (m.next d) 0).map
      (fun lap => divZ lap (vertexDegreeNotNew m isNew d)) = some (laplacianAt m isNew q d) := by
    intro d hd
    obtain ⟨hd1, hd2⟩ := (mem_around hm.h hg d).mp hd
    have hf : m.face (m.next d) = m.face gate := by rw [hm.face_next hd1]; exact hd2
    rw [lap_sum hm isNew q (hm.next_mem hd1) (m.vert d) (hnew _ (hm.next_mem hd1) hf) n hn, C92_degree_not_new m hm isNew d hd1]
    simp only [Option.map_some, Option.some.injEq]
    funext c
    unfold divZ laplacianAt
    rw [Finset.sum_apply, hm.src_next d hd1]
  have fold : ∀ (l : List Nat) (s : Z3), (∀ d ∈ l, d ∈ around m.h gate) →
      l.foldl (fun (s : Option Z3) heh =>
        s.bind fun sum => (lapLoop m isNew q (m.vert heh) (m.next heh) n n (m.next heh) 0).map fun lap =>
          sum + divZ lap (vertexDegreeNotNew m isNew heh)) (some s) = some (s + (l.map (laplacianAt m isNew q)).sum) := by
    intro l
    induction l with
    | nil => intro s _; simp
    | cons d l ih =>
      intro s hl
      have h1 := one d (hl d List.mem_cons_self)
      rw [Option.map_eq_some_iff] at h1
      obtain ⟨lap, e1, e2⟩ := h1
      rw [List.foldl_cons, Option.bind_some, e1, Option.map_some, e2, ih _ (fun x hx => hl x (List.mem_cons_of_mem _ hx)),
        List.map_cons, List.sum_cons, add_assoc]
  have hset : m.darts.filter (fun d => m.face d = m.face gate) = (around m.h gate).toFinset := by
    ext d
    rw [Finset.mem_filter, List.mem_toFinset, mem_around hm.h hg]
  unfold avgLaplacianVect
  rw [fold _ _ (fun d hd => hd), zero_add, Option.map_some, hset, List.toFinset_card_of_nodup (around_nodup hm.h hg)]
  congr 1
  funext c
  unfold divZ Mesh.deg
  rw [List.sum_toFinset _ (around_nodup hm.h hg)]
  congr 1
  generalize around m.h gate = l
  induction l with
  | nil => rfl
  | cons d l ih => rw [List.map_cons, List.sum_cons, Pi.add_apply, ih, List.map_cons, List.sum_cons]

/-- The hypotheses are met: no halfedge of the octahedron is new, and the loops end within 24 steps. -/
example (p : Nat → R3) (q : R3 → Z3) : ∃ v, avgLaplacianVect (octahedron p) (fun _ => false) q 24 0 = some v :=
  ⟨_, C92_laplacian (octahedron p) (octahedron_ok p).1 (fun _ => false) q 0 (show (0 : Nat) ∈ Finset.range 24 by decide) (fun _ _ _ => rfl) 24
    (by show Finset.card (Finset.range 24) ≤ 24; simp)⟩

end TDP.Measures
