import Verif.Codec.Sep
import Verif.Codec.Basic
/-! A decidable test for well-formedness, for concrete meshes. -/
namespace TDP.Codec
open TDP.Traversal Function

variable {P : Type}

/-- All conditions of `Mesh.WF`, `Mesh.Sep` and `Mesh.Conn`, with at most `k` steps along every cycle. -/
def Mesh.check (m : Mesh P) (k h0 : Nat) (ds : List Nat) : Bool :=
  decide (m.darts = ds.toFinset) &&
  ds.all (fun d =>
    ds.contains (m.next d) && ds.contains (m.opp d) && m.opp (m.opp d) == d && m.opp d != d &&
    m.face (m.next d) == m.face d && m.src (m.next d) == m.vert d && m.src d != m.vert d && m.next (m.next d) != d &&
    decide (d < m.nd ∧ m.face d < m.nf ∧ m.vert d < m.nv) && m.face (m.opp d) != m.face d &&
    ds.all (fun e =>
      (m.next d != m.next e || d == e) &&
      (m.face d != m.face e || (List.range k).any (fun i => m.next^[i] d == e)) &&
      (m.src d != m.src e || (List.range k).any (fun i => m.rot^[i] d == e)) &&
      (m.src d != m.src e || m.vert d != m.vert e || d == e))) &&
  ds.contains h0

theorem Mesh.check_wf {m : Mesh P} {k h0 : Nat} {ds : List Nat} (h : m.check k h0 ds = true) :
    m.WF ∧ m.Sep ∧ h0 ∈ m.darts := by
  unfold Mesh.check at h
  simp only [Bool.and_eq_true, List.all_eq_true, List.contains_iff_mem, decide_eq_true_eq, beq_iff_eq, bne_iff_ne,
    Bool.or_eq_true, List.any_eq_true, List.mem_range] at h
  obtain ⟨⟨h1, h2⟩, h3⟩ := h
  have hm : ∀ d, d ∈ m.darts ↔ d ∈ ds := fun d => by rw [h1, List.mem_toFinset]
  have fc : ∀ d ∈ m.darts, ∀ i, m.next^[i] d ∈ m.darts ∧ m.face (m.next^[i] d) = m.face d := by
    intro d hd i
    induction i with
    | zero => exact ⟨hd, rfl⟩
    | succ i ih =>
      rw [iterate_succ_apply']
      obtain ⟨⟨⟨⟨⟨⟨⟨⟨⟨⟨a1, a2⟩, a3⟩, a4⟩, a5⟩, a6⟩, a7⟩, a8⟩, a9⟩, a10⟩, a11⟩ := h2 _ ((hm _).mp ih.1)
      exact ⟨(hm _).mpr a1, a5.trans ih.2⟩
  refine ⟨⟨⟨?_, ?_, ?_, ?_, ?_, ?_⟩, ?_, ?_, ?_, ?_, ?_, ?_⟩, ?_, (hm _).mpr h3⟩
  all_goals
    intro d hd
    obtain ⟨⟨⟨⟨⟨⟨⟨⟨⟨⟨a1, a2⟩, a3⟩, a4⟩, a5⟩, a6⟩, a7⟩, a8⟩, a9⟩, a10⟩, a11⟩ := h2 d ((hm d).mp hd)
  · exact (hm _).mpr a1
  · exact (hm _).mpr a2
  · intro e he h
    rcases (a11 e ((hm e).mp he)).1.1.1 with h' | h'
    · exact absurd h h'
    · exact h'
  · exact a3
  · exact a4
  · intro e he
    constructor
    · intro h
      rcases (a11 e ((hm e).mp he)).1.1.2 with h' | ⟨i, _, h'⟩
      · exact absurd h h'
      · exact ⟨i, h'⟩
    · rintro ⟨i, rfl⟩
      exact (fc d hd i).2.symm
  · exact a6
  · intro e he h
    rcases (a11 e ((hm e).mp he)).1.2 with h' | ⟨i, _, h'⟩
    · exact absurd h h'
    · exact ⟨i, h'⟩
  · intro e he h h''
    rcases (a11 e ((hm e).mp he)).2 with (h' | h') | h'
    · exact absurd h h'
    · exact absurd h'' h'
    · exact h'
  · exact a7
  · exact a8
  · exact a9
  · exact a10

/-- Everything is reached if a list of (halfedge, predecessor) pairs shows it. -/
def Mesh.reachList (m : Mesh P) : Nat → List Nat → List Nat
  | 0, l => l
  | n + 1, l => reachList m n (l.foldl (fun acc d => (m.opp d :: m.next d :: acc).dedup) l)

theorem Mesh.reachList_spec {m : Mesh P} {h0 : Nat} (n : Nat) (l : List Nat) (hl : ∀ d ∈ l, Reach m.h h0 d) :
    ∀ d ∈ m.reachList n l, Reach m.h h0 d := by
  induction n generalizing l with
  | zero => exact hl
  | succ n ih =>
    refine ih _ ?_
    have : ∀ (xs acc : List Nat), (∀ d ∈ xs, Reach m.h h0 d) → (∀ d ∈ acc, Reach m.h h0 d) →
        ∀ d ∈ xs.foldl (fun acc d => (m.opp d :: m.next d :: acc).dedup) acc, Reach m.h h0 d := by
      intro xs
      induction xs with
      | nil => intro acc _ h; exact h
      | cons x xs ih2 =>
        intro acc h1 h2
        rw [List.foldl_cons]
        refine ih2 _ (fun d hd => h1 d (List.mem_cons_of_mem _ hd)) ?_
        intro d hd
        rw [List.mem_dedup] at hd
        have hx := h1 x List.mem_cons_self
        rcases List.mem_cons.mp hd with rfl | hd
        · exact hx.tail (Or.inr rfl)
        · rcases List.mem_cons.mp hd with rfl | hd
          · exact hx.tail (Or.inl rfl)
          · exact h2 d hd
    exact this l l hl hl

theorem Mesh.conn_of {m : Mesh P} {h0 n : Nat} {ds : List Nat} (hm : m.darts = ds.toFinset) (h0m : h0 ∈ ds)
    (h : ds.all (fun d => (m.reachList n [h0]).contains d) = true) : m.Conn h0 := by
  refine ⟨by rw [hm]; exact List.mem_toFinset.mpr h0m, fun d hd => ?_⟩
  rw [hm, List.mem_toFinset] at hd
  rw [List.all_eq_true] at h
  have := h d hd
  rw [List.contains_iff_mem] at this
  exact Mesh.reachList_spec n [h0] (by intro d hd; rw [List.mem_singleton.mp hd]; exact .refl) d this

end TDP.Codec
