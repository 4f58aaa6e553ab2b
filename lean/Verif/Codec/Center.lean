import Verif.Codec.Refine
/-! `create_center_vertex`. -/
namespace TDP.Codec
open TDP.Traversal Function

variable {P : Type}

/-- The counters are above all numbers in use. -/
def Mesh.Fresh (m : Mesh P) : Prop := ∀ d ∈ m.darts, d < m.nd ∧ m.face d < m.nf ∧ m.vert d < m.nv

/-- What `createCenter` does, spelled out; `k` is the degree of the facet of `h`. -/
structure IsCenter (m n : Mesh P) (h k : Nat) (p : P) : Prop where
  hk : k = minimalPeriod m.next h
  mem : ∀ d, d ∈ n.darts ↔ d ∈ m.darts ∨ (∃ i < k, d = m.nd + 2 * i) ∨ ∃ i < k, d = m.nd + 2 * i + 1
  next_l : ∀ i < k, n.next (m.next^[i] h) = m.nd + 2 * i
  next_o : ∀ d ∈ m.darts, m.face d ≠ m.face h → n.next d = m.next d
  next_0 : n.next m.nd = m.nd + 2 * (k - 1) + 1
  next_s : ∀ i, i + 1 < k → n.next (m.nd + 2 * (i + 1)) = m.nd + 2 * i + 1
  next_t : ∀ i < k, n.next (m.nd + 2 * i + 1) = m.next^[i + 1] h
  opp_o : ∀ d ∈ m.darts, n.opp d = m.opp d
  opp_s : ∀ i < k, n.opp (m.nd + 2 * i) = m.nd + 2 * i + 1
  opp_t : ∀ i < k, n.opp (m.nd + 2 * i + 1) = m.nd + 2 * i
  face_l : ∀ i < k, n.face (m.next^[i] h) = if i = 0 then m.face h else m.nf + i - 1
  face_o : ∀ d ∈ m.darts, m.face d ≠ m.face h → n.face d = m.face d
  face_s : ∀ i < k, n.face (m.nd + 2 * i) = if i = 0 then m.face h else m.nf + i - 1
  face_t : ∀ i < k, n.face (m.nd + 2 * i + 1) = if i + 1 = k then m.face h else m.nf + i
  vert_o : ∀ d ∈ m.darts, n.vert d = m.vert d
  vert_s : ∀ i < k, n.vert (m.nd + 2 * i) = m.nv
  vert_t : ∀ i < k, n.vert (m.nd + 2 * i + 1) = m.vert (m.next^[i] h)
  pos_c : n.pos m.nv = p
  pos_o : ∀ v, v ≠ m.nv → n.pos v = m.pos v
  nd : n.nd = m.nd + 2 * k
  nf : n.nf = m.nf + (k - 1)
  nv : n.nv = m.nv + 1

theorem createCenter_spec {m : Mesh P} (hm : m.h.WF) (hf : m.Fresh) {h : Nat} (hh : h ∈ m.darts) (p : P) :
    ∃ k, IsCenter m (createCenter m h p) h k p := by
  have hfi : ∀ d ∈ m.darts, ∀ e ∈ m.darts, m.face d = m.face e ↔ ∃ i, m.next^[i] d = e := hm.face_iff
  have he : around m.h h = (List.range (minimalPeriod m.next h)).map (fun i => m.next^[i] h) := around_eq hm hh
  obtain ⟨kp, _⟩ := period_spec hm.next_mem hm.next_inj hh
  change 0 < minimalPeriod m.next h at kp
  have hl : (around m.h h).length = minimalPeriod m.next h := by rw [he]; simp
  have hget : ∀ i < minimalPeriod m.next h, (around m.h h).getD i 0 = m.next^[i] h := by
    intro i hi
    rw [he, List.getD_eq_getElem?_getD, List.getElem?_eq_getElem (by simpa using hi)]
    simp
  have hnd := around_nodup hm hh
  have hidx : ∀ i < minimalPeriod m.next h, (around m.h h).idxOf (m.next^[i] h) = i := by
    intro i hi
    have h1 : i < (around m.h h).length := by rw [hl]; exact hi
    have h2 := hnd.idxOf_getElem i h1
    have h3 := hget i hi
    rw [List.getD_eq_getElem?_getD, List.getElem?_eq_getElem h1, Option.getD_some] at h3
    rw [h3] at h2; exact h2
  have hin : ∀ i, m.next^[i] h ∈ around m.h h := by
    intro i
    have hd := iterate_mem hm.next_mem hh i
    exact (mem_around hm hh _).mpr ⟨hd, ((hfi h hh _ hd).mpr ⟨i, rfl⟩).symm⟩
  have hold : ∀ d ∈ m.darts, ¬ (m.nd ≤ d ∧ d < m.nd + 2 * (around m.h h).length) := fun d hd h => by
    have := (hf d hd).1; omega
  have c0 : ∀ i < minimalPeriod m.next h, m.nd ≤ m.nd + 2 * i ∧ m.nd + 2 * i < m.nd + 2 * (around m.h h).length := by
    intro i hi; rw [hl]; omega
  have c1 : ∀ i < minimalPeriod m.next h, m.nd ≤ m.nd + 2 * i + 1 ∧ m.nd + 2 * i + 1 < m.nd + 2 * (around m.h h).length := by
    intro i hi; rw [hl]; omega
  have d0 : ∀ i, (m.nd + 2 * i - m.nd) / 2 = i := by intro i; omega
  have r0 : ∀ i, (m.nd + 2 * i - m.nd) % 2 = 0 := by intro i; omega
  have d1 : ∀ i, (m.nd + 2 * i + 1 - m.nd) / 2 = i := by intro i; omega
  have r1 : ∀ i, ¬ (m.nd + 2 * i + 1 - m.nd) % 2 = 0 := by intro i; omega
  have lmem : ∀ i, m.next^[i] h ∈ m.darts := iterate_mem hm.next_mem hh
  refine ⟨minimalPeriod m.next h, rfl, ?_, ?_, ?_, ?_, ?_, ?_, ?_, ?_, ?_, ?_, ?_, ?_, ?_, ?_, ?_, ?_, ?_, ?_, ?_, ?_, rfl⟩
  · intro d
    simp only [createCenter, Finset.mem_union, Finset.mem_image, Finset.mem_range, hl]
    constructor
    · rintro (h1 | ⟨j, hj, rfl⟩)
      · exact Or.inl h1
      · right
        rcases Nat.even_or_odd' j with ⟨i, rfl | rfl⟩
        · exact Or.inl ⟨i, by omega, rfl⟩
        · exact Or.inr ⟨i, by omega, by omega⟩
    · rintro (h1 | ⟨i, hi, rfl⟩ | ⟨i, hi, rfl⟩)
      · exact Or.inl h1
      · exact Or.inr ⟨2 * i, by omega, rfl⟩
      · exact Or.inr ⟨2 * i + 1, by omega, by omega⟩
  · intro i hi
    simp only [createCenter, if_neg (hold _ (lmem i)), if_pos (hin i), hidx i hi]
  · intro d hd hne
    have : d ∉ around m.h h := fun h1 => hne ((mem_around hm hh d).mp h1).2
    simp only [createCenter, if_neg (hold _ hd), if_neg this]
  · have := c0 0 kp
    have e0 := d0 0
    have e1 := r0 0
    simp only [Nat.mul_zero, Nat.add_zero] at this e0 e1
    simp only [createCenter, if_pos this, e0, e1, if_true]
    rw [hl]
  · intro i hi
    have : i + 1 ≠ 0 := by omega
    simp only [createCenter, if_pos (c0 _ hi), d0, r0, if_true, if_neg this, Nat.add_sub_cancel]
  · intro i hi
    simp only [createCenter, if_pos (c1 _ hi), d1, if_neg (r1 i)]
    rw [hget i hi, iterate_succ_apply']
  · intro d hd
    simp only [createCenter, if_neg (hold _ hd)]
  · intro i hi
    simp only [createCenter, if_pos (c0 _ hi), r0, if_true]
  · intro i hi
    simp only [createCenter, if_pos (c1 _ hi), if_neg (r1 i), Nat.add_sub_cancel]
  · intro i hi
    simp only [createCenter, if_neg (hold _ (lmem i)), if_pos (hin i), hidx i hi]
  · intro d hd hne
    have : d ∉ around m.h h := fun h1 => hne ((mem_around hm hh d).mp h1).2
    simp only [createCenter, if_neg (hold _ hd), if_neg this]
  · intro i hi
    simp only [createCenter, if_pos (c0 _ hi), d0, r0, if_true]
  · intro i hi
    simp only [createCenter, if_pos (c1 _ hi), d1, if_neg (r1 i)]
    rw [hl]
    by_cases e : i + 1 = minimalPeriod m.next h
    · rw [if_pos e, if_pos e, if_pos rfl]
    · rw [if_neg e, if_neg e, if_neg (by omega)]; omega
  · intro d hd
    simp only [createCenter, if_neg (hold _ hd)]
  · intro i hi
    simp only [createCenter, if_pos (c0 _ hi), r0, if_true]
  · intro i hi
    simp only [createCenter, if_pos (c1 _ hi), d1, if_neg (r1 i)]
    rw [hget i hi]
  · simp [createCenter]
  · intro v hv
    simp only [createCenter, if_neg hv]
  · simp only [createCenter, hl]
  · simp only [createCenter, hl]


section
variable {m n : Mesh P} {h k : Nat} {p : P} (c : IsCenter m n h k p) (hm : m.h.WF) (hf : m.Fresh) (hh : h ∈ m.darts)
include c hm hh

theorem IsCenter.kpos : 0 < k := by
  rw [c.hk]; exact (period_spec hm.next_mem hm.next_inj hh).1

theorem IsCenter.lk : m.next^[k] h = h := by rw [c.hk]; exact iterate_minimalPeriod

theorem IsCenter.lmem (i : Nat) : m.next^[i] h ∈ m.darts := iterate_mem hm.next_mem hh i

theorem IsCenter.lface (i : Nat) : m.face (m.next^[i] h) = m.face h :=
  ((hm.face_iff h hh _ (c.lmem hm hh i)).mpr ⟨i, rfl⟩).symm

theorem IsCenter.idx {d : Nat} (hd : d ∈ m.darts) (hfd : m.face d = m.face h) : ∃ i < k, d = m.next^[i] h := by
  obtain ⟨i, hi⟩ := (hm.face_iff h hh d hd).mp hfd.symm
  refine ⟨i % k, Nat.mod_lt _ (c.kpos hm hh), ?_⟩
  rw [← hi, c.hk]; exact iterate_mod_minimalPeriod_eq.symm

theorem IsCenter.kinds {x : Nat} (hx : x ∈ n.darts) :
    (x ∈ m.darts ∧ m.face x ≠ m.face h) ∨ (∃ i < k, x = m.next^[i] h) ∨
    (∃ i < k, x = m.nd + 2 * i) ∨ (∃ i < k, x = m.nd + 2 * i + 1) := by
  rcases (c.mem x).mp hx with h1 | h1 | h1
  · by_cases e : m.face x = m.face h
    · exact Or.inr (Or.inl (c.idx hm hh h1 e))
    · exact Or.inl ⟨h1, e⟩
  · exact Or.inr (Or.inr (Or.inl h1))
  · exact Or.inr (Or.inr (Or.inr h1))

/-- The triangle at index `i`: before it comes `i'`. -/
theorem IsCenter.tri {i : Nat} (hi : i < k) : ∃ j < k, n.next (m.nd + 2 * i) = m.nd + 2 * j + 1 ∧
    n.next (m.nd + 2 * j + 1) = m.next^[i] h ∧ n.face (m.nd + 2 * j + 1) = n.face (m.nd + 2 * i) := by
  by_cases h0 : i = 0
  · subst h0
    refine ⟨k - 1, by omega, c.next_0, ?_, ?_⟩
    · rw [c.next_t _ (by omega), show k - 1 + 1 = k by omega, c.lk hm hh]; rfl
    · rw [c.face_t _ (by omega), c.face_s _ hi, if_pos (by omega), if_pos rfl]
  · obtain ⟨j, rfl⟩ : ∃ j, i = j + 1 := ⟨i - 1, by omega⟩
    refine ⟨j, by omega, c.next_s j hi, c.next_t j (by omega), ?_⟩
    rw [c.face_t _ (by omega), c.face_s _ hi, if_neg (by omega), if_neg h0]; omega

theorem IsCenter.tri' {j : Nat} (hj : j < k) : ∃ i < k, n.next (m.nd + 2 * i) = m.nd + 2 * j + 1 ∧
    n.next (m.nd + 2 * j + 1) = m.next^[i] h := by
  by_cases h0 : j + 1 = k
  · refine ⟨0, by omega, ?_, ?_⟩
    · rw [Nat.mul_zero, Nat.add_zero, c.next_0]; omega
    · rw [c.next_t _ hj, h0, c.lk hm hh]; rfl
  · exact ⟨j + 1, by omega, c.next_s j (by omega), c.next_t j hj⟩

/-- In a triangle of the star: three steps return. -/
theorem IsCenter.tri3 {x : Nat} (hx : x ∈ n.darts) (ht : ¬ (x ∈ m.darts ∧ m.face x ≠ m.face h)) :
    ∃ i < k, x = m.next^[i] h ∨ x = m.nd + 2 * i ∨ x = n.next (m.nd + 2 * i) := by
  rcases c.kinds hm hh hx with h1 | ⟨i, hi, h1⟩ | ⟨i, hi, h1⟩ | ⟨j, hj, h1⟩
  · exact absurd h1 ht
  · exact ⟨i, hi, Or.inl h1⟩
  · exact ⟨i, hi, Or.inr (Or.inl h1)⟩
  · obtain ⟨i, hi, h2, _⟩ := c.tri' hm hh hj
    exact ⟨i, hi, Or.inr (Or.inr (by rw [h1, h2]))⟩

theorem IsCenter.next3 {x : Nat} (hx : x ∈ n.darts) (ht : ¬ (x ∈ m.darts ∧ m.face x ≠ m.face h)) :
    n.next (n.next (n.next x)) = x := by
  obtain ⟨i, hi, h1 | h1 | h1⟩ := c.tri3 hm hh hx ht <;> obtain ⟨j, hj, h2, h3, _⟩ := c.tri hm hh hi
  · rw [h1, c.next_l i hi, h2, h3]
  · rw [h1, h2, h3, c.next_l i hi]
  · rw [h1, h2, h3, c.next_l i hi, h2]

include hf

theorem IsCenter.next_mem : ∀ x ∈ n.darts, n.next x ∈ n.darts := by
  intro x hx
  rcases c.kinds hm hh hx with ⟨h1, h2⟩ | ⟨i, hi, h1⟩ | ⟨i, hi, h1⟩ | ⟨j, hj, h1⟩
  · rw [c.next_o x h1 h2, c.mem]; exact Or.inl (hm.next_mem x h1)
  · rw [h1, c.next_l i hi, c.mem]; exact Or.inr (Or.inl ⟨i, hi, rfl⟩)
  · obtain ⟨j, hj, h2, _⟩ := c.tri hm hh hi
    rw [h1, h2, c.mem]; exact Or.inr (Or.inr ⟨j, hj, rfl⟩)
  · rw [h1, c.next_t j hj, c.mem]; exact Or.inl (c.lmem hm hh _)

/-- Being outside the star is kept by `next`. -/
theorem IsCenter.out_iff {x : Nat} (hx : x ∈ n.darts) :
    (n.next x ∈ m.darts ∧ m.face (n.next x) ≠ m.face h) ↔ (x ∈ m.darts ∧ m.face x ≠ m.face h) := by
  have nonew : ∀ y, m.nd ≤ y → y ∉ m.darts := fun y hy hd => by have := (hf y hd).1; omega
  have fn : ∀ d ∈ m.darts, m.face (m.next d) = m.face d := fun d hd =>
    ((hm.face_iff d hd _ (hm.next_mem d hd)).mpr ⟨1, rfl⟩).symm
  rcases c.kinds hm hh hx with ⟨h1, h2⟩ | ⟨i, hi, h1⟩ | ⟨i, hi, h1⟩ | ⟨j, hj, h1⟩
  · rw [c.next_o x h1 h2, fn x h1]
    exact ⟨fun _ => ⟨h1, h2⟩, fun _ => ⟨hm.next_mem x h1, h2⟩⟩
  · rw [h1, c.next_l i hi]
    exact ⟨fun h => absurd h.1 (nonew _ (by omega)), fun h => absurd (c.lface hm hh i) h.2⟩
  · obtain ⟨j, hj, h2, _⟩ := c.tri hm hh hi
    rw [h1, h2]
    exact ⟨fun h => absurd h.1 (nonew _ (by omega)), fun h => absurd h.1 (nonew _ (by omega))⟩
  · rw [h1, c.next_t j hj]
    exact ⟨fun h => absurd (c.lface hm hh _) h.2, fun h => absurd h.1 (nonew _ (by omega))⟩

theorem IsCenter.next_inj : ∀ x ∈ n.darts, ∀ y ∈ n.darts, n.next x = n.next y → x = y := by
  intro x hx y hy e
  have h1 := c.out_iff hm hf hh hx
  have h2 := c.out_iff hm hf hh hy
  by_cases hx' : x ∈ m.darts ∧ m.face x ≠ m.face h
  · have hy' := h2.mp (by rw [← e]; exact h1.mpr hx')
    rw [c.next_o x hx'.1 hx'.2, c.next_o y hy'.1 hy'.2] at e
    exact hm.next_inj _ hx'.1 _ hy'.1 e
  · have hy' : ¬ (y ∈ m.darts ∧ m.face y ≠ m.face h) := fun hy' => hx' (h1.mp (by rw [e]; exact h2.mpr hy'))
    rw [← c.next3 hm hh hx hx', ← c.next3 hm hh hy hy', e]

theorem IsCenter.face_next : ∀ x ∈ n.darts, n.face (n.next x) = n.face x := by
  intro x hx
  have fn : ∀ d ∈ m.darts, m.face (m.next d) = m.face d := fun d hd =>
    ((hm.face_iff d hd _ (hm.next_mem d hd)).mpr ⟨1, rfl⟩).symm
  by_cases ht : x ∈ m.darts ∧ m.face x ≠ m.face h
  · obtain ⟨h1, h2⟩ := ht
    have := fn x h1
    rw [c.next_o x h1 h2, c.face_o x h1 h2, c.face_o _ (hm.next_mem x h1) (by rw [this]; exact h2), this]
  · obtain ⟨i, hi, h1 | h1 | h1⟩ := c.tri3 hm hh hx ht <;> obtain ⟨j, hj, h2, h3, h4⟩ := c.tri hm hh hi
    · rw [h1, c.next_l i hi, c.face_s i hi, c.face_l i hi]
    · rw [h1, h2, h4]
    · rw [h1, h2, h3, h4, c.face_l i hi, c.face_s i hi]

theorem IsCenter.wf : n.h.WF := by
  classical
  have om : ∀ d ∈ m.darts, m.opp d ∈ m.darts := hm.opp_mem
  have oo : ∀ d ∈ m.darts, m.opp (m.opp d) = d := hm.opp_opp
  have nonew : ∀ y, m.nd ≤ y → y ∉ m.darts := fun y hy hd => by have := (hf y hd).1; omega
  refine ⟨c.next_mem hm hf hh, ?_, c.next_inj hm hf hh, ?_, ?_, ?_⟩
  · intro x hx
    change n.opp x ∈ n.darts
    rcases (c.mem x).mp hx with h1 | ⟨i, hi, h1⟩ | ⟨i, hi, h1⟩
    · rw [c.opp_o x h1, c.mem]; exact Or.inl (om x h1)
    · rw [h1, c.opp_s i hi, c.mem]; exact Or.inr (Or.inr ⟨i, hi, rfl⟩)
    · rw [h1, c.opp_t i hi, c.mem]; exact Or.inr (Or.inl ⟨i, hi, rfl⟩)
  · intro x hx
    change n.opp (n.opp x) = x
    rcases (c.mem x).mp hx with h1 | ⟨i, hi, h1⟩ | ⟨i, hi, h1⟩
    · rw [c.opp_o x h1, c.opp_o _ (om x h1), oo x h1]
    · rw [h1, c.opp_s i hi, c.opp_t i hi]
    · rw [h1, c.opp_t i hi, c.opp_s i hi]
  · intro x hx
    change n.opp x ≠ x
    rcases (c.mem x).mp hx with h1 | ⟨i, hi, h1⟩ | ⟨i, hi, h1⟩
    · rw [c.opp_o x h1]; exact hm.opp_ne x h1
    · rw [h1, c.opp_s i hi]; omega
    · rw [h1, c.opp_t i hi]; omega
  · let base : Nat → Nat := fun f => if f = m.face h then h else if m.nf ≤ f then m.next^[f + 1 - m.nf] h else
      if hx : ∃ d ∈ m.darts, m.face d = f then hx.choose else 0
    refine face_iff_of (c.next_mem hm hf hh) (c.next_inj hm hf hh) (c.face_next hm hf hh) base ?_
    intro x hx
    change base (n.face x) ∈ _ ∧ ∃ i, n.next^[i] (base (n.face x)) = x
    by_cases ht : x ∈ m.darts ∧ m.face x ≠ m.face h
    · obtain ⟨h1, h2⟩ := ht
      have hex : ∃ d ∈ m.darts, m.face d = m.face x := ⟨x, h1, rfl⟩
      have hb : base (m.face x) = hex.choose := by
        have h3 : ¬ m.nf ≤ m.face x := by have := (hf x h1).2.1; omega
        simp only [base, if_neg h2, if_neg h3]
        exact dif_pos hex
      rw [c.face_o x h1 h2, hb]
      obtain ⟨c1, c2⟩ := hex.choose_spec
      generalize hex.choose = e at c1 c2
      refine ⟨(c.mem e).mpr (Or.inl c1), ?_⟩
      obtain ⟨i, hi⟩ := (hm.face_iff e c1 x h1).mp c2
      refine ⟨i, ?_⟩
      have : ∀ i, n.next^[i] e = m.next^[i] e := by
        intro i
        induction i with
        | zero => rfl
        | succ i ih =>
          have hmem : m.next^[i] e ∈ m.darts := iterate_mem hm.next_mem c1 i
          have hfe : m.face e = m.face (m.next^[i] e) := (hm.face_iff e c1 _ hmem).mpr ⟨i, rfl⟩
          rw [iterate_succ_apply', iterate_succ_apply', ih, c.next_o _ hmem (by rw [← hfe, c2]; exact h2)]
      rw [this]; exact hi
    · obtain ⟨i, hi, ho⟩ := c.tri3 hm hh hx ht
      obtain ⟨j, hj, t1, t2, t3⟩ := c.tri hm hh hi
      have hface : n.face x = if i = 0 then m.face h else m.nf + i - 1 := by
        rcases ho with h1 | h1 | h1
        · rw [h1, c.face_l i hi]
        · rw [h1, c.face_s i hi]
        · rw [h1, t1, t3, c.face_s i hi]
      have hb : base (n.face x) = m.next^[i] h := by
        rw [hface]
        by_cases h0 : i = 0
        · rw [if_pos h0, h0]; exact if_pos rfl
        · rw [if_neg h0]
          have h3 : m.nf + i - 1 ≠ m.face h := by have := (hf h hh).2.1; omega
          have h4 : m.nf ≤ m.nf + i - 1 := by omega
          simp only [base, if_neg h3, if_pos h4]
          congr 1; omega
      rw [hb]
      refine ⟨(c.mem _).mpr (Or.inl (c.lmem hm hh i)), ?_⟩
      rcases ho with h1 | h1 | h1
      · exact ⟨0, h1.symm⟩
      · exact ⟨1, by rw [h1]; exact c.next_l i hi⟩
      · refine ⟨2, ?_⟩
        change n.next (n.next (m.next^[i] h)) = x
        rw [c.next_l i hi, h1]

theorem IsCenter.fresh : n.Fresh := by
  have kp := c.kpos hm hh
  have fl := (hf h hh).2.1
  intro x hx
  rw [c.nd, c.nf, c.nv]
  refine ⟨?_, ?_, ?_⟩
  · rcases (c.mem x).mp hx with h1 | ⟨i, hi, h1⟩ | ⟨i, hi, h1⟩
    · have := (hf x h1).1; omega
    · omega
    · omega
  · rcases c.kinds hm hh hx with ⟨h1, h2⟩ | ⟨i, hi, h1⟩ | ⟨i, hi, h1⟩ | ⟨j, hj, h1⟩
    · rw [c.face_o x h1 h2]; have := (hf x h1).2.1; omega
    · rw [h1, c.face_l i hi]; split <;> omega
    · rw [h1, c.face_s i hi]; split <;> omega
    · rw [h1, c.face_t j hj]; split <;> omega
  · rcases (c.mem x).mp hx with h1 | ⟨i, hi, h1⟩ | ⟨i, hi, h1⟩
    · rw [c.vert_o x h1]; have := (hf x h1).2.2; omega
    · rw [h1, c.vert_s i hi]; omega
    · rw [h1, c.vert_t i hi]; have := (hf _ (c.lmem hm hh i)).2.2; omega

end

end TDP.Codec
