import Verif.RTree.Query
/-! Saving and loading. -/
namespace TDP.RTree
variable {n : Nat} {K D : Type}

theorem readInt_int4 {x : Nat} (hx : x < 2 ^ 32) (s : List Nat) : readInt (int4 x ++ s) = some (x, s) := by
  simp only [int4, List.cons_append, List.nil_append, readInt]
  congr 2
  omega

theorem int4_inj {x y : Nat} (hx : x < 2 ^ 32) (hy : y < 2 ^ 32) (h : int4 x = int4 y) : x = y := by
  have h1 := readInt_int4 hx []
  rw [h, readInt_int4 hy []] at h1
  injection h1 with h1
  injection h1 with h1
  exact h1.symm

theorem chunk (CK : Codec K) : ∀ (xs : List K) (i : Nat) (hi : i < xs.length),
    ((xs.flatMap CK.enc).drop (i * CK.size)).take CK.size = CK.enc xs[i]
  | x :: xs, 0, _ => by
      rw [List.flatMap_cons, Nat.zero_mul, List.drop_zero, ← CK.len x, List.take_left']
      · rfl
      · rfl
  | x :: xs, i + 1, hi => by
      have ih := chunk CK xs i (by simpa using hi)
      rw [List.flatMap_cons, Nat.add_mul, Nat.one_mul, Nat.add_comm, ← List.drop_drop]
      rw [show (CK.enc x ++ xs.flatMap CK.enc).drop CK.size = xs.flatMap CK.enc from List.drop_left' (CK.len x)]
      simpa using ih

theorem flat_length (CK : Codec K) (xs : List K) : (xs.flatMap CK.enc).length = CK.size * xs.length := by
  rw [List.length_flatMap]
  induction xs with
  | nil => simp
  | cons x xs ih => rw [List.map_cons, List.sum_cons, ih, CK.len, List.length_cons, Nat.mul_succ, Nat.add_comm]

theorem readArray_spec (CK : Codec K) (f : Fin n → K) (s : List Nat) :
    readArray n CK ((List.finRange n).flatMap (fun i => CK.enc (f i)) ++ s) = some (f, s) := by
  have e : (List.finRange n).flatMap (fun i => CK.enc (f i)) = ((List.finRange n).map f).flatMap CK.enc := by
    rw [List.flatMap_map]
  rw [e]
  have hl : (((List.finRange n).map f).flatMap CK.enc).length = CK.size * n := by rw [flat_length]; simp
  unfold readArray
  rw [if_pos (by rw [List.length_append, hl]; omega), List.take_left' hl, List.drop_left' hl]
  congr 2
  funext i
  unfold arrayAt
  rw [chunk CK _ i.1 (by simp), CK.rt]
  simp

theorem loadRect_spec (CK : Codec K) (r : Rect n K) (s : List Nat) : loadRect n CK (saveRect CK r ++ s) = some (r, s) := by
  unfold loadRect saveRect
  rw [List.append_assoc, readArray_spec]
  simp only [Option.bind_eq_bind, Option.bind_some]
  rw [readArray_spec]
  rfl

theorem readVal_spec (CD : Codec D) (d : D) (s : List Nat) : readVal CD (CD.enc d ++ s) = some (d, s) := by
  unfold readVal
  rw [if_pos (by rw [List.length_append, CD.len]; omega), List.take_left' (CD.len d), List.drop_left' (CD.len d), CD.rt]

theorem readMany_spec {α : Type} {f : List Nat → Option (α × List Nat)} {g : α → List Nat} : ∀ (bs : List α) (s : List Nat),
    (∀ p ∈ bs, ∀ s, f (g p ++ s) = some (p, s)) → readMany f bs.length (bs.flatMap g ++ s) = some (bs, s)
  | [], s, _ => rfl
  | b :: bs, s, h => by
      rw [List.flatMap_cons, List.append_assoc, List.length_cons]
      unfold readMany
      rw [h b (List.mem_cons_self ..)]
      simp only [Option.bind_eq_bind, Option.bind_some]
      rw [readMany_spec bs s (fun p hp => h p (List.mem_cons_of_mem _ hp))]
      rfl

variable [LinearOrder K] {P : Params n K} {Ok : Rect n K → Prop}

theorem loadRec_spec (CK : Codec K) (CD : Codec D) (hmax : P.maxNodes < 2 ^ 32) : ∀ {l : Nat} {t : Node n K D} (fuel : Nat) (s : List Nat), Good P Ok l t →
    l < 2 ^ 32 → l + 1 ≤ fuel → loadRec n P.maxNodes CK CD fuel (saveRec CK CD l t ++ s) = some (t, s)
  | 0, .leaf bs, fuel + 1, s, h, hl, hf => by
      unfold loadRec saveRec
      rw [List.append_assoc, List.append_assoc, readInt_int4 (by norm_num)]
      simp only [Option.bind_eq_bind, Option.bind_some]
      rw [readInt_int4 (lt_of_le_of_lt h.1 hmax)]
      simp only [Option.bind_some]
      rw [if_pos h.1, if_neg (by omega)]
      rw [readMany_spec (g := fun p => saveRect CK p.1 ++ CD.enc p.2) bs s ?_]
      · rfl
      · intro p _ s
        rw [List.append_assoc, loadRect_spec]
        simp only [Option.bind_some]
        rw [readVal_spec]
        rfl
  | l + 1, .inner k bs, fuel + 1, s, h, hl, hf => by
      obtain ⟨rfl, hlen, hbs⟩ := h
      unfold loadRec saveRec
      rw [List.append_assoc, List.append_assoc, readInt_int4 hl]
      simp only [Option.bind_eq_bind, Option.bind_some]
      rw [readInt_int4 (lt_of_le_of_lt hlen hmax)]
      simp only [Option.bind_some]
      rw [if_pos hlen, if_pos (by omega)]
      rw [readMany_spec (g := fun p => saveRect CK p.1 ++ saveRec CK CD k p.2) bs s ?_]
      · rfl
      · intro p hp s
        rw [List.append_assoc, loadRect_spec]
        simp only [Option.bind_some]
        rw [loadRec_spec CK CD hmax fuel s (hbs p hp).1 (by omega) (by omega)]
        rfl
  | _, _, 0, _, _, _, hf => by omega
  | 0, .inner _ _, _ + 1, _, h, _, _ => h.elim
  | _ + 1, .leaf _, _ + 1, _, h, _, _ => h.elim

omit [LinearOrder K] in
theorem header_length (n maxN minN : Nat) (CK : Codec K) (CD : Codec D) : (header n maxN minN CK CD).length = 24 := by
  simp [header, int4]

theorem load_save (CK : Codec K) (CD : Codec D) (hmax : P.maxNodes < 2 ^ 32) {l : Nat} {t : Node n K D} (ht : Good P Ok l t)
    (hl : l < 2 ^ 32) {fuel : Nat} (hf : l + 1 ≤ fuel) {minN : Nat} :
    load n P.maxNodes minN CK CD fuel (save P.maxNodes minN CK CD t) = some (true, t) := by
  unfold load save
  have hh := header_length n P.maxNodes minN CK CD
  rw [if_neg (by rw [List.length_append, hh]; omega), List.take_left' hh, if_pos rfl, List.drop_left' hh, good_level ht]
  have := loadRec_spec CK CD hmax fuel [] ht hl hf
  rw [List.append_nil] at this
  rw [this]
  rfl

omit [LinearOrder K] in
theorem append4 {a b c d : Nat} {s s' : List Nat} {x : Nat} (h : int4 x ++ s = [a, b, c, d] ++ s') : int4 x = [a, b, c, d] ∧ s = s' := by
  exact List.append_inj h rfl

omit [LinearOrder K] in
theorem header_inj {n' maxN minN maxN' minN' : Nat} {K' D' : Type} {CK : Codec K} {CD : Codec D} {CK' : Codec K'} {CD' : Codec D'}
    (h : header n maxN minN CK CD = header n' maxN' minN' CK' CD') (b1 : n < 2 ^ 32 ∧ n' < 2 ^ 32) (b2 : maxN < 2 ^ 32 ∧ maxN' < 2 ^ 32)
    (b3 : minN < 2 ^ 32 ∧ minN' < 2 ^ 32) (b4 : CK.size < 2 ^ 32 ∧ CK'.size < 2 ^ 32) (b5 : CD.size < 2 ^ 32 ∧ CD'.size < 2 ^ 32) :
    CD.size = CD'.size ∧ n = n' ∧ CK.size = CK'.size ∧ maxN = maxN' ∧ minN = minN' := by
  simp only [header, List.append_assoc] at h
  obtain ⟨_, h⟩ := append4 h
  obtain ⟨h1, h⟩ := append4 h
  obtain ⟨h2, h⟩ := append4 h
  obtain ⟨h3, h⟩ := append4 h
  obtain ⟨h4, h5⟩ := append4 h
  exact ⟨int4_inj b5.1 b5.2 h1, int4_inj b1.1 b1.2 h2, int4_inj b4.1 b4.2 h3, int4_inj b2.1 b2.2 h4, int4_inj b3.1 b3.2 h5⟩

end TDP.RTree
