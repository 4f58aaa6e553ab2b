import Verif.QsModel.Spec
/-! Helper lemmas for the frequency model. -/
namespace TDP.QsModel

theorem or_one (y : Nat) : y ||| 1 = 2 * (y / 2) + 1 := by
  have h1 := Nat.or_div_two (a := y) (b := 1)
  have h2 : (y ||| 1) % 2 = 1 := by simp [Nat.or_mod_two_eq_one]
  simp at h1
  omega

theorem half_le (x : Nat) (h : 1 ≤ x) : x >>> 1 ||| 1 ≤ x := by
  rw [or_one, Nat.shiftRight_eq_div_pow]; omega
theorem half_pos (x : Nat) : 1 ≤ x >>> 1 ||| 1 := by
  rw [or_one]; omega

@[simp] theorem upd_same {α} (f : Nat → α) (i v) : upd f i v i = v := by simp [upd]
theorem upd_ne {α} (f : Nat → α) (i v j) (h : j ≠ i) : upd f i v j = f j := by simp [upd, h]

theorem toU32_nat (x : Nat) (h : x < 4294967296) : toU32 (x : Int) = x := by
  unfold toU32; omega

theorem psum_congr (F G : Nat → Nat) (k : Nat) (h : ∀ j < k, F j = G j) : psum F k = psum G k := by
  induction k with
  | zero => rfl
  | succ k ih => simp only [psum]; rw [ih (fun j hj => h j (by omega)), h k (by omega)]

theorem psum_mono (F : Nat → Nat) {a b : Nat} (h : a ≤ b) : psum F a ≤ psum F b := by
  induction b with
  | zero => have : a = 0 := by omega
            subst this; exact Nat.le_refl _
  | succ b ih =>
    rcases Nat.lt_or_ge a (b + 1) with h' | h'
    · exact Nat.le_trans (ih (by omega)) (Nat.le_add_right _ _)
    · have : a = b + 1 := by omega
      subst this; exact Nat.le_refl _

theorem psum_le_of_le (F G : Nat → Nat) (k : Nat) (h : ∀ j < k, F j ≤ G j) : psum F k ≤ psum G k := by
  induction k with
  | zero => exact Nat.le_refl _
  | succ k ih =>
    simp only [psum]; have := ih (fun j hj => h j (by omega)); have := h k (by omega); omega

theorem psum_upd (F : Nat → Nat) (s v k : Nat) (h : s < k) :
    psum (upd F s v) k + F s = psum F k + v := by
  induction k with
  | zero => omega
  | succ k ih =>
    simp only [psum]
    by_cases hk : s = k
    · subst hk
      rw [psum_congr (upd F s v) F s (fun j hj => upd_ne _ _ _ _ (by omega)), upd_same]; omega
    · rw [upd_ne F s v k (by omega)]
      have := ih (by omega); omega

theorem psum_const (c k : Nat) : psum (fun _ => c) k = c * k := by
  induction k with
  | zero => rfl
  | succ k ih => simp only [psum, ih, Nat.mul_succ]

theorem le_psum (F : Nat → Nat) (s k : Nat) (h : s < k) : F s ≤ psum F k := by
  have := psum_mono F (show s + 1 ≤ k by omega)
  simp only [psum] at this; omega

/-- sum of the default initial frequencies -/
theorem psum_default (e v n k : Nat) (hk : k ≤ n) (f : Nat → Nat) :
    psum (fun i => if i < e then v + 1 else if i < n then v else f i) k = v * k + min e k := by
  induction k with
  | zero => simp [psum]
  | succ k ih =>
    simp only [psum, ih (by omega)]
    rw [Nat.mul_succ]
    by_cases h : k < e
    · rw [if_pos h]; omega
    · rw [if_neg h, if_pos (by omega)]; omega

/-- What the rescaling loop does. -/
theorem rescaleLoop_spec (i : Nat) (mi : Int) (C F : Nat → Nat)
    (hbound : psum F (i + 1) < 4294967296) :
    let r := rescaleLoop i (psum F (i + 1)) mi C F
    r.1 = psum F 1 ∧
    r.2.1 = mi - psum (fun j => if j = 0 then 0 else (F j >>> 1 ||| 1)) (i + 1) ∧
    (∀ j, r.2.2.1 j = if 1 ≤ j ∧ j ≤ i then psum F j else C j) ∧
    (∀ j, r.2.2.2 j = if 1 ≤ j ∧ j ≤ i then (F j >>> 1 ||| 1) else F j) := by
  induction i generalizing mi C F with
  | zero =>
    refine ⟨rfl, by simp [rescaleLoop, psum], ?_, ?_⟩
    · intro j; rw [if_neg (by omega)]; rfl
    · intro j; rw [if_neg (by omega)]; rfl
  | succ i ih =>
    simp only [rescaleLoop]
    have e1 : ((psum F (i + 1 + 1) : Nat) : Int) - (F (i + 1) : Nat) = (psum F (i + 1) : Nat) := by
      simp only [psum]; omega
    have hb : psum F (i + 1) < 4294967296 := by
      have := psum_mono F (show i + 1 ≤ i + 1 + 1 by omega); omega
    let G := upd F (i + 1) (F (i + 1) >>> 1 ||| 1)
    have hG : psum G (i + 1) = psum F (i + 1) :=
      psum_congr _ _ _ (fun j hj => upd_ne _ _ _ _ (by omega))
    have hG1 : psum G 1 = psum F 1 :=
      psum_congr _ _ _ (fun j hj => upd_ne _ _ _ _ (by omega))
    have hGj : ∀ j, j ≤ i → psum G j = psum F j := fun j hj =>
      psum_congr _ _ _ (fun k hk => upd_ne _ _ _ _ (by omega))
    have key := ih (mi - ((F (i + 1) >>> 1 ||| 1 : Nat) : Int)) (upd C (i + 1) (toU32 (psum F (i + 1) : Nat))) G
      (by rw [hG]; exact hb)
    rw [hG] at key
    rw [e1]
    obtain ⟨k1, k2, k3, k4⟩ := key
    refine ⟨by rw [← hG1]; exact k1, ?_, ?_, ?_⟩
    · refine k2.trans ?_
      rw [psum_congr (fun j => if j = 0 then 0 else G j >>> 1 ||| 1)
        (fun j => if j = 0 then 0 else F j >>> 1 ||| 1) (i + 1)
        (fun j hj => by rw [show G j = F j from upd_ne _ _ _ _ (by omega)])]
      conv => rhs; rw [psum]
      simp only [Nat.add_one_ne_zero, if_false]
      push_cast
      omega
    · intro j
      refine (k3 j).trans ?_
      by_cases h1 : 1 ≤ j ∧ j ≤ i
      · rw [if_pos h1, if_pos (by omega), hGj j h1.2]
      · rw [if_neg h1]
        by_cases h2 : j = i + 1
        · subst h2
          rw [if_pos (by omega), upd_same, toU32_nat _ hb]
        · rw [if_neg (by omega), upd_ne _ _ _ _ h2]
    · intro j
      refine (k4 j).trans ?_
      by_cases h1 : 1 ≤ j ∧ j ≤ i
      · rw [if_pos h1, if_pos (by omega), show G j = F j from upd_ne _ _ _ _ (by omega)]
      · rw [if_neg h1]
        by_cases h2 : j = i + 1
        · subst h2
          rw [if_pos (by omega)]; exact upd_same _ _ _
        · rw [if_neg (by omega)]; exact upd_ne _ _ _ _ h2

/-! ### the search table -/

theorem fillSearch_spec (count start i : Nat) (S : Nat → Option Nat) (h : start + count ≤ 129) :
    ∃ S', fillSearch count start i S = some S' ∧
      ∀ j, S' j = if start ≤ j ∧ j < start + count then some i else S j := by
  induction count generalizing start S with
  | zero => exact ⟨S, rfl, fun j => by rw [if_neg (by omega)]⟩
  | succ count ih =>
    obtain ⟨S', h1, h2⟩ := ih (start + 1) (upd S start (some i)) (by omega)
    refine ⟨S', ?_, ?_⟩
    · rw [fillSearch, if_pos (by simp [tblShift]; omega)]; exact h1
    · intro j
      rw [h2 j]
      by_cases hj : j = start
      · subst hj; rw [if_neg (by omega), if_pos (by omega), upd_same]
      · by_cases hj2 : start + 1 ≤ j ∧ j < start + 1 + count
        · rw [if_pos hj2, if_pos (by omega)]
        · rw [if_neg hj2, if_neg (by omega), upd_ne _ _ _ _ hj]

theorem wrap_pred (x : Nat) (h : 0 < x) (h2 : x < 4294967296) :
    (x + 4294967295) % 4294967296 = x - 1 := by omega

/-- The table is right for the bucket `j`. -/
def TableAt (cf : Nat → Nat) (shift n : Nat) (S : Nat → Option Nat) (j : Nat) : Prop :=
  ∃ i, S j = some i ∧ i < n ∧ cf i ≤ j * 2 ^ shift ∧ j * 2 ^ shift < cf (i + 1)

theorem rebuildSearch_spec (cf : Nat → Nat) (shift n : Nat)
    (hmono : ∀ i, i < n → cf i < cf (i + 1)) (hlt : ∀ i, i ≤ n → cf i ≤ 128 * 2 ^ shift)
    (hlt32 : ∀ i, i ≤ n → cf i < 4294967296)
    (i : Nat) (hi : i ≤ n) (S : Nat → Option Nat)
    (hS : ∀ j, cf i ≤ j * 2 ^ shift → j * 2 ^ shift < cf n → TableAt cf shift n S j)
    (h128 : S 128 = some (n - 1)) (h0 : cf 0 = 0) :
    ∃ S', rebuildSearch cf shift i S = some S' ∧ S' 128 = some (n - 1) ∧
      ∀ j, j * 2 ^ shift < cf n → TableAt cf shift n S' j := by
  induction i generalizing S with
  | zero => exact ⟨S, rfl, h128, fun j hj => hS j (by omega) hj⟩
  | succ i ih =>
    have hp : 0 < 2 ^ shift := Nat.two_pow_pos shift
    have hm := hmono i (by omega)
    have hm32 := hlt32 (i + 1) hi
    have hm128 := hlt (i + 1) hi
    have he : ((cf (i + 1) + 4294967295) % 4294967296) >>> shift = (cf (i + 1) - 1) / 2 ^ shift := by
      rw [Nat.shiftRight_eq_div_pow, wrap_pred _ (by omega) hm32]
    have hs : cf i >>> shift = cf i / 2 ^ shift := Nat.shiftRight_eq_div_pow _ _
    have hend : (cf (i + 1) - 1) / 2 ^ shift < 128 := by
      rw [Nat.div_lt_iff_lt_mul hp]; omega
    have hse : cf i / 2 ^ shift ≤ (cf (i + 1) - 1) / 2 ^ shift := Nat.div_le_div_right (by omega)
    obtain ⟨S1, f1, f2⟩ := fillSearch_spec ((cf (i + 1) - 1) / 2 ^ shift + 1 - cf i / 2 ^ shift)
      (cf i / 2 ^ shift) i S (by omega)
    have hS1 : ∀ j, cf i ≤ j * 2 ^ shift → j * 2 ^ shift < cf n → TableAt cf shift n S1 j := by
      intro j hj1 hj2
      by_cases hcase : j * 2 ^ shift < cf (i + 1)
      · refine ⟨i, ?_, by omega, hj1, hcase⟩
        rw [f2 j, if_pos]
        constructor
        · apply Nat.le_of_lt_succ
          rw [Nat.div_lt_iff_lt_mul hp, Nat.succ_mul]; omega
        · have : j ≤ (cf (i + 1) - 1) / 2 ^ shift := by
            rw [Nat.le_div_iff_mul_le hp]; omega
          omega
      · obtain ⟨i', a1, a2, a3, a4⟩ := hS j (by omega) hj2
        refine ⟨i', ?_, a2, a3, a4⟩
        rw [f2 j, if_neg]
        · exact a1
        · intro hh
          have : j ≤ (cf (i + 1) - 1) / 2 ^ shift := by omega
          rw [Nat.le_div_iff_mul_le hp] at this; omega
    have h128' : S1 128 = some (n - 1) := by
      rw [f2, if_neg (by omega)]; exact h128
    obtain ⟨S2, g1, g2, g3⟩ := ih (by omega) S1 hS1 h128'
    refine ⟨S2, ?_, g2, g3⟩
    simp only [rebuildSearch, he, hs, f1, Option.bind_eq_bind, Option.bind_some]
    exact g1

/-! ### invariant -/

/-- Everything maintained over a history. `total = 2^lg`. -/
structure Inv (m : QS) (n lg : Nat) : Prop where
  hn : m.n = n
  npos : 1 ≤ n
  lgle : lg ≤ 30
  shift : m.searchshift = lg - 7
  leftnn : 0 ≤ m.left
  nlnn : 0 ≤ m.nextleft
  incnn : 0 ≤ m.incr
  newpos : ∀ j < n, 1 ≤ m.newf j
  newsum : (psum m.newf n : Int) + m.incr * m.left + (m.incr + 1) * m.nextleft = (2 ^ lg : Nat)
  resc : 1 ≤ m.rescale
  cf0 : m.cf 0 = 0
  cfn : m.cf n = 2 ^ lg
  cfmono : ∀ i, i < n → m.cf i < m.cf (i + 1)
  table : ∀ S, m.search = some S → S 128 = some (n - 1) ∧
      (7 ≤ lg → ∀ j, j * 2 ^ m.searchshift < 2 ^ lg → TableAt m.cf m.searchshift n S j)

theorem cf_le (cf : Nat → Nat) (n : Nat) (h : ∀ i, i < n → cf i < cf (i + 1)) (i : Nat) (hi : i ≤ n) :
    cf i ≤ cf n := by
  induction n with
  | zero => have : i = 0 := by omega
            subst this; exact Nat.le_refl _
  | succ n ih =>
    rcases Nat.lt_or_ge i (n + 1) with h' | h'
    · have := ih (fun j hj => h j (by omega)) (by omega); have := h n (by omega); omega
    · have : i = n + 1 := by omega
      subst this; exact Nat.le_refl _

/-- Before a real rescale. -/
structure Pre (m : QS) (n lg : Nat) : Prop where
  hn : m.n = n
  npos : 1 ≤ n
  lgle : lg ≤ 30
  shift : m.searchshift = lg - 7
  newpos : ∀ j < n, 1 ≤ m.newf j
  newsum : psum m.newf n = 2 ^ lg
  resc : 1 ≤ m.rescale
  nl : m.nextleft = 0
  cf0 : m.cf 0 = 0
  cfn : m.cf n = 2 ^ lg
  table : ∀ S, m.search = some S → S 128 = some (n - 1)

theorem lg_bound (lg : Nat) (h : lg ≤ 30) : 2 ^ lg ≤ 1073741824 := by
  have := Nat.pow_le_pow_right (show 0 < 2 by decide) h
  simpa using this

theorem shift_bound (lg : Nat) : 2 ^ lg ≤ 128 * 2 ^ (lg - 7) := by
  have : (128 : Nat) = 2 ^ 7 := by decide
  rw [this, ← Nat.pow_add]
  exact Nat.pow_le_pow_right (by decide) (by omega)

theorem psum_split0 (F : Nat → Nat) (k : Nat) (h : 1 ≤ k) :
    psum F k = F 0 + psum (fun j => if j = 0 then 0 else F j) k := by
  induction k with
  | zero => omega
  | succ k ih =>
    cases k with
    | zero => simp [psum]
    | succ k =>
      rw [psum, ih (by omega)]
      conv => rhs; rw [psum]
      simp only [Nat.add_one_ne_zero, if_false]; omega

theorem dorescale_real (m : QS) (n lg : Nat) (h : Pre m n lg) :
    ∃ m', dorescale m = some m' ∧ Inv m' n lg ∧ 1 ≤ m'.left ∧
      (∀ j, j ≤ n → m'.cf j = psum m.newf j) := by
  obtain ⟨hn, npos, lgle, shift, newpos, newsum, resc, nl, cf0, cfn, table⟩ := h
  have hlg := lg_bound lg lgle
  have hn1 : n - 1 + 1 = n := by omega
  obtain ⟨s1, s2, s3, s4⟩ := rescaleLoop_spec (n - 1) (2 ^ lg : Nat) m.cf m.newf
    (by rw [hn1, newsum]; omega)
  rw [hn1, newsum] at s1 s2 s3 s4
  generalize hr : rescaleLoop (n - 1) (2 ^ lg : Nat) (2 ^ lg : Nat) m.cf m.newf = r at *
  obtain ⟨r1, r2, C, F⟩ := r
  simp only at s1 s2 s3 s4
  have hF0 : F 0 = m.newf 0 := by rw [s4, if_neg (by omega)]
  have hr1 : toU32 r1 = F 0 := by
    rw [s1, hF0]
    have : psum m.newf 1 = m.newf 0 := by simp [psum]
    rw [this]
    apply toU32_nat
    have := le_psum m.newf 0 n (by omega); omega
  have hC : ∀ j, j ≤ n → C j = psum m.newf j := by
    intro j hj
    rw [s3]
    by_cases h1 : 1 ≤ j ∧ j ≤ n - 1
    · rw [if_pos h1]
    · rw [if_neg h1]
      rcases Nat.eq_zero_or_pos j with h0 | h0
      · subst h0; rw [cf0]; rfl
      · have : j = n := by omega
        subst this; rw [cfn, newsum]
  let F' := upd F 0 (F 0 >>> 1 ||| 1)
  have hF' : ∀ j < n, F' j = (m.newf j >>> 1 ||| 1) := by
    intro j hj
    by_cases h0 : j = 0
    · subst h0; simp only [F', upd_same, hF0]
    · simp only [F']; rw [upd_ne _ _ _ _ h0, s4, if_pos (by omega)]
  have hF'pos : ∀ j < n, 1 ≤ F' j := fun j hj => by rw [hF' j hj]; exact half_pos _
  have hF'sum : psum F' n ≤ 2 ^ lg := by
    rw [← newsum]
    exact psum_le_of_le _ _ _ (fun j hj => by rw [hF' j hj]; exact half_le _ (newpos j hj))
  let missing : Int := r2 - (F' 0 : Nat)
  have hmiss : missing = (2 ^ lg : Nat) - (psum F' n : Int) := by
    simp only [missing, s2]
    rw [psum_split0 F' n npos]
    rw [psum_congr (fun j => if j = 0 then 0 else F' j)
      (fun j => if j = 0 then 0 else m.newf j >>> 1 ||| 1) n
      (fun j hj => by rw [hF' j hj])]
    push_cast; omega
  have hm0 : 0 ≤ missing := by rw [hmiss]; omega
  let rs : Int := if m.rescale < m.targetrescale then
        (if m.rescale * 2 > m.targetrescale then m.targetrescale else m.rescale * 2)
      else m.rescale
  have hrs : 1 ≤ rs := by simp only [rs]; split <;> (try split) <;> omega
  have ed : missing.tdiv rs = missing / rs := Int.tdiv_eq_ediv_of_nonneg hm0
  have em : missing.tmod rs = missing % rs := Int.tmod_eq_emod_of_nonneg hm0
  have h1 : 0 ≤ missing / rs := Int.ediv_nonneg hm0 (by omega)
  have h2 : 0 ≤ missing % rs := Int.emod_nonneg _ (by omega)
  have h3 : missing % rs < rs := Int.emod_lt_of_pos _ (by omega)
  have h4 : rs * (missing / rs) + missing % rs = missing := Int.mul_ediv_add_emod _ _
  have hmono : ∀ i, i < n → C i < C (i + 1) := by
    intro i hi
    rw [hC i (by omega), hC (i + 1) (by omega)]
    simp only [psum]; have := newpos i hi; omega
  have hCn : C n = 2 ^ lg := by rw [hC n (Nat.le_refl _), newsum]
  have hC0 : C 0 = 0 := by rw [hC 0 (by omega)]; rfl
  have hCle : ∀ i, i ≤ n → C i ≤ 2 ^ lg := fun i hi => by
    rw [← hCn]; exact cf_le C n hmono i hi
  let m1 : QS := { m with rescale := rs, cf := C, newf := F', incr := missing.tdiv rs,
                          nextleft := missing.tmod rs, left := rs - missing.tmod rs }
  have hdo : dorescale m = match m1.search with
      | none => some m1
      | some S => (rebuildSearch C m.searchshift m.n S).bind fun S => some { m1 with search := some S } := by
    unfold dorescale
    rw [if_neg (by simp [nl]), if_neg (by omega), hn, cfn, hr]
    simp only
    rw [if_neg (by simp [hr1])]
    subst hn
    rfl
  have mk : ∀ so : Option (Nat → Option Nat),
      (∀ S, so = some S → S 128 = some (n - 1) ∧
        (7 ≤ lg → ∀ j, j * 2 ^ m.searchshift < 2 ^ lg → TableAt C m.searchshift n S j)) →
      Inv { m1 with search := so } n lg ∧ 1 ≤ ({ m1 with search := so } : QS).left := by
    intro so hso
    refine ⟨⟨hn, npos, lgle, shift, ?_, ?_, ?_, hF'pos, ?_, hrs, hC0, hCn, hmono, hso⟩, ?_⟩
    · show 0 ≤ rs - missing.tmod rs; rw [em]; omega
    · show 0 ≤ missing.tmod rs; rw [em]; omega
    · show 0 ≤ missing.tdiv rs; rw [ed]; omega
    · show (psum F' n : Int) + missing.tdiv rs * (rs - missing.tmod rs)
        + (missing.tdiv rs + 1) * missing.tmod rs = (2 ^ lg : Nat)
      rw [ed, em]
      generalize missing / rs = q at *
      generalize missing % rs = t at *
      have e1 : q * (rs - t) + (q + 1) * t = rs * q + t := by
        rw [Int.mul_sub, Int.add_mul, Int.one_mul, Int.mul_comm q rs]; omega
      omega
    · show 1 ≤ rs - missing.tmod rs; rw [em]; omega
  cases hs : m.search with
  | none =>
    have hs1 : m1.search = none := hs
    refine ⟨m1, by rw [hdo, hs1], ?_, ?_, hC⟩
    · have := (mk none (by simp)).1
      rw [← hs1] at this; exact this
    · have := (mk none (by simp)).2; exact this
  | some S =>
    have hs1 : m1.search = some S := hs
    obtain ⟨S', g1, g2, g3⟩ := rebuildSearch_spec C m.searchshift n hmono
      (fun i hi => Nat.le_trans (hCle i hi) (by rw [shift]; exact shift_bound lg))
      (fun i hi => by have := hCle i hi; omega) n (Nat.le_refl _) S
      (fun j h1 h2 => by omega) (table S hs) hC0
    refine ⟨{ m1 with search := some S' }, by
      rw [hdo, hs1]
      show (rebuildSearch C m.searchshift m.n S).bind _ = _
      rw [hn, g1]; subst hn; rfl, ?_, ?_, hC⟩
    · exact (mk (some S') (by
        intro S'' he; cases he
        exact ⟨g2, fun _ j hj => g3 j (by rw [hCn]; exact hj)⟩)).1
    · exact (mk (some S') (by
        intro S'' he; cases he
        exact ⟨g2, fun _ j hj => g3 j (by rw [hCn]; exact hj)⟩)).2

theorem dorescale_inv (m : QS) (n lg : Nat) (h : Inv m n lg) (hl : m.left ≤ 0) :
    ∃ m', dorescale m = some m' ∧ Inv m' n lg ∧ 1 ≤ m'.left := by
  have hl0 : m.left = 0 := by have := h.leftnn; omega
  by_cases hnl : m.nextleft = 0
  · obtain ⟨m', h1, h2, h3, -⟩ := dorescale_real m n lg
      ⟨h.hn, h.npos, h.lgle, h.shift, h.newpos, by
        have := h.newsum; rw [hl0, hnl] at this; simp at this; exact_mod_cast this,
        h.resc, hnl, h.cf0, h.cfn, fun S hS => (h.table S hS).1⟩
    exact ⟨m', h1, h2, h3⟩
  · refine ⟨{ m with incr := m.incr + 1, left := m.nextleft, nextleft := 0 }, by
      unfold dorescale; rw [if_pos hnl], ?_, ?_⟩
    · obtain ⟨hn, npos, lgle, shift, leftnn, nlnn, incnn, newpos, newsum, resc, cf0, cfn, cfmono, table⟩ := h
      refine ⟨hn, npos, lgle, shift, nlnn, by simp, ?_, newpos, ?_, resc, cf0, cfn, cfmono, table⟩
      · simp only; omega
      · simp only; rw [hl0] at newsum; rw [← newsum]; simp
    · have := h.nlnn; simp only; omega

theorem qsupdate_inv (m : QS) (n lg s : Nat) (h : Inv m n lg) (hs : s < n) :
    ∃ m', qsupdate m s = some m' ∧ Inv m' n lg := by
  have step : ∀ m0 : QS, Inv m0 n lg → 1 ≤ m0.left →
      Inv { m0 with left := m0.left - 1,
                    newf := upd m0.newf s (toU32 (m0.newf s + m0.incr)) } n lg := by
    intro m0 h hl
    obtain ⟨hn, npos, lgle, shift, leftnn, nlnn, incnn, newpos, newsum, resc, cf0, cfn, cfmono, table⟩ := h
    have hlg := lg_bound lg lgle
    have h1 : 0 ≤ m0.incr * (m0.left - 1) := Int.mul_nonneg incnn (by omega)
    have h2 : 0 ≤ (m0.incr + 1) * m0.nextleft := Int.mul_nonneg (by omega) nlnn
    have h3 : m0.incr * m0.left = m0.incr * (m0.left - 1) + m0.incr := by
      rw [Int.mul_sub]; omega
    have h4 := le_psum m0.newf s n hs
    have hv : toU32 (m0.newf s + m0.incr) = m0.newf s + m0.incr.toNat := by
      unfold toU32; omega
    refine ⟨hn, npos, lgle, shift, ?_, nlnn, incnn, ?_, ?_, resc, cf0, cfn, cfmono, table⟩
    · simp only; omega
    · intro j hj
      simp only
      by_cases hjs : j = s
      · subst hjs; rw [upd_same, hv]; have := newpos j hj; omega
      · rw [upd_ne _ _ _ _ hjs]; exact newpos j hj
    · simp only
      have := psum_upd m0.newf s (toU32 (m0.newf s + m0.incr)) n hs
      rw [hv] at this ⊢
      generalize psum (upd m0.newf s (m0.newf s + m0.incr.toNat)) n = X at *
      generalize psum m0.newf n = Y at *
      have : (X : Int) = Y + m0.incr := by omega
      rw [this]; omega
  unfold qsupdate
  by_cases hl : m.left ≤ 0
  · obtain ⟨m', h1, h2, h3⟩ := dorescale_inv m n lg h hl
    rw [if_pos hl, h1]
    exact ⟨_, rfl, step m' h2 h3⟩
  · rw [if_neg hl]
    exact ⟨_, rfl, step m h (by omega)⟩

theorem reset_pre (m : QS) (n lg : Nat) (init : Option (Nat → Nat)) (hg : GoodInit n (2 ^ lg) init)
    (hn : m.n = n) (npos : 1 ≤ n) (lgle : lg ≤ 30) (shift : m.searchshift = lg - 7)
    (cf0 : m.cf 0 = 0) (cfn : m.cf n = 2 ^ lg) (table : ∀ S, m.search = some S → S 128 = some (n - 1)) :
    ∃ m', resetqsmodel m init = some m' ∧ Inv m' n lg := by
  unfold resetqsmodel
  rw [if_neg (by omega), hn, cfn]
  dsimp only
  have hrs : (1 : Int) ≤ ((n >>> 4 ||| 2 : Nat) : Int) := by
    have : 1 ≤ n >>> 4 ||| 2 := by
      have := Nat.right_le_or (n := n >>> 4) (m := 2); omega
    omega
  cases init with
  | none =>
    have hle : n ≤ 2 ^ lg := hg
    have hq : 1 ≤ 2 ^ lg / n := by rw [Nat.le_div_iff_mul_le (by omega)]; omega
    obtain ⟨m', h1, h2, -⟩ := dorescale_real
      { m with rescale := (n >>> 4 ||| 2 : Nat), nextleft := 0,
               newf := fun i => if i < 2 ^ lg % n then 2 ^ lg / n + 1
                                else if i < n then 2 ^ lg / n else m.newf i } n lg
      ⟨hn, npos, lgle, shift, by
        intro j hj; simp only; split
        · omega
        · exact hq, by
        simp only
        rw [psum_default _ _ _ _ (Nat.le_refl _)]
        have := Nat.mod_lt (2 ^ lg) (show n > 0 by omega)
        have := Nat.div_add_mod (2 ^ lg) n
        rw [Nat.min_eq_left (by omega), Nat.mul_comm]; exact this, hrs, rfl, cf0, cfn, table⟩
    subst hn
    exact ⟨m', h1, h2⟩
  | some f =>
    obtain ⟨g1, g2⟩ := hg
    obtain ⟨m', h1, h2, -⟩ := dorescale_real
      { m with rescale := (n >>> 4 ||| 2 : Nat), nextleft := 0,
               newf := fun i => if i < n then f i else m.newf i } n lg
      ⟨hn, npos, lgle, shift, by
        intro j hj; simp only; rw [if_pos hj]; exact g1 j hj, by
        simp only
        rw [← g2]
        exact psum_congr _ _ _ (fun j hj => by rw [if_pos hj]), hrs, rfl, cf0, cfn, table⟩
    subst hn
    exact ⟨m', h1, h2⟩

theorem init_inv (n lg : Nat) (rescale : Int) (init : Option (Nat → Nat)) (compress : Bool)
    (h : LegalParams n lg init) :
    ∃ m, initqsmodel n lg rescale init compress = some m ∧ Inv m n lg := by
  obtain ⟨h1, h2, h3⟩ := h
  unfold initqsmodel
  apply reset_pre _ n lg init h3 rfl h1 h2 rfl
  · simp
  · simp only; rw [upd_ne _ _ _ _ (by omega), upd_same, Nat.shiftLeft_eq, Nat.one_mul]
  · intro S hS
    cases compress with
    | true => simp at hS
    | false => simp at hS; subst hS; simp [tblShift]

theorem step_inv (m : QS) (n lg : Nat) (o : Op) (h : Inv m n lg) (ho : LegalOp n lg o) :
    ∃ m', step m o = some m' ∧ Inv m' n lg := by
  cases o with
  | update s => exact qsupdate_inv m n lg s h ho
  | reset init =>
    exact reset_pre m n lg init ho h.hn h.npos h.lgle h.shift h.cf0 h.cfn (fun S hS => (h.table S hS).1)

theorem run_inv (m : QS) (n lg : Nat) (os : List Op) (h : Inv m n lg) (ho : ∀ o ∈ os, LegalOp n lg o) :
    ∃ m', run m os = some m' ∧ Inv m' n lg := by
  induction os generalizing m with
  | nil => exact ⟨m, rfl, h⟩
  | cons o os ih =>
    obtain ⟨m1, h1, h2⟩ := step_inv m n lg o h (ho o List.mem_cons_self)
    obtain ⟨m2, g1, g2⟩ := ih m1 h2 (fun o' h' => ho o' (List.mem_cons_of_mem _ h'))
    exact ⟨m2, by simp [run, h1, g1], g2⟩

theorem Inv.cf_bound {m : QS} {n lg : Nat} (h : Inv m n lg) (i : Nat) (hi : i ≤ n) :
    m.cf i ≤ 1073741824 := by
  have := cf_le m.cf n h.cfmono i hi
  rw [h.cfn] at this
  exact Nat.le_trans this (lg_bound lg h.lgle)

theorem Inv.getfreq {m : QS} {n lg : Nat} (h : Inv m n lg) (s : Nat) (hs : s < n) :
    qsgetfreq m s = (m.cf (s + 1) - m.cf s, m.cf s) := by
  have h1 := h.cf_bound (s + 1) (by omega)
  have h2 := h.cfmono s hs
  unfold qsgetfreq
  congr 1
  omega

theorem Inv.consistent {m : QS} {n lg : Nat} (h : Inv m n lg) : Consistent m n (2 ^ lg) := by
  have hp := h.npos
  refine ⟨?_, ?_, ?_, ?_, ?_⟩
  · intro s hs; rw [h.getfreq s hs]; have := h.cfmono s hs; simp only; omega
  · rw [h.getfreq 0 (by omega)]; exact h.cf0
  · intro s hs
    rw [h.getfreq (s + 1) hs, h.getfreq s (by omega)]
    have := h.cfmono s (by omega); simp only; omega
  · rw [h.getfreq (n - 1) (by omega)]
    have := h.cfmono (n - 1) (by omega)
    have h2 := h.cfn
    rw [show n - 1 + 1 = n by omega] at *
    simp only; omega
  · have : ∀ k, k ≤ n → psum (fun s => (qsgetfreq m s).1) k = m.cf k := by
      intro k
      induction k with
      | zero => intro _; rw [h.cf0]; rfl
      | succ k ih =>
        intro hk
        simp only [psum, ih (by omega)]
        rw [h.getfreq k (by omega)]
        have := h.cfmono k (by omega); simp only; omega
    rw [this n (Nat.le_refl _), h.cfn]

theorem bsearch_spec (cf : Nat → Nat) (v lo hi : Nat) (hlo : cf lo ≤ v) (hhi : v < cf hi) (h : lo < hi) :
    lo ≤ bsearch cf v lo hi ∧ bsearch cf v lo hi < hi ∧
    cf (bsearch cf v lo hi) ≤ v ∧ v < cf (bsearch cf v lo hi + 1) := by
  induction hd : hi - lo using Nat.strongRecOn generalizing lo hi with
  | _ d ih =>
    rw [bsearch]
    by_cases hc : lo + 1 < hi
    · rw [dif_pos hc]
      simp only
      by_cases hm : v < cf ((lo + hi) / 2)
      · rw [if_pos hm]
        obtain ⟨a, b, c, e⟩ := ih ((lo + hi) / 2 - lo) (by omega) lo ((lo + hi) / 2) hlo hm (by omega) rfl
        exact ⟨a, by omega, c, e⟩
      · rw [if_neg hm]
        obtain ⟨a, b, c, e⟩ := ih (hi - (lo + hi) / 2) (by omega) ((lo + hi) / 2) hi (by omega) hhi (by omega) rfl
        exact ⟨by omega, b, c, e⟩
    · rw [dif_neg hc]
      have : hi = lo + 1 := by omega
      subst this
      exact ⟨Nat.le_refl _, by omega, hlo, hhi⟩

theorem cf_inj_lt (cf : Nat → Nat) (n : Nat) (hm : ∀ i, i < n → cf i < cf (i + 1)) (a b v : Nat)
    (ha : a < n) (_hb : b < n) (h1 : cf a ≤ v) (h2 : v < cf (b + 1)) : a ≤ b := by
  apply Nat.le_of_not_lt
  intro h
  have := cf_le cf a (fun i hi => hm i (by omega)) (b + 1) (by omega)
  omega

theorem Inv.getsym {m : QS} {n lg : Nat} (h : Inv m n lg) (hlg : 7 ≤ lg) (hd : m.search.isSome)
    (v : Nat) (hv : v < 2 ^ lg) :
    ∃ s, qsgetsym m v = some s ∧ s < n ∧ m.cf s ≤ v ∧ v < m.cf (s + 1) := by
  obtain ⟨S, hS⟩ := Option.isSome_iff_exists.1 hd
  obtain ⟨t1, t2⟩ := h.table S hS
  have t2 := t2 hlg
  have hp := h.npos
  have hsh := h.shift
  have hpow : 2 ^ lg = 128 * 2 ^ m.searchshift := by
    rw [hsh, show (128 : Nat) = 2 ^ 7 by decide, ← Nat.pow_add]; congr 1; omega
  have hp2 : 0 < 2 ^ m.searchshift := Nat.two_pow_pos _
  have hb : v / 2 ^ m.searchshift * 2 ^ m.searchshift ≤ v := Nat.div_mul_le_self _ _
  have hb2 : v < (v / 2 ^ m.searchshift + 1) * 2 ^ m.searchshift := by
    have := Nat.lt_div_mul_add (a := v) hp2
    rw [Nat.succ_mul]; exact this
  have hj : v / 2 ^ m.searchshift < 128 := by
    rw [Nat.div_lt_iff_lt_mul hp2]; omega
  obtain ⟨lo, l1, l2, l3, l4⟩ := t2 (v / 2 ^ m.searchshift) (by omega)
  have hhi : ∃ hi, S (v / 2 ^ m.searchshift + 1) = some hi ∧ hi < n ∧ v < m.cf (hi + 1) := by
    by_cases hc : v / 2 ^ m.searchshift + 1 = 128
    · refine ⟨n - 1, by rw [hc]; exact t1, by omega, ?_⟩
      rw [show n - 1 + 1 = n by omega, h.cfn]; exact hv
    · obtain ⟨hi, a1, a2, a3, a4⟩ := t2 (v / 2 ^ m.searchshift + 1) (by
        rw [hpow]; exact Nat.mul_lt_mul_of_pos_right (by omega) hp2)
      exact ⟨hi, a1, a2, by omega⟩
  obtain ⟨hi, a1, a2, a3⟩ := hhi
  have hlohi : lo ≤ hi := cf_inj_lt m.cf n h.cfmono lo hi v l2 a2 (by omega) a3
  obtain ⟨b1, b2, b3, b4⟩ := bsearch_spec m.cf v lo (hi + 1) (by omega) a3 (by omega)
  refine ⟨_, ?_, by omega, b3, b4⟩
  unfold qsgetsym
  rw [hS]
  simp only [Option.bind_eq_bind, Option.bind_some, Nat.shiftRight_eq_div_pow, l1, a1]

theorem rescaleLoop_search_indep (m : QS) (so : Option (Nat → Option Nat)) (m' : QS)
    (h : dorescale m = some m') (hso : so = none) :
    dorescale { m with search := so } = some { m' with search := so } := by
  subst hso
  unfold dorescale at h ⊢
  by_cases c1 : m.nextleft ≠ 0
  · rw [if_pos c1] at h ⊢
    cases h; rfl
  · rw [if_neg c1] at h ⊢
    dsimp only at h ⊢
    by_cases c2 : m.n = 0
    · rw [if_pos c2] at h; cases h
    · rw [if_neg c2] at h ⊢
      generalize rescaleLoop (m.n - 1) (m.cf m.n) (m.cf m.n) m.cf m.newf = r at *
      by_cases c3 : toU32 r.1 ≠ r.2.2.2 0
      · rw [if_pos c3] at h; cases h
      · rw [if_neg c3] at h ⊢
        cases hs : m.search with
        | none => rw [hs] at h; simp only at h; cases h; rfl
        | some S =>
          rw [hs] at h
          simp only at h
          cases hr : rebuildSearch r.2.2.1 m.searchshift m.n S with
          | none => rw [hr] at h; cases h
          | some S' => rw [hr] at h; cases h; rfl

/-- Forgetting the search table. -/
def erase (m : QS) : QS := { m with search := none }

theorem step_erase (m m' : QS) (o : Op) (h : step m o = some m') : step (erase m) o = some (erase m') := by
  cases o with
  | update s =>
    simp only [step, qsupdate] at h ⊢
    by_cases hl : m.left ≤ 0
    · rw [if_pos hl] at h
      rw [if_pos (show (erase m).left ≤ 0 from hl)]
      cases hd : dorescale m with
      | none => rw [hd] at h; cases h
      | some m1 =>
        rw [hd] at h
        rw [show dorescale (erase m) = some (erase m1) from rescaleLoop_search_indep m none m1 hd rfl]
        cases h; rfl
    · rw [if_neg hl] at h
      rw [if_neg (show ¬ (erase m).left ≤ 0 from hl)]
      cases h; rfl
  | reset init =>
    simp only [step, resetqsmodel] at h ⊢
    by_cases c : m.n = 0
    · rw [if_pos c] at h; cases h
    · rw [if_neg c] at h
      rw [if_neg (show ¬ (erase m).n = 0 from c)]
      exact rescaleLoop_search_indep _ none m' h rfl

theorem run_erase (os : List Op) (m m' : QS) (h : run m os = some m') :
    run (erase m) os = some (erase m') := by
  induction os generalizing m with
  | nil => cases h; rfl
  | cons o os ih =>
    simp only [run, Option.bind_eq_bind] at h ⊢
    cases hs : step m o with
    | none => rw [hs] at h; cases h
    | some m1 =>
      rw [hs] at h
      rw [step_erase m m1 o hs]
      exact ih m1 h


theorem dorescale_isSome (m m' : QS) (h : dorescale m = some m') (hs : m.search.isSome) :
    m'.search.isSome := by
  unfold dorescale at h
  by_cases c1 : m.nextleft ≠ 0
  · rw [if_pos c1] at h; cases h; exact hs
  · rw [if_neg c1] at h
    dsimp only at h
    split at h
    · cases h
    · split at h
      · cases h
      · cases hs' : m.search with
        | none => rw [hs'] at hs; cases hs
        | some S =>
          rw [hs'] at h
          simp only [Option.bind_eq_bind, Option.bind_eq_some_iff] at h
          obtain ⟨S', _, h⟩ := h
          cases h; rfl

theorem reset_isSome (m m' : QS) (init : Option (Nat → Nat)) (h : resetqsmodel m init = some m')
    (hs : m.search.isSome) : m'.search.isSome := by
  unfold resetqsmodel at h
  split at h
  · cases h
  · exact dorescale_isSome _ _ h hs

theorem step_isSome (m m' : QS) (o : Op) (h : step m o = some m') (hs : m.search.isSome) :
    m'.search.isSome := by
  cases o with
  | reset init => exact reset_isSome m m' init h hs
  | update s =>
    simp only [step, qsupdate, Option.bind_eq_bind] at h
    split at h
    · rw [Option.bind_eq_some_iff] at h
      obtain ⟨m1, a, b⟩ := h
      cases b; exact dorescale_isSome m m1 a hs
    · cases h; exact hs

theorem run_isSome (os : List Op) (m m' : QS) (h : run m os = some m') (hs : m.search.isSome) :
    m'.search.isSome := by
  induction os generalizing m with
  | nil => cases h; exact hs
  | cons o os ih =>
    simp only [run, Option.bind_eq_bind, Option.bind_eq_some_iff] at h
    obtain ⟨m1, a, b⟩ := h
    exact ih m1 b (step_isSome m m1 o a hs)

end TDP.QsModel
