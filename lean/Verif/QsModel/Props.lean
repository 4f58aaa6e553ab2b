import Verif.QsModel.Lemmas
/-! Properties C03, C04 -/
namespace TDP.QsModel

/-- The model a client holds after creating it and performing the operations `os`. -/
def history (n lg : Nat) (rescale : Int) (init : Option (Nat → Nat)) (compress : Bool)
    (os : List Op) : Option QS := do
  run (← initqsmodel n lg rescale init compress) os

theorem history_inv (n lg : Nat) (rescale : Int) (init : Option (Nat → Nat)) (compress : Bool)
    (os : List Op) (hp : LegalParams n lg init) (ho : ∀ o ∈ os, LegalOp n lg o) :
    ∃ m, history n lg rescale init compress os = some m ∧ Inv m n lg := by
  obtain ⟨m, h1, h2⟩ := init_inv n lg rescale init compress hp
  obtain ⟨m', g1, g2⟩ := run_inv m n lg os h2 ho
  exact ⟨m', by simp [history, h1, g1], g2⟩

/-- **C03.** After any legal history (updates with existing symbols, resets), on a compressing or a
decompressing model and for every rescale interval: no operation takes the library's
"BUG: rescaling left" exit (the outcome is not `none`), every symbol has frequency at least 1 and the
intervals tile `[0, 2^lg)`. -/
theorem C03_model_consistent (n lg : Nat) (rescale : Int) (init : Option (Nat → Nat)) (compress : Bool)
    (os : List Op) (hp : LegalParams n lg init) (ho : ∀ o ∈ os, LegalOp n lg o) :
    ∃ m, history n lg rescale init compress os = some m ∧ Consistent m n (2 ^ lg) := by
  obtain ⟨m, h1, h2⟩ := history_inv n lg rescale init compress os hp ho
  exact ⟨m, h1, h2.consistent⟩

example : LegalParams 300 18 none ∧ LegalOp 300 18 (.update 299) := by
  simp [LegalParams, GoodInit, LegalOp]

/-- The frequencies do not depend on whether the model was created for compression or for
decompression: encoder and decoder stay in lockstep as long as they perform the same history. -/
theorem C03_lockstep (n lg : Nat) (rescale : Int) (init : Option (Nat → Nat)) (os : List Op)
    (hp : LegalParams n lg init) (ho : ∀ o ∈ os, LegalOp n lg o) :
    ∃ mc md, history n lg rescale init true os = some mc ∧ history n lg rescale init false os = some md ∧
      ∀ s, qsgetfreq mc s = qsgetfreq md s := by
  obtain ⟨md, h1, h2⟩ := history_inv n lg rescale init false os hp ho
  obtain ⟨m0, i1, i2⟩ := init_inv n lg rescale init false hp
  refine ⟨erase md, md, ?_, h1, fun s => rfl⟩
  have hi : initqsmodel n lg rescale init true = some (erase m0) := by
    unfold initqsmodel at i1 ⊢
    exact step_erase _ m0 (.reset init) i1
  simp only [history, hi, i1, Option.bind_eq_bind, Option.bind_some] at h1 ⊢
  exact run_erase os m0 md h1

/-- **C04.** On a decompressing model with a total of at least `2^7` (the search table has `2^7`
buckets), after any legal history, `qsgetsym` maps every cumulative value below the total to the one
symbol whose interval, as reported by `qsgetfreq`, contains it. -/
theorem C04_getsym_inverts (n lg : Nat) (rescale : Int) (init : Option (Nat → Nat))
    (os : List Op) (hp : LegalParams n lg init) (hlg : 7 ≤ lg) (ho : ∀ o ∈ os, LegalOp n lg o) :
    ∃ m, history n lg rescale init false os = some m ∧
      (∀ v < 2 ^ lg, ∃ s, qsgetsym m v = some s ∧ s < n ∧
        (qsgetfreq m s).2 ≤ v ∧ v < (qsgetfreq m s).2 + (qsgetfreq m s).1) ∧
      (∀ s < n, ∀ v, (qsgetfreq m s).2 ≤ v → v < (qsgetfreq m s).2 + (qsgetfreq m s).1 →
        qsgetsym m v = some s) := by
  obtain ⟨m, h1, h2⟩ := history_inv n lg rescale init false os hp ho
  have hsearch : m.search.isSome := by
    simp only [history, Option.bind_eq_bind, Option.bind_eq_some_iff] at h1
    obtain ⟨m0, a, b⟩ := h1
    exact run_isSome os m0 m b (reset_isSome _ m0 init a rfl)
  refine ⟨m, h1, ?_, ?_⟩
  · intro v hv
    obtain ⟨s, a, b, c, d⟩ := h2.getsym hlg hsearch v hv
    refine ⟨s, a, b, ?_⟩
    rw [h2.getfreq s b]; have := h2.cfmono s b
    simp only; omega
  · intro s hs v hv1 hv2
    rw [h2.getfreq s hs] at hv1 hv2
    have hm := h2.cfmono s hs
    have hle := cf_le m.cf n h2.cfmono (s + 1) (by omega)
    rw [h2.cfn] at hle
    simp only at hv1 hv2
    obtain ⟨s', a, b, c, d⟩ := h2.getsym hlg hsearch v (by omega)
    have e1 := cf_inj_lt m.cf n h2.cfmono s s' v hs b (by omega) d
    have e2 := cf_inj_lt m.cf n h2.cfmono s' s v b hs c (by omega)
    have : s' = s := by omega
    rw [a, this]

example : LegalParams 2 10 none ∧ 7 ≤ 10 ∧ LegalOp 2 10 (.update 1) := by
  simp [LegalParams, GoodInit, LegalOp]

/-- Why `C04` asks for a total of at least `2^7`: with a smaller total the entry after the last
bucket is never written, and looking up the largest value reads it (`none`). The project itself only
uses totals `2^10` and `2^18` (mymeshComp.cpp, mymeshDecomp.cpp). -/
theorem C04_small_total_reads_uninitialised :
    ((initqsmodel 2 3 16 none false).bind (qsgetsym · 7)) = none := by
  decide

end TDP.QsModel
