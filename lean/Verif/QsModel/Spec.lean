import Verif.QsModel.Model
/-! Specification vocabulary for the frequency model. -/
namespace TDP.QsModel

/-- Sum of the first `k` entries of an array. -/
def psum (F : Nat → Nat) : Nat → Nat
  | 0 => 0
  | k + 1 => psum F k + F k

/-- Initial frequencies (if given) that `initqsmodel`/`resetqsmodel` accept. -/
def GoodInit (n total : Nat) : Option (Nat → Nat) → Prop
  | none => n ≤ total
  | some f => (∀ i < n, 1 ≤ f i) ∧ psum f n = total

/-- Parameters documented as legal: at least one symbol, total below `2^31`. -/
def LegalParams (n lg : Nat) (init : Option (Nat → Nat)) : Prop :=
  1 ≤ n ∧ lg ≤ 30 ∧ GoodInit n (2 ^ lg) init

/-- Client operations documented as legal: symbols below `n`. -/
def LegalOp (n lg : Nat) : Op → Prop
  | .update s => s < n
  | .reset init => GoodInit n (2 ^ lg) init

/-- What a client sees of a consistent frequency table: every symbol has a non-empty interval and
the intervals tile `[0, total)` in order. -/
def Consistent (m : QS) (n total : Nat) : Prop :=
  (∀ s < n, 1 ≤ (qsgetfreq m s).1) ∧
  (qsgetfreq m 0).2 = 0 ∧
  (∀ s, s + 1 < n → (qsgetfreq m (s + 1)).2 = (qsgetfreq m s).2 + (qsgetfreq m s).1) ∧
  (qsgetfreq m (n - 1)).2 + (qsgetfreq m (n - 1)).1 = total ∧
  psum (fun s => (qsgetfreq m s).1) n = total

end TDP.QsModel
