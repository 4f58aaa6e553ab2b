import Mathlib.Data.List.Forall2
import Verif.RangeCoder.Model
/-! Specification vocabulary for the range coder properties. -/
namespace TDP.RangeCoder

/-- Length of the interval a coding call selects. -/
def Call.sy : Call → Nat | .freq s _ _ => s | .shift s _ _ => s
/-- Lower end of the interval a coding call selects. -/
def Call.lt : Call → Nat | .freq _ l _ => l | .shift _ l _ => l
/-- The total the interval is part of. -/
def Call.tot : Call → Nat | .freq _ _ t => t | .shift _ _ sh => 2 ^ sh

/-- Documented legal use of the coder: a non-empty interval inside the total, total at most `2^23`
(rangecod.h:86-88 asks for a total below `2^23`; the bound itself is fine too). -/
def Call.Valid (c : Call) : Prop := 0 < c.sy ∧ c.lt + c.sy ≤ c.tot ∧ c.tot ≤ 2 ^ 23

/-- `vs` lists, for each call, one value inside that call's interval. -/
def Inside (cs : List Call) (vs : List Nat) : Prop :=
  List.Forall₂ (fun c v => c.lt ≤ v ∧ v < c.lt + c.sy) cs vs

end TDP.RangeCoder
