import Verif.Spec.Classes
import Mathlib.Algebra.Order.Field.Rat

/-!
# Specification vocabulary: the mean
-/

namespace Hdr

variable {T : CounterTy}

/-- `ms` are the medians of the classes `cs` -/
def Medians (h : Hist T) (cs : List Cls) (ms : List Nat) : Prop :=
  List.Forall₂ (fun c m => h.medianEquivalent c.lo = .ok m) cs ms

/-- the sum of the class medians weighted with the counts -/
def weightedSum : List Cls → List Nat → Nat
  | c :: cs, m :: ms => m * c.count + weightedSum cs ms
  | _, _ => 0

/-- the count-weighted average of class medians, as a rational number -/
def exactMean (h : Hist T) (cs : List Cls) (ms : List Nat) : ℚ := (weightedSum cs ms : ℚ) / (h.len : ℚ)

/-- `x` approximates `y ≥ 0` with a relative error of `n` roundings to 53 bits -/
def Near (n : Nat) (x y : ℚ) : Prop := y * (1 - 1 / 2 ^ 53) ^ n ≤ x ∧ x ≤ y * (1 + 1 / 2 ^ 53) ^ n

/-- number of classes with samples -/
def Cls.used (cs : List Cls) : Nat := (cs.filter fun c => decide (c.count ≠ 0)).length

end Hdr
