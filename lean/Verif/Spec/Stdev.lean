import Verif.Spec.Mean
import Mathlib.Analysis.Real.Sqrt

/-!
# Specification vocabulary: the standard deviation
-/

namespace Hdr

variable {T : CounterTy}

/-- the sum of the squared distances of the class medians from `μ`, weighted with the counts -/
def weightedSq (μ : ℚ) : List Cls → List Nat → ℚ
  | c :: cs, m :: ms => c.count * ((m : ℚ) - μ) ^ 2 + weightedSq μ cs ms
  | _, _ => 0

/-- the population variance of the class medians, as a rational number -/
def exactVariance (h : Hist T) (cs : List Cls) (ms : List Nat) : ℚ :=
  weightedSq (exactMean h cs ms) cs ms / (h.len : ℚ)

/-- the population standard deviation of the class medians, as a real number -/
noncomputable def exactStdev (h : Hist T) (cs : List Cls) (ms : List Nat) : ℝ :=
  Real.sqrt (exactVariance h cs ms : ℚ)

/-- `b` bounds the medians of the classes with samples -/
def MediansLe (b : Nat) : List Cls → List Nat → Prop
  | c :: cs, m :: ms => (c.count ≠ 0 → m ≤ b) ∧ MediansLe b cs ms
  | _, _ => True

end Hdr
