import Verif.Spec.Quantile
import Verif.Spec.Stdev

/-!
# Specification vocabulary: the samples themselves

The other specifications describe what a histogram answers in terms of its classes.  Here is what the answers should be,
in terms of the samples that were recorded.
-/

namespace Hdr

variable {T : CounterTy}

/-- how many of the samples satisfy `P`; samples are given as values with the number of times each was recorded -/
def number (l : List (Nat × Nat)) (P : Nat → Prop) [DecidablePred P] : Nat :=
  ((l.filter fun p => decide (P p.1)).map Prod.snd).sum

/-- all samples -/
def numberAll (l : List (Nat × Nat)) : Nat := (l.map Prod.snd).sum

/-- `h` holds the samples `l`: every count is the number of samples of that class, and `len()` the number of all -/
structure Contains (h : Hist T) (l : List (Nat × Nat)) : Prop where
  covered : ∀ p ∈ l, h.Covers p.1
  count : ∀ w, h.Covers w → h.countAt w = .ok (number l fun v => Equiv h v w)
  len : h.len = numberAll l

/-- `y` is the `k`-th smallest sample, counting from 1: fewer than `k` samples are below it and at least `k` are not above -/
def KthSmallest (l : List (Nat × Nat)) (k y : Nat) : Prop :=
  number l (fun v => v < y) < k ∧ k ≤ number l (fun v => v ≤ y)

/-- the smallest difference the histogram resolves -/
def unit (fp : Fp) (h : Hist T) : Nat := 2 ^ fp.log2Floor h.low

/-- `v` stands for `y` with the precision of the histogram: less than the unit apart, or at most one part in
`10 ^ sigfig` -/
def Precise (fp : Fp) (h : Hist T) (v y : Nat) : Prop :=
  ((v : ℤ) - y).natAbs < unit fp h ∨ ((v : ℤ) - y).natAbs * 10 ^ h.sigfig ≤ y

/-- how far the median of a class may be from the samples in it, for samples around `y`: half a unit, or half of one part in
`10 ^ sigfig` -/
def spread (fp : Fp) (h : Hist T) (y : ℚ) : ℚ := (unit fp h / 2 : ℕ) + y / (2 * 10 ^ h.sigfig)

/-- the mean of the samples -/
def sampleMean (l : List (Nat × Nat)) : ℚ := (l.map fun p => (p.1 * p.2 : ℚ)).sum / numberAll l

/-- the population variance of the samples -/
def sampleVariance (l : List (Nat × Nat)) : ℚ :=
  (l.map fun p => ((p.1 : ℚ) - sampleMean l) ^ 2 * (p.2 : ℚ)).sum / numberAll l

/-- the population standard deviation of the samples -/
noncomputable def sampleStdev (l : List (Nat × Nat)) : ℝ := Real.sqrt (sampleVariance l : ℚ)

end Hdr
