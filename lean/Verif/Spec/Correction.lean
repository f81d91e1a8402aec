import Verif.Spec.Samples
import Verif.Spec.Records
import Verif.Spec.Classes

/-!
# Specification vocabulary: samples and what they are expected to have hidden
-/

namespace Hdr

variable {T : CounterTy}

/-- every sample with the series it is expected to have hidden -/
def withHidden (interval : Nat) (l : List (Nat × Nat)) : List (Nat × Nat) :=
  l.flatMap fun p => (p.1 :: hiddenSeries p.1 interval).map fun x => (x, p.2)

/-- the samples as `s` reports them: each is replaced by the highest value equivalent to it -/
def reported (s : Hist T) (l : List (Nat × Nat)) : List (Nat × Nat) :=
  l.map fun p => ((s.highestEquivalent p.1).toOption.getD 0, p.2)

/-- `y` is the `k`-th largest sample, counting from 1: fewer than `k` samples are above it and at least `k` are not below -/
def KthLargest (l : List (Nat × Nat)) (k y : Nat) : Prop :=
  number l (fun v => y < v) < k ∧ k ≤ number l (fun v => y ≤ v)

end Hdr
