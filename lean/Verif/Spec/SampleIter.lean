import Verif.Spec.Samples
import Verif.Spec.Ticks

/-!
# Specification vocabulary: what iterators say about the samples
-/

namespace Hdr

variable {T : CounterTy}

/-- the counts since the last iteration, added up over the items up to and including number `k` -/
def runningTotal (items : List IterValue) (k : Nat) : Nat :=
  ((items.take (k + 1)).map (·.countSinceLastIteration)).sum

/-- What an item that shows the value `v` must say about the samples `l`, when the counts of the items up to it add up to
`total`: that is the number of samples not above `v`, those equivalent to it included; the quantile is the share of these
(a binary64 quotient); and the count at the value is the number of samples equivalent to `v` (if the histogram covers
`v`: a level of `iter_linear` or `iter_log` may lie above the range). -/
structure SampleItem (h : Hist T) (l : List (Nat × Nat)) (total : Nat) (it : IterValue) : Prop where
  upTo : total = number l fun x => x ≤ it.valueIteratedTo ∨ Equiv h x it.valueIteratedTo
  quantile : it.quantile = F64.div (F64.ofNat total) (F64.ofNat (numberAll l))
  here : h.Covers it.valueIteratedTo → it.countAtValue = number l fun x => Equiv h x it.valueIteratedTo

/-- one of the samples is equivalent to the value shown -/
def ShowsSample (h : Hist T) (l : List (Nat × Nat)) (it : IterValue) : Prop :=
  ∃ p ∈ l, p.2 ≠ 0 ∧ Equiv h p.1 it.valueIteratedTo

/-- no sample is above the value shown, up to equivalence -/
def ShowsAll (h : Hist T) (l : List (Nat × Nat)) (it : IterValue) : Prop :=
  ∀ p ∈ l, p.2 ≠ 0 → p.1 ≤ it.valueIteratedTo ∨ Equiv h p.1 it.valueIteratedTo

end Hdr
