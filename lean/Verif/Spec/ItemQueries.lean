import Verif.Spec.SampleIter

/-!
# Specification vocabulary: items of iterators and the queries of a histogram
-/

namespace Hdr

variable {T : CounterTy}

/-- What an item says is what the queries of the histogram say about its value, when the counts of the items up to it add up to
`total`. -/
structure ItemQueries (h : Hist T) (total : Nat) (it : IterValue) : Prop where
  quantile : h.quantileBelow it.valueIteratedTo = .ok it.quantile
  between : h.countBetween 0 it.valueIteratedTo = .ok total
  here : h.countAt it.valueIteratedTo = .ok it.countAtValue

/-- all items do -/
def QueriesAgree (h : Hist T) (items : List IterValue) : Prop :=
  ∀ k it, items[k]? = some it → ItemQueries h (runningTotal items k) it

end Hdr
