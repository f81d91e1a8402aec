import Verif.Spec.Quantile

/-!
# Specification vocabulary: iteration by reporting levels
-/

namespace Hdr

variable {T : CounterTy}

/-- number of samples in classes that start at or above `a` and below `b` -/
def countIn (cs : List Cls) (a b : Nat) : Nat :=
  ((cs.filter fun c => decide (a ≤ c.lo ∧ c.lo < b)).map (·.count)).sum

/-- What an iteration step that reports level `v` must show, if the previous steps accounted for all classes that start
below `from_`: the samples of the classes that start between the two levels, the fraction of samples in classes that start
at or below `v`, and the count of the class of `v`. -/
structure StepItem (h : Hist T) (cs : List Cls) (from_ v : Nat) (it : IterValue) : Prop where
  value : it.valueIteratedTo = v
  since : it.countSinceLastIteration = min (countIn cs from_ (v + 1)) U64MAX
  quantile : it.quantile = F64.div (F64.ofNat (min (countUpTo cs v) U64MAX)) (F64.ofNat h.len)
  quantileTo : it.quantileIteratedTo = it.quantile
  count : h.countAt v = .ok it.countAtValue

/-- the first value after the level before the `k`-th -/
def levelFrom (L : Nat → Nat) : Nat → Nat
  | 0 => 0
  | k + 1 => L k + 1

/-- `iter_linear(step)` may end after `n` steps, the last of which reports `n * step - 1`: the class of `max()` starts
at or below that level, and the next level does not lie in the same (covered) class. The class of `u64::MAX`, whose end
plus one is not a `u64`, is left after its first level. -/
def LinearDone (h : Hist T) (step n : Nat) : Prop :=
  (∀ m l, h.max = .ok m → h.lowestEquivalent m = .ok l → l < n * step) ∧
  ¬ (h.Covers ((n + 1) * step - 1) ∧ Equiv h (n * step - 1) ((n + 1) * step - 1) ∧ ¬ Equiv h (n * step - 1) U64MAX)

/-- `n` is the number of steps of `iter_linear(step)` -/
def LinearSteps (h : Hist T) (step n : Nat) : Prop :=
  IsLeast {j | 0 < j ∧ LinearDone h step j} n

/-- `x` is a binary64 value: NaN, an infinity, or a number unchanged by rounding -/
def F64.Valid : F64 → Prop
  | .fin q => F64.rnd q = .fin q
  | _ => True

/-- `start * base^k` in binary64: `start` is converted, and each multiplication rounds -/
def logF (start : Nat) (base : F64) : Nat → F64
  | 0 => F64.ofNat start
  | k + 1 => F64.mul (logF start base k) base

/-- the `k`-th level of `iter_log(start, base)`: `start * base^k`, truncated, minus one -/
def logLevel (start : Nat) (base : F64) : Nat → Nat
  | 0 => start - 1
  | k + 1 => (logF start base (k + 1)).toU64 - 1

/-- `n` is the number of steps of `iter_log(start, base)`: its last level is the first that is not below the class of
`max()` -/
def LogSteps (h : Hist T) (start : Nat) (base : F64) (n : Nat) : Prop :=
  IsLeast {j | 0 < j ∧ ∀ m l, h.max = .ok m → h.lowestEquivalent m = .ok l → l ≤ logLevel start base (j - 1)} n

end Hdr
