import Verif.Spec.Classes

/-!
# Specification vocabulary: ranks and quantiles

`F64.rndQ` is rounding of a rational number to the nearest binary64 number, ties to even.
-/

namespace Hdr

/-- `c` is the class in which the running count, taken over the classes in ascending order, first reaches `r` -/
def AtRank (cs : List Cls) (r : Nat) (c : Cls) : Prop :=
  ∃ pre post, cs = pre ++ c :: post ∧ (pre.map (·.count)).sum < r ∧ r ≤ (pre.map (·.count)).sum + c.count

/-- The rank that quantile `q` asks for among `n` samples: `max(1, ceil(q * n))` computed with binary64 rounding of `n`
and of the product, with quantiles above 1 counting as 1 and NaN as 0. -/
def specRank (n : Nat) : F64 → Nat
  | .nan => 1
  | .ninf => 1
  | .pinf => max 1 (min ⌈F64.rndQ n⌉.toNat U64MAX)
  | .fin x => max 1 (min ⌈F64.rndQ (min x 1 * F64.rndQ n)⌉.toNat U64MAX)

/-- the exact rank, without rounding, for `0 ≤ x ≤ 1` -/
def exactRank (n : Nat) (x : ℚ) : Nat := max 1 ⌈x * n⌉.toNat

/-- number of samples in classes that start at or below `v` -/
def countUpTo (cs : List Cls) (v : Nat) : Nat := ((cs.filter fun c => decide (c.lo ≤ v)).map (·.count)).sum

end Hdr
