import Verif.Model.Cli
import Verif.Spec.SampleIter

/-!
# Specification vocabulary: the command line tool
-/

namespace Hdr
namespace Cli

/-- the value of a string of decimal digits, in ASCII -/
def digitsValue (ds : List UInt8) : Nat := ds.foldl (fun a b => a * 10 + (b.toNat - 48)) 0

/-- a line that says `x`: decimal digits, a plus sign before them being allowed, for a `u64` -/
def Numeral (x : Nat) (line : List UInt8) : Prop :=
  ∃ ds : List UInt8, ds ≠ [] ∧ (∀ b ∈ ds, 48 ≤ b.toNat ∧ b.toNat ≤ 57) ∧ digitsValue ds = x ∧ x ≤ U64MAX ∧
    (line = ds ∨ line = 43 :: ds)

/-- the input lists the numbers `xs`, one per line; lines end with a newline, possibly after a carriage return, and the
last one need not -/
inductive Listing : List Nat → List UInt8 → Prop
  | nil : Listing [] []
  | last {x line} : Numeral x line → Listing [x] line
  | lf {x line xs rest} : Numeral x line → Listing xs rest → Listing (x :: xs) (line ++ 10 :: rest)
  | crlf {x line xs rest} : Numeral x line → Listing xs rest → Listing (x :: xs) (line ++ 13 :: 10 :: rest)

variable {T : CounterTy}

/-- What a row must say about the numbers `xs`: it shows a value equivalent to one of them, the total is how many of them
are not above that value (those equivalent to it included), the quantile is their share (a binary64 quotient) and not below
the quantile iterated to. -/
structure RowOf (h : Hist T) (xs : List Nat) (r : Row) : Prop where
  shown : ∃ x ∈ xs, Equiv h x r.value
  total : r.total = xs.countP fun x => decide (x ≤ r.value ∨ Equiv h x r.value)
  quantile : r.quantile = F64.div (F64.ofNat r.total) (F64.ofNat xs.length)
  enough : F64.le r.quantileTo r.quantile = true

/-- What the table must say about the numbers `xs` (at least one). `Precise`, `spread`: the precision of the histogram. -/
structure TableOf (fp : Fp) (h : Hist T) (xs : List Nat) (t : Table) : Prop where
  rows : ∀ r ∈ t.rows, RowOf h xs r
  ascending : t.rows.Pairwise fun a b => a.value ≤ b.value ∧ F64.lt a.quantileTo b.quantileTo = true
  end_ : ∃ r, t.rows.getLast? = some r ∧ r.quantileTo = .fin 1 ∧ r.inverse = none
  inverse : ∀ r ∈ t.rows, r.quantileTo ≠ .fin 1 → r.inverse = some (F64.div (.fin 1) (F64.sub (.fin 1) r.quantileTo))
  max : (∃ x ∈ xs, Equiv h x t.max) ∧ ∀ x ∈ xs, x ≤ t.max ∨ Equiv h x t.max
  len : t.len = xs.length
  mean : ∃ m, t.mean = .fin m ∧ let μ := sampleMean (xs.map fun x => (x, 1))
    |m - μ| ≤ spread fp h μ + (μ + spread fp h μ) / 2 ^ 28
  stdev : ∃ s, t.stdev = .fin s ∧ ∀ m, (∀ x ∈ xs, x ≤ m) →
    |(s : ℝ) - sampleStdev (xs.map fun x => (x, 1))| ≤ ((spread fp h m + (m + spread fp h m) / 2 ^ 26 : ℚ) : ℝ)

end Cli
end Hdr
