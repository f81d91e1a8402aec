import Verif.Check.Prelude

/-!
# tests/quantile.rs

Transcribed as described in Verif/Check/Prelude.lean.
`value_at_quantile_2_values` is transcribed by hand.
Not transcribed: `value_at_quantile_matches_quantile_iter_sequence_values`, `value_at_quantile_matches_quantile_iter_random_values`, `value_at_quantile_matches_quantile_at_each_value_sequence_values`, `value_at_quantile_matches_quantile_at_each_value_random_values`, `value_at_quantile_matches_random_quantile_random_values`.
-/

namespace Hdr.Check.Quantile

set_option linter.unusedVariables false

/-- tests/quantile.rs:11 -/
def valueAtQuantileInternalCountExceedsBucketType : M Unit := do
  let mut h := (← unwrap (Hist.new fp .u8 3))
  for _ in List.range' 0 (200 - 0) do
    h ← okay (h.record 100)
  for _ in List.range' 0 (200 - 0) do
    h ← okay (h.record 100000)
  check ((← h.highestEquivalent 100000) == (← h.valueAtQuantile (f64 1.0)))
#guard passes valueAtQuantileInternalCountExceedsBucketType

/-- tests/quantile.rs:27; `0.5000000000000001` and `0.5000000000000002` are the next numbers after `0.5` -/
def valueAtQuantile2Values : M Unit := do
  let h ← unwrap (Hist.newWithBounds fp .u64 1 U64MAX 3)
  let h ← okay (h.record 1)
  let h ← okay (h.record 2)
  check (1 == (← h.valueAtQuantile (f64 0.25)))
  check (1 == (← h.valueAtQuantile (f64 0.5)))
  check (f64 0.5000000000000001 = .fin (1 / 2 + 1 / 2 ^ 53))
  check (f64 0.5000000000000002 = .fin (1 / 2 + 2 / 2 ^ 53))
  check (2 == (← h.valueAtQuantile (f64 0.5000000000000001)))
  check (2 == (← h.valueAtQuantile (f64 0.5000000000000002)))
#guard passes valueAtQuantile2Values

/-- tests/quantile.rs:47 -/
def valueAtQuantile5Values : M Unit := do
  let mut h := (← unwrap (Hist.newWithBounds fp .u64 1 U64MAX 3))
  h ← okay (h.record 1)
  h ← okay (h.record 2)
  h ← okay (h.record 2)
  h ← okay (h.record 2)
  h ← okay (h.record 2)
  check (2 == (← h.valueAtQuantile (f64 0.25)))
  check (2 == (← h.valueAtQuantile (f64 0.3)))
#guard passes valueAtQuantile5Values

/-- tests/quantile.rs:61 -/
def valueAtQuantile20k : M Unit := do
  let mut h := (← unwrap (Hist.newWithBounds fp .u64 1 U64MAX 3))
  for i in List.range' 1 (20001 - 1) do
    h ← okay (h.record i)
  check (20000 == h.len)
  check (← h.equivalent 19961 (← h.valueAtQuantile (f64 0.99805)))
#guard passes valueAtQuantile20k

/-- tests/quantile.rs:74 -/
def valueAtQuantileLargeNumbers : M Unit := do
  let mut h := (← unwrap (Hist.newWithBounds fp .u64 20000000 100000000 5))
  h ← okay (h.record 100000000)
  h ← okay (h.record 20000000)
  h ← okay (h.record 30000000)
  check (← h.equivalent 20000000 (← h.valueAtQuantile (f64 0.5)))
  check (← h.equivalent 30000000 (← h.valueAtQuantile (f64 0.5)))
  check (← h.equivalent 100000000 (← h.valueAtQuantile (f64 0.8333)))
  check (← h.equivalent 100000000 (← h.valueAtQuantile (f64 0.8334)))
  check (← h.equivalent 100000000 (← h.valueAtQuantile (f64 0.99)))
#guard passes valueAtQuantileLargeNumbers

end Hdr.Check.Quantile
