import Verif.Check.Prelude

/-!
# tests/auto_resize.rs

Transcribed as described in Verif/Check/Prelude.lean.
Not transcribed: `autosizing_across_continuous_range`.
-/

namespace Hdr.Check.AutoResize

set_option linter.unusedVariables false

/-- tests/auto_resize.rs:6 -/
def histogramAutosizingEdges : M Unit := do
  let mut histogram := (← unwrap (Hist.new fp .u64 3))
  histogram ← histogram.addAssignValue ((1 <<< 62) - 1)
  check (histogram.buckets == 52)
  check (histogram.distinctValues == 54272)
  histogram ← histogram.addAssignValue U64MAX
  check (histogram.buckets == 54)
  check (histogram.distinctValues == 56320)
#guard passes histogramAutosizingEdges

/-- tests/auto_resize.rs:22 -/
def histogramAutosizing : M Unit := do
  let mut histogram := (← unwrap (Hist.new fp .u64 3))
  for i in List.range' 0 (63 - 0) do
    histogram ← histogram.addAssignValue (1 <<< i)
  check (histogram.buckets == 53)
  check (histogram.distinctValues == 55296)
#guard passes histogramAutosizing

/-- tests/auto_resize.rs:32 -/
def autosizingAdd : M Unit := do
  let mut histogram1 := (← unwrap (Hist.new fp .u64 2))
  let mut histogram2 := (← unwrap (Hist.new fp .u64 2))
  histogram1 ← histogram1.addAssignValue 1000
  histogram1 ← histogram1.addAssignValue 1000000000
  histogram2 ← histogram2.addAssign histogram1
  check (← histogram2.equivalent (← histogram2.max) 1000000000)
#guard passes autosizingAdd

/-- tests/auto_resize.rs:53 -/
def canAcessAutoresizeSetting : M Unit := do
  let mut histogram := (← unwrap (Hist.new fp .u64 2))
  check histogram.isAutoResize
  histogram := histogram.auto false
  check (!histogram.isAutoResize)
#guard passes canAcessAutoresizeSetting

end Hdr.Check.AutoResize
