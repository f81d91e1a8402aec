import Verif.Check.Prelude

/-!
# src/tests/tests.rs

Transcribed as described in Verif/Check/Prelude.lean.
Not transcribed: `correct_original_min`.
-/

namespace Hdr.Check.Tests

set_option linter.unusedVariables false

/-- src/tests/tests.rs:15 -/
def newErrHighNotDoubleLow : M Unit := do
  let res := (Hist.newWithBounds fp .u64 10 15 0)
  check (CreationError.HighLessThanTwiceLow == (← unwrapErr res))
#guard passes newErrHighNotDoubleLow

end Hdr.Check.Tests
