import Verif.Model.Histogram

/-!
# Specification vocabulary: sequences of recordings
-/

namespace Hdr

/-- Call `record_n(v, c)` for each pair in turn, stopping at the first error (as `?` does). -/
def recordSeq {T : CounterTy} : List (Nat × Nat) → Hist T → M (Hist T × Except RecordError Unit)
  | [], h => .ok (h, .ok ())
  | (v, c) :: rest, h => do
    match ← h.recordN v c with
    | (h, .error e) => .ok (h, .error e)
    | (h, .ok ()) => recordSeq rest h

/-- The values a sample of `v` is expected to have hidden when samples are due every `interval`:
`v - interval, v - 2*interval, …`, as long as they are at least `interval`. -/
def hiddenSeries (v interval : Nat) : List Nat :=
  if interval = 0 then []
  else (List.range (v / interval - 1)).map fun k => v - (k + 1) * interval

end Hdr
