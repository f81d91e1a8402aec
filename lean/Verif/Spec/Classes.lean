import Verif.Spec.Vocab

/-!
# Specification vocabulary: the classes of a histogram

A histogram's storage is presented as the ascending list of its equivalence classes with their counts, described
only through `lowest_equivalent`, `highest_equivalent` and `count_at`.
-/

namespace Hdr

variable {T : CounterTy}

/-- the values in the covered range that start a class, ascending -/
def Hist.classStarts (h : Hist T) : List Nat :=
  (List.range h.coverEnd).filter fun w => decide (h.lowestEquivalent w = .ok w)

/-- a class: its first value, `highest_equivalent` of it, and its count -/
structure Cls where
  lo : Nat
  hi : Nat
  count : Nat
  deriving DecidableEq, Repr

/-- `cs` lists all classes of `h`, in ascending order -/
structure Classes (h : Hist T) (cs : List Cls) : Prop where
  starts : cs.map (·.lo) = h.classStarts
  hi : ∀ c ∈ cs, h.highestEquivalent c.lo = .ok c.hi
  count : ∀ c ∈ cs, h.countAt c.lo = .ok c.count

/-- the classes of `h`, read off its answers (see `WF.contents`: it satisfies `Classes h`) -/
def Hist.contents (h : Hist T) : List Cls :=
  h.classStarts.map fun lo => ⟨lo, (h.highestEquivalent lo).toOption.getD 0, (h.countAt lo).toOption.getD 0⟩

/-- the contents of `cs` as recordings of the first value of each class -/
def Cls.records (cs : List Cls) : List (Nat × Nat) := cs.map fun c => (c.lo, c.count)

/-- `cs` without the empty classes, as `(highest value, count)` -/
def Cls.nonempty (cs : List Cls) : List (Nat × Nat) :=
  (cs.filter fun c => decide (c.count ≠ 0)).map fun c => (c.hi, c.count)

/-- Call `record_n_correct(v, c, interval)` for each pair in turn, stopping at the first error. -/
def correctSeq (interval : Nat) : List (Nat × Nat) → Hist T → M (Hist T × Except RecordError Unit)
  | [], h => .ok (h, .ok ())
  | (v, c) :: rest, h => do
    match ← h.recordNCorrect v c interval with
    | (h, .error e) => .ok (h, .error e)
    | (h, .ok ()) => correctSeq interval rest h

/-- The cached statistics are exact: `len()` is the (saturated) sum of the counts, `max()` is the highest value of the
last non-empty class (0 if there is none), `min_nz()` is the lowest value of the first non-empty class other than that
of zero (`u64::MAX` if there is none). -/
structure ExactStats (h : Hist T) (cs : List Cls) : Prop where
  len : h.len = min (cs.map (·.count)).sum U64MAX
  max : (∀ c ∈ cs, c.count = 0) ∧ h.max = .ok 0 ∨
    ∃ c ∈ cs, c.count ≠ 0 ∧ (∀ d ∈ cs, d.count ≠ 0 → d.lo ≤ c.lo) ∧ h.max = .ok c.hi
  minNz : (∀ c ∈ cs, c.lo ≠ 0 → c.count = 0) ∧ h.minNz = .ok U64MAX ∨
    ∃ c ∈ cs, c.lo ≠ 0 ∧ c.count ≠ 0 ∧ (∀ d ∈ cs, d.lo ≠ 0 → d.count ≠ 0 → c.lo ≤ d.lo) ∧ h.minNz = .ok c.lo

/-- same configuration, as reported by `low()`, `high()` and `sigfig()` -/
structure SameSettings (h s : Hist T) : Prop where
  low : h.low = s.low
  high : h.high = s.high
  sigfig : h.sigfig = s.sigfig

end Hdr
