import Verif.Model.Machine

/-!
# Model of `src/lib.rs`: the `Histogram` type, layout arithmetic, recording

All line numbers refer to `/repo/src/lib.rs` unless another file is named.
-/

namespace Hdr

/-- The libm `log2` as used at lib.rs:760, `(low as f64).log2().floor() as u8`.
This is the only transcendental floating-point result the layout depends on, so it is a parameter.
`le63` holds because `low ≤ 2^63 - 1` converts to at most `2^63`.
`exactSmall` (needed for C06 only) says the result is the true floor for `low < 2^45`, where the gap
between `log2 low` and the next integer exceeds several ulps. -/
structure Fp where
  log2Floor : Nat → Nat
  le63 : ∀ low, low < 2 ^ 63 → log2Floor low ≤ 63
  exactSmall : ∀ low, 0 < low → low < 2 ^ 45 → log2Floor low = Nat.log2 low

/-- lib.rs:217,219 -/
abbrev ORIGINAL_MIN : Nat := U64MAX
abbrev ORIGINAL_MAX : Nat := 0

/-- `CreationError`, src/errors/mod.rs:7-31 -/
inductive CreationError where
  | LowIsZero | LowExceedsMax | HighLessThanTwiceLow | SigFigExceedsMax
  | CannotRepresentSigFigBeyondLow | UsizeTypeTooSmall
  deriving DecidableEq, Repr

/-- `AdditionError`, src/errors/mod.rs:36-44 -/
inductive AdditionError where
  | OtherAddendValueExceedsRange | ResizeFailedUsizeTypeTooSmall
  deriving DecidableEq, Repr

/-- `SubtractionError`, src/errors/mod.rs:48-56 -/
inductive SubtractionError where
  | SubtrahendValueExceedsMinuendRange | SubtrahendCountExceedsMinuendCount
  deriving DecidableEq, Repr

/-- `RecordError`, src/errors/mod.rs:62-71 -/
inductive RecordError where
  | ValueOutOfRangeResizeDisabled | ResizeFailedUsizeTypeTooSmall
  deriving DecidableEq, Repr

/-- `struct Histogram<T>`, lib.rs:255-291. Field by field; `counts : Vec<T>` is a list of naturals. -/
structure Hist (T : CounterTy) where
  autoResize : Bool
  highestTrackable : Nat
  lowestDiscernible : Nat
  sigDigits : Nat
  bucketCount : Nat
  subBucketCount : Nat
  subBucketHalfCount : Nat
  subBucketHalfCountMag : Nat
  subBucketMask : Nat
  leadingZeroCountBase : Nat
  unitMag : Nat
  unitMagMask : Nat
  maxValue : Nat
  minNonZero : Nat
  totalCount : Nat
  counts : List Nat
  deriving DecidableEq, Repr

variable {T : CounterTy}

namespace Hist

/-! ## Administrative read-outs (lib.rs:302-350) -/

/-- lib.rs:302 -/
def distinctValues (h : Hist T) : Nat := h.counts.length
/-- lib.rs:307 -/
def low (h : Hist T) : Nat := h.lowestDiscernible
/-- lib.rs:312 -/
def high (h : Hist T) : Nat := h.highestTrackable
/-- lib.rs:317 -/
def sigfig (h : Hist T) : Nat := h.sigDigits
/-- lib.rs:328 (`count` at 323 is the same) -/
def len (h : Hist T) : Nat := h.totalCount
/-- lib.rs:333 -/
def isEmpty (h : Hist T) : Bool := h.totalCount == 0
/-- lib.rs:343 -/
def buckets (h : Hist T) : Nat := h.bucketCount
/-- lib.rs:348 -/
def isAutoResize (h : Hist T) : Bool := h.autoResize

/-! ## Layout arithmetic -/

/-- `bucket_for`, lib.rs:1571-1578 -/
def bucketFor (h : Hist T) (value : Nat) : M Nat :=
  subU h.leadingZeroCountBase (lz64 (value ||| h.subBucketMask))

/-- `sub_bucket_for`, lib.rs:1584-1594; the `as u32` truncates. -/
def subBucketFor (h : Hist T) (value bucketIndex : Nat) : M Nat := do
  let s ← addU8 bucketIndex h.unitMag
  let x ← shrU64 value s
  pure (x % 2 ^ 32)

/-- `value_from_loc`, lib.rs:1600-1606 -/
def valueFromLoc (h : Hist T) (bucketIndex subBucketIndex : Nat) : M Nat := do
  let s ← addU8 bucketIndex h.unitMag
  shlU64 subBucketIndex s

/-- `index_for`, lib.rs:358-383, with its `debug_assert!`s. -/
def indexFor (h : Hist T) (value : Nat) : M (Option Nat) := do
  let bucketIndex ← h.bucketFor value
  let subBucketIndex ← h.subBucketFor value bucketIndex
  assertM (decide (subBucketIndex < h.subBucketCount))
  assertM (decide (bucketIndex = 0 ∨ h.subBucketHalfCount ≤ subBucketIndex))
  let b1 ← chkI32 ((bucketIndex : Int) + 1)
  let base ← shlI32 b1 h.subBucketHalfCountMag
  let off ← chkI32 (wrapI32 subBucketIndex - wrapI32 h.subBucketHalfCount)
  let index ← chkI32 (base + off)
  assertM (decide (0 ≤ index))
  pure (toUsize index)

/-- `last_index`, lib.rs:400-404 -/
def lastIndex (h : Hist T) : M Nat := expectM (checkedSub h.distinctValues 1)

/-- `index_for_or_last`, lib.rs:388-391 -/
def indexForOrLast (h : Hist T) (value : Nat) : M Nat := do
  let oi ← h.indexFor value
  let last ← h.lastIndex
  pure (match oi with
    | none => last
    | some i => min i last)

/-- The slot `mut_at` (lib.rs:394-397) hands out a reference to, if the value is in range. -/
def mutAt (h : Hist T) (value : Nat) : M (Option Nat) := do
  match ← h.indexFor value with
  | none => pure none
  | some i => pure (if i < h.counts.length then some i else none)

/-- `value_for`, lib.rs:1532-1553 -/
def valueFor (h : Hist T) (index : Nat) : M Nat := do
  let q ← shrU64 index h.subBucketHalfCountMag
  let bucketIndex ← chkI64 ((q : Int) - 1)
  let i32 ← expectM (if index < 4294967296 then some index else none)
  let m ← subU h.subBucketHalfCount 1
  let subBucketIndex ← addU32 (i32 &&& m) h.subBucketHalfCount
  if bucketIndex < 0 then
    let s ← subU subBucketIndex h.subBucketHalfCount
    h.valueFromLoc 0 s
  else
    h.valueFromLoc (bucketIndex.toNat % 256) subBucketIndex

/-- `count_at_index`, lib.rs:1556-1558 -/
def countAtIndex (h : Hist T) (index : Nat) : Option Nat := h.counts[index]?

/-- `lowest_equivalent`, lib.rs:1464-1468 -/
def lowestEquivalent (h : Hist T) (value : Nat) : M Nat := do
  let b ← h.bucketFor value
  let s ← h.subBucketFor value b
  h.valueFromLoc b s

/-- `equivalent_range`, lib.rs:1508-1511 -/
def equivalentRange (h : Hist T) (value : Nat) : M Nat := do
  let b ← h.bucketFor value
  let s ← addU8 h.unitMag b
  shlU64 1 s

/-- `next_non_equivalent`, lib.rs:1500-1503 -/
def nextNonEquivalent (h : Hist T) (value : Nat) : M Nat := do
  let l ← h.lowestEquivalent value
  let r ← h.equivalentRange value
  pure (Hdr.satAdd l r)

/-- `highest_equivalent`, lib.rs:1475-1481 -/
def highestEquivalent (h : Hist T) (value : Nat) : M Nat := do
  if value = U64MAX then pure U64MAX
  else
    let n ← h.nextNonEquivalent value
    subU n 1

/-- `median_equivalent`, lib.rs:1488-1493 -/
def medianEquivalent (h : Hist T) (value : Nat) : M Nat := do
  let l ← h.lowestEquivalent value
  let r ← h.equivalentRange value
  expectM (if l + r / 2 ≤ U64MAX then some (l + r / 2) else none)

/-- `equivalent`, lib.rs:1288-1290 -/
def equivalent (h : Hist T) (value1 value2 : Nat) : M Bool := do
  let a ← h.lowestEquivalent value1
  let b ← h.lowestEquivalent value2
  pure (a == b)

/-! ## Sizing -/

/-- the `while` loop of `buckets_to_cover`, lib.rs:1617-1625; `fuel` bounds the iterations. -/
def bucketsLoop (value : Nat) : Nat → Nat → Nat → M Nat
  | 0, _, _ => .error .fuel
  | fuel + 1, smallest, needed =>
    if smallest ≤ value then
      if U64MAX / 2 < smallest then addU8 needed 1
      else do
        let s ← shlU64 smallest 1
        let n ← addU8 needed 1
        bucketsLoop value fuel s n
    else .ok needed

/-- `buckets_to_cover`, lib.rs:1609-1627 -/
def bucketsToCover (h : Hist T) (value : Nat) : M Nat := do
  let s ← shlU64 h.subBucketCount h.unitMag
  bucketsLoop value 66 s 1

/-- `num_bins`, lib.rs:1637-1639 -/
def numBins (h : Hist T) (numberOfBuckets : Nat) : M Nat := do
  let n ← addU32 numberOfBuckets 1
  mulU32 n h.subBucketHalfCount

/-- `Vec::resize(len, 0)` -/
def vecResize (l : List Nat) (n : Nat) : List Nat :=
  if n ≤ l.length then l.take n else l ++ List.replicate (n - l.length) 0

/-- `resize`, lib.rs:1646-1670. `u32 → usize` always succeeds on a 64-bit target, so the
`UsizeTypeTooSmall` branch (lib.rs:1659) does not appear. -/
def resize (h : Hist T) (high : Nat) : M (Hist T) := do
  let l2 ← mulU64 2 h.lowestDiscernible
  assertM (decide (l2 ≤ high))
  let bn ← h.bucketsToCover high
  let len ← h.numBins bn
  pure { h with
    bucketCount := bn
    highestTrackable := high
    counts := vecResize h.counts len }

/-! ## Cached statistics -/

/-- `!mask` on `u64` -/
def notU64 (x : Nat) : Nat := U64MAX - x

/-- `update_max`, lib.rs:1673-1678 -/
def updateMax (h : Hist T) (value : Nat) : Hist T :=
  let internal := value ||| h.unitMagMask
  if h.maxValue < internal then { h with maxValue := internal } else h

/-- `update_min`, lib.rs:1682-1691 -/
def updateMin (h : Hist T) (value : Nat) : Hist T :=
  if value ≤ h.unitMagMask then h
  else
    let internal := value &&& notU64 h.unitMagMask
    if internal < h.minNonZero then { h with minNonZero := internal } else h

/-- `update_min_max`, lib.rs:1693-1700 -/
def updateMinMax (h : Hist T) (value : Nat) : Hist T :=
  let h := if h.maxValue < value then h.updateMax value else h
  if value < h.minNonZero ∧ value ≠ 0 then h.updateMin value else h

/-- `reset_max`, lib.rs:1702-1704 -/
def resetMax (h : Hist T) (max : Nat) : Hist T := { h with maxValue := max ||| h.unitMagMask }

/-- `reset_min`, lib.rs:1706-1713 -/
def resetMin (h : Hist T) (min : Nat) : Hist T :=
  { h with minNonZero := if min = U64MAX then min else min &&& notU64 h.unitMagMask }

/-- `max`, lib.rs:1267-1273 -/
def max (h : Hist T) : M Nat :=
  if h.maxValue = ORIGINAL_MAX then pure ORIGINAL_MAX else h.highestEquivalent h.maxValue

/-- `min_nz`, lib.rs:1277-1283 -/
def minNz (h : Hist T) : M Nat :=
  if h.minNonZero = ORIGINAL_MIN then pure ORIGINAL_MIN else h.lowestEquivalent h.minNonZero

/-- `min`, lib.rs:1252-1263 -/
def min (h : Hist T) : M Nat := do
  if h.totalCount = 0 then pure 0
  else
    let c ← expectM (h.countAtIndex 0)
    if c ≠ 0 then pure 0 else h.minNz

/-! ## Restat (lib.rs:1716-1780) -/

/-- `RestatState`, lib.rs:1737-1742 -/
structure RestatState where
  maxIndex : Option Nat
  minIndex : Option Nat
  totalCount : Nat
  deriving DecidableEq, Repr

/-- lib.rs:1745-1752 -/
def RestatState.new : RestatState := ⟨none, none, 0⟩

/-- `on_nonzero_count`, lib.rs:1756-1764 -/
def RestatState.onNonzeroCount (s : RestatState) (index count : Nat) : RestatState :=
  { totalCount := Hdr.satAdd s.totalCount count
    maxIndex := some index
    minIndex := if s.minIndex.isNone && index != 0 then some index else s.minIndex }

/-- the `max_index` half of `update_histogram`, lib.rs:1769-1772 (of 1768-1779) -/
def applyMaxIndex (h : Hist T) : Option Nat → M (Hist T)
  | some i => do
    let v ← h.valueFor i
    let m ← h.highestEquivalent v
    pure (h.updateMax m)
  | none => pure h

/-- the `min_index` half of `update_histogram`, lib.rs:1773-1776 -/
def applyMinIndex (h : Hist T) : Option Nat → M (Hist T)
  | some i => do
    let v ← h.valueFor i
    pure (h.updateMin v)
  | none => pure h

/-- `update_histogram`, lib.rs:1768-1779 -/
def RestatState.updateHistogram (s : RestatState) (h : Hist T) : M (Hist T) := do
  let h ← h.applyMaxIndex s.maxIndex
  let h ← h.applyMinIndex s.minIndex
  pure { h with totalCount := s.totalCount }

/-- the scan loop of `restat`, lib.rs:1723-1729, over the remaining counts starting at index `i` -/
def restatLoop : List Nat → Nat → RestatState → RestatState
  | [], _, s => s
  | c :: cs, i, s => restatLoop cs (i + 1) (if c ≠ 0 then s.onNonzeroCount i c else s)

/-- `restat`, lib.rs:1716-1732 -/
def restat (h : Hist T) (lengthToScan : Nat) : M (Hist T) := do
  let h := (h.resetMax ORIGINAL_MAX).resetMin ORIGINAL_MIN
  assertM (decide (lengthToScan ≤ h.counts.length))
  let s := restatLoop (h.counts.take lengthToScan) 0 RestatState.new
  s.updateHistogram h

/-! ## Setters (lib.rs:661-684) -/

/-- `clear`, lib.rs:661-666 -/
def clear (h : Hist T) : Hist T :=
  { h with counts := h.counts.map (fun _ => 0), totalCount := 0 }

/-- `reset`, lib.rs:669-678 -/
def reset (h : Hist T) : Hist T := (h.clear.resetMax ORIGINAL_MAX).resetMin ORIGINAL_MIN

/-- `auto`, lib.rs:682-684 -/
def auto (h : Hist T) (enabled : Bool) : Hist T := { h with autoResize := enabled }

/-! ## Construction (lib.rs:697-839) -/

/-- `(f64::from(2 * 10^sigfig)).log2().ceil() as u8`, lib.rs:770, over the six admissible values
2, 20, 200, 2000, 20000, 200000: the ceiling of the base-2 logarithm. -/
def subBucketCountMag (sigfig : Nat) : Nat := Nat.log2 (2 * 10 ^ sigfig - 1) + 1

/-- the part of `new_with_bounds` before the counts array is sized, lib.rs:736-816 -/
def newUnsized (fp : Fp) (T : CounterTy) (low high sigfig : Nat) :
    M (Except CreationError (Hist T)) := do
  if low < 1 then return .error .LowIsZero
  if U64MAX / 2 < low then return .error .LowExceedsMax
  let l2 ← mulU64 2 low
  if high < l2 then return .error .HighLessThanTwiceLow
  if 5 < sigfig then return .error .SigFigExceedsMax
  let unitMagnitude := fp.log2Floor low
  let one ← shlU64 1 unitMagnitude
  let unitMagnitudeMask ← subU one 1
  let scm := subBucketCountMag sigfig
  let schm ← subU scm 1
  let subBucketCount ← shlU32 1 scm
  let sum ← addU8 unitMagnitude scm
  if 63 < sum then return .error .CannotRepresentSigFigBeyondLow
  let m ← subU subBucketCount 1
  let subBucketMask ← shlU64 m unitMagnitude
  let lz0 ← subU 64 unitMagnitude
  let lz ← subU lz0 scm
  let h : Hist T := {
    autoResize := false
    highestTrackable := high
    lowestDiscernible := low
    sigDigits := sigfig
    bucketCount := 0
    subBucketCount := subBucketCount
    subBucketHalfCount := subBucketCount / 2
    subBucketHalfCountMag := schm
    subBucketMask := subBucketMask
    leadingZeroCountBase := lz
    unitMag := unitMagnitude
    unitMagMask := unitMagnitudeMask
    maxValue := ORIGINAL_MAX
    minNonZero := ORIGINAL_MIN
    totalCount := 0
    counts := [] }
  return .ok h

/-- `new_with_bounds`, lib.rs:736-822 -/
def newWithBounds (fp : Fp) (T : CounterTy) (low high sigfig : Nat) :
    M (Except CreationError (Hist T)) := do
  match ← newUnsized fp T low high sigfig with
  | .error e => pure (.error e)
  | .ok h =>
    let h ← h.resize high
    pure (.ok h)

/-- `new`, lib.rs:697-703 -/
def new (fp : Fp) (T : CounterTy) (sigfig : Nat) : M (Except CreationError (Hist T)) := do
  match ← newWithBounds fp T 1 2 sigfig with
  | .ok h => pure (.ok { h with autoResize := true })
  | .error e => pure (.error e)

/-- `new_with_max`, lib.rs:712-714 -/
def newWithMax (fp : Fp) (T : CounterTy) (high sigfig : Nat) : M (Except CreationError (Hist T)) :=
  newWithBounds fp T 1 high sigfig

/-- `new_from`, lib.rs:826-839 -/
def newFrom {F : CounterTy} (fp : Fp) (T : CounterTy) (source : Hist F) : M (Hist T) := do
  match ← newWithBounds fp T source.lowestDiscernible source.highestTrackable source.sigDigits with
  | .error _ => .error .expect
  | .ok h =>
    pure { h with
      autoResize := source.autoResize
      counts := vecResize h.counts source.distinctValues }

/-! ## Recording (lib.rs:849-972) -/

/-- add `c` to slot `i`, saturating -/
def bumpSat (h : Hist T) (i c : Nat) : Hist T :=
  { h with counts := h.counts.set i (T.satAdd (h.counts.getD i 0) c) }

/-- the tail of `record_n_inner`, lib.rs:926-928 -/
def finishRecord (h : Hist T) (value count : Nat) : Hist T :=
  let h := h.updateMinMax value
  { h with totalCount := Hdr.satAdd h.totalCount count }

/-- the end of the resizing branch of `record_n_inner`, lib.rs:914-928 -/
def recordAfterResize (h : Hist T) (value count : Nat) : M (Hist T × Except RecordError Unit) := do
  let i ← expectM (← h.mutAt value)
  let c ← expectM (T.checkedAdd (h.counts.getD i 0) count)
  let h : Hist T := { h with counts := h.counts.set i c }
  pure (h.finishRecord value count, .ok ())

/-- `record_n_inner`, lib.rs:885-929 -/
def recordNInner (h : Hist T) (value count : Nat) (clamp : Bool) :
    M (Hist T × Except RecordError Unit) := do
  match ← h.mutAt value with
  | some i => pure ((h.bumpSat i count).finishRecord value count, .ok ())
  | none =>
    if clamp then
      let value := if h.highestTrackable < value then h.highestTrackable else h.lowestDiscernible
      let i ← expectM (← h.mutAt value)
      pure ((h.bumpSat i count).finishRecord value count, .ok ())
    else if !h.autoResize then
      pure (h, .error .ValueOutOfRangeResizeDisabled)
    else
      let h ← h.resize value
      let last ← h.lastIndex
      let lv ← h.valueFor last
      let ht ← h.highestEquivalent lv
      recordAfterResize { h with highestTrackable := ht } value count

/-- `record_n`, lib.rs:868-870 -/
def recordN (h : Hist T) (value count : Nat) : M (Hist T × Except RecordError Unit) :=
  h.recordNInner value count false

/-- `record`, lib.rs:849-851 -/
def record (h : Hist T) (value : Nat) : M (Hist T × Except RecordError Unit) :=
  h.recordN value 1

/-- `saturating_record_n`, lib.rs:881-883 (`unwrap` of the inner result) -/
def saturatingRecordN (h : Hist T) (value count : Nat) : M (Hist T) := do
  match ← h.recordNInner value count true with
  | (h, .ok ()) => pure h
  | (_, .error _) => .error .expect

/-- `saturating_record`, lib.rs:859-861 -/
def saturatingRecord (h : Hist T) (value : Nat) : M (Hist T) := h.saturatingRecordN value 1

/-- the `while` loop of `record_n_correct`, lib.rs:965-968 -/
def correctLoop (count interval : Nat) : Nat → Hist T → Nat → M (Hist T × Except RecordError Unit)
  | 0, _, _ => .error .fuel
  | fuel + 1, h, missing =>
    if interval ≤ missing then do
      match ← h.recordNInner missing count false with
      | (h, .error e) => pure (h, .error e)
      | (h, .ok ()) =>
        let m ← subU missing interval
        correctLoop count interval fuel h m
    else pure (h, .ok ())

/-- `record_n_correct`, lib.rs:951-972. The loop decreases `missing_value` by `interval ≥ 1`, so
`value + 1` iterations are enough fuel. -/
def recordNCorrect (h : Hist T) (value count interval : Nat) :
    M (Hist T × Except RecordError Unit) := do
  match ← h.recordN value count with
  | (h, .error e) => pure (h, .error e)
  | (h, .ok ()) =>
    if interval = 0 then pure (h, .ok ())
    else if interval < value then
      let missing ← subU value interval
      correctLoop count interval (value + 1) h missing
    else pure (h, .ok ())

/-- `record_correct`, lib.rs:934-936 -/
def recordCorrect (h : Hist T) (value interval : Nat) : M (Hist T × Except RecordError Unit) :=
  h.recordNCorrect value 1 interval

/-! ## Addition and subtraction (lib.rs:462-654) -/

/-- the direct loop of `add`, lib.rs:494-506: new counts of `self` and `observed_other_total_count` -/
def addCountsLoop (T : CounterTy) : List Nat → List Nat → Nat → M (List Nat × Nat)
  | xs, [], obs => .ok (xs, obs)
  | [], o :: os, obs =>
    -- `self.counts[i]` would be out of bounds if `other_count != 0`
    if o ≠ 0 then .error .index else addCountsLoop T [] os obs
  | x :: xs, o :: os, obs => do
    let (x', obs') := if o ≠ 0 then (T.satAdd x o, Hdr.satAdd obs o) else (x, obs)
    let (r, t) ← addCountsLoop T xs os obs'
    pure (x' :: r, t)

/-- the re-recording loop of `add`, lib.rs:533-541, for the source indexes in the list -/
def addRecordLoop (source : Hist T) : List Nat → Hist T → M (Hist T)
  | [], h => .ok h
  | i :: is, h => do
    let c ← expectM (source.countAtIndex i)
    if c ≠ 0 then
      let v ← source.valueFor i
      match ← h.recordN v c with
      | (h, .ok ()) => addRecordLoop source is h
      | (_, .error _) => .error .expect
    else addRecordLoop source is h

/-- the part of `add` after the range check, lib.rs:481-551 -/
def addBody (h source : Hist T) : M (Hist T) := do
  let matching := h.bucketCount == source.bucketCount
    && h.subBucketCount == source.subBucketCount && h.unitMag == source.unitMag
  if matching && h.isEmpty then
    -- `copy_from_slice` panics if the lengths differ
    assertM (decide (h.counts.length = source.counts.length))
    pure { h with
      counts := source.counts
      totalCount := source.totalCount
      minNonZero := source.minNonZero
      maxValue := source.maxValue }
  else if matching then
    let (cs, obs) ← addCountsLoop T h.counts source.counts 0
    let h : Hist T := { h with counts := cs }
    let h : Hist T := { h with totalCount := Hdr.satAdd h.totalCount obs }
    let mx ← source.max
    let hmx ← h.max
    let h := if hmx < mx then h.updateMax mx else h
    let mn ← source.minNz
    let hmn ← h.minNz
    let h := if mn < hmn then h.updateMin mn else h
    pure h
  else
    let smax ← source.max
    let omi ← expectM (← source.indexFor smax)
    let oc ← expectM (source.countAtIndex omi)
    let v ← source.valueFor omi
    match ← h.recordN v oc with
    | (_, .error _) => .error .expect
    | (h, .ok ()) => addRecordLoop source (List.range omi) h

/-- `add`, lib.rs:462-552 -/
def add (h source : Hist T) : M (Hist T × Except AdditionError Unit) := do
  if source.isEmpty then pure (h, .ok ())
  else
    let last ← h.lastIndex
    let lv ← h.valueFor last
    let top ← h.highestEquivalent lv
    let smax ← source.max
    if top < smax then
      if !h.autoResize then pure (h, .error .OtherAddendValueExceedsRange)
      else
        let h ← h.resize smax
        let h ← h.addBody source
        pure (h, .ok ())
    else
      let h ← h.addBody source
      pure (h, .ok ())

/-- `set_to`, lib.rs:438-441 -/
def setTo (h source : Hist T) : M (Hist T × Except AdditionError Unit) := h.reset.add source

/-- State of the loop of `subtract`: the histogram and `needs_restat`. -/
def subtractLoop (subtrahend : Hist T) (oldMinHigh oldMaxLow : Nat) :
    List Nat → Hist T → Bool → M (Hist T × Except SubtractionError Bool)
  | [], h, restat => .ok (h, .ok restat)
  | i :: is, h, restat => do
    let oc ← expectM (subtrahend.countAtIndex i)
    if oc ≠ 0 then
      let ov ← subtrahend.valueFor i
      match ← h.mutAt ov with
      | none => .error .expect    -- lib.rs:628 `panic!`
      | some j =>
        match checkedSub (h.counts.getD j 0) oc with
        | none => pure (h, .error .SubtrahendCountExceedsMinuendCount)
        | some c =>
          let h : Hist T := { h with counts := h.counts.set j c }
          let restat := restat || decide (ov ≤ oldMinHigh) || decide (oldMaxLow ≤ ov)
          if restat then subtractLoop subtrahend oldMinHigh oldMaxLow is h restat
          else
            let t ← expectM (checkedSub h.totalCount oc)
            subtractLoop subtrahend oldMinHigh oldMaxLow is { h with totalCount := t } restat
    else subtractLoop subtrahend oldMinHigh oldMaxLow is h restat

/-- `subtract`, lib.rs:587-654 -/
def subtract (h subtrahend : Hist T) : M (Hist T × Except SubtractionError Unit) := do
  if subtrahend.isEmpty then pure (h, .ok ())
  else
    let last ← h.lastIndex
    let lv ← h.valueFor last
    let top ← h.highestEquivalent lv
    let smax ← subtrahend.max
    let smaxHigh ← h.highestEquivalent smax
    if top < smaxHigh then pure (h, .error .SubtrahendValueExceedsMinuendRange)
    else
      let mn ← h.min
      let oldMinHigh ← h.highestEquivalent mn
      let mx ← h.max
      let oldMaxLow ← h.lowestEquivalent mx
      match ← subtractLoop subtrahend oldMinHigh oldMaxLow
          (List.range subtrahend.distinctValues) h (h.totalCount == U64MAX) with
      | (h, .error e) => pure (h, .error e)
      | (h, .ok restat) =>
        if restat then
          let h ← h.restat h.distinctValues
          pure (h, .ok ())
        else pure (h, .ok ())

/-! ## Integer queries (lib.rs:1435-1455) -/

/-- the fold of `count_between`, lib.rs:1439-1441, over the indexes in the list -/
def countBetweenLoop (h : Hist T) : List Nat → Nat → M Nat
  | [], t => .ok t
  | i :: is, t => do
    let c ← expectM (h.countAtIndex i)
    countBetweenLoop h is (Hdr.satAdd t c)

/-- `count_between`, lib.rs:1435-1442; the Rust range `lo..hi+1` is `[lo, ..., hi]` (empty if `lo > hi`) -/
def countBetween (h : Hist T) (low high : Nat) : M Nat := do
  let lo ← h.indexForOrLast low
  let hi ← h.indexForOrLast high
  let e ← expectM (if hi + 1 ≤ U64MAX then some (hi + 1) else none)
  h.countBetweenLoop (List.range' lo (e - lo)) 0

/-- `count_at`, lib.rs:1452-1455 -/
def countAt (h : Hist T) (value : Nat) : M Nat := do
  let i ← h.indexForOrLast value
  expectM (h.countAtIndex i)

/-! ## Equality (lib.rs:1869-1897) -/

/-- the `all` over `0..self.counts.len()`, lib.rs:1889-1895 -/
def eqCounts : List Nat → List Nat → Bool
  | [], _ => true
  | _ :: _, [] => false
  | x :: xs, y :: ys => x == y && eqCounts xs ys

/-- `PartialEq::eq`, lib.rs:1873-1896 -/
def eq (h other : Hist T) : M Bool := do
  if h.lowestDiscernible ≠ other.lowestDiscernible ∨ h.sigDigits ≠ other.sigDigits then return false
  if h.totalCount ≠ other.totalCount then return false
  let a ← h.max
  let b ← other.max
  if a ≠ b then return false
  let c ← h.minNz
  let d ← other.minNz
  if c ≠ d then return false
  return eqCounts h.counts other.counts

/-! ## Operator forms (lib.rs:1787-1866): `unwrap` of the corresponding method -/

/-- `AddAssign<Histogram>` / `AddAssign<&Histogram>` / `Add`, lib.rs:1787-1813 -/
def addAssign (h source : Hist T) : M (Hist T) := do
  match ← h.add source with
  | (h, .ok ()) => pure h
  | (_, .error _) => .error .expect

/-- `SubAssign` / `Sub`, lib.rs:1833-1859 -/
def subAssign (h source : Hist T) : M (Hist T) := do
  match ← h.subtract source with
  | (h, .ok ()) => pure h
  | (_, .error _) => .error .expect

/-- `AddAssign<u64>`, lib.rs:1862-1866 -/
def addAssignValue (h : Hist T) (value : Nat) : M (Hist T) := do
  match ← h.record value with
  | (h, .ok ()) => pure h
  | (_, .error _) => .error .expect

/-- the `for h in iter { first += h }` loop of `Sum`, lib.rs:1823-1825 -/
def sumLoop : Hist T → List (Hist T) → M (Hist T)
  | h, [] => .ok h
  | h, x :: xs => do
    let h ← h.addAssign x
    sumLoop h xs

/-- `iter::Sum`, lib.rs:1816-1831 -/
def sum (fp : Fp) : List (Hist T) → M (Hist T)
  | first :: rest => sumLoop first rest
  | [] => do
    match ← new fp T 3 with
    | .ok h => pure h
    | .error _ => .error .expect

end Hist
end Hdr
