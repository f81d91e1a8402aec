import Verif.Model.Stdev
import Verif.Model.V2

/-!
# Model of the crate in a release build

The rest of the model is for a build with debug assertions and overflow checks (`cargo build`, `cargo test`). Cargo's
release profile has neither, and the crate does not change that (/repo/Cargo.toml:48-49): integer arithmetic wraps
around, the amount of a shift is reduced modulo the width of the type, and `debug_assert!` is not evaluated.

Here are the functions of `Model/Histogram`, `Model/Iter`, `Model/Stdev` and `Model/V2` that use checked arithmetic or
call one that does, word for word except that the checked operations are replaced by the wrapping ones below and the
`debug_assert!`s of `index_for` (lib.rs:362, 363, 381), `V2Serializer::serialize` (v2_serializer.rs:94) and
`V2DeflateSerializer::serialize` (v2_deflate_serializer.rs:97) are gone. The line numbers are those of the functions.
Functions without overflow checks are used as they are. The conversions between integer types and the
multiplication by `2 ^ n` in the serializer are not affected by the build.
-/

namespace Hdr
namespace Release

/-- `u8 + u8` -/
def addU8 (a b : Nat) : M Nat := .ok ((a + b) % 2 ^ 8)

/-- `u32 + u32` -/
def addU32 (a b : Nat) : M Nat := .ok ((a + b) % 2 ^ 32)

/-- `u32 * u32` -/
def mulU32 (a b : Nat) : M Nat := .ok (a * b % 2 ^ 32)

/-- `u64 + u64` (also `usize + usize`) -/
def addU64 (a b : Nat) : M Nat := .ok ((a + b) % 2 ^ 64)

/-- `u64 * u64` -/
def mulU64 (a b : Nat) : M Nat := .ok (a * b % 2 ^ 64)

/-- `a - b` modulo `2 ^ bits`, for operands below `2 ^ bits` -/
def wrapSub (bits a b : Nat) : Nat := if b ≤ a then a - b else a + 2 ^ bits - b

/-- `u8 - u8` -/
def subU8 (a b : Nat) : M Nat := .ok (wrapSub 8 a b)

/-- `u32 - u32` -/
def subU32 (a b : Nat) : M Nat := .ok (wrapSub 32 a b)

/-- `u64 - u64` -/
def subU64 (a b : Nat) : M Nat := .ok (wrapSub 64 a b)

/-- `u64 << n` -/
def shlU64 (a n : Nat) : M Nat := .ok (a * 2 ^ (n % 64) % 2 ^ 64)

/-- `u64 >> n` -/
def shrU64 (a n : Nat) : M Nat := .ok (a / 2 ^ (n % 64))

/-- `u32 << n` -/
def shlU32 (a n : Nat) : M Nat := .ok (a * 2 ^ (n % 32) % 2 ^ 32)

/-- `i32 << n` -/
def shlI32 (a : Int) (n : Nat) : M Int := .ok (wrapI32 (a * 2 ^ (n % 32)))

/-- `i32` result -/
def wrapI32M (x : Int) : M Int := .ok (wrapI32 x)

/-- `i64` result (also `isize`) -/
def wrapI64M (x : Int) : M Int := .ok ((x + 2 ^ 63) % 2 ^ 64 - 2 ^ 63)


namespace Hist

open Hdr.Hist

variable {T : CounterTy} {P : Type}

/-- `bucket_for`, lib.rs:1571-1578 -/
def bucketFor (h : Hist T) (value : Nat) : M Nat :=
  subU8 h.leadingZeroCountBase (lz64 (value ||| h.subBucketMask))

/-- `sub_bucket_for`, lib.rs:1584-1594; the `as u32` truncates. -/
def subBucketFor (h : Hist T) (value bucketIndex : Nat) : M Nat := do
  let s ← addU8 bucketIndex h.unitMag
  let x ← shrU64 value s
  pure (x % 2 ^ 32)

/-- `value_from_loc`, lib.rs:1600-1606 -/
def valueFromLoc (h : Hist T) (bucketIndex subBucketIndex : Nat) : M Nat := do
  let s ← addU8 bucketIndex h.unitMag
  shlU64 subBucketIndex s

/-- `index_for`, lib.rs:358-383 without its `debug_assert!`s -/
def indexFor (h : Hist T) (value : Nat) : M (Option Nat) := do
  let bucketIndex ← bucketFor h value
  let subBucketIndex ← subBucketFor h value bucketIndex
  let b1 ← wrapI32M ((bucketIndex : Int) + 1)
  let base ← shlI32 b1 h.subBucketHalfCountMag
  let off ← wrapI32M (wrapI32 subBucketIndex - wrapI32 h.subBucketHalfCount)
  let index ← wrapI32M (base + off)
  pure (toUsize index)

/-- `index_for_or_last`, lib.rs:388-391 -/
def indexForOrLast (h : Hist T) (value : Nat) : M Nat := do
  let oi ← indexFor h value
  let last ← h.lastIndex
  pure (match oi with
    | none => last
    | some i => Min.min i last)

/-- The slot `mut_at` (lib.rs:394-397) hands out a reference to, if the value is in range. -/
def mutAt (h : Hist T) (value : Nat) : M (Option Nat) := do
  match ← indexFor h value with
  | none => pure none
  | some i => pure (if i < h.counts.length then some i else none)

/-- `value_for`, lib.rs:1532-1553 -/
def valueFor (h : Hist T) (index : Nat) : M Nat := do
  let q ← shrU64 index h.subBucketHalfCountMag
  let bucketIndex ← wrapI64M ((q : Int) - 1)
  let i32 ← expectM (if index < 4294967296 then some index else none)
  let m ← subU32 h.subBucketHalfCount 1
  let subBucketIndex ← addU32 (i32 &&& m) h.subBucketHalfCount
  if bucketIndex < 0 then
    let s ← subU32 subBucketIndex h.subBucketHalfCount
    valueFromLoc h 0 s
  else
    valueFromLoc h (bucketIndex.toNat % 256) subBucketIndex

/-- `lowest_equivalent`, lib.rs:1464-1468 -/
def lowestEquivalent (h : Hist T) (value : Nat) : M Nat := do
  let b ← bucketFor h value
  let s ← subBucketFor h value b
  valueFromLoc h b s

/-- `equivalent_range`, lib.rs:1508-1511 -/
def equivalentRange (h : Hist T) (value : Nat) : M Nat := do
  let b ← bucketFor h value
  let s ← addU8 h.unitMag b
  shlU64 1 s

/-- `next_non_equivalent`, lib.rs:1500-1503 -/
def nextNonEquivalent (h : Hist T) (value : Nat) : M Nat := do
  let l ← lowestEquivalent h value
  let r ← equivalentRange h value
  pure (Hdr.satAdd l r)

/-- `highest_equivalent`, lib.rs:1475-1481 -/
def highestEquivalent (h : Hist T) (value : Nat) : M Nat := do
  if value = U64MAX then pure U64MAX
  else
    let n ← nextNonEquivalent h value
    subU64 n 1

/-- `median_equivalent`, lib.rs:1488-1493 -/
def medianEquivalent (h : Hist T) (value : Nat) : M Nat := do
  let l ← lowestEquivalent h value
  let r ← equivalentRange h value
  expectM (if l + r / 2 ≤ U64MAX then some (l + r / 2) else none)

/-- `equivalent`, lib.rs:1288-1290 -/
def equivalent (h : Hist T) (value1 value2 : Nat) : M Bool := do
  let a ← lowestEquivalent h value1
  let b ← lowestEquivalent h value2
  pure (a == b)

/-- the `while` loop of `buckets_to_cover`, lib.rs:1617-1625; `fuel` bounds the iterations. -/
def bucketsLoop (value : Nat) : Nat → Nat → Nat → M Nat
  | 0, _, _ => .error .fuel
  | fuel + 1, smallest, needed =>
    if smallest ≤ value then
      if U64MAX / 2 < smallest then addU8 needed 1
      else do
        let s ← shlU64 smallest 1
        let n ← addU8 needed 1
        bucketsLoop value fuel s n
    else .ok needed

/-- `buckets_to_cover`, lib.rs:1609-1627 -/
def bucketsToCover (h : Hist T) (value : Nat) : M Nat := do
  let s ← shlU64 h.subBucketCount h.unitMag
  bucketsLoop value 66 s 1

/-- `num_bins`, lib.rs:1637-1639 -/
def numBins (h : Hist T) (numberOfBuckets : Nat) : M Nat := do
  let n ← addU32 numberOfBuckets 1
  mulU32 n h.subBucketHalfCount

/-- `resize`, lib.rs:1646-1670. `u32 → usize` always succeeds on a 64-bit target, so the
`UsizeTypeTooSmall` branch (lib.rs:1659) does not appear. -/
def resize (h : Hist T) (high : Nat) : M (Hist T) := do
  let l2 ← mulU64 2 h.lowestDiscernible
  assertM (decide (l2 ≤ high))
  let bn ← bucketsToCover h high
  let len ← numBins h bn
  pure { h with
    bucketCount := bn
    highestTrackable := high
    counts := vecResize h.counts len }

/-- `max`, lib.rs:1267-1273 -/
def max (h : Hist T) : M Nat :=
  if h.maxValue = ORIGINAL_MAX then pure ORIGINAL_MAX else (highestEquivalent h) h.maxValue

/-- `min_nz`, lib.rs:1277-1283 -/
def minNz (h : Hist T) : M Nat :=
  if h.minNonZero = ORIGINAL_MIN then pure ORIGINAL_MIN else (lowestEquivalent h) h.minNonZero

/-- `min`, lib.rs:1252-1263 -/
def min (h : Hist T) : M Nat := do
  if h.totalCount = 0 then pure 0
  else
    let c ← expectM (h.countAtIndex 0)
    if c ≠ 0 then pure 0 else (minNz h)

/-- the `max_index` half of `update_histogram`, lib.rs:1769-1772 (of 1768-1779) -/
def applyMaxIndex (h : Hist T) : Option Nat → M (Hist T)
  | some i => do
    let v ← valueFor h i
    let m ← highestEquivalent h v
    pure (h.updateMax m)
  | none => pure h

/-- the `min_index` half of `update_histogram`, lib.rs:1773-1776 -/
def applyMinIndex (h : Hist T) : Option Nat → M (Hist T)
  | some i => do
    let v ← valueFor h i
    pure (h.updateMin v)
  | none => pure h

/-- `update_histogram`, lib.rs:1768-1779 -/
def updateHistogram (s : RestatState) (h : Hist T) : M (Hist T) := do
  let h ← applyMaxIndex h s.maxIndex
  let h ← applyMinIndex h s.minIndex
  pure { h with totalCount := s.totalCount }

/-- `restat`, lib.rs:1716-1732 -/
def restat (h : Hist T) (lengthToScan : Nat) : M (Hist T) := do
  let h := (h.resetMax ORIGINAL_MAX).resetMin ORIGINAL_MIN
  assertM (decide (lengthToScan ≤ h.counts.length))
  let s := restatLoop (h.counts.take lengthToScan) 0 RestatState.new
  updateHistogram s h

/-- the part of `new_with_bounds` before the counts array is sized, lib.rs:736-816 -/
def newUnsized (fp : Fp) (T : CounterTy) (low high sigfig : Nat) :
    M (Except CreationError (Hist T)) := do
  if low < 1 then return .error .LowIsZero
  if U64MAX / 2 < low then return .error .LowExceedsMax
  let l2 ← mulU64 2 low
  if high < l2 then return .error .HighLessThanTwiceLow
  if 5 < sigfig then return .error .SigFigExceedsMax
  let unitMagnitude := fp.log2Floor low
  let one ← shlU64 1 unitMagnitude
  let unitMagnitudeMask ← subU64 one 1
  let scm := subBucketCountMag sigfig
  let schm ← subU8 scm 1
  let subBucketCount ← shlU32 1 scm
  let sum ← addU8 unitMagnitude scm
  if 63 < sum then return .error .CannotRepresentSigFigBeyondLow
  let m ← subU64 subBucketCount 1
  let subBucketMask ← shlU64 m unitMagnitude
  let lz0 ← subU8 64 unitMagnitude
  let lz ← subU8 lz0 scm
  let h : Hist T := {
    autoResize := false
    highestTrackable := high
    lowestDiscernible := low
    sigDigits := sigfig
    bucketCount := 0
    subBucketCount := subBucketCount
    subBucketHalfCount := subBucketCount / 2
    subBucketHalfCountMag := schm
    subBucketMask := subBucketMask
    leadingZeroCountBase := lz
    unitMag := unitMagnitude
    unitMagMask := unitMagnitudeMask
    maxValue := ORIGINAL_MAX
    minNonZero := ORIGINAL_MIN
    totalCount := 0
    counts := [] }
  return .ok h

/-- `new_with_bounds`, lib.rs:736-822 -/
def newWithBounds (fp : Fp) (T : CounterTy) (low high sigfig : Nat) :
    M (Except CreationError (Hist T)) := do
  match ← newUnsized fp T low high sigfig with
  | .error e => pure (.error e)
  | .ok h =>
    let h ← resize h high
    pure (.ok h)

/-- `new`, lib.rs:697-703 -/
def new (fp : Fp) (T : CounterTy) (sigfig : Nat) : M (Except CreationError (Hist T)) := do
  match ← newWithBounds fp T 1 2 sigfig with
  | .ok h => pure (.ok { h with autoResize := true })
  | .error e => pure (.error e)

/-- `new_with_max`, lib.rs:712-714 -/
def newWithMax (fp : Fp) (T : CounterTy) (high sigfig : Nat) : M (Except CreationError (Hist T)) :=
  newWithBounds fp T 1 high sigfig

/-- `new_from`, lib.rs:826-839 -/
def newFrom {F : CounterTy} (fp : Fp) (T : CounterTy) (source : Hist F) : M (Hist T) := do
  match ← newWithBounds fp T source.lowestDiscernible source.highestTrackable source.sigDigits with
  | .error _ => .error .expect
  | .ok h =>
    pure { h with
      autoResize := source.autoResize
      counts := vecResize h.counts source.distinctValues }

/-- the end of the resizing branch of `record_n_inner`, lib.rs:914-928 -/
def recordAfterResize (h : Hist T) (value count : Nat) : M (Hist T × Except RecordError Unit) := do
  let i ← expectM (← mutAt h value)
  let c ← expectM (T.checkedAdd (h.counts.getD i 0) count)
  let h : Hist T := { h with counts := h.counts.set i c }
  pure (h.finishRecord value count, .ok ())

/-- `record_n_inner`, lib.rs:885-929 -/
def recordNInner (h : Hist T) (value count : Nat) (clamp : Bool) :
    M (Hist T × Except RecordError Unit) := do
  match ← mutAt h value with
  | some i => pure ((h.bumpSat i count).finishRecord value count, .ok ())
  | none =>
    if clamp then
      let value := if h.highestTrackable < value then h.highestTrackable else h.lowestDiscernible
      let i ← expectM (← mutAt h value)
      pure ((h.bumpSat i count).finishRecord value count, .ok ())
    else if !h.autoResize then
      pure (h, .error .ValueOutOfRangeResizeDisabled)
    else
      let h ← resize h value
      let last ← h.lastIndex
      let lv ← valueFor h last
      let ht ← highestEquivalent h lv
      recordAfterResize { h with highestTrackable := ht } value count

/-- `record_n`, lib.rs:868-870 -/
def recordN (h : Hist T) (value count : Nat) : M (Hist T × Except RecordError Unit) :=
  recordNInner h value count false

/-- `record`, lib.rs:849-851 -/
def record (h : Hist T) (value : Nat) : M (Hist T × Except RecordError Unit) :=
  recordN h value 1

/-- `saturating_record_n`, lib.rs:881-883 (`unwrap` of the inner result) -/
def saturatingRecordN (h : Hist T) (value count : Nat) : M (Hist T) := do
  match ← recordNInner h value count true with
  | (h, .ok ()) => pure h
  | (_, .error _) => .error .expect

/-- `saturating_record`, lib.rs:859-861 -/
def saturatingRecord (h : Hist T) (value : Nat) : M (Hist T) := saturatingRecordN h value 1

/-- the `while` loop of `record_n_correct`, lib.rs:965-968 -/
def correctLoop (count interval : Nat) : Nat → Hist T → Nat → M (Hist T × Except RecordError Unit)
  | 0, _, _ => .error .fuel
  | fuel + 1, h, missing =>
    if interval ≤ missing then do
      match ← recordNInner h missing count false with
      | (h, .error e) => pure (h, .error e)
      | (h, .ok ()) =>
        let m ← subU64 missing interval
        correctLoop count interval fuel h m
    else pure (h, .ok ())

/-- `record_n_correct`, lib.rs:951-972. The loop decreases `missing_value` by `interval ≥ 1`, so
`value + 1` iterations are enough fuel. -/
def recordNCorrect (h : Hist T) (value count interval : Nat) :
    M (Hist T × Except RecordError Unit) := do
  match ← recordN h value count with
  | (h, .error e) => pure (h, .error e)
  | (h, .ok ()) =>
    if interval = 0 then pure (h, .ok ())
    else if interval < value then
      let missing ← subU64 value interval
      correctLoop count interval (value + 1) h missing
    else pure (h, .ok ())

/-- `record_correct`, lib.rs:934-936 -/
def recordCorrect (h : Hist T) (value interval : Nat) : M (Hist T × Except RecordError Unit) :=
  recordNCorrect h value 1 interval

/-- the re-recording loop of `add`, lib.rs:533-541, for the source indexes in the list -/
def addRecordLoop (source : Hist T) : List Nat → Hist T → M (Hist T)
  | [], h => .ok h
  | i :: is, h => do
    let c ← expectM (source.countAtIndex i)
    if c ≠ 0 then
      let v ← valueFor source i
      match ← recordN h v c with
      | (h, .ok ()) => addRecordLoop source is h
      | (_, .error _) => .error .expect
    else addRecordLoop source is h

/-- the part of `add` after the range check, lib.rs:481-551 -/
def addBody (h source : Hist T) : M (Hist T) := do
  let matching := h.bucketCount == source.bucketCount
    && h.subBucketCount == source.subBucketCount && h.unitMag == source.unitMag
  if matching && h.isEmpty then
    -- `copy_from_slice` panics if the lengths differ
    assertM (decide (h.counts.length = source.counts.length))
    pure { h with
      counts := source.counts
      totalCount := source.totalCount
      minNonZero := source.minNonZero
      maxValue := source.maxValue }
  else if matching then
    let (cs, obs) ← addCountsLoop T h.counts source.counts 0
    let h : Hist T := { h with counts := cs }
    let h : Hist T := { h with totalCount := Hdr.satAdd h.totalCount obs }
    let mx ← max source
    let hmx ← max h
    let h := if hmx < mx then h.updateMax mx else h
    let mn ← minNz source
    let hmn ← minNz h
    let h := if mn < hmn then h.updateMin mn else h
    pure h
  else
    let smax ← max source
    let omi ← expectM (← indexFor source smax)
    let oc ← expectM (source.countAtIndex omi)
    let v ← valueFor source omi
    match ← recordN h v oc with
    | (_, .error _) => .error .expect
    | (h, .ok ()) => addRecordLoop source (List.range omi) h

/-- `add`, lib.rs:462-552 -/
def add (h source : Hist T) : M (Hist T × Except AdditionError Unit) := do
  if source.isEmpty then pure (h, .ok ())
  else
    let last ← h.lastIndex
    let lv ← valueFor h last
    let top ← highestEquivalent h lv
    let smax ← max source
    if top < smax then
      if !h.autoResize then pure (h, .error .OtherAddendValueExceedsRange)
      else
        let h ← resize h smax
        let h ← addBody h source
        pure (h, .ok ())
    else
      let h ← addBody h source
      pure (h, .ok ())

/-- `set_to`, lib.rs:438-441 -/
def setTo (h source : Hist T) : M (Hist T × Except AdditionError Unit) := add h.reset source

/-- State of the loop of `subtract`: the histogram and `needs_restat`. -/
def subtractLoop (subtrahend : Hist T) (oldMinHigh oldMaxLow : Nat) :
    List Nat → Hist T → Bool → M (Hist T × Except SubtractionError Bool)
  | [], h, restat => .ok (h, .ok restat)
  | i :: is, h, restat => do
    let oc ← expectM (subtrahend.countAtIndex i)
    if oc ≠ 0 then
      let ov ← valueFor subtrahend i
      match ← mutAt h ov with
      | none => .error .expect    -- lib.rs:628 `panic!`
      | some j =>
        match checkedSub (h.counts.getD j 0) oc with
        | none => pure (h, .error .SubtrahendCountExceedsMinuendCount)
        | some c =>
          let h : Hist T := { h with counts := h.counts.set j c }
          let restat := restat || decide (ov ≤ oldMinHigh) || decide (oldMaxLow ≤ ov)
          if restat then subtractLoop subtrahend oldMinHigh oldMaxLow is h restat
          else
            let t ← expectM (checkedSub h.totalCount oc)
            subtractLoop subtrahend oldMinHigh oldMaxLow is { h with totalCount := t } restat
    else subtractLoop subtrahend oldMinHigh oldMaxLow is h restat

/-- `subtract`, lib.rs:587-654 -/
def subtract (h subtrahend : Hist T) : M (Hist T × Except SubtractionError Unit) := do
  if subtrahend.isEmpty then pure (h, .ok ())
  else
    let last ← h.lastIndex
    let lv ← valueFor h last
    let top ← highestEquivalent h lv
    let smax ← max subtrahend
    let smaxHigh ← highestEquivalent h smax
    if top < smaxHigh then pure (h, .error .SubtrahendValueExceedsMinuendRange)
    else
      let mn ← min h
      let oldMinHigh ← highestEquivalent h mn
      let mx ← max h
      let oldMaxLow ← lowestEquivalent h mx
      match ← subtractLoop subtrahend oldMinHigh oldMaxLow
          (List.range subtrahend.distinctValues) h (h.totalCount == U64MAX) with
      | (h, .error e) => pure (h, .error e)
      | (h, .ok restat) =>
        if restat then
          let h ← Hist.restat h h.distinctValues
          pure (h, .ok ())
        else pure (h, .ok ())

/-- `count_between`, lib.rs:1435-1442; the Rust range `lo..hi+1` is `[lo, ..., hi]` (empty if `lo > hi`) -/
def countBetween (h : Hist T) (low high : Nat) : M Nat := do
  let lo ← indexForOrLast h low
  let hi ← indexForOrLast h high
  let e ← expectM (if hi + 1 ≤ U64MAX then some (hi + 1) else none)
  h.countBetweenLoop (List.range' lo (e - lo)) 0

/-- `count_at`, lib.rs:1452-1455 -/
def countAt (h : Hist T) (value : Nat) : M Nat := do
  let i ← indexForOrLast h value
  expectM (h.countAtIndex i)

/-- `PartialEq::eq`, lib.rs:1873-1896 -/
def eq (h other : Hist T) : M Bool := do
  if h.lowestDiscernible ≠ other.lowestDiscernible ∨ h.sigDigits ≠ other.sigDigits then return false
  if h.totalCount ≠ other.totalCount then return false
  let a ← max h
  let b ← max other
  if a ≠ b then return false
  let c ← minNz h
  let d ← minNz other
  if c ≠ d then return false
  return eqCounts h.counts other.counts

/-- `AddAssign<Histogram>` / `AddAssign<&Histogram>` / `Add`, lib.rs:1787-1813 -/
def addAssign (h source : Hist T) : M (Hist T) := do
  match ← add h source with
  | (h, .ok ()) => pure h
  | (_, .error _) => .error .expect

/-- `SubAssign` / `Sub`, lib.rs:1833-1859 -/
def subAssign (h source : Hist T) : M (Hist T) := do
  match ← subtract h source with
  | (h, .ok ()) => pure h
  | (_, .error _) => .error .expect

/-- `AddAssign<u64>`, lib.rs:1862-1866 -/
def addAssignValue (h : Hist T) (value : Nat) : M (Hist T) := do
  match ← record h value with
  | (h, .ok ()) => pure h
  | (_, .error _) => .error .expect

/-- the `for h in iter { first += h }` loop of `Sum`, lib.rs:1823-1825 -/
def sumLoop : Hist T → List (Hist T) → M (Hist T)
  | h, [] => .ok h
  | h, x :: xs => do
    let h ← addAssign h x
    sumLoop h xs

/-- `iter::Sum`, lib.rs:1816-1831 -/
def sum (fp : Fp) : List (Hist T) → M (Hist T)
  | first :: rest => sumLoop first rest
  | [] => do
    match ← new fp T 3 with
    | .ok h => pure h
    | .error _ => .error .expect

/-- `HistogramIterator::new`, src/iterators/mod.rs:148-161 -/
def iterNew (h : Hist T) (picker : P) : M (IterState P) := do
  let mx ← max h
  let mi ← expectM (← indexFor h mx)
  pure {
    totalCountToIndex := 0
    countSinceLastIteration := 0
    countAtIndex := 0
    currentIndex := 0
    lastPickedIndex := none
    maxValueIndex := mi
    fresh := true
    ended := false
    picker := picker }

/-- the emitted value, src/iterators/mod.rs:226-239 -/
def iterEmit (h : Hist T) (s : IterState P) (m : PickMeta) : M IterValue := do
  let quantile := F64.div (F64.ofNat s.totalCountToIndex) (F64.ofNat h.len)
  let v ← match m.valueIteratedTo with
    | some v => pure v
    | none => do
      let v ← valueFor h s.currentIndex
      highestEquivalent h v
  let c ← expectM (h.countAtIndex s.currentIndex)
  pure {
    valueIteratedTo := v
    quantile := quantile
    quantileIteratedTo := m.quantileIteratedTo.getD quantile
    countAtValue := c
    countSinceLastIteration := s.countSinceLastIteration }

/-- the picking part of a pass, src/iterators/mod.rs:220-252 -/
def iterPick (h : Hist T) (pk : Picker P) (s : IterState P) : M (IterPass P) := do
  let (p, r) ← pk.pick s.picker s.currentIndex s.totalCountToIndex s.countAtIndex
  let s := { s with picker := p }
  match r with
  | some m => do
    let v ← iterEmit h s m
    pure (.emitted { s with countSinceLastIteration := 0, lastPickedIndex := some s.currentIndex } v)
  | none => do
    let i ← addU64 s.currentIndex 1
    pure (.again { s with currentIndex := i, fresh := true })

/-- one pass through the `while` loop of `next`, src/iterators/mod.rs:184-252 -/
def iterPass (h : Hist T) (pk : Picker P) (s : IterState P) : M (IterPass P) := do
  if s.currentIndex = h.distinctValues then pure (.finished { s with ended := true })
  else if pickedMax s then do
    let (p, more) ← pk.more s.picker s.currentIndex
    let s := { s with picker := p }
    if more then (iterPick h) pk s else pure (.finished { s with ended := true })
  else do
    assertM (decide (s.currentIndex < h.distinctValues))
    let s ← h.iterLoad s
    iterPick h pk s

/-- `next`, src/iterators/mod.rs:170-255.  Every pass that loops advances `current_index`, so
`distinct_values() + 1` passes are enough (`Panic.fuel` is shown not to occur). -/
def iterNextLoop (h : Hist T) (pk : Picker P) : Nat → IterState P → M (IterState P × Option IterValue)
  | 0, _ => .error .fuel
  | n + 1, s =>
    if s.ended then pure (s, none)
    else do
      match ← iterPass h pk s with
      | .finished s => pure (s, none)
      | .emitted s v => pure (s, some v)
      | .again s => iterNextLoop h pk n s

/-- `next` with enough passes -/
def iterNext (h : Hist T) (pk : Picker P) (s : IterState P) : M (IterState P × Option IterValue) :=
  iterNextLoop h pk (h.distinctValues + 2) s

/-- `for v in iter { … }` / `collect`: call `next` until it returns `None`, at most `fuel` times -/
def iterCollect (h : Hist T) (pk : Picker P) : Nat → IterState P → M (List IterValue)
  | 0, _ => .error .fuel
  | n + 1, s => do
    match ← iterNext h pk s with
    | (_, none) => pure []
    | (s, some v) => do
      let vs ← iterCollect h pk n s
      pure (v :: vs)

/-- `iter_all`, lib.rs:1242-1244, driven to the end -/
def iterAll (h : Hist T) (fuel : Nat) : M (List IterValue) := do
  let s ← iterNew h (none : Option Nat)
  iterCollect h allPicker fuel s

/-- `iter_recorded`, lib.rs:1183-1185, driven to the end -/
def iterRecorded (h : Hist T) (fuel : Nat) : M (List IterValue) := do
  let s ← iterNew h (none : Option Nat)
  iterCollect h recordedPicker fuel s

/-- `linear::Iter::pick`, src/iterators/linear.rs:41-55 -/
def linearPick (h : Hist T) (p : LinearState) (index : Nat) : M (LinearState × Option PickMeta) := do
  let val ← valueFor h index
  let last ← h.lastIndex
  if p.lowest ≤ val ∨ index = last then
    let hi ← addU64 p.highest p.step
    let lo ← lowestEquivalent h hi
    pure ({ p with highest := hi, lowest := lo }, some ⟨none, some p.highest⟩)
  else pure (p, none)

/-- `linear::Iter::more`, src/iterators/linear.rs:57-67 -/
def linearMore (h : Hist T) (p : LinearState) (indexToPick : Nat) : M (LinearState × Bool) := do
  let next ← expectM (if indexToPick + 1 ≤ U64MAX then some (indexToPick + 1) else none)
  let v ← valueFor h next
  pure (p, decide (p.highest < v))

/-- the trait object of `linear::Iter` -/
def linearPicker (h : Hist T) : Picker LinearState where
  pick p i _ _ := linearPick h p i
  more p i := linearMore h p i

/-- `linear::Iter::new`, src/iterators/linear.rs:17-37 -/
def linearNew (h : Hist T) (step : Nat) : M (IterState LinearState) := do
  assertM (decide (0 < step))
  let s1 ← subU64 step 1
  let lo ← lowestEquivalent h s1
  iterNew h { step := step, highest := s1, lowest := lo }

/-- `iter_linear`, lib.rs:1107-1109, driven to the end -/
def iterLinear (h : Hist T) (step fuel : Nat) : M (List IterValue) := do
  let s ← linearNew h step
  iterCollect h (linearPicker h) fuel s

/-- `log::Iter::pick`, src/iterators/log.rs:46-64 -/
def logPick (h : Hist T) (p : LogState) (index : Nat) : M (LogState × Option PickMeta) := do
  let val ← valueFor h index
  let last ← h.lastIndex
  if p.lowest ≤ val ∨ index = last then
    let nl := F64.mul p.nextLevel p.logBase
    let hi ← subU64 nl.toU64 1
    let lo ← lowestEquivalent h hi
    pure ({ p with nextLevel := nl, highest := hi, lowest := lo }, some ⟨none, some p.highest⟩)
  else pure (p, none)

/-- `log::Iter::more`, src/iterators/log.rs:66-74 -/
def logMore (h : Hist T) (p : LogState) (indexToPick : Nat) : M (LogState × Bool) := do
  let l ← lowestEquivalent h p.nextLevel.toU64
  let v ← valueFor h indexToPick
  pure (p, decide (l < v))

/-- the trait object of `log::Iter` -/
def logPicker (h : Hist T) : Picker LogState where
  pick p i _ _ := logPick h p i
  more p i := logMore h p i

/-- `log::Iter::new`, src/iterators/log.rs:20-42 -/
def logNew (h : Hist T) (start : Nat) (base : F64) : M (IterState LogState) := do
  assertM (decide (0 < start))
  assertM (F64.lt (.fin 1) base)
  let s1 ← subU64 start 1
  let lo ← lowestEquivalent h s1
  iterNew h { nextLevel := F64.ofNat start, logBase := base, lowest := lo, highest := s1 }

/-- `iter_log`, lib.rs:1145-1147, driven to the end -/
def iterLog (h : Hist T) (start : Nat) (base : F64) (fuel : Nat) : M (List IterValue) := do
  let s ← logNew h start base
  iterCollect h (logPicker h) fuel s

/-- the step to the next quantile, src/iterators/quantile.rs:130-156.
`lg x` stands for `x.log2() as u32`. -/
def quantileStep (lg : F64 → Nat) (ticks : Nat) (q : F64) : M F64 := do
  let halvings := lg (F64.div (.fin 1) (F64.sub (.fin 1) q))
  let h1 ← addU32 halvings 1
  let sh ← expectM (checkedShl1 h1)
  let totalTicks ← expectM (checkedMulU64 ticks sh)
  let inc := F64.div (.fin 1) (F64.ofNat totalTicks)
  let sum := F64.add q inc
  pure (if F64.feq sum q then .fin 1 else sum)

/-- `quantile::Iter::pick`, src/iterators/quantile.rs:38-158 -/
def quantilePick (lg : F64 → Nat) (h : Hist T) (p : QuantileState) (runningTotal countAtIndex : Nat) :
    M (QuantileState × Option PickMeta) :=
  if countAtIndex = 0 then pure (p, none)
  else
    let current := F64.div (F64.ofNat runningTotal) (F64.ofNat h.len)
    if F64.lt current p.qTo then pure (p, none)
    else if p.reachedEnd then pure (p, none)
    else if F64.feq p.qTo (.fin 1) then
      pure ({ p with reachedEnd := true }, some ⟨some (.fin 1), none⟩)
    else do
      let q ← quantileStep lg p.ticks p.qTo
      pure ({ p with qTo := q }, some ⟨some p.qTo, none⟩)

/-- the trait object of `quantile::Iter` -/
def quantilePicker (lg : F64 → Nat) (h : Hist T) : Picker QuantileState where
  pick p _ t c := quantilePick lg h p t c
  more p _ := quantileMore p

/-- `quantile::Iter::new`, src/iterators/quantile.rs:15-33 -/
def quantileNew (h : Hist T) (ticks : Nat) : M (IterState QuantileState) := do
  assertM (decide (0 < ticks))
  iterNew h { ticks := ticks, qTo := .fin 0, reachedEnd := false }

/-- `iter_quantiles`, lib.rs:1044-1050, driven to the end -/
def iterQuantiles (lg : F64 → Nat) (h : Hist T) (ticks fuel : Nat) : M (List IterValue) := do
  let s ← quantileNew h ticks
  iterCollect h (quantilePicker lg h) fuel s

/-- the loop of `add_correct` over the recorded values, lib.rs:578-580 (`?` stops at the first error).
The iterator borrows the source only, so iterating first and recording afterwards is the same. -/
def addCorrectLoop (interval : Nat) : List IterValue → Hist T → M (Hist T × Except RecordError Unit)
  | [], h => .ok (h, .ok ())
  | v :: vs, h => do
    match ← recordNCorrect h v.valueIteratedTo v.countAtValue interval with
    | (h, .error e) => pure (h, .error e)
    | (h, .ok ()) => addCorrectLoop interval vs h

/-- `add_correct`, lib.rs:571-582 -/
def addCorrect (h source : Hist T) (interval : Nat) : M (Hist T × Except RecordError Unit) := do
  let vs ← iterRecorded source source.recordedFuel
  addCorrectLoop interval vs h

/-- `clone_correct`, lib.rs:427-434 -/
def cloneCorrect (fp : Fp) (h : Hist T) (interval : Nat) : M (Hist T) := do
  let c ← newFrom fp T h
  let vs ← iterRecorded h h.recordedFuel
  match ← addCorrectLoop interval vs c with
  | (_, .error _) => .error .expect
  | (c, .ok ()) => pure c

/-- `set_to_corrected`, lib.rs:446-453 -/
def setToCorrected (h source : Hist T) (interval : Nat) : M (Hist T × Except RecordError Unit) :=
  addCorrect h.reset source interval

/-- the loop of `value_at_quantile`, lib.rs:1355-1366; `total_to_current_index +=` can overflow -/
def quantileLoop (h : Hist T) (target : Nat) (isZero : Bool) : List Nat → Nat → Nat → M Nat
  | [], _, _ => .ok 0
  | c :: cs, i, total => do
    let total ← addU64 total c
    if target ≤ total then do
      let v ← valueFor h i
      if isZero then (lowestEquivalent h) v else (highestEquivalent h) v
    else quantileLoop h target isZero cs (i + 1) total

/-- `value_at_quantile`, lib.rs:1340-1369 -/
def valueAtQuantile (h : Hist T) (quantile : F64) : M Nat :=
  let q := capQuantile quantile
  quantileLoop h (h.rankFor q) (F64.feq q (.fin 0)) h.counts 0 0

/-- `value_at_percentile`, lib.rs:1325-1327 -/
def valueAtPercentile (h : Hist T) (percentile : F64) : M Nat :=
  valueAtQuantile h (F64.div percentile (.fin 100))

/-- `iter.sum::<u64>()` (overflow panics in debug builds) -/
def sumChecked : List Nat → Nat → M Nat
  | [], t => .ok t
  | c :: cs, t => do
    let t ← addU64 t c
    sumChecked cs t

/-- the counted half, lib.rs:1400-1412 -/
def quantileBelowSum (h : Hist T) (slice : List Nat) : M Nat :=
  if h.totalCount < U64MAX then sumChecked slice 0
  else .ok (slice.foldl Hdr.satAdd 0)

/-- `quantile_below`, lib.rs:1391-1420 -/
def quantileBelow (h : Hist T) (value : Nat) : M F64 :=
  if h.totalCount = 0 then pure (.fin 1)
  else do
    let target ← indexForOrLast h value
    let e ← expectM (if target + 1 ≤ U64MAX then some (target + 1) else none)
    -- both slice expressions panic when `end` exceeds the length
    if h.counts.length < e then .error .index
    else if target < h.counts.length / 2 then do
      let t ← quantileBelowSum h (h.counts.take e)
      pure (F64.div (F64.ofNat t) (F64.ofNat h.totalCount))
    else do
      let t ← quantileBelowSum h (h.counts.drop e)
      let t ← subU64 h.totalCount t
      pure (F64.div (F64.ofNat t) (F64.ofNat h.totalCount))

/-- `percentile_below`, lib.rs:1375-1377 -/
def percentileBelow (h : Hist T) (value : Nat) : M F64 := do
  let q ← quantileBelow h value
  pure (F64.mul q (.fin 100))

/-- the fold of `mean`, lib.rs:1298-1303 -/
def meanLoop (h : Hist T) : List IterValue → F64 → M F64
  | [], t => .ok t
  | v :: vs, t => do
    let m ← medianEquivalent h v.valueIteratedTo
    meanLoop h vs (F64.add t
      (F64.div (F64.mul (F64.ofNat m) (F64.ofNat v.countAtValue)) (F64.ofNat h.totalCount)))

/-- `mean`, lib.rs:1293-1304 -/
def mean (h : Hist T) : M F64 :=
  if h.totalCount = 0 then pure (.fin 0)
  else do
    let vs ← iterRecorded h h.recordedFuel
    meanLoop h vs (.fin 0)

/-- the fold of `stdev`, lib.rs:1313-1316 -/
def stdevLoop (h : Hist T) (mean : F64) : List IterValue → F64 → M F64
  | [], t => .ok t
  | v :: vs, t => do
    let m ← medianEquivalent h v.valueIteratedTo
    let dev := F64.sub (F64.ofNat m) mean
    stdevLoop h mean vs (F64.add t (F64.mul (F64.mul dev dev) (F64.ofNat v.countSinceLastIteration)))

/-- `stdev`, lib.rs:1307-1319, up to but excluding the final square root (`variance`) -/
def variance (h : Hist T) : M F64 :=
  if h.totalCount = 0 then pure (.fin 0)
  else do
    let mean ← mean h
    let vs ← iterRecorded h h.recordedFuel
    let t ← stdevLoop h mean vs (.fin 0)
    pure (F64.div t (F64.ofNat h.totalCount))

/-- `stdev`, lib.rs:1307-1319.  For an empty histogram `variance` is 0 and so is its root. -/
def stdev {T : CounterTy} (h : Hist T) : M F64 :=
  if h.totalCount = 0 then pure (.fin 0)
  else do
    let v ← variance h
    pure (F64.sqrt v)

end Hist

namespace V2

open Hdr.V2

variable {T : CounterTy}

/-- `max_encoded_size`, v2_serializer.rs:117-121; `counts_array_max_encoded_size`, 124-130:
`None` is overflow of `usize` -/
def maxEncodedSize (h : Hist T) : M (Option Nat) := do
  let mx ← Hist.max h
  match ← Hist.indexFor h mx with
  | none => pure none
  | some i =>
    let n ← addU64 i 1
    pure (if n * 9 ≤ U64MAX then (if n * 9 + HEADER_SIZE ≤ U64MAX then some (n * 9 + HEADER_SIZE) else none)
      else none)

/-- the outer loop of `encode_counts`, v2_serializer.rs:147-188 -/
def encodeLoop (h : Hist T) (limit : Nat) :
    Nat → Nat → List UInt8 → Nat → M (Except SerializeError (List UInt8 × Nat))
  | 0, _, _, _ => .error .fuel
  | fuel + 1, index, buf, written =>
    if index ≤ limit then do
      match ← encodeStep h limit index with
      | (_, .error e) => pure (.error e)
      | (index, .ok n) =>
        let (buf, k) ← varintWriteAt (zigZagEncode n) buf written
        let written ← addU64 written k
        encodeLoop h limit fuel index buf written
    else pure (.ok (buf, written))

/-- `encode_counts`, v2_serializer.rs:135-190: the new buffer contents and the number of bytes -/
def encodeCounts (h : Hist T) (buf : List UInt8) : M (Except SerializeError (List UInt8 × Nat)) := do
  let mx ← Hist.max h
  let limit ← expectM (← Hist.indexFor h mx)
  assertM (decide (limit ≤ h.counts.length))
  encodeLoop h limit (h.counts.length + 2) 0 buf 0

/-- `V2Serializer::serialize`, v2_serializer.rs:70-114: the bytes appended to the writer and the
returned length -/
def serialize (junk : Nat → UInt8) (h : Hist T) : M (Except SerializeError (List UInt8 × Nat)) := do
  match ← maxEncodedSize h with
  | none => pure (.error .UsizeTypeTooSmall)
  | some maxSize =>
    let hdr := header h
    let tail := (List.range (maxSize - HEADER_SIZE)).map junk
    match ← encodeCounts h tail with
    | .error e => pure (.error e)
    | .ok (tail, countsLen) =>
      let totalLen ← addU64 HEADER_SIZE countsLen
      let hdr := hdr.take 4 ++ be32 (countsLen % 2 ^ 32) ++ hdr.drop 8
      let buf := hdr ++ tail
      -- `&self.buf[0..total_len]` panics if too short
      if totalLen ≤ buf.length then pure (.ok (buf.take totalLen, totalLen)) else .error .index

/-- the decoding of the payload, deserializer.rs:168-202 -/
def decodePayload (checks : Bool) (h : Hist T) (payload : List UInt8) :
    M (Except DeserializeError (Hist T)) := do
  match ← fastLoop checks payload (payload.length + 1) 0 ⟨0, Hist.RestatState.new, h⟩ with
  | .error e => pure (.error e)
  | .ok (i, s) =>
    match ← slowLoop checks (payload.length + 1) (payload.drop i) s with
    | .error e => pure (.error e)
    | .ok s => do
      let h ← Hist.updateHistogram s.restat s.h
      pure (.ok h)

/-- `deser_v2`, deserializer.rs:137-200: the histogram and the unread rest -/
def deserV2 (fp : Fp) (T : CounterTy) (checks : Bool) (r : List UInt8) :
    M (Except DeserializeError (Hist T × List UInt8)) := do
  match readHeader r with
  | .error e => pure (.error e)
  | .ok hd =>
    match ← Hist.newWithBounds fp T hd.low hd.high hd.digits with
    | .error _ => pure (.error .InvalidParameters)
    | .ok h =>
      match readN hd.payloadLen hd.rest with
      | none => pure (.error .IoError)
      | some (payload, rest) =>
        match ← decodePayload checks h payload with
        | .error e => pure (.error e)
        | .ok h => pure (.ok (h, rest))

/-- `deser_v2_compressed`, deserializer.rs:117-134. `reader.take(n)` on a shorter stream ends early. -/
def deserV2Compressed (fp : Fp) (z : Zlib) (T : CounterTy) (checks : Bool) (r : List UInt8) :
    M (Except DeserializeError (Hist T × List UInt8)) := do
  match readBE 4 r with
  | none => pure (.error .IoError)
  | some (payloadLen, r) =>
    let compressed := r.take payloadLen
    match readBE 4 (z.inflate compressed) with
    | none => pure (.error .IoError)
    | some (cookie, inner) =>
      if cookie ≠ COOKIE then pure (.error .InvalidCookie)
      else
        match ← deserV2 fp T checks inner with
        | .error e => pure (.error e)
        | .ok (h, _) => pure (.ok (h, r.drop (compressed.length - z.unread compressed)))

/-- `Deserializer::deserialize`, deserializer.rs:104-115 -/
def deserialize (fp : Fp) (z : Zlib) (T : CounterTy) (checks : Bool) (r : List UInt8) :
    M (Except DeserializeError (Hist T × List UInt8)) :=
  match readBE 4 r with
  | none => pure (.error .IoError)
  | some (cookie, r) =>
    if cookie = COOKIE then deserV2 fp T checks r
    else if cookie = COMPRESSED_COOKIE then deserV2Compressed fp z T checks r
    else pure (.error .InvalidCookie)

/-- `V2DeflateSerializer::serialize`, v2_deflate_serializer.rs:78-132: bytes and returned length -/
def serializeDeflate (z : Zlib) (junk : Nat → UInt8) (h : Hist T) :
    M (Except SerializeError (List UInt8 × Nat)) := do
  match ← serialize junk h with
  | .error e => pure (.error e)
  | .ok (raw, rawLen) =>
    let comp := be32 COMPRESSED_COOKIE ++ be32 0 ++ z.deflate (raw.take rawLen)
    let len ← subU32 (comp.length % 2 ^ 32) 8
    let buf := comp.take 4 ++ be32 len ++ comp.drop 8
    pure (.ok (buf, comp.length))

end V2
end Release
end Hdr
