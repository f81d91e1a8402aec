import Verif.Model.Iter
import Verif.Model.Stdev
import Verif.Spec.Demo

/-!
# The repository's tests, run on the model: what the transcriptions share

The modules of this directory are validation of the model, not proof. Each test function of the
repository that draws no random numbers is transcribed statement by statement into a computation of
the model, and evaluated when the module is built. A panic and a failed assertion both make it fail.
-/

namespace Hdr.Check

/-- `assert!` -/
def check (b : Bool) : M Unit := assertM b

/-- the computation neither panics nor fails an assertion -/
def passes (m : M Unit) : Bool := match m with
  | .ok _ => true
  | .error _ => false

/-- `.unwrap()` on what a constructor gives -/
def unwrap {ε α : Type} (m : M (Except ε α)) : M α := do
  match ← m with
  | .ok a => pure a
  | .error _ => .error .assert

/-- `.is_err()` on what a constructor gives -/
def isErr {ε α : Type} (m : M (Except ε α)) : M Bool := do
  match ← m with
  | .ok _ => pure false
  | .error _ => pure true

/-- `.unwrap_err()` on what a constructor gives -/
def unwrapErr {ε α : Type} (m : M (Except ε α)) : M ε := do
  match ← m with
  | .ok _ => .error .assert
  | .error e => pure e

/-- `h.operation(…).unwrap()`, giving the state after it -/
def okay {ε α : Type} (m : M (α × Except ε Unit)) : M α := do
  match ← m with
  | (a, .ok _) => pure a
  | (_, .error _) => .error .assert

/-- `assert!(h.operation(…).is_err())`, giving the state after it -/
def fails {ε α : Type} (m : M (α × Except ε Unit)) : M α := do
  match ← m with
  | (_, .ok _) => .error .assert
  | (a, .error _) => pure a

/-- `assert_eq!(error, h.operation(…).unwrap_err())`, giving the state after it -/
def failsWith {ε α : Type} [DecidableEq ε] (e : ε) (m : M (α × Except ε Unit)) : M α := do
  match ← m with
  | (_, .ok _) => .error .assert
  | (a, .error e') => if e = e' then pure a else .error .assert

/-- a decimal literal of type `f64` -/
def f64 (q : ℚ) : F64 := F64.rnd q

/-- `assert_near!`, tests/histogram.rs:9-22 -/
def near (a b tol : F64) : Bool :=
  let d := F64.sub a b
  F64.le (if F64.lt d (.fin 0) then F64.neg d else d) (F64.mul b tol)

/-- `count_ones` -/
def popcount (n : Nat) : Nat := ((List.range 64).filter fun i => n.testBit i).length

/-- more steps than any iteration of the tests takes -/
def FUEL : Nat := 1000000

/-- `log2(x) as u32`, exactly -/
def lg : F64 → Nat
  | .fin q => (Int.log 2 q).toNat
  | _ => 0

/-- `(low as f64).log2().floor() as u8` with the conversion to `f64` rounding to nearest:
just below a power of two the conversion gives the power -/
def fp : Fp where
  log2Floor low :=
    let k := Nat.log2 low
    if 2 ^ 45 ≤ low ∧ 53 ≤ k ∧ 2 ^ (k + 1) - low ≤ 2 ^ (k - 53) then k + 1 else k
  le63 low h := by
    have h1 : Nat.log2 low ≤ 62 := by
      by_cases h0 : low = 0
      · subst h0; decide
      · have := (Nat.log2_lt h0).mpr h; omega
    dsimp only
    split <;> omega
  exactSmall low _ h := by
    dsimp only
    rw [if_neg (by omega)]

/-- src/tests/helpers.rs:4-15 -/
def histo64 (low high sigfig : Nat) : M (Hist .u64) := unwrap (Hist.newWithBounds fp .u64 low high sigfig)

/-- tests/histogram.rs:24-36 -/
def verifyMax {T : CounterTy} (h : Hist T) : M Bool := do
  match (← h.iterRecorded FUEL).getLast? with
  | some v => pure ((← h.max) == (← h.highestEquivalent v.valueIteratedTo))
  | none => pure ((← h.max) == 0)

/-- tests/histogram.rs:263-284 -/
def areEqual {T : CounterTy} (actual expected : Hist T) : M Unit := do
  check (← Hist.eq actual expected)
  check ((← actual.countAt 4) == (← expected.countAt 4))
  check ((← actual.countAt (10 * 4)) == (← expected.countAt (10 * 4)))
  check (actual.len == expected.len)
  check (← verifyMax expected)
  check (← verifyMax actual)

/-- src/tests/subtract.rs:8-32 -/
def assertMinMaxCount {T : CounterTy} (h : Hist T) : M Unit := do
  let mut mn : Option Nat := none
  let mut mx : Option Nat := none
  let mut total : Nat := 0
  -- `count_at(value_for(i))` of the original is looked up in the list directly
  for (count, i) in h.counts.zipIdx do
    if count != 0 then
      let value ← h.valueFor i
      check ((← h.countAt value) == count)
      mn := some (Min.min (mn.getD U64MAX) value)
      mx := some (Max.max (mx.getD 0) value)
      total := satAdd total count
  match mn with
  | some m => check ((← h.lowestEquivalent m) == (← h.min))
  | none => check ((← h.min) == 0)
  match mx with
  | some m => check ((← h.highestEquivalent m) == (← h.max))
  | none => check ((← h.max) == 0)
  check (total == h.len)

/-- tests/data_access.rs:20-28 -/
structure Loaded where
  hist : Hist .u64
  scaledHist : Hist .u64
  raw : Hist .u64
  scaledRaw : Hist .u64
  post : Hist .u64
  scaledPost : Hist .u64

/-- tests/data_access.rs:30-34 and tests/histogram.rs:38-41 -/
abbrev TRACKABLE_MAX : Nat := 3600 * 1000 * 1000
abbrev SIGFIG : Nat := 3
abbrev EINTERVAL : Nat := 10000
abbrev SCALEF : Nat := 512
abbrev TEST_VALUE_LEVEL : Nat := 4

/-- tests/data_access.rs:36-76 -/
def loadHistograms : M Loaded := do
  let mut hist ← unwrap (Hist.newWithMax fp .u64 TRACKABLE_MAX SIGFIG)
  let mut scaledHist ← unwrap (Hist.newWithBounds fp .u64 1000 (TRACKABLE_MAX * SCALEF) SIGFIG)
  let mut raw ← unwrap (Hist.newWithMax fp .u64 TRACKABLE_MAX SIGFIG)
  let mut scaledRaw ← unwrap (Hist.newWithBounds fp .u64 1000 (TRACKABLE_MAX * SCALEF) SIGFIG)
  for _ in List.range 10000 do
    let v := 1000
    hist ← okay (hist.recordCorrect v EINTERVAL)
    scaledHist ← okay (scaledHist.recordCorrect (v * SCALEF) (EINTERVAL * SCALEF))
    raw ← raw.addAssignValue v
    scaledRaw ← scaledRaw.addAssignValue (v * SCALEF)
  let v := 100000000
  hist ← okay (hist.recordCorrect v EINTERVAL)
  scaledHist ← okay (scaledHist.recordCorrect (v * SCALEF) (EINTERVAL * SCALEF))
  raw ← raw.addAssignValue v
  scaledRaw ← scaledRaw.addAssignValue (v * SCALEF)
  let post ← raw.cloneCorrect fp EINTERVAL
  let scaledPost ← scaledRaw.cloneCorrect fp (EINTERVAL * SCALEF)
  pure { hist, scaledHist, raw, scaledRaw, post, scaledPost }

/-- tests/iterators.rs:871-895 -/
def prepareHisto : M (Hist .u64) := do
  let mut h ← histo64 1 4095 3
  for v in [1, 2, 20, 25, 31, 1500, 1600, 1700, 4096 - 1] do
    h ← okay (h.record v)
  pure h

end Hdr.Check
