import Verif.Model.F64
import Verif.Model.Histogram

/-!
# Iterators (src/iterators/*.rs) and what is built on them

The generic driver `HistogramIterator` is modelled as a state and one function per loop pass;
`Picker` is the trait `PickyIterator`.  The iterators borrow the histogram immutably, so the state
does not repeat it.
-/

namespace Hdr

/-- `PickMetadata`, src/iterators/mod.rs:20-29 -/
structure PickMeta where
  quantileIteratedTo : Option F64
  valueIteratedTo : Option Nat
  deriving DecidableEq

/-- trait `PickyIterator`, src/iterators/mod.rs:41-62; `P` is the state behind `&mut self` -/
structure Picker (P : Type) where
  pick : P → (index totalCountToIndex countAtIndex : Nat) → M (P × Option PickMeta)
  more : P → (indexToPick : Nat) → M (P × Bool)

/-- `IterationValue`, src/iterators/mod.rs:85-92 -/
structure IterValue where
  valueIteratedTo : Nat
  quantile : F64
  quantileIteratedTo : F64
  countAtValue : Nat
  countSinceLastIteration : Nat
  deriving DecidableEq

/-- `HistogramIterator`, src/iterators/mod.rs:71-82 -/
structure IterState (P : Type) where
  totalCountToIndex : Nat
  countSinceLastIteration : Nat
  countAtIndex : Nat
  currentIndex : Nat
  lastPickedIndex : Option Nat
  maxValueIndex : Nat
  fresh : Bool
  ended : Bool
  picker : P

/-- result of one pass through the `while` loop of `next` -/
inductive IterPass (P : Type) where
  | finished (s : IterState P)                    -- `return None`
  | emitted (s : IterState P) (v : IterValue)     -- `return Some(val)`
  | again (s : IterState P)                       -- next pass

namespace Hist

variable {T : CounterTy} {P : Type}

/-- `HistogramIterator::new`, src/iterators/mod.rs:148-161 -/
def iterNew (h : Hist T) (picker : P) : M (IterState P) := do
  let mx ← h.max
  let mi ← expectM (← h.indexFor mx)
  pure {
    totalCountToIndex := 0
    countSinceLastIteration := 0
    countAtIndex := 0
    currentIndex := 0
    lastPickedIndex := none
    maxValueIndex := mi
    fresh := true
    ended := false
    picker := picker }

/-- `self.last_picked_index >= Some(self.max_value_index)`, src/iterators/mod.rs:192 -/
def pickedMax (s : IterState P) : Bool :=
  match s.lastPickedIndex with
  | none => false
  | some i => decide (s.maxValueIndex ≤ i)

/-- the `if self.fresh` block, src/iterators/mod.rs:202-217 -/
def iterLoad (h : Hist T) (s : IterState P) : M (IterState P) :=
  if s.fresh then do
    let c ← expectM (h.countAtIndex s.currentIndex)
    pure { s with
      countAtIndex := c
      totalCountToIndex := Hdr.satAdd s.totalCountToIndex c
      countSinceLastIteration := Hdr.satAdd s.countSinceLastIteration c
      fresh := false }
  else pure s

/-- the emitted value, src/iterators/mod.rs:226-239 -/
def iterEmit (h : Hist T) (s : IterState P) (m : PickMeta) : M IterValue := do
  let quantile := F64.div (F64.ofNat s.totalCountToIndex) (F64.ofNat h.len)
  let v ← match m.valueIteratedTo with
    | some v => pure v
    | none => do
      let v ← h.valueFor s.currentIndex
      h.highestEquivalent v
  let c ← expectM (h.countAtIndex s.currentIndex)
  pure {
    valueIteratedTo := v
    quantile := quantile
    quantileIteratedTo := m.quantileIteratedTo.getD quantile
    countAtValue := c
    countSinceLastIteration := s.countSinceLastIteration }

/-- the picking part of a pass, src/iterators/mod.rs:220-252 -/
def iterPick (h : Hist T) (pk : Picker P) (s : IterState P) : M (IterPass P) := do
  let (p, r) ← pk.pick s.picker s.currentIndex s.totalCountToIndex s.countAtIndex
  let s := { s with picker := p }
  match r with
  | some m => do
    let v ← h.iterEmit s m
    pure (.emitted { s with countSinceLastIteration := 0, lastPickedIndex := some s.currentIndex } v)
  | none => do
    let i ← addU64 s.currentIndex 1
    pure (.again { s with currentIndex := i, fresh := true })

/-- one pass through the `while` loop of `next`, src/iterators/mod.rs:184-252 -/
def iterPass (h : Hist T) (pk : Picker P) (s : IterState P) : M (IterPass P) := do
  if s.currentIndex = h.distinctValues then pure (.finished { s with ended := true })
  else if pickedMax s then do
    let (p, more) ← pk.more s.picker s.currentIndex
    let s := { s with picker := p }
    if more then h.iterPick pk s else pure (.finished { s with ended := true })
  else do
    assertM (decide (s.currentIndex < h.distinctValues))
    let s ← h.iterLoad s
    h.iterPick pk s

/-- `next`, src/iterators/mod.rs:170-255.  Every pass that loops advances `current_index`, so
`distinct_values() + 1` passes are enough (`Panic.fuel` is shown not to occur). -/
def iterNextLoop (h : Hist T) (pk : Picker P) : Nat → IterState P → M (IterState P × Option IterValue)
  | 0, _ => .error .fuel
  | n + 1, s =>
    if s.ended then pure (s, none)
    else do
      match ← h.iterPass pk s with
      | .finished s => pure (s, none)
      | .emitted s v => pure (s, some v)
      | .again s => iterNextLoop h pk n s

/-- `next` with enough passes -/
def iterNext (h : Hist T) (pk : Picker P) (s : IterState P) : M (IterState P × Option IterValue) :=
  h.iterNextLoop pk (h.distinctValues + 2) s

/-- `for v in iter { … }` / `collect`: call `next` until it returns `None`, at most `fuel` times -/
def iterCollect (h : Hist T) (pk : Picker P) : Nat → IterState P → M (List IterValue)
  | 0, _ => .error .fuel
  | n + 1, s => do
    match ← h.iterNext pk s with
    | (_, none) => pure []
    | (s, some v) => do
      let vs ← iterCollect h pk n s
      pure (v :: vs)

/-! ## The pickers -/

/-- `all::Iter::pick`/`more`, src/iterators/all.rs:17-31; the state is `visited` -/
def allPicker : Picker (Option Nat) where
  pick visited index _ _ := .ok (
    if visited ≠ some index then (some index, some ⟨none, none⟩) else (visited, none))
  more visited _ := .ok (visited, true)

/-- `recorded::Iter::pick`/`more`, src/iterators/recorded.rs:17-37 -/
def recordedPicker : Picker (Option Nat) where
  pick visited index _ countAtIndex := .ok (
    if countAtIndex ≠ 0 ∧ visited ≠ some index then (some index, some ⟨none, none⟩)
    else (visited, none))
  more visited _ := .ok (visited, false)

/-- `iter_all`, lib.rs:1242-1244, driven to the end -/
def iterAll (h : Hist T) (fuel : Nat) : M (List IterValue) := do
  let s ← h.iterNew (none : Option Nat)
  h.iterCollect allPicker fuel s

/-- `iter_recorded`, lib.rs:1183-1185, driven to the end -/
def iterRecorded (h : Hist T) (fuel : Nat) : M (List IterValue) := do
  let s ← h.iterNew (none : Option Nat)
  h.iterCollect recordedPicker fuel s

/-- `linear::Iter`, src/iterators/linear.rs:6-13 -/
structure LinearState where
  step : Nat
  highest : Nat
  lowest : Nat

/-- `linear::Iter::pick`, src/iterators/linear.rs:41-55 -/
def linearPick (h : Hist T) (p : LinearState) (index : Nat) : M (LinearState × Option PickMeta) := do
  let val ← h.valueFor index
  let last ← h.lastIndex
  if p.lowest ≤ val ∨ index = last then
    let hi ← addU64 p.highest p.step
    let lo ← h.lowestEquivalent hi
    pure ({ p with highest := hi, lowest := lo }, some ⟨none, some p.highest⟩)
  else pure (p, none)

/-- `linear::Iter::more`, src/iterators/linear.rs:57-67 -/
def linearMore (h : Hist T) (p : LinearState) (indexToPick : Nat) : M (LinearState × Bool) := do
  let next ← expectM (if indexToPick + 1 ≤ U64MAX then some (indexToPick + 1) else none)
  let v ← h.valueFor next
  pure (p, decide (p.highest < v))

/-- the trait object of `linear::Iter` -/
def linearPicker (h : Hist T) : Picker LinearState where
  pick p i _ _ := h.linearPick p i
  more p i := h.linearMore p i

/-- `linear::Iter::new`, src/iterators/linear.rs:17-37 -/
def linearNew (h : Hist T) (step : Nat) : M (IterState LinearState) := do
  assertM (decide (0 < step))
  let s1 ← subU step 1
  let lo ← h.lowestEquivalent s1
  h.iterNew { step := step, highest := s1, lowest := lo }

/-- `iter_linear`, lib.rs:1107-1109, driven to the end -/
def iterLinear (h : Hist T) (step fuel : Nat) : M (List IterValue) := do
  let s ← h.linearNew step
  h.iterCollect h.linearPicker fuel s

/-- `log::Iter`, src/iterators/log.rs:6-17 -/
structure LogState where
  nextLevel : F64
  logBase : F64
  lowest : Nat
  highest : Nat

/-- `log::Iter::pick`, src/iterators/log.rs:46-64 -/
def logPick (h : Hist T) (p : LogState) (index : Nat) : M (LogState × Option PickMeta) := do
  let val ← h.valueFor index
  let last ← h.lastIndex
  if p.lowest ≤ val ∨ index = last then
    let nl := F64.mul p.nextLevel p.logBase
    let hi ← subU nl.toU64 1
    let lo ← h.lowestEquivalent hi
    pure ({ p with nextLevel := nl, highest := hi, lowest := lo }, some ⟨none, some p.highest⟩)
  else pure (p, none)

/-- `log::Iter::more`, src/iterators/log.rs:66-74 -/
def logMore (h : Hist T) (p : LogState) (indexToPick : Nat) : M (LogState × Bool) := do
  let l ← h.lowestEquivalent p.nextLevel.toU64
  let v ← h.valueFor indexToPick
  pure (p, decide (l < v))

/-- the trait object of `log::Iter` -/
def logPicker (h : Hist T) : Picker LogState where
  pick p i _ _ := h.logPick p i
  more p i := h.logMore p i

/-- `log::Iter::new`, src/iterators/log.rs:20-42 -/
def logNew (h : Hist T) (start : Nat) (base : F64) : M (IterState LogState) := do
  assertM (decide (0 < start))
  assertM (F64.lt (.fin 1) base)
  let s1 ← subU start 1
  let lo ← h.lowestEquivalent s1
  h.iterNew { nextLevel := F64.ofNat start, logBase := base, lowest := lo, highest := s1 }

/-- `iter_log`, lib.rs:1145-1147, driven to the end -/
def iterLog (h : Hist T) (start : Nat) (base : F64) (fuel : Nat) : M (List IterValue) := do
  let s ← h.logNew start base
  h.iterCollect h.logPicker fuel s

/-- `quantile::Iter`, src/iterators/quantile.rs:6-11 -/
structure QuantileState where
  ticks : Nat
  qTo : F64
  reachedEnd : Bool

/-- `1_u64.checked_shl(n)`, src/iterators/quantile.rs:138-140 -/
def checkedShl1 (n : Nat) : Option Nat := if n < 64 then some (2 ^ n) else none

/-- `u64::checked_mul` -/
def checkedMulU64 (a b : Nat) : Option Nat := if a * b ≤ U64MAX then some (a * b) else none

/-- the step to the next quantile, src/iterators/quantile.rs:130-156.
`lg x` stands for `x.log2() as u32`. -/
def quantileStep (lg : F64 → Nat) (ticks : Nat) (q : F64) : M F64 := do
  let halvings := lg (F64.div (.fin 1) (F64.sub (.fin 1) q))
  let h1 ← addU32 halvings 1
  let sh ← expectM (checkedShl1 h1)
  let totalTicks ← expectM (checkedMulU64 ticks sh)
  let inc := F64.div (.fin 1) (F64.ofNat totalTicks)
  let sum := F64.add q inc
  pure (if F64.feq sum q then .fin 1 else sum)

/-- `quantile::Iter::pick`, src/iterators/quantile.rs:38-158 -/
def quantilePick (lg : F64 → Nat) (h : Hist T) (p : QuantileState) (runningTotal countAtIndex : Nat) :
    M (QuantileState × Option PickMeta) :=
  if countAtIndex = 0 then pure (p, none)
  else
    let current := F64.div (F64.ofNat runningTotal) (F64.ofNat h.len)
    if F64.lt current p.qTo then pure (p, none)
    else if p.reachedEnd then pure (p, none)
    else if F64.feq p.qTo (.fin 1) then
      pure ({ p with reachedEnd := true }, some ⟨some (.fin 1), none⟩)
    else do
      let q ← quantileStep lg p.ticks p.qTo
      pure ({ p with qTo := q }, some ⟨some p.qTo, none⟩)

/-- `quantile::Iter::more`, src/iterators/quantile.rs:160-172 -/
def quantileMore (p : QuantileState) : M (QuantileState × Bool) :=
  if p.reachedEnd then pure (p, false)
  else pure ({ p with qTo := .fin 1 }, true)

/-- the trait object of `quantile::Iter` -/
def quantilePicker (lg : F64 → Nat) (h : Hist T) : Picker QuantileState where
  pick p _ t c := quantilePick lg h p t c
  more p _ := quantileMore p

/-- `quantile::Iter::new`, src/iterators/quantile.rs:15-33 -/
def quantileNew (h : Hist T) (ticks : Nat) : M (IterState QuantileState) := do
  assertM (decide (0 < ticks))
  h.iterNew { ticks := ticks, qTo := .fin 0, reachedEnd := false }

/-- `iter_quantiles`, lib.rs:1044-1050, driven to the end -/
def iterQuantiles (lg : F64 → Nat) (h : Hist T) (ticks fuel : Nat) : M (List IterValue) := do
  let s ← h.quantileNew ticks
  h.iterCollect (quantilePicker lg h) fuel s

/-! ## Coordinated-omission correction of whole histograms -/

/-- enough `next` calls for `iter_recorded`: one per slot and a final one -/
def recordedFuel (h : Hist T) : Nat := h.distinctValues + 1

/-- the loop of `add_correct` over the recorded values, lib.rs:578-580 (`?` stops at the first error).
The iterator borrows the source only, so iterating first and recording afterwards is the same. -/
def addCorrectLoop (interval : Nat) : List IterValue → Hist T → M (Hist T × Except RecordError Unit)
  | [], h => .ok (h, .ok ())
  | v :: vs, h => do
    match ← h.recordNCorrect v.valueIteratedTo v.countAtValue interval with
    | (h, .error e) => pure (h, .error e)
    | (h, .ok ()) => addCorrectLoop interval vs h

/-- `add_correct`, lib.rs:571-582 -/
def addCorrect (h source : Hist T) (interval : Nat) : M (Hist T × Except RecordError Unit) := do
  let vs ← source.iterRecorded source.recordedFuel
  addCorrectLoop interval vs h

/-- `clone_correct`, lib.rs:427-434 -/
def cloneCorrect (fp : Fp) (h : Hist T) (interval : Nat) : M (Hist T) := do
  let c ← newFrom fp T h
  let vs ← h.iterRecorded h.recordedFuel
  match ← addCorrectLoop interval vs c with
  | (_, .error _) => .error .expect
  | (c, .ok ()) => pure c

/-- `set_to_corrected`, lib.rs:446-453 -/
def setToCorrected (h source : Hist T) (interval : Nat) : M (Hist T × Except RecordError Unit) :=
  h.reset.addCorrect source interval

/-! ## Quantiles and mean -/

/-- the loop of `value_at_quantile`, lib.rs:1355-1366; `total_to_current_index +=` can overflow -/
def quantileLoop (h : Hist T) (target : Nat) (isZero : Bool) : List Nat → Nat → Nat → M Nat
  | [], _, _ => .ok 0
  | c :: cs, i, total => do
    let total ← addU64 total c
    if target ≤ total then do
      let v ← h.valueFor i
      if isZero then h.lowestEquivalent v else h.highestEquivalent v
    else quantileLoop h target isZero cs (i + 1) total

/-- rank looked for, lib.rs:1342-1352 -/
def rankFor (h : Hist T) (quantile : F64) : Nat :=
  let c := (F64.ceil (F64.mul quantile (F64.ofNat h.totalCount))).toU64
  if c = 0 then 1 else c

/-- the cap at 1.0, lib.rs:1342 -/
def capQuantile (quantile : F64) : F64 := if F64.lt (.fin 1) quantile then .fin 1 else quantile

/-- `value_at_quantile`, lib.rs:1340-1369 -/
def valueAtQuantile (h : Hist T) (quantile : F64) : M Nat :=
  let q := capQuantile quantile
  h.quantileLoop (h.rankFor q) (F64.feq q (.fin 0)) h.counts 0 0

/-- `value_at_percentile`, lib.rs:1325-1327 -/
def valueAtPercentile (h : Hist T) (percentile : F64) : M Nat :=
  h.valueAtQuantile (F64.div percentile (.fin 100))

/-- `iter.sum::<u64>()` (overflow panics in debug builds) -/
def sumChecked : List Nat → Nat → M Nat
  | [], t => .ok t
  | c :: cs, t => do
    let t ← addU64 t c
    sumChecked cs t

/-- the counted half, lib.rs:1400-1412 -/
def quantileBelowSum (h : Hist T) (slice : List Nat) : M Nat :=
  if h.totalCount < U64MAX then sumChecked slice 0
  else .ok (slice.foldl Hdr.satAdd 0)

/-- `quantile_below`, lib.rs:1391-1420 -/
def quantileBelow (h : Hist T) (value : Nat) : M F64 :=
  if h.totalCount = 0 then pure (.fin 1)
  else do
    let target ← h.indexForOrLast value
    let e ← expectM (if target + 1 ≤ U64MAX then some (target + 1) else none)
    -- both slice expressions panic when `end` exceeds the length
    if h.counts.length < e then .error .index
    else if target < h.counts.length / 2 then do
      let t ← h.quantileBelowSum (h.counts.take e)
      pure (F64.div (F64.ofNat t) (F64.ofNat h.totalCount))
    else do
      let t ← h.quantileBelowSum (h.counts.drop e)
      let t ← subU h.totalCount t
      pure (F64.div (F64.ofNat t) (F64.ofNat h.totalCount))

/-- `percentile_below`, lib.rs:1375-1377 -/
def percentileBelow (h : Hist T) (value : Nat) : M F64 := do
  let q ← h.quantileBelow value
  pure (F64.mul q (.fin 100))

/-- the fold of `mean`, lib.rs:1298-1303 -/
def meanLoop (h : Hist T) : List IterValue → F64 → M F64
  | [], t => .ok t
  | v :: vs, t => do
    let m ← h.medianEquivalent v.valueIteratedTo
    meanLoop h vs (F64.add t
      (F64.div (F64.mul (F64.ofNat m) (F64.ofNat v.countAtValue)) (F64.ofNat h.totalCount)))

/-- `mean`, lib.rs:1293-1304 -/
def mean (h : Hist T) : M F64 :=
  if h.totalCount = 0 then pure (.fin 0)
  else do
    let vs ← h.iterRecorded h.recordedFuel
    h.meanLoop vs (.fin 0)

/-- the fold of `stdev`, lib.rs:1313-1316 -/
def stdevLoop (h : Hist T) (mean : F64) : List IterValue → F64 → M F64
  | [], t => .ok t
  | v :: vs, t => do
    let m ← h.medianEquivalent v.valueIteratedTo
    let dev := F64.sub (F64.ofNat m) mean
    stdevLoop h mean vs (F64.add t (F64.mul (F64.mul dev dev) (F64.ofNat v.countSinceLastIteration)))

/-- `stdev`, lib.rs:1307-1319, up to but excluding the final square root (`variance`) -/
def variance (h : Hist T) : M F64 :=
  if h.totalCount = 0 then pure (.fin 0)
  else do
    let mean ← h.mean
    let vs ← h.iterRecorded h.recordedFuel
    let t ← h.stdevLoop mean vs (.fin 0)
    pure (F64.div t (F64.ofNat h.totalCount))

end Hist
end Hdr
