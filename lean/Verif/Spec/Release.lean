import Verif.Spec.Panics
import Verif.Model.Release

/-!
# Specification vocabulary: one program, two builds

A `Build` says what each function of the API does: `debug` is the code with overflow checks and debug assertions,
`release` the code without. A program sees the histograms it holds and the answers to all calls made so far, among them
the errors; what it does next may depend on all that.
-/

namespace Hdr

/-- the functions of the API -/
structure Build where
  newWithBounds : Fp → (T : CounterTy) → (low high sigfig : Nat) → M (Except CreationError (Hist T))
  newWithMax : Fp → (T : CounterTy) → (high sigfig : Nat) → M (Except CreationError (Hist T))
  new : Fp → (T : CounterTy) → (sigfig : Nat) → M (Except CreationError (Hist T))
  newFrom : {F : CounterTy} → Fp → (T : CounterTy) → Hist F → M (Hist T)
  cloneCorrect : {T : CounterTy} → Fp → Hist T → (interval : Nat) → M (Hist T)
  record : {T : CounterTy} → Hist T → (v : Nat) → M (Hist T × Except RecordError Unit)
  recordN : {T : CounterTy} → Hist T → (v c : Nat) → M (Hist T × Except RecordError Unit)
  saturatingRecord : {T : CounterTy} → Hist T → (v : Nat) → M (Hist T)
  saturatingRecordN : {T : CounterTy} → Hist T → (v c : Nat) → M (Hist T)
  recordCorrect : {T : CounterTy} → Hist T → (v interval : Nat) → M (Hist T × Except RecordError Unit)
  recordNCorrect : {T : CounterTy} → Hist T → (v c interval : Nat) → M (Hist T × Except RecordError Unit)
  add : {T : CounterTy} → Hist T → Hist T → M (Hist T × Except AdditionError Unit)
  subtract : {T : CounterTy} → Hist T → Hist T → M (Hist T × Except SubtractionError Unit)
  setTo : {T : CounterTy} → Hist T → Hist T → M (Hist T × Except AdditionError Unit)
  addCorrect : {T : CounterTy} → Hist T → Hist T → (interval : Nat) → M (Hist T × Except RecordError Unit)
  setToCorrected : {T : CounterTy} → Hist T → Hist T → (interval : Nat) → M (Hist T × Except RecordError Unit)
  min : {T : CounterTy} → Hist T → M Nat
  max : {T : CounterTy} → Hist T → M Nat
  minNz : {T : CounterTy} → Hist T → M Nat
  countAt : {T : CounterTy} → Hist T → (v : Nat) → M Nat
  countBetween : {T : CounterTy} → Hist T → (lo hi : Nat) → M Nat
  lowestEquivalent : {T : CounterTy} → Hist T → (v : Nat) → M Nat
  highestEquivalent : {T : CounterTy} → Hist T → (v : Nat) → M Nat
  medianEquivalent : {T : CounterTy} → Hist T → (v : Nat) → M Nat
  nextNonEquivalent : {T : CounterTy} → Hist T → (v : Nat) → M Nat
  equivalentRange : {T : CounterTy} → Hist T → (v : Nat) → M Nat
  equivalent : {T : CounterTy} → Hist T → (v w : Nat) → M Bool
  eq : {T : CounterTy} → Hist T → Hist T → M Bool
  iterRecorded : {T : CounterTy} → Hist T → (fuel : Nat) → M (List IterValue)
  iterAll : {T : CounterTy} → Hist T → (fuel : Nat) → M (List IterValue)
  iterLinear : {T : CounterTy} → Hist T → (step fuel : Nat) → M (List IterValue)
  iterLog : {T : CounterTy} → Hist T → (start : Nat) → (base : F64) → (fuel : Nat) → M (List IterValue)
  iterQuantiles : {T : CounterTy} → (F64 → Nat) → Hist T → (ticks fuel : Nat) → M (List IterValue)
  valueAtQuantile : {T : CounterTy} → Hist T → F64 → M Nat
  valueAtPercentile : {T : CounterTy} → Hist T → F64 → M Nat
  quantileBelow : {T : CounterTy} → Hist T → (v : Nat) → M F64
  percentileBelow : {T : CounterTy} → Hist T → (v : Nat) → M F64
  mean : {T : CounterTy} → Hist T → M F64
  stdev : {T : CounterTy} → Hist T → M F64
  serialize : {T : CounterTy} → (Nat → UInt8) → Hist T → M (Except V2.SerializeError (List UInt8 × Nat))
  deserialize : Fp → V2.Zlib → (T : CounterTy) → List UInt8 → M (Except V2.DeserializeError (Hist T × List UInt8))

/-- the build of `cargo build` and `cargo test` -/
def Build.debug : Build where
  newWithBounds := Hist.newWithBounds
  newWithMax := Hist.newWithMax
  new := Hist.new
  newFrom := Hist.newFrom
  cloneCorrect := Hist.cloneCorrect
  record := Hist.record
  recordN := Hist.recordN
  saturatingRecord := Hist.saturatingRecord
  saturatingRecordN := Hist.saturatingRecordN
  recordCorrect := Hist.recordCorrect
  recordNCorrect := Hist.recordNCorrect
  add := Hist.add
  subtract := Hist.subtract
  setTo := Hist.setTo
  addCorrect := Hist.addCorrect
  setToCorrected := Hist.setToCorrected
  min := Hist.min
  max := Hist.max
  minNz := Hist.minNz
  countAt := Hist.countAt
  countBetween := Hist.countBetween
  lowestEquivalent := Hist.lowestEquivalent
  highestEquivalent := Hist.highestEquivalent
  medianEquivalent := Hist.medianEquivalent
  nextNonEquivalent := Hist.nextNonEquivalent
  equivalentRange := Hist.equivalentRange
  equivalent := Hist.equivalent
  eq := Hist.eq
  iterRecorded := Hist.iterRecorded
  iterAll := Hist.iterAll
  iterLinear := Hist.iterLinear
  iterLog := Hist.iterLog
  iterQuantiles := Hist.iterQuantiles
  valueAtQuantile := Hist.valueAtQuantile
  valueAtPercentile := Hist.valueAtPercentile
  quantileBelow := Hist.quantileBelow
  percentileBelow := Hist.percentileBelow
  mean := Hist.mean
  stdev := Hist.stdev
  serialize := V2.serialize
  deserialize fp z T := V2.deserialize fp z T true

/-- the build of `cargo build --release` -/
def Build.release : Build where
  newWithBounds := Release.Hist.newWithBounds
  newWithMax := Release.Hist.newWithMax
  new := Release.Hist.new
  newFrom := Release.Hist.newFrom
  cloneCorrect := Release.Hist.cloneCorrect
  record := Release.Hist.record
  recordN := Release.Hist.recordN
  saturatingRecord := Release.Hist.saturatingRecord
  saturatingRecordN := Release.Hist.saturatingRecordN
  recordCorrect := Release.Hist.recordCorrect
  recordNCorrect := Release.Hist.recordNCorrect
  add := Release.Hist.add
  subtract := Release.Hist.subtract
  setTo := Release.Hist.setTo
  addCorrect := Release.Hist.addCorrect
  setToCorrected := Release.Hist.setToCorrected
  min := Release.Hist.min
  max := Release.Hist.max
  minNz := Release.Hist.minNz
  countAt := Release.Hist.countAt
  countBetween := Release.Hist.countBetween
  lowestEquivalent := Release.Hist.lowestEquivalent
  highestEquivalent := Release.Hist.highestEquivalent
  medianEquivalent := Release.Hist.medianEquivalent
  nextNonEquivalent := Release.Hist.nextNonEquivalent
  equivalentRange := Release.Hist.equivalentRange
  equivalent := Release.Hist.equivalent
  eq := Release.Hist.eq
  iterRecorded := Release.Hist.iterRecorded
  iterAll := Release.Hist.iterAll
  iterLinear := Release.Hist.iterLinear
  iterLog := Release.Hist.iterLog
  iterQuantiles := Release.Hist.iterQuantiles
  valueAtQuantile := Release.Hist.valueAtQuantile
  valueAtPercentile := Release.Hist.valueAtPercentile
  quantileBelow := Release.Hist.quantileBelow
  percentileBelow := Release.Hist.percentileBelow
  mean := Release.Hist.mean
  stdev := Release.Hist.stdev
  serialize := Release.V2.serialize
  deserialize fp z T := Release.V2.deserialize fp z T false

/-- the count of the classes in `cs`, as a `u64` that wraps around -/
def wrappedCount (cs : List Cls) : Nat := (cs.map (·.count)).sum % 2 ^ 64

/-- `c` is the first class at whose end the running count, wrapping around, is at least `r` -/
def AtWrappedRank (cs : List Cls) (r : Nat) (c : Cls) : Prop :=
  ∃ pre post, cs = pre ++ c :: post ∧ r ≤ wrappedCount (pre ++ [c]) ∧
    ∀ pre' d, pre' ++ [d] <+: pre → wrappedCount (pre' ++ [d]) < r

namespace Api

/-- what a call returns to the program, besides histograms -/
inductive Answer where
  | done
  | nat (n : Nat)
  | bool (b : Bool)
  | float (x : F64)
  | items (vs : List IterValue)
  | created (r : Option CreationError)
  | recorded (r : Except RecordError Unit)
  | added (r : Except AdditionError Unit)
  | subtracted (r : Except SubtractionError Unit)
  | written (r : Except V2.SerializeError (List UInt8 × Nat))
  /-- the error, or the bytes left in the reader -/
  | read (r : Except V2.DeserializeError (List UInt8))

/-- the histograms a program holds, and the answers so far, the last one first -/
structure World where
  hists : List AnyHist
  answers : List Answer

/-- hold one more histogram -/
def keep {T : CounterTy} (st : List AnyHist) : Except CreationError (Hist T) → List AnyHist × Answer
  | .ok h => (st ++ [⟨T, h⟩], .created none)
  | .error e => (st, .created (some e))

def Create.step (B : Build) (fp : Fp) (st : List AnyHist) : Create → M (List AnyHist × Answer)
  | .newWithBounds T low high sigfig => keep st <$> B.newWithBounds fp T low high sigfig
  | .newWithMax T high sigfig => keep st <$> B.newWithMax fp T high sigfig
  | .new T sigfig => keep st <$> B.new fp T sigfig
  | .newFrom T i =>
    match st[i]? with
    | none => pure (st, .done)
    | some x => (fun h => (st ++ [⟨T, h⟩], .done)) <$> B.newFrom fp T x.h
  | .clone i =>
    match st[i]? with
    | none => pure (st, .done)
    | some x => pure (st ++ [x], .done)
  | .cloneCorrect i interval =>
    match st[i]? with
    | none => pure (st, .done)
    | some x => (fun h => (st ++ [⟨x.T, h⟩], .done)) <$> B.cloneCorrect fp x.h interval

def Update.step (B : Build) {T : CounterTy} (h : Hist T) : Update → M (Hist T × Answer)
  | .record v => (fun r => (r.1, .recorded r.2)) <$> B.record h v
  | .recordN v c => (fun r => (r.1, .recorded r.2)) <$> B.recordN h v c
  | .saturatingRecord v => (fun r => (r, .done)) <$> B.saturatingRecord h v
  | .saturatingRecordN v c => (fun r => (r, .done)) <$> B.saturatingRecordN h v c
  | .recordCorrect v i => (fun r => (r.1, .recorded r.2)) <$> B.recordCorrect h v i
  | .recordNCorrect v c i => (fun r => (r.1, .recorded r.2)) <$> B.recordNCorrect h v c i
  | .reset => pure (h.reset, .done)
  | .clear => pure (h.clear, .done)
  | .auto b => pure (h.auto b, .done)

def Combine.step (B : Build) {T : CounterTy} (h s : Hist T) : Combine → M (Hist T × Answer)
  | .add => (fun r => (r.1, .added r.2)) <$> B.add h s
  | .subtract => (fun r => (r.1, .subtracted r.2)) <$> B.subtract h s
  | .setTo => (fun r => (r.1, .added r.2)) <$> B.setTo h s
  | .addCorrect i => (fun r => (r.1, .recorded r.2)) <$> B.addCorrect h s i
  | .setToCorrected i => (fun r => (r.1, .recorded r.2)) <$> B.setToCorrected h s i

def Query.step (B : Build) {T : CounterTy} (h : Hist T) : Query → M Answer
  | .min => .nat <$> B.min h
  | .max => .nat <$> B.max h
  | .minNz => .nat <$> B.minNz h
  | .countAt v => .nat <$> B.countAt h v
  | .countBetween v w => .nat <$> B.countBetween h v w
  | .lowestEquivalent v => .nat <$> B.lowestEquivalent h v
  | .highestEquivalent v => .nat <$> B.highestEquivalent h v
  | .medianEquivalent v => .nat <$> B.medianEquivalent h v
  | .nextNonEquivalent v => .nat <$> B.nextNonEquivalent h v
  | .equivalentRange v => .nat <$> B.equivalentRange h v
  | .equivalent v w => .bool <$> B.equivalent h v w
  | .iterRecorded => .items <$> B.iterRecorded h (h.distinctValues + 1)
  | .iterAll => .items <$> B.iterAll h (h.distinctValues + 1)
  | .serialize junk => .written <$> B.serialize junk h

def FloatQuery.step (B : Build) (lg : F64 → Nat) (fuel : Nat) {T : CounterTy} (h : Hist T) : FloatQuery → M Answer
  | .valueAtQuantile q => .nat <$> B.valueAtQuantile h q
  | .valueAtPercentile p => .nat <$> B.valueAtPercentile h p
  | .quantileBelow v => .float <$> B.quantileBelow h v
  | .percentileBelow v => .float <$> B.percentileBelow h v
  | .mean => .float <$> B.mean h
  | .stdev => .float <$> B.stdev h
  | .iterLinear step => .items <$> B.iterLinear h step fuel
  | .iterLog start base => .items <$> B.iterLog h start base fuel
  | .iterQuantiles ticks => .items <$> B.iterQuantiles lg h ticks fuel

def Call.step (B : Build) (fp : Fp) (st : List AnyHist) : Call → M (List AnyHist × Answer)
  | .create c => c.step B fp st
  | .update i u =>
    match st[i]? with
    | none => pure (st, .done)
    | some x => (fun r => (st.set i ⟨x.T, r.1⟩, r.2)) <$> u.step B x.h
  | .combine i j c =>
    match st[i]?, st[j]? with
    | some x, some y =>
      if e : y.T = x.T then (fun r => (st.set i ⟨x.T, r.1⟩, r.2)) <$> c.step B x.h (e ▸ y.h)
      else pure (st, .done)
    | _, _ => pure (st, .done)
  | .query i q =>
    match st[i]? with
    | none => pure (st, .done)
    | some x => (fun a => (st, a)) <$> q.step B x.h
  | .compare i j =>
    match st[i]?, st[j]? with
    | some x, some y =>
      if e : y.T = x.T then (fun b => (st, .bool b)) <$> B.eq x.h (e ▸ y.h)
      else pure (st, .done)
    | _, _ => pure (st, .done)

/-- hold a histogram that was read -/
def keepRead {T : CounterTy} (st : List AnyHist) :
    Except V2.DeserializeError (Hist T × List UInt8) → List AnyHist × Answer
  | .ok (h, rest) => (st ++ [⟨T, h⟩], .read (.ok rest))
  | .error e => (st, .read (.error e))

/-- one call in build `B`; libm and zlib are those of `E` -/
def FullCall.step (B : Build) (E : Env) (fuel : Nat) (st : List AnyHist) : FullCall → M (List AnyHist × Answer)
  | .safe c => c.step B E.fp st
  | .float i q =>
    match st[i]? with
    | none => pure (st, .done)
    | some x => (fun a => (st, a)) <$> q.step B E.lg fuel x.h
  | .deserialize T bytes => keepRead st <$> B.deserialize E.fp E.z T bytes

/-- what a program does next, given all it holds and was told -/
abbrev Script := World → Option FullCall

/-- the first `n` calls of a program in build `B` -/
def exec (B : Build) (E : Env) (fuel : Nat) (p : Script) : Nat → World → M World
  | 0, w => pure w
  | n + 1, w =>
    match p w with
    | none => pure w
    | some c => do
      let r ← c.step B E fuel w.hists
      exec B E fuel p n ⟨r.1, r.2 :: w.answers⟩

end Api
end Hdr
