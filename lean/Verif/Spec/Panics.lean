import Verif.Spec.Api
import Verif.Spec.Ticks
import Verif.Props.Refuse
import Verif.Model.Stdev

/-!
# Specification vocabulary: all calls of the histogram API, and which of them panic

`Spec/Api` has the calls that never panic. Here are the remaining ones: floating-point queries, the iterators with a
parameter, and deserialization.
-/

namespace Hdr

variable {T : CounterTy}

/-- Adding up the counts in ascending order of the classes, until they reach rank `r`, exceeds `u64::MAX`. -/
def RankOverflows (cs : List Cls) (r : Nat) : Prop :=
  ∃ pre c post, cs = pre ++ c :: post ∧ (pre.map (·.count)).sum < r ∧ U64MAX < (pre.map (·.count)).sum + c.count

/-- The level of `iter_linear(step)` after the last does not fit `u64`; or the last level lies in the class of `u64::MAX`,
in a histogram with 0 significant digits. -/
def LinearOverflows (h : Hist T) (step : Nat) : Prop :=
  ∃ n, LinearSteps h step n ∧ (U64MAX + 1 < (n + 1) * step ∨
    (h.sigfig = 0 ∧ h.Covers U64MAX ∧ ∃ l, h.lowestEquivalent U64MAX = .ok l ∧ l < n * step))

namespace Api

/-- the remaining queries; iterators are driven to their end -/
inductive FloatQuery where
  | valueAtQuantile (q : F64) | valueAtPercentile (p : F64)
  | quantileBelow (v : Nat) | percentileBelow (v : Nat)
  | mean | stdev
  | iterLinear (step : Nat) | iterLog (start : Nat) (base : F64) | iterQuantiles (ticks : Nat)

/-- the arguments are values of their Rust types -/
def FloatQuery.Fits : FloatQuery → Prop
  | .valueAtQuantile _ | .valueAtPercentile _ | .mean | .stdev => True
  | .quantileBelow v | .percentileBelow v => v ≤ U64MAX
  | .iterLinear step => step ≤ U64MAX
  | .iterLog start base => start ≤ U64MAX ∧ base.Valid
  | .iterQuantiles ticks => ticks < 2 ^ 32

/-- When a query panics: the counts up to the rank add up to more than `u64::MAX`; a step, start or tick count of 0, or a
base that is not above 1; a level that cannot be computed. -/
def FloatQuery.Panics (h : Hist T) (cs : List Cls) : FloatQuery → Prop
  | .valueAtQuantile q => RankOverflows cs (specRank h.len q)
  | .valueAtPercentile p => RankOverflows cs (specRank h.len (F64.div p (.fin 100)))
  | .iterLinear step => step = 0 ∨ LinearOverflows h step
  | .iterLog start base => start = 0 ∨ F64.lt (.fin 1) base = false
  | .iterQuantiles ticks => ticks = 0
  | _ => False

/-- the query; `fuel` limits the number of `next` calls on the iterators, `lg` is `log2` -/
def FloatQuery.run (lg : F64 → Nat) (fuel : Nat) (h : Hist T) : FloatQuery → M Unit
  | .valueAtQuantile q => forget (h.valueAtQuantile q)
  | .valueAtPercentile p => forget (h.valueAtPercentile p)
  | .quantileBelow v => forget (h.quantileBelow v)
  | .percentileBelow v => forget (h.percentileBelow v)
  | .mean => forget h.mean
  | .stdev => forget h.stdev
  | .iterLinear step => forget (h.iterLinear step fuel)
  | .iterLog start base => forget (h.iterLog start base fuel)
  | .iterQuantiles ticks => forget (Hist.iterQuantiles lg h ticks fuel)

/-- what the calls depend on besides the program: libm, zlib, and whether the build has overflow checks (which matters to
the deserializer only; everything else is modelled with overflow checks) -/
structure Env where
  fp : Fp
  lg : F64 → Nat
  z : V2.Zlib
  checks : Bool

/-- all calls -/
inductive FullCall where
  | safe (c : Call)
  | float (i : Nat) (q : FloatQuery)
  | deserialize (T : CounterTy) (bytes : List UInt8)

def FullCall.Fits (st : List AnyHist) : FullCall → Prop
  | .safe c => c.Fits st
  | .float i q => i < st.length ∧ q.Fits
  | .deserialize _ _ => True

/-- The panic of the deserializer (`C70_panic`): a message all of whose checks hold and whose first number that cannot be
stored is -2^63, read by a build with overflow checks; or the compressed form of such a message. -/
def MessagePanics (E : Env) (T : CounterTy) (m : List UInt8) : Prop :=
  (m.take 4 ≠ Format.bigEndian 4 0x1c849314 ∧ Refused E.fp T E.checks m .overflow) ∨
  ∃ n body, n < 2 ^ 32 ∧ m = Format.bigEndian 4 0x1c849314 ++ Format.bigEndian 4 n ++ body ∧
    Refused E.fp T E.checks (E.z.inflate (body.take n)) .overflow

/-- When a call panics. -/
def FullCall.Panics (E : Env) (st : List AnyHist) : FullCall → Prop
  | .safe _ => False
  | .float i q => ∃ x cs, st[i]? = some x ∧ Classes x.h cs ∧ q.Panics x.h cs
  | .deserialize T bytes => MessagePanics E T bytes

/-- One call. A deserialized histogram is added to the state; an error is ignored. -/
def FullCall.run (E : Env) (fuel : Nat) (st : List AnyHist) : FullCall → M (List AnyHist)
  | .safe c => c.run E.fp st
  | .float i q =>
    match st[i]? with
    | none => pure st
    | some x => do
      q.run E.lg fuel x.h
      pure st
  | .deserialize T bytes => do
    match ← V2.deserialize E.fp E.z T E.checks bytes with
    | .ok (h, _) => pure (st ++ [⟨T, h⟩])
    | .error _ => pure st

/-- A program: each call may depend on the state; `none` ends it. -/
abbrev FullProgram := List AnyHist → Option FullCall

/-- the first `n` calls of a program -/
def runFull (E : Env) (fuel : Nat) (p : FullProgram) : Nat → List AnyHist → M (List AnyHist)
  | 0, st => pure st
  | n + 1, st =>
    match p st with
    | none => pure st
    | some c => do
      let st ← c.run E fuel st
      runFull E fuel p n st

end Api
end Hdr
