import Verif.Model.IntervalLog
import Verif.Model.Stdev

/-!
# Model of `examples/cli.rs`

The two subcommands, from the bytes on standard input to what they print.  Not modelled: the command line itself (clap),
the layout of the printed table (here a `Table`), errors of standard input and output.
-/

namespace Hdr
namespace Cli

open Log (Bytes Str fromUtf8 parseUnsigned)

/-- `CliError`, examples/cli.rs:231-237, without `Io` -/
inductive CliError where
  | HistogramSerialize (e : V2.SerializeError)
  | HistogramSerializeCompressed (e : V2.SerializeError)
  | HistogramDeserialize (e : V2.DeserializeError)
  | HistogramRecord (e : RecordError)
  deriving DecidableEq, Repr

/-! ## `std::io::BufRead::lines` -/

/-- a line without its newline loses one carriage return at its end -/
def chomp (l : Bytes) : Bytes := if l.getLast? = some 13 then l.dropLast else l

/-- the lines of the input; `cur` is what has been read of the current one -/
def linesLoop : Bytes → Bytes → List Bytes
  | cur, [] => if cur = [] then [] else [cur]
  | cur, b :: i => if b = 10 then chomp cur :: linesLoop [] i else linesLoop (cur ++ [b]) i

/-- `BufRead::lines`: the parts between newlines, the last one only if it is not empty -/
def lines (i : Bytes) : List Bytes := linesLoop [] i

/-! ## `serialize` -/

/-- cli.rs 121-122: the number on a line; a line that is not UTF-8 or not a `u64` is a panic -/
def number (l : Bytes) : M Nat := do
  let s ← expectM (fromUtf8 l)
  expectM (parseUnsigned U64MAX s)

/-- cli.rs 119-125: the loop over the lines, which are read and recorded one by one -/
def recordLines (h : Hist .u64) : List Bytes → M (Hist .u64 × Except RecordError Unit)
  | [] => .ok (h, .ok ())
  | l :: ls => do
    let n ← number l
    match ← h.record n with
    | (h, .error e) => .ok (h, .error e)
    | (h, .ok ()) => recordLines h ls

/-- cli.rs 113-134 `serialize`: the bytes written -/
def serialize (z : V2.Zlib) (junk : Nat → UInt8) (h : Hist .u64) (compression : Bool) (input : Bytes) :
    M (Except CliError Bytes) := do
  match ← recordLines h (lines input) with
  | (_, .error e) => pure (.error (.HistogramRecord e))
  | (h, .ok ()) =>
    if compression then
      match ← V2.serializeDeflate z junk h with
      | .error e => pure (.error (.HistogramSerializeCompressed e))
      | .ok (bytes, _) => pure (.ok bytes)
    else
      match ← V2.serialize junk h with
      | .error e => pure (.error (.HistogramSerialize e))
      | .ok (bytes, _) => pure (.ok bytes)

/-- the arguments of the subcommand, cli.rs 18-56 -/
structure SerializeArgs where
  min : Nat
  max : Nat
  sigfig : Nat
  compression : Bool
  resize : Bool

/-- cli.rs 84-97: `new_with_bounds(..).unwrap()`, and `auto(true)` if asked for -/
def serializeCmd (fp : Fp) (z : V2.Zlib) (junk : Nat → UInt8) (a : SerializeArgs) (input : Bytes) :
    M (Except CliError Bytes) := do
  match ← Hist.newWithBounds fp .u64 a.min a.max a.sigfig with
  | .error _ => .error .expect
  | .ok h => serialize z junk (if a.resize then h.auto true else h) a.compression input

/-! ## `quantiles` -/

/-- a line of the table, cli.rs 161-189; `inverse` is the last column, `none` standing for `∞` -/
structure Row where
  value : Nat
  quantile : F64
  quantileTo : F64
  total : Nat
  inverse : Option F64
  deriving DecidableEq

/-- cli.rs 161-189 -/
def row (v : IterValue) (sum : Nat) : Row where
  value := v.valueIteratedTo
  quantile := v.quantile
  quantileTo := v.quantileIteratedTo
  total := sum
  inverse :=
    if F64.lt v.quantileIteratedTo (.fin 1) then some (F64.div (.fin 1) (F64.sub (.fin 1) v.quantileIteratedTo)) else none

/-- cli.rs 158-190: the loop over the items, with their running sum (a `u64`, which may overflow) -/
def rows : Nat → List IterValue → M (List Row)
  | _, [] => .ok []
  | sum, v :: vs => do
    let sum ← addU64 sum v.countSinceLastIteration
    let rest ← rows sum vs
    .ok (row v sum :: rest)

/-- what the subcommand prints -/
structure Table where
  rows : List Row
  mean : F64
  stdev : F64
  max : Nat
  len : Nat
  buckets : Nat
  distinctValues : Nat

/-- cli.rs 138-225 `quantiles`; the items are produced and printed one by one there, here first all are produced, which
makes a difference only for what has been printed before a panic -/
def quantiles (fp : Fp) (z : V2.Zlib) (lg : F64 → Nat) (checks : Bool) (fuel : Nat) (ticks : Nat) (input : Bytes) :
    M (Except CliError Table) := do
  match ← V2.deserialize fp z .u64 checks input with
  | .error e => pure (.error (.HistogramDeserialize e))
  | .ok (h, _) =>
    let items ← Hist.iterQuantiles lg h ticks fuel
    let rs ← rows 0 items
    let mean ← h.mean
    let stdev ← h.stdev
    let max ← h.max
    pure (.ok { rows := rs, mean := mean, stdev := stdev, max := max, len := h.len, buckets := h.buckets
                distinctValues := h.distinctValues })

end Cli
end Hdr
