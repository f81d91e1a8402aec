/-!
# The V2 encoding, written down independently of the code

After the description of the format in the HdrHistogram V2 encoding: a 40-byte header of big-endian fields, then the counts
as zig-zag LEB128 numbers of at most nine bytes, in which a run of two or more zeros is one negative number.
-/

namespace Hdr.Format

/-- the `n` bytes of `x`, most significant first -/
def bigEndian (n x : Nat) : List UInt8 := (List.range n).reverse.map fun i => UInt8.ofNat (x / 256 ^ i)

/-- non-negative numbers are even, negative ones odd -/
def zigzag (t : Int) : Nat := if 0 ≤ t then (2 * t).toNat else (-2 * t - 1).toNat

/-- seven bits at a time, least significant first, with a continuation bit; after `k` bytes with a continuation bit the last
byte has eight bits -/
def leb128 : Nat → Nat → List UInt8
  | 0, x => [UInt8.ofNat x]
  | k + 1, x => if x < 128 then [UInt8.ofNat x] else UInt8.ofNat (x % 128 + 128) :: leb128 k (x / 128)

/-- a number in the payload: at most nine bytes -/
def number (t : Int) : List UInt8 := leb128 8 (zigzag t)

/-- a run of `z` zeros -/
def zeros : Nat → List Int
  | 0 => []
  | 1 => [0]
  | z + 2 => [-(z + 2 : Nat)]

/-- run-length form of a list of counts that is preceded by `z` zeros -/
def runs : Nat → List Nat → List Int
  | z, [] => zeros z
  | z, 0 :: cs => runs (z + 1) cs
  | z, (c + 1) :: cs => zeros z ++ ((c + 1 : Nat) : Int) :: runs 0 cs

/-- the payload for the given counts -/
def payload (counts : List Nat) : List UInt8 := (runs 0 counts).flatMap number

/-- an encoded histogram; `0x3FF0000000000000` is the `f64` 1.0, the conversion ratio -/
def v2 (low high sigfig : Nat) (counts : List Nat) : List UInt8 :=
  bigEndian 4 0x1c849313 ++ bigEndian 4 (payload counts).length ++ bigEndian 4 0 ++ bigEndian 4 sigfig
    ++ bigEndian 8 low ++ bigEndian 8 high ++ bigEndian 8 0x3FF0000000000000 ++ payload counts

example : runs 0 [1, 0, 0, 3, 0, 200] = [1, -2, 3, 0, 200] := by decide

example : payload [1, 0, 0, 3, 200] = [2, 3, 6, 144, 3] := by decide

/-! ## What a reader accepts

Not only what the writer produces: a number may have superfluous continuation bytes, and a run of zeros may be cut into
pieces, written out, or extend past the last slot. -/

/-- a number of at most `k + 1` bytes, and what follows it -/
def readLeb : Nat → List UInt8 → Option (Nat × List UInt8)
  | _, [] => none
  | 0, b :: r => some (b.toNat, r)
  | k + 1, b :: r => if b.toNat < 128 then some (b.toNat, r) else
    (readLeb k r).map fun p => (b.toNat - 128 + 128 * p.1, p.2)

/-- even numbers stand for the non-negative ones, odd ones for the negative ones -/
def unzigzag (u : Nat) : Int := if u % 2 = 0 then (u / 2 : Nat) else -(u / 2 : Nat) - 1

/-- the bytes are the numbers, one after the other -/
inductive Numbers : List UInt8 → List Int → Prop
  | nil : Numbers [] []
  | cons {bs r : List UInt8} {u : Nat} {ts : List Int} : readLeb 8 bs = some (u, r) → Numbers r ts →
      Numbers bs (unzigzag u :: ts)

/-- the counts meant by the numbers: a negative number is a run of zeros -/
def expand (ts : List Int) : List Nat := ts.flatMap fun t => if t < 0 then List.replicate (-t).toNat 0 else [t.toNat]

/-- `bytes` is a header with the given settings, a payload of the given numbers, and `rest` -/
def Stream (bytes : List UInt8) (low high sigfig : Nat) (ts : List Int) (rest : List UInt8) : Prop :=
  low < 2 ^ 64 ∧ high < 2 ^ 64 ∧ sigfig < 2 ^ 32 ∧ ∃ payload : List UInt8, payload.length < 2 ^ 32 ∧ Numbers payload ts ∧
    bytes = bigEndian 4 0x1c849313 ++ bigEndian 4 payload.length ++ bigEndian 4 0 ++ bigEndian 4 sigfig
      ++ bigEndian 8 low ++ bigEndian 8 high ++ bigEndian 8 0x3FF0000000000000 ++ payload ++ rest

/-- the numbers can be stored in `slots` counters that go up to `max`, and no run of zeros is longer than a 64-bit machine
can express -/
structure Fits (max slots : Nat) (ts : List Int) : Prop where
  range : ∀ t ∈ ts, -2 ^ 63 < t ∧ t ≤ max
  length : (expand ts).length < 2 ^ 64
  zeros : ∀ i, slots ≤ i → (expand ts).getD i 0 = 0

example : Numbers [2, 3, 0x86, 0x00] [1, -2, 3] :=
  .cons (u := 2) rfl (.cons (u := 3) rfl (.cons (u := 6) rfl .nil))

example : expand [1, -2, 3] = [1, 0, 0, 3] := by decide

end Hdr.Format
