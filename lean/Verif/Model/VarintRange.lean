import Verif.Model.Machine

/-!
# The ranges of numbers of a given encoded length

`/repo/src/serialization/rand_varint.rs`, the generator of numbers for the serialization tests. The source of
randomness is not modelled: what is, is the set of numbers that can come out.
-/

namespace Hdr.V2

/-- `largest_number_in_7_bit_chunk`, rand_varint.rs:30-44 -/
def largestIn7BitChunk : Nat → M Nat
  | 0 => do
    assertM (decide (0 ≤ 7))
    let thisChunk ← shlU64 0x7F (0 * 7)
    return 0 ||| thisChunk
  | c + 1 => do
    assertM (decide (c + 1 ≤ 7))
    let lowerBits ← largestIn7BitChunk c
    let thisChunk ← shlU64 0x7F ((c + 1) * 7)
    return lowerBits ||| thisChunk

/-- `largest_number_in_n_byte_varint`, rand_varint.rs:20-27 -/
def largestInBytes (n : Nat) : M Nat := do
  assertM (decide (n ≤ 9) && decide (n ≥ 1))
  if n = 9 then return U64MAX else
    let c ← subU n 1
    largestIn7BitChunk c

/-- `smallest_number_in_n_byte_varint`, rand_varint.rs:9-17 -/
def smallestInBytes (n : Nat) : M Nat := do
  assertM (decide (n ≤ 9) && decide (n ≥ 1))
  if n = 1 then return 0 else
    let m ← subU n 1
    let l ← largestInBytes m
    addU64 l 1

/-- `Uniform::new(low, high)` of the crate `rand`: the numbers from `low` to below `high`; panics on an empty range -/
def uniform (low high : Nat) : M (Nat × Nat) := do
  assertM (decide (low < high))
  return (low, high)

/-- one of the entries of the array in `RandomVarintEncodedLengthIter::new`, rand_varint.rs:61-92, for lengths 1 to 8 -/
def rangeOf (n : Nat) : M (Nat × Nat) := do
  let lo ← smallestInBytes n
  let l ← largestInBytes n
  let hi ← addU64 l 1
  uniform lo hi

/-- the last entry, rand_varint.rs:93-96: the upper end is not increased by one -/
def lastRange : M (Nat × Nat) := do
  let lo ← smallestInBytes 9
  let hi ← largestInBytes 9
  uniform lo hi

/-- the array in `RandomVarintEncodedLengthIter::new`, rand_varint.rs:57-102 -/
def ranges : M (List (Nat × Nat)) := do
  let a ← rangeOf 1
  let b ← rangeOf 2
  let c ← rangeOf 3
  let d ← rangeOf 4
  let e ← rangeOf 5
  let f ← rangeOf 6
  let g ← rangeOf 7
  let h ← rangeOf 8
  let i ← lastRange
  return [a, b, c, d, e, f, g, h, i]

/-- `next`, rand_varint.rs:107-112, with `pick` the number drawn from `0..9` and `x` that drawn from the range: `none` if no
random source draws `x`, since it is not in the range -/
def generate (pick x : Nat) : M (Option Nat) := do
  let rs ← ranges
  match rs[pick]? with
  | none => .error .index
  | some r => return if r.1 ≤ x ∧ x < r.2 then some x else none

end Hdr.V2
