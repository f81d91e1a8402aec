import Verif.Spec.Format
import Verif.Model.V2

/-!
# Specification vocabulary: which error a refused message gives
-/

namespace Hdr.Format

open V2

/-- a big-endian number -/
def value (bs : List UInt8) : Nat := bs.foldl (fun x b => 256 * x + b.toNat) 0

/-- the field of `n` bytes at position `k` -/
def field (k n : Nat) (bs : List UInt8) : Nat := value ((bs.drop k).take n)

/-- a check: the number of bytes that must be there, what must hold, and the error if it does not -/
structure Check where
  needs : Nat
  holds : Prop
  error : DeserializeError

/-- the checks on a message, in this order. `ok low high sigfig`: the constructor accepts these settings -/
def checklist (ok : Nat → Nat → Nat → Prop) (bs : List UInt8) : List Check :=
  [⟨4, field 0 4 bs = 0x1c849313, .InvalidCookie⟩,
   ⟨12, field 8 4 bs = 0, .UnsupportedFeature⟩,
   ⟨16, field 12 4 bs ≤ 255, .InvalidParameters⟩,
   ⟨40, field 32 8 bs = 0x3FF0000000000000, .UnsupportedFeature⟩,
   ⟨40, ok (field 16 8 bs) (field 24 8 bs) (field 12 4 bs), .InvalidParameters⟩,
   ⟨40 + field 4 4 bs, True, .IoError⟩]

/-- all checks hold of a message of `n` bytes -/
def Passes (n : Nat) (cs : List Check) : Prop := ∀ c ∈ cs, c.needs ≤ n ∧ c.holds

/-- the error of the first check that fails; `IoError` if the message is too short for it -/
inductive Fails (n : Nat) : List Check → DeserializeError → Prop
  | short {c : Check} {cs : List Check} : n < c.needs → Fails n (c :: cs) .IoError
  | wrong {c : Check} {cs : List Check} : c.needs ≤ n → ¬ c.holds → Fails n (c :: cs) c.error
  | later {c : Check} {cs : List Check} {e : DeserializeError} : c.needs ≤ n → c.holds → Fails n cs e → Fails n (c :: cs) e

/-- an error, or the panic of an arithmetic overflow -/
inductive Refusal where
  | error (e : DeserializeError)
  | overflow

/-- what a number gives that cannot be stored at position `pos`, with `slots` counters up to `max` -/
inductive BadNumber (checks : Bool) (max slots pos : Nat) : Int → Refusal → Prop
  | large {t : Int} : max < t → BadNumber checks max slots pos t (.error .UnsuitableCounterType)
  | late {t : Int} : 0 < t → t ≤ max → slots ≤ pos → BadNumber checks max slots pos t (.error .EncodedArrayTooLong)
  | far {t : Int} : -2 ^ 63 < t → t ≤ 0 → 2 ^ 64 ≤ pos + (expand [t]).length →
      BadNumber checks max slots pos t (.error .UsizeTypeTooSmall)
  | min : BadNumber checks max slots pos (-2 ^ 63) (if checks then .overflow else .error .UsizeTypeTooSmall)

/-- some numbers that can be stored, and then half a number or one that cannot -/
def BadPayload (checks : Bool) (max slots : Nat) (payload : List UInt8) (o : Refusal) : Prop :=
  ∃ p r ts, payload = p ++ r ∧ Numbers p ts ∧ Fits max slots ts ∧
    (r ≠ [] ∧ readLeb 8 r = none ∧ o = .error .IoError ∨
      ∃ u r', readLeb 8 r = some (u, r') ∧ BadNumber checks max slots (expand ts).length (unzigzag u) o)

/-- the payload begins with numbers that can be stored, and after them the position is beyond `limit` -/
def Overruns (limit max slots : Nat) (payload : List UInt8) : Prop :=
  ∃ p r ts, payload = p ++ r ∧ Numbers p ts ∧ Fits max slots ts ∧ limit < (expand ts).length

end Hdr.Format
