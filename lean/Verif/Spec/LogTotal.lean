import Verif.Spec.Log
import Verif.Spec.Samples

/-!
# Specification vocabulary: adding up the histograms of an interval log
-/

namespace Hdr.Log

/-- `V2DeflateSerializer` as the serializer of a log (v2_deflate_serializer.rs:78-131, called by
interval_log/mod.rs:486-489) -/
def deflateSer (z : V2.Zlib) (junk : Nat → UInt8) : Ser V2.SerializeError := fun h => do
  match ← V2.serializeDeflate z junk h with
  | .ok (b, _) => .ok (.ok b)
  | .error e => .ok (.error e)

/-- A program that reads a log: it takes the intervals whose tag is wanted, decodes and deserializes their payloads, and adds
them to `acc`. It gives up (`none`) if one cannot be decoded, deserialized or added. -/
def addUp (fp : Fp) (z : V2.Zlib) (checks : Bool) (T : CounterTy) (wanted : Option Str → Bool) :
    List Entry → Hist T → M (Option (Hist T))
  | [], acc => .ok (some acc)
  | .interval iv :: es, acc =>
    if wanted iv.tag then
      match b64Decode iv.encoded with
      | none => .ok none
      | some bytes => do
        match ← V2.deserialize fp z T checks bytes with
        | .error _ => .ok none
        | .ok (g, _) =>
          match ← acc.add g with
          | (_, .error _) => .ok none
          | (acc, .ok ()) => addUp fp z checks T wanted es acc
    else addUp fp z checks T wanted es acc
  | .startTime _ :: es, acc => addUp fp z checks T wanted es acc
  | .baseTime _ :: es, acc => addUp fp z checks T wanted es acc

/-- `l` are the samples of the histograms with a wanted tag that a sequence of calls writes, in order. Each histogram can be
added to `acc` without mixing classes: values it does not distinguish are not distinguished by `acc` either. -/
inductive Written (fp : Fp) {T : CounterTy} (acc : Hist T) (wanted : Option Str → Bool) : List Op → List (Nat × Nat) → Prop
  | nil : Written fp acc wanted [] []
  | comment {s : Str} {ops : List Op} {l : List (Nat × Nat)} :
      Written fp acc wanted ops l → Written fp acc wanted (.comment s :: ops) l
  | hist {T' : CounterTy} {h : Hist T'} {start duration : Dur} {tag : Option Tag} {ops : List Op} {l l' : List (Nat × Nat)} :
      Reachable fp T' h → Contains h l' → (∀ p ∈ l', p.2 ≠ 0) →
      (∀ a b, a ≤ U64MAX → b ≤ U64MAX → Equiv h a b → Equiv acc a b) → Written fp acc wanted ops l →
      Written fp acc wanted (.hist h start duration tag :: ops) (if wanted (tag.map Tag.asStr) then l' ++ l else l)

end Hdr.Log
