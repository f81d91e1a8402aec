import Verif.Model.Width
import Verif.Spec.Vocab

/-!
# Specification vocabulary: targets with a narrower `usize`
-/

namespace Hdr

variable {T : CounterTy}

namespace Target

/-- What an operation that may enlarge the counts array does on a target, given what it does on a 64-bit one: the same
if the array does not get longer; otherwise the error `small` with the histogram left as it was if the new length is
not a `usize`, the same if the memory can be had, and a panic if not. -/
def outcome {E : Type} (t : Target) (h : Hist T) (small : E) (on64 : M (Hist T × Except E Unit)) :
    M (Hist T × Except E Unit) := do
  let (h', r) ← on64
  if h'.distinctValues ≤ h.distinctValues then pure (h', r)
  else if t.usizeMax < h'.distinctValues then pure (h, .error small)
  else if t.allocates T.bytes h'.distinctValues then pure (h', r)
  else .error .capacity

/-- `usize` has 32 bits or more, and 256 MiB can be allocated in one piece -/
def Wide (t : Target) : Prop := 32 ≤ t.bits ∧ ∀ size len, size * len ≤ 2 ^ 28 → t.allocates size len = true

/-- a target with pointers of `bits` bits on which every vector that is not too large for `Vec` can be allocated -/
def generous (bits : Nat) (h : bits ≤ 64 := by decide) : Target where
  bits := bits
  bits_le := h
  allocates size len := decide (size * len ≤ (2 ^ bits - 1) / 2)
  isizeMax := fun _ _ h => of_decide_eq_true h

end Target

/-- Histograms that can be produced on a target with the public API (compare `Reachable`; `set_to` is `reset` and
`add`, and `add_correct` and its variants are `record_n_correct` for each value of an iterator). -/
inductive ReachableOn (t : Target) (fp : Fp) : (T : CounterTy) → Hist T → Prop where
  | newWithBounds {T : CounterTy} {low high sigfig h} : high ≤ U64MAX →
      Hist.newWithBoundsOn t fp T low high sigfig = .ok (.ok h) → ReachableOn t fp T h
  | new {T : CounterTy} {sigfig h} : Hist.newOn t fp T sigfig = .ok (.ok h) → ReachableOn t fp T h
  | newFrom {F T : CounterTy} {s : Hist F} {h} : ReachableOn t fp F s → Hist.newFromOn t fp T s = .ok h →
      ReachableOn t fp T h
  | deserialize {T : CounterTy} {h} (z : V2.Zlib) (checks : Bool) (bytes rest : List UInt8) :
      V2.deserializeOn t fp z T checks bytes = .ok (.ok (h, rest)) → ReachableOn t fp T h
  | recordN {T : CounterTy} {h h' : Hist T} {v c r} : ReachableOn t fp T h → v ≤ U64MAX → c ≤ T.max →
      h.recordNOn t v c = .ok (h', r) → ReachableOn t fp T h'
  | saturatingRecordN {T : CounterTy} {h h' : Hist T} {v c} : ReachableOn t fp T h → v ≤ U64MAX → c ≤ T.max →
      h.saturatingRecordNOn t v c = .ok h' → ReachableOn t fp T h'
  | recordNCorrect {T : CounterTy} {h h' : Hist T} {v c i r} : ReachableOn t fp T h → v ≤ U64MAX → c ≤ T.max →
      h.recordNCorrectOn t v c i = .ok (h', r) → ReachableOn t fp T h'
  | add {T : CounterTy} {h s h' : Hist T} {r} : ReachableOn t fp T h → ReachableOn t fp T s →
      h.addOn t s = .ok (h', r) → ReachableOn t fp T h'
  | subtract {T : CounterTy} {h s h' : Hist T} {r} : ReachableOn t fp T h → ReachableOn t fp T s →
      h.subtractOn t s = .ok (h', r) → ReachableOn t fp T h'
  | reset {T : CounterTy} {h : Hist T} : ReachableOn t fp T h → ReachableOn t fp T h.reset
  | clear {T : CounterTy} {h : Hist T} : ReachableOn t fp T h → ReachableOn t fp T h.clear
  | auto {T : CounterTy} {h : Hist T} (b : Bool) : ReachableOn t fp T h → ReachableOn t fp T (h.auto b)

end Hdr
