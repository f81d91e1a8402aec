import Verif.Model.Iter
import Verif.Model.V2
import Verif.Spec.Records

/-!
# Specification vocabulary

Small notions used in theorem statements.  They talk about a histogram through its public queries
(`count_at`, `equivalent`, …) and three numbers of its configuration; none of the helper functions the
implementation uses to compute array indexes appears here.
-/

namespace Hdr

variable {T : CounterTy}

/-- One past the largest value the histogram's storage distinguishes: the unit is `2^unitMag`, the first
bucket holds `2^(subBucketHalfCountMag + 1)` units, and every further bucket doubles the range. -/
def Hist.coverEnd (h : Hist T) : Nat := 2 ^ (h.unitMag + h.subBucketHalfCountMag + h.bucketCount)

/-- `v` can be stored without resizing. -/
def Hist.Covers (h : Hist T) (v : Nat) : Prop := v < h.coverEnd

instance (h : Hist T) (v : Nat) : Decidable (h.Covers v) := by unfold Hist.Covers; infer_instance

/-- "`h` holds `n` samples in the class of `v`": `count_at(v)` answers `n`, or `v` lies outside the
covered range (where `count_at` would answer for the last class instead) and `n = 0`. -/
def HasCount (h : Hist T) (v n : Nat) : Prop :=
  (h.Covers v ∧ h.countAt v = .ok n) ∨ (¬ h.Covers v ∧ n = 0)

/-- the answer of `equivalent`, as a proposition -/
def Equiv (h : Hist T) (v w : Nat) : Prop := h.equivalent v w = .ok true

instance : DecidableEq (M Bool) := fun a b =>
  match a, b with
  | .ok x, .ok y => if h : x = y then .isTrue (by rw [h]) else .isFalse (by intro e; cases e; exact h rfl)
  | .error x, .error y => if h : x = y then .isTrue (by rw [h]) else .isFalse (by intro e; cases e; exact h rfl)
  | .ok _, .error _ => .isFalse (by intro e; cases e)
  | .error _, .ok _ => .isFalse (by intro e; cases e)

instance (h : Hist T) (v w : Nat) : Decidable (Equiv h v w) := by unfold Equiv; infer_instance

/-- the total recorded by `l` for values equivalent to `w` -/
def recordedFor (h : Hist T) (l : List (Nat × Nat)) (w : Nat) : Nat :=
  ((l.filter fun p => decide (Equiv h p.1 w)).map Prod.snd).sum

/-- Histograms that can be produced with the public API, starting from any constructor (or from
deserializing any bytes) and applying any operations with any arguments of the right integer type. The
results of failed operations are included. -/
inductive Reachable (fp : Fp) : (T : CounterTy) → Hist T → Prop where
  | newWithBounds {T : CounterTy} {low high sigfig h} : high ≤ U64MAX →
      Hist.newWithBounds fp T low high sigfig = .ok (.ok h) → Reachable fp T h
  | newWithMax {T : CounterTy} {high sigfig h} : high ≤ U64MAX →
      Hist.newWithMax fp T high sigfig = .ok (.ok h) → Reachable fp T h
  | new {T : CounterTy} {sigfig h} : Hist.new fp T sigfig = .ok (.ok h) → Reachable fp T h
  | newFrom {F T : CounterTy} {s : Hist F} {h} : Reachable fp F s → Hist.newFrom fp T s = .ok h → Reachable fp T h
  | deserialize {T : CounterTy} {h} (z : V2.Zlib) (checks : Bool) (bytes rest : List UInt8) :
      V2.deserialize fp z T checks bytes = .ok (.ok (h, rest)) → Reachable fp T h
  | recordN {T : CounterTy} {h h' : Hist T} {v c r} : Reachable fp T h → v ≤ U64MAX → c ≤ T.max →
      h.recordN v c = .ok (h', r) → Reachable fp T h'
  | saturatingRecordN {T : CounterTy} {h h' : Hist T} {v c} : Reachable fp T h → v ≤ U64MAX → c ≤ T.max →
      h.saturatingRecordN v c = .ok h' → Reachable fp T h'
  | recordNCorrect {T : CounterTy} {h h' : Hist T} {v c i r} : Reachable fp T h → v ≤ U64MAX → c ≤ T.max →
      h.recordNCorrect v c i = .ok (h', r) → Reachable fp T h'
  | add {T : CounterTy} {h s h' : Hist T} {r} : Reachable fp T h → Reachable fp T s →
      h.add s = .ok (h', r) → Reachable fp T h'
  | subtract {T : CounterTy} {h s h' : Hist T} {r} : Reachable fp T h → Reachable fp T s →
      h.subtract s = .ok (h', r) → Reachable fp T h'
  | setTo {T : CounterTy} {h s h' : Hist T} {r} : Reachable fp T h → Reachable fp T s →
      h.setTo s = .ok (h', r) → Reachable fp T h'
  | addCorrect {T : CounterTy} {h s h' : Hist T} {i r} : Reachable fp T h → Reachable fp T s →
      h.addCorrect s i = .ok (h', r) → Reachable fp T h'
  | setToCorrected {T : CounterTy} {h s h' : Hist T} {i r} : Reachable fp T h → Reachable fp T s →
      h.setToCorrected s i = .ok (h', r) → Reachable fp T h'
  | cloneCorrect {T : CounterTy} {h h' : Hist T} {i} : Reachable fp T h →
      Hist.cloneCorrect fp h i = .ok h' → Reachable fp T h'
  | reset {T : CounterTy} {h : Hist T} : Reachable fp T h → Reachable fp T h.reset
  | clear {T : CounterTy} {h : Hist T} : Reachable fp T h → Reachable fp T h.clear
  | auto {T : CounterTy} {h : Hist T} (b : Bool) : Reachable fp T h → Reachable fp T (h.auto b)

end Hdr
