import Verif.Model.Histogram

/-!
# Sequences of recording calls

A program that records: any sequence of calls of the six recording methods, each made whether or not the ones
before it failed.
-/

namespace Hdr

/-- one call of a recording method -/
inductive RecCall where
  | record (v : Nat)
  | recordN (v c : Nat)
  | saturatingRecord (v : Nat)
  | saturatingRecordN (v c : Nat)
  | recordCorrect (v interval : Nat)
  | recordNCorrect (v c interval : Nat)
  deriving DecidableEq

namespace RecCall
variable {T : CounterTy}

/-- the value passed to the call -/
def value : RecCall → Nat
  | .record v | .recordN v _ | .saturatingRecord v | .saturatingRecordN v _
  | .recordCorrect v _ | .recordNCorrect v _ _ => v

/-- the number of samples passed to the call -/
def count : RecCall → Nat
  | .recordN _ c | .saturatingRecordN _ c | .recordNCorrect _ c _ => c
  | .record _ | .saturatingRecord _ | .recordCorrect _ _ => 1

/-- is this a call of one of the two saturating methods? -/
def saturating : RecCall → Bool
  | .saturatingRecord _ | .saturatingRecordN _ _ => true
  | _ => false

/-- the arguments have the types the method asks for: `u64` and the counter type -/
def Valid (T : CounterTy) (k : RecCall) : Prop := k.value ≤ U64MAX ∧ k.count ≤ T.max

instance (T : CounterTy) (k : RecCall) : Decidable (k.Valid T) := by unfold Valid; infer_instance

/-- make the call; what it returns to its caller (a saturating method returns nothing, here `Ok(())`) -/
def run (h : Hist T) : RecCall → M (Hist T × Except RecordError Unit)
  | .record v => h.record v
  | .recordN v c => h.recordN v c
  | .saturatingRecord v => do let h ← h.saturatingRecord v; pure (h, .ok ())
  | .saturatingRecordN v c => do let h ← h.saturatingRecordN v c; pure (h, .ok ())
  | .recordCorrect v i => h.recordCorrect v i
  | .recordNCorrect v c i => h.recordNCorrect v c i

/-- make the calls one after the other, and note what each of them returned -/
def runAll : List RecCall → Hist T → M (Hist T × List (RecCall × Except RecordError Unit))
  | [], h => pure (h, [])
  | k :: ks, h => do
    let (h, r) ← k.run h
    let (h, rs) ← runAll ks h
    pure (h, (k, r) :: rs)

end RecCall
end Hdr
