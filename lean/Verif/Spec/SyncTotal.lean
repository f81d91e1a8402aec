import Verif.Spec.Sync
import Verif.Spec.Samples

/-!
# What all threads recorded together
-/

namespace Hdr.Sync

variable {T : CounterTy}

/-- a recording of at least one sample, by `record_n`, `record_n_correct` or `saturating_record_n` -/
def Write.Recording : Write T → Prop
  | .recordN _ c | .recordNCorrect _ c _ | .saturatingRecordN _ c => c ≠ 0
  | .add _ | .addCorrect _ _ | .subtract _ => False

/-- no counter of a histogram with the classes of `h`, and not the number of all samples, overflows with the samples `l` -/
def Fits (h : Hist T) (l : List (Nat × Nat)) : Prop :=
  (∀ w, w ≤ U64MAX → (number l fun v => Equiv h v w) ≤ T.max) ∧ numberAll l ≤ U64MAX

end Hdr.Sync
