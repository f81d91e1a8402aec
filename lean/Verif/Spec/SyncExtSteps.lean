import Verif.Spec.SyncExt
import Verif.Spec.SyncUnsent

/-!
# Specification vocabulary: the steps of recorders and refreshes in an execution with outdated loads
-/

namespace Hdr.Sync

variable {W : Type}

/-- the step of a recorder or of a refresh, whatever it loads; `none` for what the owner does -/
def XLabel.plain : XLabel W → Option (Label W)
  | .now l | .late l _ => some l
  | .own _ | .reset | .close => none

/-- the steps of recorders and refreshes of an execution, in order -/
def plainSteps (ls : List (XLabel W)) : List (Label W) := ls.filterMap XLabel.plain

end Hdr.Sync
