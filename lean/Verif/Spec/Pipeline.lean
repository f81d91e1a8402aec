import Verif.Spec.SyncExt
import Verif.Spec.SyncTotal
import Verif.Spec.LogTotal

/-!
# Specification vocabulary: from recorders to an interval log
-/

namespace Hdr

namespace Sync

/-- what a step takes out of the merged histogram `m` -/
def XLabel.takes {H W : Type} (m : H) : XLabel W → List H
  | .reset => [m]
  | _ => []

/-- the merged histogram as it was at each `reset` of an execution, just before it: what a program has that logs the
histogram of an interval and then begins the next one -/
def atResets {H W : Type} (o : OwnerOps H W) : List (XLabel W) → XSys H → List H
  | [], _ => []
  | l :: ls, x =>
    l.takes x.sys.merged ++
    (match xstep o x l with
      | some (.ok x') => atResets o ls x'
      | _ => [])

end Sync

namespace Log

/-- the histograms written by a sequence of calls, in order -/
def histsOf : List Op → List (Σ T : CounterTy, Hist T)
  | [] => []
  | .comment _ :: ops => histsOf ops
  | .hist h _ _ _ :: ops => ⟨_, h⟩ :: histsOf ops

end Log

end Hdr
