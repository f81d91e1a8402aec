import Verif.Model.SyncPanic
import Verif.Spec.SyncMoves

/-!
# Specification vocabulary: caught panics in concurrent recording
-/

namespace Hdr.Sync

variable {H W : Type} {T : CounterTy}

/-- what can no longer arrive: the writes in histograms dropped by failed merges, and in recorders that are gone without
having sent their histogram -/
def PSys.lostWrites (x : PSys (H × List W)) : List W :=
  x.lost.flatMap Prod.snd ++ x.sys.localWrites fun pc => !pc.live

/-- drop the lists of writes -/
def PSys.erase (x : PSys (H × List W)) : PSys H :=
  { sys := x.sys.erase, lost := x.lost.map Prod.fst, poisoned := x.poisoned }

/-- all writes of an execution have arguments of the right types -/
def TypedLabels (fp : Fp) (ls : List (Label (Write T))) : Prop := ∀ i w, Label.write i w ∈ ls → w.Typed fp

/-- the reader is about to take a histogram from the channel: this is the step it does that with -/
def Reader.takes : Reader → Label W → Prop
  | .drain _, .drain => True
  | .wait _ n k, .recv => k < n
  | .final, .finalRecv => True
  | _, _ => False

end Hdr.Sync
