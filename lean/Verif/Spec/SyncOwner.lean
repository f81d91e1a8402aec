import Verif.Model.SyncOwner
import Verif.Spec.SyncExt
import Verif.Spec.SyncMoves

/-!
# Specification vocabulary: an owner that does anything to the merged histogram
-/

namespace Hdr.Sync

variable {T : CounterTy}

/-- arguments of the right types; what the owner puts in place is a histogram a program can have -/
def OwnerWrite.Typed (fp : Fp) : OwnerWrite T → Prop
  | .write w => w.Typed fp
  | .put g => Reachable fp T g

/-- all arguments are of the right types, and no guard returned by `idle` is leaked -/
def OwnedRun (fp : Fp) (ls : List (XLabel (OwnerWrite T))) : Prop :=
  (∀ w ∈ xwrites ls, w.Typed fp) ∧ NoLeak ls

/-- the next step merges a histogram: `rx` is the next one in the channel, and the running refresh receives it, before its
first, in its second, or in its last loop -/
def Merging {H W : Type} (x : XSys H) (l : XLabel W) (rx : H) : Prop :=
  x.closed = false ∧ x.sys.chan.head? = some rx ∧
    ((l = .now .drain ∧ ∃ t, x.sys.reader = .drain t) ∨
      (l = .now .recv ∧ ∃ t n k, x.sys.reader = .wait t n k ∧ k < n) ∨
      (l = .now .finalRecv ∧ x.sys.reader = .final))

/-- only the owner puts another histogram in place of the merged one; recorders use the writes they offer -/
def OwnerPuts (ls : List (XLabel (OwnerWrite T))) : Prop :=
  (∀ i g, XLabel.now (.write i (.put g)) ∉ ls) ∧ ∀ i g p, XLabel.late (.write i (.put g)) p ∉ ls

end Hdr.Sync
