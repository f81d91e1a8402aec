import Verif.Spec.Sync

/-!
# What a recorder has written since it last sent its histogram
-/

namespace Hdr.Sync

variable {W : Type}

/-- one step of `unsent` -/
def unsentStep (i : Nat) (acc : List W) : Label W → List W
  | .write j w => if j = i then acc ++ [w] else acc
  | .writeSend j | .dropSend j | .idleSend j => if j = i then [] else acc
  | _ => acc

/-- the writes of recorder `i` in an execution that come after the last time it sent its histogram -/
def unsent (i : Nat) (ls : List (Label W)) : List W := ls.foldl (unsentStep i) []

/-- how often a guard returned by `idle` was leaked -/
def leaks : List (Label W) → Nat
  | [] => 0
  | .forget _ :: ls => leaks ls + 1
  | _ :: ls => leaks ls

/-- how many histograms the recorders have sent -/
def sends : List (Label W) → Nat
  | [] => 0
  | .writeSend _ :: ls | .dropSend _ :: ls | .idleSend _ :: ls => sends ls + 1
  | _ :: ls => sends ls

end Hdr.Sync
