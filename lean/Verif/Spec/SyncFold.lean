import Verif.Spec.SyncExt

/-!
# Specification vocabulary: what a concurrent program does to the merged histogram, as a program without threads
-/

namespace Hdr.Sync

variable {H W : Type}

/-- what is done to the merged histogram: a histogram is merged into it, or the owner writes to it or resets it -/
inductive Did (H W : Type) where
  | merge (h : H) | own (w : W) | reset

/-- one such call -/
def Did.run (o : OwnerOps H W) (m : H) : Did H W → M H
  | .merge h => o.add m h
  | .own w => o.write w m
  | .reset => o.reset m

/-- all the histograms merged -/
def Did.merged : List (Did H W) → List H
  | [] => []
  | .merge h :: ds => h :: Did.merged ds
  | _ :: ds => Did.merged ds

/-- all calls of the owner -/
def Did.owners : List (Did H W) → List (XLabel W)
  | [] => []
  | .own w :: ds => .own w :: Did.owners ds
  | .reset :: ds => .reset :: Did.owners ds
  | .merge _ :: ds => Did.owners ds

/-- a step in which the owner changes the merged histogram -/
def XLabel.isOwner : XLabel W → Bool
  | .own _ | .reset => true
  | _ => false

/-- the recorder that sends its local histogram in this step -/
def XLabel.sends : XLabel W → Option Nat
  | .now (.writeSend i) | .now (.idleSend i) | .now (.dropSend i) => some i
  | _ => none

/-- what is sent in a step: the local histogram of the recorder that sends -/
def XSys.sentBy (x : XSys H) (l : XLabel W) : List H :=
  match l.sends with
  | some i => (x.sys.recs[i]?.map (·.loc)).toList
  | none => []

/-- all histograms sent in an execution, in order -/
def sentOver (o : OwnerOps H W) : List (XLabel W) → XSys H → List H
  | [], _ => []
  | l :: ls, x =>
    x.sentBy l ++ match xstep o x l with
      | some (.ok x') => sentOver o ls x'
      | _ => []

/-- the writes of recorder `i` since it last sent something; `ws` is what it had written before -/
def unsentAfter (i : Nat) (ws : List W) : XLabel W → List W
  | .now (.write j w) | .late (.write j w) _ => if j = i then ws ++ [w] else ws
  | l => if l.sends = some i then [] else ws

/-- the writes of recorder `i` since it last sent something -/
def sinceSent (i : Nat) (ls : List (XLabel W)) : List W := ls.foldl (unsentAfter i) []

end Hdr.Sync
