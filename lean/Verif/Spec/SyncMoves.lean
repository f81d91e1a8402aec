import Verif.Spec.Sync

/-!
# Specification vocabulary: how samples move between the histograms of a concurrent program
-/

namespace Hdr.Sync

variable {T : CounterTy}

/-- how many samples equivalent to `v` a histogram holds -/
def samplesAt (g : Hist T) (v : Nat) : Nat := if g.Covers v then (g.countAt v).toOption.getD 0 else 0

/-- how many samples equivalent to `v` there are in all places: in the merged histogram, in the channel, and in the local
histograms of the live recorders -/
def heldAt (v : Nat) (s : Sys (Hist T)) : Nat :=
  samplesAt s.merged v + (s.chan.map fun g => samplesAt g v).sum +
    ((s.recs.filter fun r => r.pc.live).map fun r => samplesAt r.loc v).sum

/-- what recorder `i` holds locally -/
def localAt (v i : Nat) (s : Sys (Hist T)) : Nat := (s.recs[i]?.map fun r => samplesAt r.loc v).getD 0

/-- arguments of the right types -/
def Write.Typed (fp : Fp) : Write T → Prop
  | .recordN v c | .saturatingRecordN v c | .recordNCorrect v c _ => v ≤ U64MAX ∧ c ≤ T.max
  | .add g | .addCorrect g _ | .subtract g => Reachable fp T g

/-- the change a step makes to the local histogram of the recorder that writes; 0 for all other steps -/
def change (v : Nat) (s s' : Sys (Hist T)) : Label (Write T) → Int
  | .write i _ => localAt v i s' - localAt v i s
  | _ => 0

/-- the changes of all writes of an execution, added up -/
def netChange (fp : Fp) (v : Nat) : List (Label (Write T)) → Sys (Hist T) → Int
  | [], _ => 0
  | l :: ls, s =>
    match step (HistOps.concrete fp T) s l with
    | some (.ok s') => change v s s' l + netChange fp v ls s'
    | _ => 0

/-- at no time are there more samples equivalent to `v` than a counter can hold -/
def Roomy (fp : Fp) (v : Nat) (ls : List (Label (Write T))) (s : Sys (Hist T)) : Prop :=
  Always (HistOps.concrete fp T) (fun s _ => heldAt v s ≤ T.max) ls s

end Hdr.Sync
