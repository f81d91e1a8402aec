import Verif.Model.Sync

/-!
# Model of `src/sync/mod.rs`, continued

`Model/Sync.lean` simplifies three things; here they are added.

* **Memory order.** The phase is the only shared variable accessed without the lock or the channel.  It is loaded with
  `Acquire` and incremented with `AcqRel` (sync/mod.rs:134, 169, 196, 319), so a load may return an outdated value.  A
  step `late l p` is the step `l` with its load returning `p`, any value the phase had since the one this recorder saw
  last (loads of one variable never go backwards).  All synchronisation that would rule out some of these values is
  ignored, so the real program has at most these executions.  `SyncHistogram::recorder` borrows the `SyncHistogram`,
  which orders it after the last refresh, so its load (sync/mod.rs:384) is current.  The lock and the channel
  synchronise; accesses to what they protect are never outdated.
* **The owner.** Between refreshes the owner of the `SyncHistogram` may change the merged histogram (`DerefMut`,
  sync/mod.rs:411-415): record into it, or reset it.
* **Dropping the `SyncHistogram`.** The receiving end of the channel goes away; what is in the channel is lost, and so is
  what is sent later (`send` fails, the result is ignored, sync/mod.rs:74, 185, 201).
-/

namespace Hdr.Sync

/-- the operations on histograms, with the one that only the owner uses -/
structure OwnerOps (H W : Type) extends HistOps H W where
  /-- `Histogram::reset` -/
  reset : H → M H

/-- who moves, and how.
* `now l`: the step `l`, seeing the current phase if it loads the phase.
* `late l p`: the step `l`, its load of the phase returning the outdated value `p`.
* `own w`: the owner writes to the merged histogram.
* `reset`: the owner resets the merged histogram.
* `close`: the owner drops the `SyncHistogram`. -/
inductive XLabel (W : Type) where
  | now (l : Label W) | late (l : Label W) (p : Nat) | own (w : W) | reset | close
  deriving DecidableEq, Repr

/-- everything, and whether the `SyncHistogram` has been dropped -/
structure XSys (H : Type) where
  sys : Sys H
  closed : Bool

def XSys.init {H : Type} (h : H) : XSys H := { sys := Sys.init h, closed := false }

variable {H W : Type}

/-- the recorder that loads the phase in this step: `with_hist` (sync/mod.rs:169), `deactivate` (196), `reactivate`
(134) -/
def Label.loads : Label W → Option Nat
  | .write i _ | .idlePhase i | .wakePhase i => some i
  | _ => none

/-- the steps that need the `SyncHistogram` -/
def Label.needsOwner : Label W → Bool
  | .recorder | .start _ | .drain | .drainEnd | .count | .bump | .recv | .timeout | .waitEnd | .finalRecv | .finalEnd => true
  | _ => false

/-- change the state a step leads to -/
def after {A B : Type} (x : Option (M A)) (f : A → B) : Option (M B) := x.map fun m => do let t ← m; pure (f t)

/-- the step `l` with its load of the phase returning the outdated value `p` -/
def lateStep (o : HistOps H W) (s : Sys H) (l : Label W) (p : Nat) : Option (M (Sys H)) :=
  match l.loads with
  | some i =>
    match s.recs[i]? with
    | some r =>
      if r.lastPhase ≤ p ∧ p < s.phase then
        after (step o { s with phase := p } l) fun t => { t with phase := s.phase }
      else none
    | none => none
  | none => none

/-- without a receiver whatever is sent is lost -/
def XSys.deliver (x : XSys H) (t : Sys H) : XSys H :=
  { x with sys := if x.closed then { t with chan := [] } else t }

/-- the owner changes the merged histogram; a refresh holds the `SyncHistogram`, so none is running -/
def XSys.owner (x : XSys H) (f : H → M H) : Option (M (XSys H)) :=
  if x.closed = false ∧ x.sys.reader = .out then some do
    let m ← f x.sys.merged
    pure { x with sys := { x.sys with merged := m } }
  else none

/-- one step -/
def xstep (o : OwnerOps H W) (x : XSys H) : XLabel W → Option (M (XSys H))
  | .now l => if x.closed = true ∧ l.needsOwner = true then none else after (step o.toHistOps x.sys l) x.deliver
  | .late l p => after (lateStep o.toHistOps x.sys l p) x.deliver
  | .own w => x.owner (o.write w)
  | .reset => x.owner o.reset
  | .close =>
    if x.closed = false ∧ x.sys.reader = .out then some (pure { sys := { x.sys with chan := [] }, closed := true })
    else none

/-- an execution: the given steps, one after the other -/
def xexec (o : OwnerOps H W) : List (XLabel W) → XSys H → Option (M (XSys H))
  | [], x => some (pure x)
  | l :: ls, x =>
    match xstep o x l with
    | none => none
    | some (.error p) => some (.error p)
    | some (.ok x') => xexec o ls x'

/-- the real code; `Histogram::reset` is lib.rs:669-678 -/
def OwnerOps.concrete (fp : Fp) (T : CounterTy) : OwnerOps (Hist T) (Write T) :=
  { HistOps.concrete fp T with reset := fun h => pure h.reset }

end Hdr.Sync
