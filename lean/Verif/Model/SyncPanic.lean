import Verif.Model.Sync

/-!
# `src/sync/mod.rs`: panics that are caught

`Model/Sync.lean` ends an execution at the first panic. Here the panic unwinds the call it happens in, is caught by the
caller (`catch_unwind`, or the end of the thread), and the other threads, and later the same thread, go on.

* A failed merge (`add(&h).expect(..)`, sync/mod.rs:310-312, 343-345, 351-353) happens after the histogram was taken from
  the channel; unwinding drops that histogram. `add` has not changed the merged histogram when it fails (C18), and the
  reader holds no lock.
* `recorders -= 1` (64, 193) can overflow while the lock is held. Unwinding drops the lock's guard, which poisons the
  mutex: from then on every `lock().unwrap()` (47, 63, 123, 192, 316, 376) panics.

Simplifications, besides those of `Model/Sync.lean`: a panic while another panic unwinds aborts the process, and is not
followed further (`into_idle` and `activate`, which own the recorder and so drop it when they panic; here the steps `idle`
and `wake` that panic are those of `idle` and of the guard it returns). Panics in the closure passed to `with_hist` and in
`new_from` are not followed: they do not happen with the histograms of the real code (`C93_panics`).
-/

namespace Hdr.Sync

variable {H W : Type}

/-- everything, with the histograms that failed merges have dropped, and the state of the mutex -/
structure PSys (H : Type) where
  sys : Sys H
  lost : List H
  poisoned : Bool

/-- a new `SyncHistogram` -/
def PSys.init (h : H) : PSys H := { sys := Sys.init h, lost := [], poisoned := false }

/-- the steps that begin with `truth.lock().unwrap()`, sync/mod.rs:47, 63, 123, 192, 316, 376 -/
def Label.locks : Label W → Bool
  | .recorder | .clone _ | .drop _ | .idle _ | .wake _ | .count => true
  | _ => false

/-- recorder `i`, provided its thread is at `pc` -/
def Sys.recAt (s : Sys H) (i : Nat) (pc : Pc) : Option (Rec H) :=
  match s.recs[i]? with
  | some r => if r.pc = pc then some r else none
  | none => none

/-- `lock().unwrap()` finds the mutex poisoned, and the caller catches the panic.
* `recorder` (376), `clone` (47), `idle` (192): nothing has changed.
* `drop` (63): the recorder is gone, and its histogram with it.
* the guard returned by `idle` is dropped (123): the borrow of the recorder ends.
* the refresh (316): it has ended. -/
def onPoisoned (x : PSys H) : Label W → Option (PSys H)
  | .recorder => if x.sys.reader = .out then some x else none
  | .clone i =>
    match x.sys.recs[i]? with
    | some r => if r.pc = .ready ∨ r.pc = .idle then some x else none
    | none => none
  | .drop i => (x.sys.recAt i .ready).map fun r => { x with sys := x.sys.put i { r with pc := .gone } }
  | .idle i => (x.sys.recAt i .ready).map fun _ => x
  | .wake i => (x.sys.recAt i .idle).map fun r => { x with sys := x.sys.put i { r with pc := .ready } }
  | .count =>
    match x.sys.reader with
    | .count _ => some { x with sys := { x.sys with reader := .out } }
    | _ => none
  | _ => none

/-- `add(&h).expect(..)` fails: `h` has been taken from the channel, and the refresh has ended, sync/mod.rs:309-312,
332-345, 350-353 -/
def failedMerge (x : PSys H) : Option (PSys H) :=
  match x.sys.chan with
  | h :: rest => some { x with sys := { x.sys with chan := rest, reader := .out }, lost := x.lost ++ [h] }
  | [] => none

/-- what is left when the panic of a step has been caught -/
def onPanic (x : PSys H) : Label W → Option (PSys H)
  | .drain | .recv | .finalRecv => failedMerge x
  | .drop i => (x.sys.recs[i]?).map fun r => { x with sys := x.sys.put i { r with pc := .gone }, poisoned := true }
  | .idle i => (x.sys.recs[i]?).map fun _ => { x with poisoned := true }
  | _ => none

/-- one step; a panic is caught -/
def pstep (o : HistOps H W) (x : PSys H) (l : Label W) : Option (PSys H) :=
  if x.poisoned = true ∧ l.locks = true then
    if x.sys.lock = none then onPoisoned x l else none
  else
    match step o x.sys l with
    | none => none
    | some (.ok s) => some { x with sys := s }
    | some (.error _) => onPanic x l

/-- an execution in which every panic is caught -/
def pexec (o : HistOps H W) : List (Label W) → PSys H → Option (PSys H)
  | [], x => some x
  | l :: ls, x =>
    match pstep o x l with
    | none => none
    | some x' => pexec o ls x'

end Hdr.Sync
