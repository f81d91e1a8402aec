import Verif.Model.Sync
import Verif.Model.Release

/-!
# Concurrent recording in a release build

`src/sync/mod.rs` with overflow checks off: the count of the recorders wraps around (`usize` of 64 bits), and the
histograms are those of `Verif.Model.Release`. The other steps are those of `Verif.Model.Sync`.
-/

namespace Hdr.Release.Sync

open Hdr.Sync

variable {H W : Type}

/-- `SyncHistogram::recorder`, sync/mod.rs:373-386 -/
def recorder (o : HistOps H W) (s : Sys H) : Option (M (Sys H)) :=
  if s.lock = none ∧ s.reader = .out then some do
    let n ← addU64 s.recorders 1
    let f ← o.fresh s.merged
    pure { s with recorders := n
                  recs := s.recs ++ [{ loc := f, lastPhase := s.phase, pc := .ready }] }
  else none

/-- `Recorder::clone`, sync/mod.rs:44-57, and `IdleRecorder::recorder`, 149-151 -/
def clone (o : HistOps H W) (s : Sys H) (i : Nat) : Option (M (Sys H)) :=
  match s.recs[i]? with
  | some r =>
    if s.lock = none ∧ (r.pc = .ready ∨ r.pc = .idle) then some do
      let n ← addU64 s.recorders 1
      let f ← o.fresh r.loc
      pure { s with recorders := n
                    recs := s.recs ++ [{ loc := f, lastPhase := r.lastPhase, pc := .ready }] }
    else none
  | none => none

/-- `Recorder::drop`, sync/mod.rs:61-78: take the lock and decrement, 63-64 -/
def drop (s : Sys H) (i : Nat) : Option (M (Sys H)) :=
  s.at i .ready fun r =>
    if s.lock = none then some do
      let n ← subU64 s.recorders 1
      pure { s.put i { r with pc := .dropSend } with recorders := n, lock := some i }
    else none

/-- `deactivate`, sync/mod.rs:188-206: take the lock and decrement, 192-193 -/
def idle (s : Sys H) (i : Nat) : Option (M (Sys H)) :=
  s.at i .ready fun r =>
    if s.lock = none then some do
      let n ← subU64 s.recorders 1
      pure { s.put i { r with pc := .idlePhase } with recorders := n, lock := some i }
    else none

/-- `reactivate`, sync/mod.rs:111-138: take the lock and increment, 123-124 -/
def wake (s : Sys H) (i : Nat) : Option (M (Sys H)) :=
  s.at i .idle fun r =>
    if s.lock = none then some do
      let n ← addU64 s.recorders 1
      pure { s.put i { r with pc := .wakePhase } with recorders := n, lock := some i }
    else none

/-- one step; only the five above change the count -/
def step (o : HistOps H W) (s : Sys H) : Label W → Option (M (Sys H))
  | .recorder => recorder o s
  | .clone i => clone o s i
  | .drop i => drop s i
  | .idle i => idle s i
  | .wake i => wake s i
  | l => Hdr.Sync.step o s l

/-- an execution: the given steps, one after the other -/
def exec (o : HistOps H W) : List (Label W) → Sys H → Option (M (Sys H))
  | [], s => some (pure s)
  | l :: ls, s =>
    match step o s l with
    | none => none
    | some (.error p) => some (.error p)
    | some (.ok s') => exec o ls s'

/-- the closure passed to `with_hist`, sync/mod.rs:233-287 -/
def run {T : CounterTy} : Write T → Hist T → M (Hist T)
  | .add g, h => do let r ← Hist.add h g; pure r.1
  | .addCorrect g i, h => do let r ← Hist.addCorrect h g i; pure r.1
  | .subtract g, h => do let r ← Hist.subtract h g; pure r.1
  | .recordN v c, h => do let r ← Hist.recordN h v c; pure r.1
  | .saturatingRecordN v c, h => Hist.saturatingRecordN h v c
  | .recordNCorrect v c i, h => do let r ← Hist.recordNCorrect h v c i; pure r.1

/-- `add(&h).expect("TODO: failed to merge histogram")`, e.g. sync/mod.rs:310-312 -/
def addExpect {T : CounterTy} (m h : Hist T) : M (Hist T) := do
  match ← Hist.add m h with
  | (m, .ok ()) => pure m
  | (_, .error _) => .error .expect

/-- the real code -/
def concrete (fp : Fp) (T : CounterTy) : HistOps (Hist T) (Write T) where
  fresh := Hist.newFrom fp T
  add := addExpect
  write := run

end Hdr.Release.Sync
