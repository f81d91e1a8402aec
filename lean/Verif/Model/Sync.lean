import Verif.Model.Iter

/-!
# Model of `src/sync/mod.rs`: concurrent recording

Any number of recorders and one reader, as a transition system.  Every access to shared state (the mutex-protected
recorder count, the atomic phase, the channel) is a separate step; the steps of different threads interleave
arbitrarily.  A thread-local computation is merged with the shared access next to it.  `step` is a function of the
state and a label saying which thread moves: it answers `none` if that move is not possible in the state (for example
because the lock is held or the channel is empty), and `some (.error p)` if the thread panics.

The histograms inside are kept abstract (`HistOps`): the code of this file uses them only through `new_from`, `add` and
the closure passed to `with_hist`.  `HistOps.concrete` is the instance with the histogram model.

Simplifications: the mutex is never poisoned (a panic ends the execution); the phase and the recorder count are unbounded
numbers; the channel is a FIFO queue.  Here memory is sequentially consistent, the `SyncHistogram` is never dropped, and
its histogram is not modified behind `refresh` (`DerefMut`, sync/mod.rs:411-415); `Model/SyncExt.lean` adds these.
-/

namespace Hdr.Sync

/-- the operations on histograms used by the recorders and the reader; each may panic -/
structure HistOps (H W : Type) where
  /-- `Histogram::new_from` -/
  fresh : H → M H
  /-- `add(&h).expect(..)` -/
  add : H → H → M H
  /-- the closure passed to `with_hist` -/
  write : W → H → M H

/-- Where a recorder's thread is.
* `ready`: between calls.
* `send p`: in `with_hist`, has loaded phase `p` and found it new, sync/mod.rs:170.
* `dropSend`: in `drop`, holds the lock, has decremented the count, sync/mod.rs:64.
* `idlePhase`: in `deactivate`, holds the lock, has decremented the count, sync/mod.rs:193.
* `idleSend p`: in `deactivate`, holds the lock, has loaded phase `p` and found it new, sync/mod.rs:197.
* `idle`: inside an `IdleRecorder`.
* `wakePhase`: in `reactivate`, holds the lock, has incremented the count, sync/mod.rs:124.
* `gone`: dropped. -/
inductive Pc where
  | ready | send (p : Nat) | dropSend | idlePhase | idleSend (p : Nat) | idle | wakePhase | gone
  deriving DecidableEq, Repr

/-- `Recorder`, sync/mod.rs:30-34, with the place its thread has reached -/
structure Rec (H : Type) where
  loc : H
  lastPhase : Nat
  pc : Pc

/-- Where the reader is in `refresh_inner`, sync/mod.rs:303-355; `timed` tells `refresh_timeout` from `refresh`.
* `out`: not refreshing.
* `drain`: in the first `while`, 309-313.
* `count`: about to lock and read the number of recorders, 316.
* `counted n`: has read `n`, about to bump the phase, 319.
* `wait n k`: in the second `while` with `recorders = n`, `phased = k`, 325-347.
* `final`: in the last `while`, 350-354. -/
inductive Reader where
  | out | drain (timed : Bool) | count (timed : Bool) | counted (timed : Bool) (n : Nat)
  | wait (timed : Bool) (n k : Nat) | final
  deriving DecidableEq, Repr

/-- everything: the `SyncHistogram` (sync/mod.rs:296-300), `Shared` (87-91) and all recorders ever made; `lock` is the
recorder holding the mutex between steps -/
structure Sys (H : Type) where
  merged : H
  chan : List H
  recorders : Nat
  phase : Nat
  lock : Option Nat
  recs : List (Rec H)
  reader : Reader

/-- `From<Histogram<C>> for SyncHistogram<C>`, sync/mod.rs:389-402 -/
def Sys.init {H : Type} (h : H) : Sys H :=
  { merged := h, chan := [], recorders := 0, phase := 0, lock := none, recs := [], reader := .out }

/-- who moves, and how; `i` numbers the recorders in order of creation -/
inductive Label (W : Type) where
  | write (i : Nat) (w : W) | writeSend (i : Nat)
  | recorder | clone (i : Nat)
  | drop (i : Nat) | dropSend (i : Nat)
  | idle (i : Nat) | idlePhase (i : Nat) | idleSend (i : Nat)
  | wake (i : Nat) | wakePhase (i : Nat)
  | forget (i : Nat)
  | start (timed : Bool) | drain | drainEnd | count | bump | recv | timeout | waitEnd | finalRecv | finalEnd
  deriving DecidableEq, Repr

variable {H W : Type}

/-- replace recorder `i` -/
def Sys.put (s : Sys H) (i : Nat) (r : Rec H) : Sys H := { s with recs := s.recs.set i r }

/-- what recorder `i` can do, provided its thread is at `pc` -/
def Sys.at (s : Sys H) (i : Nat) (pc : Pc) (k : Rec H → Option (M (Sys H))) : Option (M (Sys H)) :=
  match s.recs[i]? with
  | some r => if r.pc = pc then k r else none
  | none => none

/-- `with_hist` up to the comparison of phases, sync/mod.rs:168-170: run the closure on the local histogram, load the
phase -/
def write (o : HistOps H W) (s : Sys H) (i : Nat) (w : W) : Option (M (Sys H)) :=
  s.at i .ready fun r => some do
    let l ← o.write w r.loc
    pure (s.put i { r with loc := l, pc := if s.phase ≠ r.lastPhase then .send s.phase else .ready })

/-- the rest of `with_hist`: `update` and `last_phase = phase`, sync/mod.rs:171-172, 178-186 -/
def writeSend (o : HistOps H W) (s : Sys H) (i : Nat) : Option (M (Sys H)) :=
  match s.recs[i]? with
  | some r =>
    match r.pc with
    | .send p => some do
      let f ← o.fresh r.loc
      pure { s.put i { loc := f, lastPhase := p, pc := .ready } with chan := s.chan ++ [r.loc] }
    | _ => none
  | none => none

/-- `SyncHistogram::recorder`, sync/mod.rs:373-386. It borrows the `SyncHistogram`, so no refresh is running and the
phase does not change between the two shared accesses. -/
def recorder (o : HistOps H W) (s : Sys H) : Option (M (Sys H)) :=
  if s.lock = none ∧ s.reader = .out then some do
    let f ← o.fresh s.merged
    pure { s with recorders := s.recorders + 1
                  recs := s.recs ++ [{ loc := f, lastPhase := s.phase, pc := .ready }] }
  else none

/-- `Recorder::clone`, sync/mod.rs:44-57, and `IdleRecorder::recorder`, 149-151, which clones an idle recorder -/
def clone (o : HistOps H W) (s : Sys H) (i : Nat) : Option (M (Sys H)) :=
  match s.recs[i]? with
  | some r =>
    if s.lock = none ∧ (r.pc = .ready ∨ r.pc = .idle) then some do
      let f ← o.fresh r.loc
      pure { s with recorders := s.recorders + 1
                    recs := s.recs ++ [{ loc := f, lastPhase := r.lastPhase, pc := .ready }] }
    else none
  | none => none

/-- `Recorder::drop`, sync/mod.rs:61-78: take the lock and decrement, 63-64 -/
def drop (s : Sys H) (i : Nat) : Option (M (Sys H)) :=
  s.at i .ready fun r =>
    if s.lock = none then some do
      let n ← subU s.recorders 1
      pure { s.put i { r with pc := .dropSend } with recorders := n, lock := some i }
    else none

/-- `Recorder::drop`: send the local histogram and release the lock, sync/mod.rs:72-77 -/
def dropSend (o : HistOps H W) (s : Sys H) (i : Nat) : Option (M (Sys H)) :=
  s.at i .dropSend fun r => some do
    let f ← o.fresh r.loc
    pure { s.put i { r with loc := f, pc := .gone } with chan := s.chan ++ [r.loc], lock := none }

/-- `deactivate` (called by `idle` and `into_idle`, sync/mod.rs:211-230): take the lock and decrement, 192-193 -/
def idle (s : Sys H) (i : Nat) : Option (M (Sys H)) :=
  s.at i .ready fun r =>
    if s.lock = none then some do
      let n ← subU s.recorders 1
      pure { s.put i { r with pc := .idlePhase } with recorders := n, lock := some i }
    else none

/-- `deactivate`: load the phase; if it is not new, release the lock, sync/mod.rs:196-197, 203-204 -/
def idlePhase (s : Sys H) (i : Nat) : Option (M (Sys H)) :=
  s.at i .idlePhase fun r =>
    if s.phase ≠ r.lastPhase then some (pure (s.put i { r with pc := .idleSend s.phase }))
    else some (pure { s.put i { r with lastPhase := s.phase, pc := .idle } with lock := none })

/-- `deactivate`: send the local histogram and release the lock, sync/mod.rs:199-204 -/
def idleSend (o : HistOps H W) (s : Sys H) (i : Nat) : Option (M (Sys H)) :=
  match s.recs[i]? with
  | some r =>
    match r.pc with
    | .idleSend p => some do
      let f ← o.fresh r.loc
      pure { s.put i { loc := f, lastPhase := p, pc := .idle } with chan := s.chan ++ [r.loc], lock := none }
    | _ => none
  | none => none

/-- `reactivate` (called by `activate` and by dropping an `IdleRecorder`, sync/mod.rs:143-146, 154-161; dropping an
`IdleRecorder` that owns its recorder goes on to drop the recorder): take the lock and increment, 123-124 -/
def wake (s : Sys H) (i : Nat) : Option (M (Sys H)) :=
  s.at i .idle fun r =>
    if s.lock = none then
      some (pure { s.put i { r with pc := .wakePhase } with recorders := s.recorders + 1, lock := some i })
    else none

/-- `reactivate`: adopt the current phase and release the lock, sync/mod.rs:134-137 -/
def wakePhase (s : Sys H) (i : Nat) : Option (M (Sys H)) :=
  s.at i .wakePhase fun r =>
    some (pure { s.put i { r with lastPhase := s.phase, pc := .ready } with lock := none })

/-- the caller leaks the guard returned by `idle` (`std::mem::forget`, allowed in safe Rust): the recorder can be used
again although `reactivate` has not run -/
def forget (s : Sys H) (i : Nat) : Option (M (Sys H)) :=
  s.at i .idle fun r => some (pure (s.put i { r with pc := .ready }))

/-- take a histogram from the channel and add it to the merged one, e.g. sync/mod.rs:309-312; `none` if the channel is
empty -/
def receive (o : HistOps H W) (s : Sys H) (next : Reader) : Option (M (Sys H)) :=
  match s.chan with
  | h :: rest => some do
    let m ← o.add s.merged h
    pure { s with merged := m, chan := rest, reader := next }
  | [] => none

/-- the reader finds the channel empty -/
def noMore (s : Sys H) (next : Reader) : Option (M (Sys H)) :=
  match s.chan with
  | [] => some (pure { s with reader := next })
  | _ :: _ => none

/-- `refresh` / `refresh_timeout` is called, sync/mod.rs:359-367 -/
def start (s : Sys H) (timed : Bool) : Option (M (Sys H)) :=
  match s.reader with
  | .out => some (pure { s with reader := .drain timed })
  | _ => none

/-- one round of the first `while`, sync/mod.rs:309-313 -/
def drain (o : HistOps H W) (s : Sys H) : Option (M (Sys H)) :=
  match s.reader with
  | .drain t => receive o s (.drain t)
  | _ => none

/-- the first `while` ends, sync/mod.rs:309 -/
def drainEnd (s : Sys H) : Option (M (Sys H)) :=
  match s.reader with
  | .drain t => noMore s (.count t)
  | _ => none

/-- lock, read the number of recorders, unlock, sync/mod.rs:316 (the guard is a temporary) -/
def count (s : Sys H) : Option (M (Sys H)) :=
  match s.reader with
  | .count t => if s.lock = none then some (pure { s with reader := .counted t s.recorders }) else none
  | _ => none

/-- `phase.fetch_add(1)`, sync/mod.rs:319 -/
def bump (s : Sys H) : Option (M (Sys H)) :=
  match s.reader with
  | .counted t n => some (pure { s with phase := s.phase + 1, reader := .wait t n 0 })
  | _ => none

/-- one round of the second `while`, sync/mod.rs:325-347 -/
def recv (o : HistOps H W) (s : Sys H) : Option (M (Sys H)) :=
  match s.reader with
  | .wait t n k => if k < n then receive o s (.wait t n (k + 1)) else none
  | _ => none

/-- `refresh_timeout` gives up, sync/mod.rs:328-330, 334; how time passes is left open -/
def timeout (s : Sys H) : Option (M (Sys H)) :=
  match s.reader with
  | .wait true n k => if k < n then some (pure { s with reader := .final }) else none
  | _ => none

/-- the second `while` ends, sync/mod.rs:325 -/
def waitEnd (s : Sys H) : Option (M (Sys H)) :=
  match s.reader with
  | .wait _ n k => if k < n then none else some (pure { s with reader := .final })
  | _ => none

/-- one round of the last `while`, sync/mod.rs:350-354 -/
def finalRecv (o : HistOps H W) (s : Sys H) : Option (M (Sys H)) :=
  match s.reader with
  | .final => receive o s .final
  | _ => none

/-- the last `while` ends and the call returns, sync/mod.rs:350-355 -/
def finalEnd (s : Sys H) : Option (M (Sys H)) :=
  match s.reader with
  | .final => noMore s .out
  | _ => none

/-- one step -/
def step (o : HistOps H W) (s : Sys H) : Label W → Option (M (Sys H))
  | .write i w => write o s i w
  | .writeSend i => writeSend o s i
  | .recorder => recorder o s
  | .clone i => clone o s i
  | .drop i => drop s i
  | .dropSend i => dropSend o s i
  | .idle i => idle s i
  | .idlePhase i => idlePhase s i
  | .idleSend i => idleSend o s i
  | .wake i => wake s i
  | .wakePhase i => wakePhase s i
  | .forget i => forget s i
  | .start t => start s t
  | .drain => drain o s
  | .drainEnd => drainEnd s
  | .count => count s
  | .bump => bump s
  | .recv => recv o s
  | .timeout => timeout s
  | .waitEnd => waitEnd s
  | .finalRecv => finalRecv o s
  | .finalEnd => finalEnd s

/-- an execution: the given steps, one after the other -/
def exec (o : HistOps H W) : List (Label W) → Sys H → Option (M (Sys H))
  | [], s => some (pure s)
  | l :: ls, s =>
    match step o s l with
    | none => none
    | some (.error p) => some (.error p)
    | some (.ok s') => exec o ls s'

/-! ## The histograms of the real code -/

/-- the methods of `Recorder` that go through `with_hist`, sync/mod.rs:233-287 (`record`, `record_correct`,
`saturating_record` and `+=` are the `_n` versions with count 1) -/
inductive Write (T : CounterTy) where
  | add (h : Hist T) | addCorrect (h : Hist T) (interval : Nat) | subtract (h : Hist T)
  | recordN (v c : Nat) | saturatingRecordN (v c : Nat) | recordNCorrect (v c interval : Nat)

/-- the closure passed to `with_hist`; the result returned to the caller is dropped -/
def Write.run {T : CounterTy} : Write T → Hist T → M (Hist T)
  | .add g, h => do let r ← h.add g; pure r.1
  | .addCorrect g i, h => do let r ← h.addCorrect g i; pure r.1
  | .subtract g, h => do let r ← h.subtract g; pure r.1
  | .recordN v c, h => do let r ← h.recordN v c; pure r.1
  | .saturatingRecordN v c, h => h.saturatingRecordN v c
  | .recordNCorrect v c i, h => do let r ← h.recordNCorrect v c i; pure r.1

/-- `add(&h).expect("TODO: failed to merge histogram")`, e.g. sync/mod.rs:310-312 -/
def addExpect {T : CounterTy} (m h : Hist T) : M (Hist T) := do
  match ← m.add h with
  | (m, .ok ()) => pure m
  | (_, .error _) => .error .expect

/-- the real code -/
def HistOps.concrete (fp : Fp) (T : CounterTy) : HistOps (Hist T) (Write T) where
  fresh := Hist.newFrom fp T
  add := addExpect
  write := Write.run

end Hdr.Sync
