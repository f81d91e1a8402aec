import Verif.Model.Sync
import Verif.Spec.Classes

/-!
# Specification vocabulary: concurrent recording

To say where a recorded sample is, every histogram is paired with the list of writes it contains.  The pairing does not
influence the run (`C47_ghost`).
-/

namespace Hdr.Sync

variable {H W : Type}

/-- histograms that remember the writes they contain: a new one contains none, `add` joins the two lists, a write is
appended -/
def HistOps.traced (o : HistOps H W) : HistOps (H × List W) W where
  fresh p := do let f ← o.fresh p.1; pure (f, [])
  add m h := do let x ← o.add m.1 h.1; pure (x, m.2 ++ h.2)
  write w p := do let x ← o.write w p.1; pure (x, p.2 ++ [w])

/-- the writes made by the recorders in an execution, in order -/
def writesOf : List (Label W) → List W
  | [] => []
  | .write _ w :: ls => w :: writesOf ls
  | _ :: ls => writesOf ls

/-- what the recorders at the places allowed by `p` hold locally -/
def Sys.localWrites (p : Pc → Bool) (s : Sys (H × List W)) : List W :=
  (s.recs.filter fun r => p r.pc).flatMap (·.loc.2)

/-- what is in the channel -/
def Sys.chanWrites (s : Sys (H × List W)) : List W := s.chan.flatMap Prod.snd

/-- the recorder exists: it has not been dropped -/
def Pc.live : Pc → Bool
  | .gone => false
  | _ => true

/-- the recorder exists and is not idle (nor, inside `drop` or `idle`, past the point of leaving) -/
def Pc.active : Pc → Bool
  | .ready | .send _ => true
  | _ => false

/-- no call of this recorder is in progress -/
def Pc.atRest : Pc → Bool
  | .ready | .idle | .gone => true
  | _ => false

/-- the reader's own steps during a refresh -/
def Label.reader : Label W → Bool
  | .drain | .drainEnd | .count | .bump | .recv | .waitEnd | .finalRecv | .finalEnd => true
  | _ => false

/-- the refresh in progress can go on to its end by the reader's own steps alone, without any recorder doing anything: it
returns, or panics -/
def Finishes (o : HistOps H W) (s : Sys H) : Prop :=
  ∃ ls : List (Label W), (∀ l ∈ ls, l.reader = true) ∧
    ((∃ s', exec o ls s = some (.ok s') ∧ s'.reader = .out) ∨ ∃ p, exec o ls s = some (.error p))

/-- a condition on every step of an execution -/
def Always (o : HistOps H W) (P : Sys H → Label W → Prop) : List (Label W) → Sys H → Prop
  | [], _ => True
  | l :: ls, s => P s l ∧ ∀ s', step o s l = some (.ok s') → Always o P ls s'

/-- no guard is leaked with `std::mem::forget` -/
def NotForget (_ : Sys H) : Label W → Prop
  | .forget _ => False
  | _ => True

/-- no recorder starts to go idle between the reader's reading of the recorder count and its phase change -/
def NoIdleInGap (s : Sys H) : Label W → Prop
  | .idle _ => ∀ t n, s.reader ≠ .counted t n
  | _ => True

/-- during refreshes the recorders only write: recorders are made, cloned, dropped, idled and reactivated between
refreshes; no refresh times out; no idle recorder is cloned; no guard is leaked -/
def Undisturbed (s : Sys H) : Label W → Prop
  | .start _ => s.lock = none
  | .clone i => s.reader = .out ∧ ∀ r, s.recs[i]? = some r → r.pc ≠ .idle
  | .drop _ | .idle _ | .wake _ => s.reader = .out
  | .forget _ | .timeout => False
  | _ => True

/-- drop the lists of writes -/
def Sys.erase (s : Sys (H × List W)) : Sys H :=
  { merged := s.merged.1, chan := s.chan.map Prod.fst, recorders := s.recorders, phase := s.phase, lock := s.lock
    recs := s.recs.map fun r => { loc := r.loc.1, lastPhase := r.lastPhase, pc := r.pc }, reader := s.reader }

/-! ## What the writes record -/

variable {T : CounterTy}

/-- `max()` -/
def greatest (g : Hist T) : Nat := g.max.toOption.getD 0

/-- the samples a recording adds to a histogram configured like `h`: none if the value is refused; `high()` in place of
the value for `saturating_record_n`; the value and its corrections for `record_n_correct`; for `add` the contents of the
source, unless its `max()` is refused; for `add_correct` the largest value of each class with samples, and the corrections,
up to the first that is refused; nothing for `subtract`, which is not a recording -/
def Write.samples (h : Hist T) : Write T → List (Nat × Nat)
  | .recordN v c => if h.autoResize = true ∨ h.Covers v then [(v, c)] else []
  | .saturatingRecordN v c => [(if h.Covers v then v else h.highestTrackable, c)]
  | .recordNCorrect v c i =>
    if h.autoResize = true ∨ h.Covers v then (v :: hiddenSeries v i).map fun x => (x, c) else []
  | .add g => if h.autoResize = true ∨ h.Covers (greatest g) then Cls.records g.contents else []
  | .addCorrect g i => (Cls.nonempty g.contents).flatMap fun p =>
    if h.autoResize = true ∨ h.Covers p.1 then (p.1 :: hiddenSeries p.1 i).map fun x => (x, p.2) else []
  | .subtract _ => []

/-- recordings with arguments of the right types; in a histogram that does not resize, not of values equivalent to
`u64::MAX` (those make the merge panic); in one that does, `saturating_record_n` only of values `h` covers (what it
records otherwise depends on how far the recorder's own histogram has grown); no `subtract` -/
def Write.Plain (fp : Fp) (h : Hist T) : Write T → Prop
  | .recordN v c | .recordNCorrect v c _ => v ≤ U64MAX ∧ c ≤ T.max ∧ (h.autoResize = true ∨ ¬ Equiv h v U64MAX)
  | .saturatingRecordN v c => v ≤ U64MAX ∧ c ≤ T.max ∧
    if h.autoResize = true then h.Covers v else ¬ Equiv h v U64MAX
  | .add g | .addCorrect g _ => Reachable fp T g ∧ (h.autoResize = true ∨ ¬ Equiv h (greatest g) U64MAX)
  | .subtract _ => False

/-- as `Plain`, but any values may be recorded -/
def Write.Counted (fp : Fp) (h : Hist T) : Write T → Prop
  | .recordN v c | .recordNCorrect v c _ => v ≤ U64MAX ∧ c ≤ T.max
  | .saturatingRecordN v c => v ≤ U64MAX ∧ c ≤ T.max ∧ (h.autoResize = true → h.Covers v)
  | .add g | .addCorrect g _ => Reachable fp T g ∧ (h.autoResize = true ∨ ¬ Equiv h (greatest g) U64MAX)
  | .subtract _ => False

/-- any writes with arguments of the right types; in a histogram that does not resize, not of values equivalent to
`u64::MAX` -/
def Write.Safe (fp : Fp) (h : Hist T) : Write T → Prop
  | .recordN v c | .recordNCorrect v c _ | .saturatingRecordN v c =>
    v ≤ U64MAX ∧ c ≤ T.max ∧ (h.autoResize = true ∨ ¬ Equiv h v U64MAX)
  | .add g | .addCorrect g _ => Reachable fp T g ∧ (h.autoResize = true ∨ ¬ Equiv h (greatest g) U64MAX)
  | .subtract g => Reachable fp T g

end Hdr.Sync
