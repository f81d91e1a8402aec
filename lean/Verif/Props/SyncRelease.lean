import Verif.Proofs.SyncRelease
import Verif.Props.SyncExact
import Verif.Props.SyncWaits

/-!
# Concurrent recording in a release build (C91)
-/

namespace Hdr

open Hdr.Sync

variable {H W : Type} {o : HistOps H W}

namespace Release.Sync

/-! ## The recorder count -/

theorem sum_step {s s' : Sys H} {l : Label W} (hc : counts l = false) (st : Step o s l s') :
    s'.recorders = s.recorders ∧ sumR countOf s'.recs = sumR countOf s.recs + leakOf l := by
  cases st with
  | write i w r l hr hp hw =>
    have := sumR_set (f := countOf) (a := { r with loc := l, pc := if s.phase ≠ r.lastPhase then .send s.phase else .ready }) hr
    have h1 : countOf r = 1 := by simp [countOf, hp, Pc.counted]
    have h2 : countOf { r with loc := l, pc := if s.phase ≠ r.lastPhase then .send s.phase else .ready } = 1 := by
      unfold countOf; dsimp only; split <;> simp_all [Pc.counted]
    refine ⟨rfl, ?_⟩
    simp only [Sys.put, leakOf]
    omega
  | recorder | clone | drop | idle | wake => cases hc
  | writeSend i r p f hr hp hf =>
    have := sumR_set (f := countOf) (a := { loc := f, lastPhase := p, pc := .ready }) hr
    simp only [Sys.put, countOf, hp, Pc.counted, leakOf] at *; simp at *; omega
  | dropSend i r f hr hp hf =>
    have := sumR_set (f := countOf) (a := { r with loc := f, pc := .gone }) hr
    simp only [Sys.put, countOf, hp, Pc.counted, leakOf] at *; simp at *; omega
  | idlePhaseNew i r hr hp hne =>
    have := sumR_set (f := countOf) (a := { r with pc := .idleSend s.phase }) hr
    simp only [Sys.put, countOf, hp, Pc.counted, leakOf] at *; simp at *; omega
  | idlePhaseOld i r hr hp he =>
    have := sumR_set (f := countOf) (a := { r with lastPhase := s.phase, pc := .idle }) hr
    simp only [Sys.put, countOf, hp, Pc.counted, leakOf] at *; simp at *; omega
  | idleSend i r p f hr hp hf =>
    have := sumR_set (f := countOf) (a := { loc := f, lastPhase := p, pc := .idle }) hr
    simp only [Sys.put, countOf, hp, Pc.counted, leakOf] at *; simp at *; omega
  | wakePhase i r hr hp =>
    have := sumR_set (f := countOf) (a := { r with lastPhase := s.phase, pc := .ready }) hr
    simp only [Sys.put, countOf, hp, Pc.counted, leakOf] at *; simp at *; omega
  | forget i r hr hp =>
    have := sumR_set (f := countOf) (a := { r with pc := .ready }) hr
    simp only [Sys.put, countOf, hp, Pc.counted, leakOf] at *; simp at *; omega
  | start | drain | drainEnd | count | bump | recv | timeout | waitEnd | finalRecv | finalEnd => exact ⟨rfl, rfl⟩

/-- a step that changes the count changes it by as much as the number of recorders counted -/
theorem sum_counts {s t : Sys H} {l : Label W} (hc : counts l = true) (st : Step o s l t) :
    t.recorders + sumR countOf s.recs = s.recorders + sumR countOf t.recs ∧ leakOf l = 0 ∧ sendOf l = 0 ∧
      t.reader = s.reader ∧ t.chan = s.chan ∧ l ≠ .count ∧ l ≠ .timeout := by
  cases st with
  | recorder f hl hrd hf =>
    refine ⟨?_, rfl, rfl, rfl, rfl, by simp, by simp⟩
    simp only [sumR_append, countOf, Pc.counted]; simp; omega
  | clone i r f hr hl hp hf =>
    refine ⟨?_, rfl, rfl, rfl, rfl, by simp, by simp⟩
    simp only [sumR_append, countOf, Pc.counted]; simp; omega
  | drop i r hr hp hl h1 =>
    have := sumR_set (f := countOf) (a := { r with pc := .dropSend }) hr
    refine ⟨?_, rfl, rfl, rfl, rfl, by simp, by simp⟩
    simp only [Sys.put, countOf, hp, Pc.counted] at *; simp at *; omega
  | idle i r hr hp hl h1 =>
    have := sumR_set (f := countOf) (a := { r with pc := .idlePhase }) hr
    refine ⟨?_, rfl, rfl, rfl, rfl, by simp, by simp⟩
    simp only [Sys.put, countOf, hp, Pc.counted] at *; simp at *; omega
  | wake i r hr hp hl =>
    have := sumR_set (f := countOf) (a := { r with pc := .wakePhase }) hr
    refine ⟨?_, rfl, rfl, rfl, rfl, by simp, by simp⟩
    simp only [Sys.put, countOf, hp, Pc.counted] at *; simp at *; omega
  | write | writeSend | dropSend | idlePhaseNew | idlePhaseOld | idleSend | wakePhase | forget | start | drain |
    drainEnd | count | bump | recv | timeout | waitEnd | finalRecv | finalEnd => cases hc

/-- what holds of the count after `k` leaks -/
structure CountInv (k : Nat) (s : Sys H) : Prop where
  lt : s.recorders < 2 ^ 64
  mod : (s.recorders + k) % 2 ^ 64 = sumR countOf s.recs % 2 ^ 64
  lock : LockInv s

theorem countInv_step {s s' : Sys H} {l : Label W} {k : Nat} (I : CountInv k s) (e : step o s l = some (.ok s')) :
    CountInv (k + leakOf l) s' := by
  rcases step_ok_cases I.lt e with ⟨hc, st⟩ | ⟨hc, t, st, rfl⟩
  · obtain ⟨h1, h2⟩ := sum_step hc st
    refine ⟨h1 ▸ I.lt, ?_, lock_step I.lock st⟩
    rw [h1, h2, ← Nat.add_assoc, Nat.add_mod, I.mod, ← Nat.add_mod]
  · obtain ⟨h1, h2, -⟩ := sum_counts hc st
    refine ⟨Nat.mod_lt _ (by norm_num), ?_, ?_⟩
    · have h3 := I.mod
      simp only [lift] at h1
      rw [h2]
      dsimp only
      generalize sumR countOf t.recs = a at *
      generalize sumR countOf s.recs = b at *
      omega
    · have : LockInv t := lock_step (s := lift s) I.lock st
      exact this

theorem countInv_exec {ls : List (Label W)} {s s' : Sys H} {k : Nat} (I : CountInv k s)
    (e : exec o ls s = some (.ok s')) : CountInv (k + leaks ls) s' := by
  induction ls generalizing s k with
  | nil => cases e; exact I
  | cons l ls ih =>
    obtain ⟨t, e1, e2⟩ := exec_cons e
    have := ih (countInv_step I e1) e2
    rw [leaks_cons, ← Nat.add_assoc]
    exact this

theorem countInv_init (h : H) : CountInv 0 (Sys.init h) := ⟨by simp [Sys.init], rfl, lock_init⟩

end Release.Sync

/-- C91 (1): a release build does what the debug build does, in every interleaving of fewer than `2 ^ 64` steps in which
the debug build does not panic: the same steps are possible and lead to the same state, with the same histograms. -/
theorem C91_same {T : CounterTy} {fp : Fp} (h : Hist T) (ls : List (Label (Write T))) (hn : ls.length < 2 ^ 64)
    (hp : ∀ p, exec (HistOps.concrete fp T) ls (Sys.init h) ≠ some (.error p)) :
    Release.Sync.exec (Release.Sync.concrete fp T) ls (Sys.init h) =
      exec (HistOps.concrete fp T) ls (Sys.init h) :=
  Release.Sync.exec_same (Release.Sync.concrete_agree fp T) ls (Sys.init h) (by simpa [Sys.init] using hn) hp

/-- C91 (1), with a condition on the calls: if the writes stay clear of `u64::MAX` and no guard is leaked. -/
theorem C91_safe {T : CounterTy} {fp : Fp} {h : Hist T} (R : Reachable fp T h) (ls : List (Label (Write T)))
    (hn : ls.length < 2 ^ 64) (hp : SafeRun fp h ls) :
    Release.Sync.exec (Release.Sync.concrete fp T) ls (Sys.init h) =
        exec (HistOps.concrete fp T) ls (Sys.init h) ∧
      ∀ p, Release.Sync.exec (Release.Sync.concrete fp T) ls (Sys.init h) ≠ some (.error p) := by
  have e := C91_same h ls hn fun p => C47_no_panic_partial R ls hp p
  exact ⟨e, fun p => by rw [e]; exact C47_no_panic_partial R ls hp p⟩

example : Reachable Fp.ideal .u8 demo ∧ SafeRun Fp.ideal demo (gapFirst ++ .count :: gapSecond) ∧
    (gapFirst ++ .count :: gapSecond).length < 2 ^ 64 ∧
    ∃ s, exec (HistOps.concrete Fp.ideal .u8) (gapFirst ++ .count :: gapSecond) (Sys.init demo) = some (.ok s) ∧
      (s.reader = .wait false 2 1 ∧ s.chan.length = 1) :=
  ⟨.newWithBounds (by decide) demo_eq,
    gap_safe _ (by intro i; simp [gapFirst, gapSecond]) (by simp [gapFirst, gapSecond, writesOf]),
    by simp [gapFirst, gapSecond], execThen (by decide +kernel)⟩

/-- C91 (2): in every execution of a release build, leaked guards or not, whatever the histograms, the recorder count is,
whenever the lock is free, the number of recorders that exist and are not idle, less one for every guard that was leaked,
modulo `2 ^ 64`; and `drop` and `idle` do not panic when they decrement it. -/
theorem C91_count (h : H) (ls : List (Label W)) (s : Sys H) (e : Release.Sync.exec o ls (Sys.init h) = some (.ok s))
    (hl : s.lock = none) :
    s.recorders < 2 ^ 64 ∧
      (s.recorders + leaks ls) % 2 ^ 64 = (s.recs.filter (·.pc.active)).length % 2 ^ 64 ∧
      ∀ i p, Release.Sync.step o s (.drop i) ≠ some (.error p) ∧ Release.Sync.step o s (.idle i) ≠ some (.error p) := by
  have I := Release.Sync.countInv_exec (Release.Sync.countInv_init h) e
  refine ⟨I.lt, ?_, fun i p => ⟨fun e => ?_, fun e => ?_⟩⟩
  · rw [length_filter_eq_sumR]
    have hm := I.mod
    rw [Nat.zero_add] at hm
    rw [hm]
    congr 1
    apply sumR_congr
    intro r hr
    obtain ⟨i, hi⟩ := List.getElem?_of_mem hr
    have := I.lock.none_of_lock hl i r hi
    unfold countOf
    cases hp : r.pc <;> simp_all [Pc.holds, Pc.counted, Pc.active]
  · obtain ⟨r, -, -, e⟩ := at_some e
    dsimp only at e
    split at e <;> cases e
  · obtain ⟨r, -, -, e⟩ := at_some e
    dsimp only at e
    split at e <;> cases e

/-- one recorder whose guard was leaked: the count is 0 although the recorder is active, and 2^64 - 1 once it is dropped -/
def leakDemo : List (Label (Write .u8)) := [.recorder, .idle 0, .idlePhase 0, .forget 0, .drop 0, .dropSend 0]

namespace Release.Sync

/-- run and check -/
theorem execThen {ls : List (Label W)} {s0 : Sys H} {P : Sys H → Prop} [DecidablePred P]
    (h : (match exec o ls s0 with
      | some (.ok s) => decide (P s)
      | _ => false) = true) : ∃ s, exec o ls s0 = some (.ok s) ∧ P s := by
  split at h
  · rename_i s e; exact ⟨s, e, of_decide_eq_true h⟩
  · cases h

/-- the same, of two executions one after the other -/
theorem execThen2 {l1 l2 : List (Label W)} {s0 : Sys H} {P : Sys H → Sys H → Prop} [∀ s1 s2, Decidable (P s1 s2)]
    (h : (match exec o l1 s0 with
      | some (.ok s1) =>
        match exec o l2 s1 with
        | some (.ok s2) => decide (P s1 s2)
        | _ => false
      | _ => false) = true) :
    ∃ s1 s2, exec o l1 s0 = some (.ok s1) ∧ exec o l2 s1 = some (.ok s2) ∧ P s1 s2 := by
  split at h
  · rename_i s1 e1
    split at h
    · rename_i s2 e2; exact ⟨s1, s2, e1, e2, of_decide_eq_true h⟩
    · cases h
  · cases h

end Release.Sync

example : (∃ s, Release.Sync.exec (Release.Sync.concrete Fp.ideal .u8) (leakDemo.take 4) (Sys.init demo) = some (.ok s) ∧
      (s.lock = none ∧ s.recorders = 0 ∧ (s.recs.filter (·.pc.active)).length = 1)) ∧
    (∃ s, Release.Sync.exec (Release.Sync.concrete Fp.ideal .u8) leakDemo (Sys.init demo) = some (.ok s) ∧
      (s.lock = none ∧ s.recorders = 2 ^ 64 - 1 ∧ (s.recs.filter (·.pc.active)).length = 0)) ∧
    leaks leakDemo = 1 :=
  ⟨Release.Sync.execThen (by decide +kernel), Release.Sync.execThen (by decide +kernel), rfl⟩

/-! ## What a refresh waits for -/

namespace Release.Sync

/-- after the recorder count `m` was read, with `c` histograms in the channel then or sent since, and no time limit -/
def Needs (m c : Nat) (s : Sys H) : Prop :=
  match s.reader with
  | .counted _ n => n = m ∧ s.chan.length = c
  | .wait _ n k => n = m ∧ k + s.chan.length = c
  | .count _ | .drain _ | .final | .out => m ≤ c

theorem needs_mono {s s' : Sys H} {m c c' : Nat} (I : Needs m c s) (hr : s'.reader = s.reader) (h : c ≤ c')
    (hn : s'.chan.length + c = s.chan.length + c') : Needs m c' s' := by
  unfold Needs at *
  rw [hr]
  revert I
  cases s.reader <;> dsimp only <;> omega

theorem needs_debug {s s' : Sys H} {l : Label W} {m c : Nat} (I : Needs m c s) (hl : l ≠ .count) (ht : l ≠ .timeout)
    (st : Step o s l s') : Needs m (c + sendOf l) s' := by
  cases st with
  | write | recorder | clone | drop | idle | idlePhaseNew | idlePhaseOld | wake | wakePhase | forget => exact I
  | writeSend | dropSend | idleSend =>
    refine needs_mono I rfl (Nat.le_add_right _ _) ?_
    simp only [sendOf, List.length_append, List.length_singleton]; omega
  | count => exact absurd rfl hl
  | timeout => exact absurd rfl ht
  | start t hr => unfold Needs at *; rw [hr] at I; exact I
  | drain t h rest x hr => unfold Needs at *; rw [hr] at I; exact I
  | drainEnd t hr => unfold Needs at *; rw [hr] at I; exact I
  | finalRecv h rest x hr => unfold Needs at *; rw [hr] at I; exact I
  | finalEnd hr => unfold Needs at *; rw [hr] at I; exact I
  | waitEnd t n k hr hk =>
    unfold Needs at *
    rw [hr] at I
    dsimp only at *
    simp only [sendOf]; omega
  | bump t n hr =>
    unfold Needs at *
    rw [hr] at I
    exact ⟨I.1, by dsimp only at I; simp only [sendOf]; omega⟩
  | recv t n k h rest x hr hk hc ha =>
    unfold Needs at *
    rw [hr, hc] at I
    simp only [List.length_cons] at I
    exact ⟨I.1, by simp only [sendOf]; omega⟩

theorem needs_exec {ls : List (Label W)} {s s' : Sys H} {m c : Nat} (hs : s.recorders < 2 ^ 64) (I : Needs m c s)
    (hl : Label.count ∉ ls) (ht : Label.timeout ∉ ls) (e : exec o ls s = some (.ok s')) : Needs m (c + sends ls) s' := by
  induction ls generalizing s c with
  | nil => cases e; exact I
  | cons l ls ih =>
    obtain ⟨t, e1, e2⟩ := exec_cons e
    simp only [List.mem_cons, not_or] at hl ht
    have key : Needs m (c + sendOf l) t ∧ t.recorders < 2 ^ 64 := by
      rcases step_ok_cases hs e1 with ⟨hc, st⟩ | ⟨hc, u, st, rfl⟩
      · exact ⟨needs_debug I (fun h => hl.1 h.symm) (fun h => ht.1 h.symm) st, (sum_step hc st).1 ▸ hs⟩
      · obtain ⟨-, -, h3, h4, h5, -⟩ := sum_counts hc st
        refine ⟨needs_mono I h4 (Nat.le_add_right _ _) ?_, Nat.mod_lt _ (by norm_num)⟩
        dsimp only
        rw [h3, h5]; rfl
    have := ih key.2 key.1 hl.2 ht.2 e2
    rw [sends_cons, ← Nat.add_assoc]
    exact this

end Release.Sync

/-- C91 (3): a refresh of a release build without time limit that has returned was given at least as many histograms,
waiting in the channel when it read the recorder count or sent since, as that count says. -/
theorem C91_returned (ls2 : List (Label W)) (s1 s2 : Sys H) (hs : s1.recorders < 2 ^ 64)
    (e : Release.Sync.exec o (.count :: ls2) s1 = some (.ok s2)) (hc : Label.count ∉ ls2) (ht : Label.timeout ∉ ls2)
    (hout : s2.reader = .out) : s1.recorders ≤ s1.chan.length + sends ls2 := by
  obtain ⟨u, e1, e2⟩ := Release.Sync.exec_cons e
  have st : Step o s1 .count u := step_ok e1
  have I : Release.Sync.Needs s1.recorders s1.chan.length u ∧ u.recorders = s1.recorders := by
    cases st with
    | count t hr hl => exact ⟨⟨rfl, rfl⟩, rfl⟩
  have J := Release.Sync.needs_exec (I.2 ▸ hs) I.1 hc ht e2
  unfold Release.Sync.Needs at J
  rw [hout] at J
  exact J

/-- C91 (4): in a release build, once more guards have been leaked than there are recorders that exist and are not idle
(`d` more, with `d < 2 ^ 64`), a refresh without time limit that then reads the count
has not returned while it was given fewer than `2 ^ 64 - d` histograms. -/
theorem C91_hangs (h : H) (ls1 ls2 : List (Label W)) (s1 s2 : Sys H) (d : Nat) (hd : 0 < d) (hd2 : d < 2 ^ 64)
    (e1 : Release.Sync.exec o ls1 (Sys.init h) = some (.ok s1))
    (hk : leaks ls1 = (s1.recs.filter (·.pc.active)).length + d)
    (e2 : Release.Sync.exec o (.count :: ls2) s1 = some (.ok s2)) (hc : Label.count ∉ ls2) (ht : Label.timeout ∉ ls2)
    (hn : s1.chan.length + sends ls2 + d < 2 ^ 64) : s2.reader ≠ .out := by
  intro hout
  have hl : s1.lock = none := by
    obtain ⟨u, e3, -⟩ := Release.Sync.exec_cons e2
    cases (step_ok e3 : Step o s1 .count u) with
    | count t hr hl => exact hl
  obtain ⟨h1, h2, -⟩ := C91_count h ls1 s1 e1 hl
  have := C91_returned ls2 s1 s2 h1 e2 hc ht hout
  rw [hk] at h2
  omega

/-- C91 (5): such a refresh can hang for good. One recorder goes idle, its guard is leaked, the recorder is dropped; the
refresh that follows waits for `2 ^ 64 - 1` histograms, every recorder is gone, and no thread can take a step any more. -/
theorem C91_stuck : ∃ s, Release.Sync.exec (Release.Sync.concrete Fp.ideal .u8)
      (leakDemo ++ [.start false, .drain, .drainEnd, .count, .bump]) (Sys.init demo) = some (.ok s) ∧
    s.reader = .wait false (2 ^ 64 - 1) 0 ∧
    ∀ l : Label (Write .u8), Release.Sync.step (Release.Sync.concrete Fp.ideal .u8) s l = none := by
  obtain ⟨s, e, h1, h2, h3⟩ : ∃ s, Release.Sync.exec (Release.Sync.concrete Fp.ideal .u8)
      (leakDemo ++ [.start false, .drain, .drainEnd, .count, .bump]) (Sys.init demo) = some (.ok s) ∧
      (s.reader = .wait false (2 ^ 64 - 1) 0 ∧ s.chan.length = 0 ∧ (s.recs.map (·.pc)) = [.gone]) :=
    Release.Sync.execThen (by decide +kernel)
  refine ⟨s, e, h1, ?_⟩
  have hch : s.chan = [] := List.length_eq_zero_iff.mp h2
  have hg : ∀ (i : Nat) (r : Rec (Hist .u8)), s.recs[i]? = some r → r.pc = .gone := by
    intro i r hr
    have : r.pc ∈ s.recs.map (·.pc) := List.mem_map.mpr ⟨r, List.mem_of_getElem? hr, rfl⟩
    rw [h3] at this
    simpa using this
  have hat : ∀ i pc k, pc ≠ .gone → s.at i pc k = none := by
    intro i pc k hp
    unfold Sys.at
    split
    · rename_i r hr
      rw [if_neg (by rw [hg i r hr]; exact fun h => hp h.symm)]
    · rfl
  intro l
  cases l with
  | write | drop | dropSend | idle | idlePhase | wake | wakePhase | forget => exact hat _ _ _ (by simp)
  | writeSend i =>
    simp only [Release.Sync.step, Sync.step, Sync.writeSend]
    cases hr : s.recs[i]? with
    | none => rfl
    | some r => simp only [hg i r hr]
  | idleSend i =>
    simp only [Release.Sync.step, Sync.step, Sync.idleSend]
    cases hr : s.recs[i]? with
    | none => rfl
    | some r => simp only [hg i r hr]
  | clone i =>
    simp only [Release.Sync.step, Release.Sync.clone]
    cases hr : s.recs[i]? with
    | none => rfl
    | some r => simp [hg i r hr]
  | recorder => simp [Release.Sync.step, Release.Sync.recorder, h1]
  | start => simp [Release.Sync.step, Sync.step, Sync.start, h1]
  | drain => simp [Release.Sync.step, Sync.step, Sync.drain, h1]
  | drainEnd => simp [Release.Sync.step, Sync.step, Sync.drainEnd, h1]
  | count => simp [Release.Sync.step, Sync.step, Sync.count, h1]
  | bump => simp [Release.Sync.step, Sync.step, Sync.bump, h1]
  | recv => simp [Release.Sync.step, Sync.step, Sync.recv, Sync.receive, h1, hch]
  | timeout => simp [Release.Sync.step, Sync.step, Sync.timeout, h1]
  | waitEnd => simp [Release.Sync.step, Sync.step, Sync.waitEnd, h1]
  | finalRecv => simp [Release.Sync.step, Sync.step, Sync.finalRecv, h1]
  | finalEnd => simp [Release.Sync.step, Sync.step, Sync.finalEnd, h1]

/-- one recorder, which answers: the refresh returns -/
example : ∃ s1 s2, Release.Sync.exec (Release.Sync.concrete Fp.ideal .u8) [.recorder, .start false, .drainEnd]
      (Sys.init demo) = some (.ok s1) ∧
    Release.Sync.exec (Release.Sync.concrete Fp.ideal .u8)
      [.count, .bump, .write 0 (.recordN 5 1), .writeSend 0, .recv, .waitEnd, .finalEnd] s1 = some (.ok s2) ∧
    (s1.recorders = 1 ∧ s1.chan.length = 0 ∧ s2.reader = .out) :=
  Release.Sync.execThen2 (by decide +kernel)

/-- one guard more leaked than there are recorders: the refresh has read `2 ^ 64 - 1` -/
example : leaks (leakDemo ++ [.start false, .drain, .drainEnd]) = 0 + 1 ∧
    ∃ s1 s2, Release.Sync.exec (Release.Sync.concrete Fp.ideal .u8) (leakDemo ++ [.start false, .drain, .drainEnd])
      (Sys.init demo) = some (.ok s1) ∧
    Release.Sync.exec (Release.Sync.concrete Fp.ideal .u8) [.count, .bump] s1 = some (.ok s2) ∧
    ((s1.recs.filter (·.pc.active)).length = 0 ∧ s1.chan.length = 0 ∧ s2.reader = .wait false (2 ^ 64 - 1) 0) :=
  ⟨rfl, Release.Sync.execThen2 (by decide +kernel)⟩

end Hdr
