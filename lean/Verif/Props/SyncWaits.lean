import Verif.Spec.SyncUnsent
import Verif.Props.Sync

/-!
# Concurrent recording without conditions: when a refresh can complete (C49)
-/

namespace Hdr

open Hdr.Sync

variable {H W : Type} {o : HistOps H W}

/-- the histograms sent by one step -/
def sendOf : Label W → Nat
  | .writeSend _ | .dropSend _ | .idleSend _ => 1
  | _ => 0

theorem sends_cons (l : Label W) (ls : List (Label W)) : sends (l :: ls) = sendOf l + sends ls := by
  cases l <;> simp [sends, sendOf, Nat.add_comm]

/-- after the recorder count `m` was read, with `c` histograms in the channel then or sent since -/
def Waits (m c : Nat) (s : Sys H) : Prop :=
  match s.reader with
  | .counted _ n => n = m ∧ s.chan.length = c
  | .wait _ n k => n = m ∧ k + s.chan.length = c
  | .count _ | .drain _ | .final | .out => True

theorem waits_count {s s' : Sys H} (st : Step o s (.count : Label W) s') : Waits s.recorders s.chan.length s' := by
  cases st with
  | count t hr hl => exact ⟨rfl, rfl⟩

theorem waits_step {s s' : Sys H} {l : Label W} {m c : Nat} (I : Waits m c s) (hl : l ≠ .count)
    (st : Step o s l s') : Waits m (c + sendOf l) s' := by
  unfold Waits at *
  cases st with
  | write | recorder | clone | drop | idle | idlePhaseNew | idlePhaseOld | wake | wakePhase | forget => exact I
  | writeSend | dropSend | idleSend =>
    dsimp only [Sys.put]
    revert I
    cases s.reader <;> simp only [sendOf, List.length_append, List.length_singleton] <;> intro I <;>
      first | trivial | exact I | omega
  | count => exact absurd rfl hl
  | start | drain | drainEnd | timeout | waitEnd | finalRecv | finalEnd => trivial
  | bump t n hr =>
    rw [hr] at I
    exact ⟨I.1, by dsimp only at I; simp only [sendOf]; omega⟩
  | recv t n k h rest x hr hk hc ha =>
    rw [hr, hc] at I
    simp only [List.length_cons] at I
    exact ⟨I.1, by simp only [sendOf]; omega⟩

theorem waits_exec {ls : List (Label W)} {s s' : Sys H} {m c : Nat} (I : Waits m c s) (hl : Label.count ∉ ls)
    (e : exec o ls s = some (.ok s')) : Waits m (c + sends ls) s' := by
  induction ls generalizing s c with
  | nil => cases e; exact I
  | cons l ls ih =>
    obtain ⟨t, e1, e2⟩ := exec_cons e
    simp only [List.mem_cons, not_or] at hl
    have := ih (waits_step I (fun h => hl.1 h.symm) (step_ok e1)) hl.2 e2
    rw [sends_cons, ← Nat.add_assoc]
    exact this

/-- a reader that waits and returns without any recorder doing anything has found what it waits for in the channel -/
theorem returns_needs {ls : List (Label W)} {s s' : Sys H} {t : Bool} {n k : Nat} (hr : ∀ l ∈ ls, l.reader = true)
    (hw : s.reader = .wait t n k) (e : exec o ls s = some (.ok s')) (hout : s'.reader = .out) :
    n ≤ k + s.chan.length := by
  induction ls generalizing s k with
  | nil => cases e; rw [hw] at hout; cases hout
  | cons l ls ih =>
    obtain ⟨u, e1, e2⟩ := exec_cons e
    have hl := hr l (by simp)
    cases step_ok e1 with
    | write | recorder | clone | drop | idle | idlePhaseNew | idlePhaseOld | wake | wakePhase | forget | writeSend |
      dropSend | idleSend | timeout | start => cases hl
    | drain _ _ _ _ h1 | drainEnd _ h1 | count _ h1 | bump _ _ h1 | finalRecv _ _ _ h1 | finalEnd h1 =>
      rw [hw] at h1; cases h1
    | waitEnd t' n' k' h1 h2 => rw [hw] at h1; cases h1; omega
    | recv t' n' k' h rest m h1 h2 h3 h4 =>
      rw [hw] at h1
      cases h1
      have := ih (fun l h => hr l (by simp [h])) rfl e2
      simp only [h3, List.length_cons] at *
      omega

/-- C49 without conditions, for any histogram type: a refresh that waits has counted `n` recorders when it read the
count. Whatever the recorders have done since, it can go on to its end without any of them doing anything more if at
least `n` histograms were in the channel then or have been sent since, and it cannot return if they were fewer. -/
theorem C49_exact (ls2 : List (Label W)) (s1 s2 : Sys H) (t : Bool) (n k : Nat)
    (e2 : exec o (.count :: ls2) s1 = some (.ok s2))
    (hc : Label.count ∉ ls2) (hw : s2.reader = .wait t n k) :
    n = s1.recorders ∧
    (n ≤ s1.chan.length + sends ls2 → Finishes o s2) ∧
    (s1.chan.length + sends ls2 < n →
      ∀ ls s3, (∀ l ∈ ls, l.reader = true) → exec o ls s2 = some (.ok s3) → s3.reader ≠ .out) := by
  obtain ⟨u, e3, e4⟩ := exec_cons e2
  have I := waits_exec (waits_count (step_ok e3)) hc e4
  unfold Waits at I
  rw [hw] at I
  dsimp only at I
  refine ⟨I.1, fun hn => wait_finishes hw (by omega), fun hn ls s3 hr e hout => ?_⟩
  have := returns_needs hr hw e hout
  omega

theorem writesOf_reader {ls1 ls : List (Label W)} (hl : ∀ l ∈ ls, l.reader = true) :
    writesOf (ls1 ++ ls) = writesOf ls1 := by
  induction ls1 with
  | nil =>
    induction ls with
    | nil => rfl
    | cons x xs ih =>
      have hx := hl x (by simp)
      have ih := ih fun l h => hl l (by simp [h])
      cases x <;> first | (cases hx; done) | exact ih
  | cons l ls ih => cases l <;> simp only [List.cons_append, writesOf, ih]

/-- C49 with the real histograms, if the writes stay clear of `u64::MAX` and no guard is leaked: a refresh that waits can
return without any recorder doing anything more exactly if at least as many histograms were in the channel when it read
the recorder count, or have been sent since, as there were recorders counted. -/
theorem C49_returns_iff {T : CounterTy} {fp : Fp} {h : Hist T} (R : Reachable fp T h) (ls1 ls2 : List (Label (Write T)))
    (s1 s2 : Sys (Hist T)) (t : Bool) (n k : Nat) (hp : SafeRun fp h (ls1 ++ .count :: ls2))
    (e1 : exec (HistOps.concrete fp T) ls1 (Sys.init h) = some (.ok s1))
    (e2 : exec (HistOps.concrete fp T) (.count :: ls2) s1 = some (.ok s2)) (hc : Label.count ∉ ls2)
    (hw : s2.reader = .wait t n k) :
    (∃ ls s3, (∀ l ∈ ls, l.reader = true) ∧ exec (HistOps.concrete fp T) ls s2 = some (.ok s3) ∧ s3.reader = .out) ↔
      s1.recorders ≤ s1.chan.length + sends ls2 := by
  obtain ⟨hn, h1, h2⟩ := C49_exact ls2 s1 s2 t n k e2 hc hw
  subst hn
  constructor
  · rintro ⟨ls, s3, hl, e, hout⟩
    by_contra hlt
    exact h2 (by omega) ls s3 hl e hout
  · intro hle
    obtain ⟨ls, hl, h3⟩ := h1 hle
    rcases h3 with ⟨s3, h3, h4⟩ | ⟨p, h3⟩
    · exact ⟨ls, s3, hl, h3, h4⟩
    · exfalso
      refine C47_no_panic_partial R ((ls1 ++ .count :: ls2) ++ ls) ⟨?_, ?_⟩ p (exec_trans (exec_trans e1 e2) h3)
      · rw [writesOf_reader hl]; exact hp.1
      · intro i hi
        rcases List.mem_append.mp hi with hi | hi
        · exact hp.2 i hi
        · have := hl _ hi; cases this

/-- C49 for `refresh_timeout`: once it waits, it can go on to its end whatever the recorders do, when its time is over. -/
theorem C49_timeout (s : Sys H) (n k : Nat) (hw : s.reader = .wait true n k) :
    ∃ ls : List (Label W), (∀ l ∈ ls, l.reader = true ∨ l = .timeout) ∧
      ((∃ s', exec o ls s = some (.ok s') ∧ s'.reader = .out) ∨ ∃ p, exec o ls s = some (.error p)) := by
  by_cases hk : k < n
  · obtain ⟨ls, hl, h⟩ := final_finishes (o := o) (s := { s with reader := .final }) rfl
    have e : step o s .timeout = some (.ok { s with reader := .final }) := by
      simp only [step, Sync.timeout, hw]
      rw [if_pos hk]; rfl
    refine ⟨.timeout :: ls, ?_, ?_⟩
    · intro l hm
      rcases List.mem_cons.mp hm with rfl | hm
      · exact Or.inr rfl
      · exact Or.inl (hl l hm)
    · simp only [exec, e]; exact h
  · obtain ⟨ls, hl, h⟩ := wait_finishes (o := o) hw (by omega)
    exact ⟨ls, fun l hm => Or.inl (hl l hm), h⟩

/-- two recorders are counted; one is dropped before the phase change, the other makes a write and answers: two
histograms have been sent, and the refresh can return. If the second had only become idle in time, it could not. -/
def gapFirst : List (Label (Write .u8)) := [.recorder, .clone 0, .write 0 (.recordN 5 1), .start false, .drainEnd]

def gapSecond : List (Label (Write .u8)) :=
  [.drop 0, .dropSend 0, .bump, .write 1 (.recordN 3 1), .writeSend 1, .recv]

def gapThird : List (Label (Write .u8)) := [.drop 0, .dropSend 0, .idle 1, .idlePhase 1, .bump, .recv]

theorem gap_safe (ls : List (Label (Write .u8))) (h : ∀ i, Label.forget i ∉ ls)
    (hw : ∀ w ∈ writesOf ls, w = .recordN 5 1 ∨ w = .recordN 3 1) : SafeRun Fp.ideal demo ls := by
  refine ⟨fun w m => ?_, h⟩
  rcases hw w m with rfl | rfl
  · exact ⟨by decide, by decide, Or.inr (by decide)⟩
  · exact ⟨by decide, by decide, Or.inr (by decide)⟩

example : (SafeRun Fp.ideal demo (gapFirst ++ .count :: gapSecond) ∧ Label.count ∉ gapSecond ∧ sends gapSecond = 2 ∧
      ∃ s1 s2, exec (HistOps.concrete Fp.ideal .u8) gapFirst (Sys.init demo) = some (.ok s1) ∧
        exec (HistOps.concrete Fp.ideal .u8) (.count :: gapSecond) s1 = some (.ok s2) ∧
        (s1.recorders = 2 ∧ s1.chan.length = 0 ∧ s2.reader = .wait false 2 1)) ∧
    SafeRun Fp.ideal demo (gapFirst ++ .count :: gapThird) ∧ Label.count ∉ gapThird ∧ sends gapThird = 1 ∧
      ∃ s1 s2, exec (HistOps.concrete Fp.ideal .u8) gapFirst (Sys.init demo) = some (.ok s1) ∧
        exec (HistOps.concrete Fp.ideal .u8) (.count :: gapThird) s1 = some (.ok s2) ∧
        (s1.recorders = 2 ∧ s1.chan.length = 0 ∧ s2.reader = .wait false 2 1) :=
  ⟨⟨gap_safe _ (by intro i; simp [gapFirst, gapSecond]) (by simp [gapFirst, gapSecond, writesOf]),
    by simp [gapSecond], rfl, execThen2 (by decide +kernel)⟩,
   gap_safe _ (by intro i; simp [gapFirst, gapThird]) (by simp [gapFirst, gapThird, writesOf]),
    by simp [gapThird], rfl, execThen2 (by decide +kernel)⟩

/-- a `refresh_timeout` that waits for a recorder that does nothing -/
example : ∃ s, exec (HistOps.concrete Fp.ideal .u8) [.recorder, .start true, .drainEnd, .count, .bump] (Sys.init demo) =
    some (.ok s) ∧ (s.reader = .wait true 1 0 ∧ s.chan.length = 0) :=
  execThen (by decide +kernel)

end Hdr
