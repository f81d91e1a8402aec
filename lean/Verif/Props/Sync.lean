import Verif.Proofs.SyncFresh
import Verif.Proofs.SyncWait
import Verif.Proofs.SyncHist
import Verif.Spec.Demo
import Verif.Props.Merge
import Mathlib.Data.List.Perm.Basic
import Mathlib.Data.List.Perm.Subperm

/-!
# Concurrent recording: C47, C48, C49, C50
-/

namespace Hdr

open Hdr.Sync

variable {H W : Type} {o : HistOps H W}

/-- run an execution and check a decidable fact about the state it leads to -/
theorem execThen {ls : List (Label W)} {s0 : Sys H} {P : Sys H → Prop} [DecidablePred P]
    (h : (match exec o ls s0 with
      | some (.ok s) => decide (P s)
      | _ => false) = true) : ∃ s, exec o ls s0 = some (.ok s) ∧ P s := by
  split at h
  · rename_i s e; exact ⟨s, e, of_decide_eq_true h⟩
  · cases h

/-- the same, of two executions one after the other -/
theorem execThen2 {l1 l2 : List (Label W)} {s0 : Sys H} {P : Sys H → Sys H → Prop} [∀ s1 s2, Decidable (P s1 s2)]
    (h : (match exec o l1 s0 with
      | some (.ok s1) =>
        match exec o l2 s1 with
        | some (.ok s2) => decide (P s1 s2)
        | _ => false
      | _ => false) = true) :
    ∃ s1 s2, exec o l1 s0 = some (.ok s1) ∧ exec o l2 s1 = some (.ok s2) ∧ P s1 s2 := by
  split at h
  · rename_i s1 e1
    split at h
    · rename_i s2 e2; exact ⟨s1, s2, e1, e2, of_decide_eq_true h⟩
    · cases h
  · cases h

/-- run an execution that panics -/
theorem execPanics {ls : List (Label W)} {s0 : Sys H} {p : Panic}
    (h : (match exec o ls s0 with
      | some (.error q) => decide (q = p)
      | _ => false) = true) : exec o ls s0 = some (.error p) := by
  split at h
  · rename_i q e; rw [e, of_decide_eq_true h]
  · cases h

/-- check a condition along an execution -/
def alwaysB (o : HistOps H W) (p : Sys H → Label W → Bool) : List (Label W) → Sys H → Bool
  | [], _ => true
  | l :: ls, s => p s l &&
    match step o s l with
    | some (.ok s') => alwaysB o p ls s'
    | _ => true

theorem always_of_B {p : Sys H → Label W → Bool} {P : Sys H → Label W → Prop} (hp : ∀ s l, p s l = true → P s l)
    {ls : List (Label W)} {s : Sys H} (h : alwaysB o p ls s = true) : Always o P ls s := by
  induction ls generalizing s with
  | nil => trivial
  | cons l ls ih =>
    simp only [alwaysB, Bool.and_eq_true] at h
    refine ⟨hp s l h.1, fun s' e => ih ?_⟩
    rw [e] at h
    exact h.2

/-- a check implying `Undisturbed` -/
def undisturbedB (s : Sys H) : Label W → Bool
  | .start _ => s.lock = none
  | .clone i => s.reader = .out && s.recs[i]?.all (fun r => r.pc ≠ .idle)
  | .drop _ | .idle _ | .wake _ => s.reader = .out
  | .forget _ | .timeout => false
  | _ => true

theorem undisturbed_of_B (s : Sys H) (l : Label W) (h : undisturbedB s l = true) : Undisturbed s l := by
  cases l with
  | clone i =>
    simp only [undisturbedB, Bool.and_eq_true, decide_eq_true_eq] at h
    refine ⟨h.1, fun r hr => ?_⟩
    have := h.2
    rw [hr] at this
    simpa using this
  | _ => simp_all [undisturbedB, Undisturbed]

/-- condition on the labels alone -/
theorem always_of_mem {P : Sys H → Label W → Prop} {ls : List (Label W)} {s : Sys H} (h : ∀ l ∈ ls, ∀ s, P s l) :
    Always o P ls s := by
  induction ls generalizing s with
  | nil => trivial
  | cons l ls ih => exact ⟨h l (by simp) s, fun s' _ => ih fun l' h' => h l' (by simp [h'])⟩

theorem always_and {P Q : Sys H → Label W → Prop} {ls : List (Label W)} {s : Sys H} (h1 : Always o P ls s)
    (h2 : Always o Q ls s) : Always o (fun s l => P s l ∧ Q s l) ls s := by
  induction ls generalizing s with
  | nil => trivial
  | cons l ls ih => exact ⟨⟨h1.1, h2.1⟩, fun s' e => ih (h1.2 s' e) (h2.2 s' e)⟩

theorem notForget_of {ls : List (Label W)} {s : Sys H} (h : ∀ i, Label.forget i ∉ ls) : Always o NotForget ls s :=
  always_of_mem fun l hl s => by cases l <;> first | trivial | exact absurd hl (h _)

/-- two recorders write; one is dropped, a refresh is run to the point where it waits for the other -/
def syncDemo : List (Label (Write .u8)) :=
  [.recorder, .clone 0, .write 0 (.recordN 5 1), .write 1 (.recordN 3 2), .drop 0, .dropSend 0,
   .start false, .drain, .drainEnd, .count, .bump, .write 1 (.recordN 7 1)]

/-- the other recorder answers and the refresh returns -/
def syncDemoEnd : List (Label (Write .u8)) := [.writeSend 1, .recv, .waitEnd, .finalEnd]

/-! ## C47 -/

/-- The lists of writes added to the histograms do not influence an execution: with and without them the same steps are
possible, the same panics occur, and the states agree. So what follows about executions with lists is about all
executions. -/
theorem C47_ghost (ls : List (Label W)) (s : Sys (H × List W)) :
    exec o ls s.erase = eraseOut (exec o.traced ls s) := erase_exec

/-- C47 (1): whatever the interleaving, every write made so far is in exactly one place: in the merged histogram, in the
channel, or in the local histogram of one live recorder. (As many times as it was made; the three lists together are a
permutation of the writes.) -/
theorem C47_exactly_once (h : H) (ls : List (Label W)) (s : Sys (H × List W))
    (e : exec o.traced ls (Sys.init (h, [])) = some (.ok s)) :
    (s.merged.2 ++ s.chanWrites ++ s.localWrites Pc.live).Perm (writesOf ls) := by
  classical
  rw [List.perm_iff_count]
  intro w
  rw [List.count_append, List.count_append]
  exact conserved e w

example : ∃ s, exec (HistOps.concrete Fp.ideal .u8).traced syncDemo (Sys.init (demo, [])) = some (.ok s) ∧
    (s.merged.2.length = 1 ∧ s.chanWrites.length = 0 ∧ (s.localWrites Pc.live).length = 2 ∧
      (writesOf syncDemo).length = 3) :=
  execThen (by decide +kernel)

theorem dropped_step {s s' : Sys H} {l : Label W} (I : (∀ r ∈ s.recs, r.pc = .gone) ∧ (s.reader = .out → s.chan = []))
    (hl : l ≠ .recorder) (st : Step o s l s') :
    (∀ r ∈ s'.recs, r.pc = .gone) ∧ (s'.reader = .out → s'.chan = []) := by
  obtain ⟨hg, hc⟩ := I
  have no : ∀ {i : Nat} {r : Rec H}, s.recs[i]? = some r → r.pc ≠ .gone → False := fun hr h => h (hg _ (mem_of_get hr))
  cases st with
  | write _ _ _ _ hr hp | dropSend _ _ _ hr hp | drop _ _ hr hp | idle _ _ hr hp | wake _ _ hr hp
  | wakePhase _ _ hr hp | forget _ _ hr hp | writeSend _ _ _ _ hr hp | idleSend _ _ _ _ hr hp
  | idlePhaseNew _ _ hr hp | idlePhaseOld _ _ hr hp =>
    exact (no hr (by rw [hp]; simp)).elim
  | clone _ _ _ hr _ hp => exact (no hr (by rcases hp with hp | hp <;> rw [hp] <;> simp)).elim
  | recorder => exact absurd rfl hl
  | finalEnd hrd he => exact ⟨hg, fun _ => he⟩
  | start | drain | drainEnd | count | bump | recv | timeout | waitEnd | finalRecv => exact ⟨hg, fun h => by cases h⟩

/-- C47 (2): if all recorders are dropped when a refresh (with or without timeout) begins, and no new one is made, then
when it has returned the merged histogram holds every write ever made exactly once. -/
theorem C47_final (h : H) (ls1 ls2 : List (Label W)) (t : Bool) (s1 s2 : Sys (H × List W))
    (e1 : exec o.traced ls1 (Sys.init (h, [])) = some (.ok s1)) (hgone : ∀ r ∈ s1.recs, r.pc = .gone)
    (e2 : exec o.traced (.start t :: ls2) s1 = some (.ok s2)) (hnew : Label.recorder ∉ ls2) (hout : s2.reader = .out) :
    s2.merged.2.Perm (writesOf (ls1 ++ ls2)) := by
  have e := C47_exactly_once h (ls1 ++ .start t :: ls2) s2 (exec_trans e1 e2)
  obtain ⟨s1', e3, e4⟩ := exec_cons e2
  have st := step_ok e3
  have I : (∀ r ∈ s1'.recs, r.pc = .gone) ∧ (s1'.reader = .out → s1'.chan = []) := by
    cases st; exact ⟨hgone, fun h => by cases h⟩
  have J := exec_inv (P := fun _ l => l ≠ .recorder)
    (I := fun s => (∀ r ∈ s.recs, r.pc = .gone) ∧ (s.reader = .out → s.chan = []))
    (fun s l s' I hl st => dropped_step I hl st) I
    (always_of_mem fun l hl _ hc => hnew (hc ▸ hl)) e4
  have h1 : s2.chanWrites = [] := by unfold Sys.chanWrites; rw [J.2 hout]; rfl
  have h2 : s2.localWrites Pc.live = [] := by
    unfold Sys.localWrites
    rw [List.filter_eq_nil_iff.mpr]
    · rfl
    · intro r hr; rw [J.1 r hr]; simp [Pc.live]
  have h3 : writesOf (ls1 ++ .start t :: ls2) = writesOf (ls1 ++ ls2) := by
    clear e e1 e2 e3 e4 st I J hnew
    induction ls1 with
    | nil => rfl
    | cons l ls ih => cases l <;> simp only [List.cons_append, writesOf, ih]
  rw [h1, h2, List.append_nil, List.append_nil, h3] at e
  exact e

example : ∃ s1 s2, exec (HistOps.concrete Fp.ideal .u8).traced
      (syncDemo ++ syncDemoEnd ++ [.write 1 (.recordN 5 1), .drop 1, .dropSend 1]) (Sys.init (demo, [])) = some (.ok s1) ∧
    exec (HistOps.concrete Fp.ideal .u8).traced
      [.start true, .drain, .drainEnd, .count, .bump, .waitEnd, .finalEnd] s1 = some (.ok s2) ∧
    ((∀ r ∈ s1.recs, r.pc = .gone) ∧ s1.merged.2.length = 3 ∧ s2.reader = .out ∧ s2.merged.2.length = 4) :=
  execThen2 (by decide +kernel)

/-- the writes of an execution only add samples, and stay clear of `u64::MAX`; no guard is leaked -/
def PlainRun {T : CounterTy} (fp : Fp) (h : Hist T) (ls : List (Label (Write T))) : Prop :=
  (∀ w ∈ writesOf ls, w.Plain fp h) ∧ ∀ i, Label.forget i ∉ ls

/-- the writes of an execution, which may be any that the recorders offer, stay clear of `u64::MAX`; no guard is leaked -/
def SafeRun {T : CounterTy} (fp : Fp) (h : Hist T) (ls : List (Label (Write T))) : Prop :=
  (∀ w ∈ writesOf ls, w.Safe fp h) ∧ ∀ i, Label.forget i ∉ ls

theorem run_labels {okW : W → Prop} {ls : List (Label W)} (p : (∀ w ∈ writesOf ls, okW w) ∧ ∀ i, Label.forget i ∉ ls) :
    ∀ l ∈ ls, okLabel okW l ∧ ∀ i, l ≠ .forget i := by
  intro l hl
  refine ⟨?_, fun i hc => p.2 i (hc ▸ hl)⟩
  cases l with
  | write i w =>
    refine p.1 w ?_
    clear p
    induction ls with
    | nil => cases hl
    | cons x xs ih =>
      rcases List.mem_cons.mp hl with h | h
      · subst h; simp [writesOf]
      · have := ih h
        cases x <;> simp [writesOf, this]
  | _ => trivial

/-- C47 (3): with the real histograms, and any writes that stay clear of `u64::MAX`, no interleaving makes any thread
panic. -/
theorem C47_no_panic_partial {T : CounterTy} {fp : Fp} {h : Hist T} (R : Reachable fp T h) (ls : List (Label (Write T)))
    (hp : SafeRun fp h ls) (p : Panic) : exec (HistOps.concrete fp T) ls (Sys.init h) ≠ some (.error p) := by
  intro e
  have := fine_exec (safe_fine R.wf) (s := Sys.init h) ⟨base_init R.wf, by simp [Sys.init], by simp [Sys.init]⟩
    rfl (run_labels hp)
  rw [e] at this
  rcases this with h1 | ⟨s', h1, -⟩
  · cases h1
  · cases h1

/-- two recorders; one records, adds, subtracts, and saturates, the other adds with correction -/
def safeDemo : List (Label (Write .u8)) :=
  [.recorder, .clone 0, .write 0 (.recordN 5 1), .write 1 (.addCorrect demo3 2), .write 0 (.add demo3), .start false,
   .drainEnd, .count, .bump, .write 0 (.subtract demo3), .writeSend 0, .recv, .write 1 (.saturatingRecordN 1000 2),
   .writeSend 1, .recv, .waitEnd, .finalEnd]

theorem safeDemo_safe : SafeRun Fp.ideal demo safeDemo := by
  have hd : Reachable Fp.ideal .u8 demo3 := demo3_reachable
  refine ⟨?_, by intro i; simp [safeDemo]⟩
  intro w hw
  simp [safeDemo, writesOf] at hw
  rcases hw with rfl | rfl | rfl | rfl | rfl
  · exact ⟨by decide, by decide, Or.inr (by decide)⟩
  · exact ⟨hd, Or.inr (by decide)⟩
  · exact ⟨hd, Or.inr (by decide)⟩
  · exact hd
  · exact ⟨by decide, by decide, Or.inr (by decide)⟩

example : Reachable Fp.ideal .u8 demo ∧ SafeRun Fp.ideal demo safeDemo ∧
    ∃ s, exec (HistOps.concrete Fp.ideal .u8) safeDemo (Sys.init demo) = some (.ok s) ∧
      (s.merged.totalCount = 715 ∧ s.merged.countAt 3 = .ok 203 ∧ s.reader = .out) :=
  ⟨.newWithBounds (by decide) demo_eq, safeDemo_safe, execThen (by decide +kernel)⟩

/-- C47 (4), in terms of counts: with the real histograms, start from a histogram `h` and let any number of threads record
through any number of recorders, in any interleaving with any refreshes. If all recorders are dropped when a refresh
begins and no new one is made, then when it has returned the merged histogram holds, for every value `v`, what `h` held
plus every sample recorded by any thread, each exactly once (saturating at the largest count). -/
theorem C47_counts_partial {T : CounterTy} {fp : Fp} {h : Hist T} (R : Reachable fp T h)
    (ls1 ls2 : List (Label (Write T))) (t : Bool) (s1 s2 : Sys (Hist T)) (hp : PlainRun fp h (ls1 ++ .start t :: ls2))
    (e1 : exec (HistOps.concrete fp T) ls1 (Sys.init h) = some (.ok s1)) (hgone : ∀ r ∈ s1.recs, r.pc = .gone)
    (e2 : exec (HistOps.concrete fp T) (.start t :: ls2) s1 = some (.ok s2)) (hnew : Label.recorder ∉ ls2)
    (hout : s2.reader = .out) (v n : Nat) (hv : v ≤ U64MAX) (hn : HasCount h v n) :
    HasCount s2.merged v
      (min (n + recordedFor h ((writesOf (ls1 ++ ls2)).flatMap (Write.samples h)) v) T.max) := by
  have W := R.wf
  obtain ⟨y, ey, eo⟩ := lift_exec (exec_trans e1 e2)
  cases y with
  | error p => cases eo
  | ok g2 =>
    cases eo
    obtain ⟨g1, f1, f2⟩ := exec_append ey
    have hg1 : g1.erase = s1 := by
      have := erase_exec (o := HistOps.concrete fp T) (ls := ls1) (s := Sys.init (h, []))
      rw [show (Sys.init (h, ([] : List (Write T)))).erase = Sys.init h from rfl, e1, f1] at this
      cases this; rfl
    have perm := C47_final h ls1 ls2 t g1 g2 f1 (fun r hr => hgone r.erase (by
      rw [← hg1]; exact List.mem_map.mpr ⟨r, hr, rfl⟩)) f2 hnew hout
    have := fine_exec (hist_fine W fun j => h.counts.getD j 0) (s := Sys.init (h, []))
      ⟨holds_init W, by simp [Sys.init], by simp [Sys.init]⟩ rfl (run_labels hp)
    rw [ey] at this
    rcases this with h1 | ⟨s', h1, h2⟩
    · cases h1
    · cases h1
      have hm := h2.1
      change HasCount g2.merged.1 v _
      rw [hm.wf.hasCount_iff hv, hm.counts, hm.cfg.lidx]
      rw [W.hasCount_iff hv] at hn
      have hw : writesOf (ls1 ++ ls2) = writesOf (ls1 ++ .start t :: ls2) := by
        clear perm e1 e2 f1 f2 ey hp
        induction ls1 with
        | nil => rfl
        | cons l ls ih => cases l <;> simp only [List.cons_append, writesOf, ih]
      rw [W.recordedFor_eq _ hv, ← hn]
      · congr 2
        unfold samplesOf Hist.hits
        exact (((perm.flatMap_right _).map _).sum_eq).symm
      · intro p hpm
        obtain ⟨w, hwm, hpw⟩ := List.mem_flatMap.mp hpm
        have := hp.1 w (hw ▸ hwm)
        exact samples_le W this p hpw

example : Reachable Fp.ideal .u8 demo ∧ PlainRun Fp.ideal demo (syncDemo ++ syncDemoEnd ++ [.drop 1, .dropSend 1] ++ .start false ::
      [.drain, .drainEnd, .count, .bump, .waitEnd, .finalEnd]) ∧
    (∃ s1 s2, exec (HistOps.concrete Fp.ideal .u8) (syncDemo ++ syncDemoEnd ++ [.drop 1, .dropSend 1])
        (Sys.init demo) = some (.ok s1) ∧
      exec (HistOps.concrete Fp.ideal .u8) (.start false :: [.drain, .drainEnd, .count, .bump, .waitEnd, .finalEnd])
        s1 = some (.ok s2) ∧
      (∀ r ∈ s1.recs, r.pc = .gone) ∧ s2.reader = .out ∧ s2.merged.countAt 5 = .ok 2 ∧ s2.merged.countAt 3 = .ok 2) ∧
    HasCount demo 5 0 ∧
    recordedFor demo ((writesOf (syncDemo ++ syncDemoEnd)).flatMap (Write.samples demo)) 5 = 2 := by
  refine ⟨.newWithBounds (by decide) demo_eq, ⟨?_, ?_⟩, execThen2 (by decide +kernel), Or.inl (by decide), by decide⟩
  · intro w hw
    simp [syncDemo, syncDemoEnd, writesOf] at hw
    rcases hw with rfl | rfl | rfl <;> exact ⟨by decide, by decide, Or.inr (by decide)⟩
  · intro i; simp [syncDemo, syncDemoEnd]

/-- `Histogram::<u8>::new_with_bounds(1, 7, 0)` -/
def demo7 : Hist .u8 := { demo with highestTrackable := 7, bucketCount := 3, counts := [0, 0, 0, 0] }

theorem demo7_eq : Hist.newWithBounds Fp.ideal .u8 1 7 0 = .ok (.ok demo7) := by decide

/-- one recorder adds a whole histogram, one adds with correction (its second class, 9, is out of reach), and both drop -/
def addDemo : List (Label (Write .u8)) :=
  [.recorder, .clone 0, .write 0 (.add demo3), .write 1 (.addCorrect demo3 2), .drop 0, .dropSend 0, .drop 1, .dropSend 1]

example : Reachable Fp.ideal .u8 demo7 ∧ PlainRun Fp.ideal demo7 (addDemo ++ .start false ::
      [.drain, .drain, .drainEnd, .count, .bump, .waitEnd, .finalEnd]) ∧
    (∃ s1 s2, exec (HistOps.concrete Fp.ideal .u8) addDemo (Sys.init demo7) = some (.ok s1) ∧
      exec (HistOps.concrete Fp.ideal .u8) (.start false :: [.drain, .drain, .drainEnd, .count, .bump, .waitEnd, .finalEnd])
        s1 = some (.ok s2) ∧
      (∀ r ∈ s1.recs, r.pc = .gone) ∧ s2.reader = .out ∧ s2.merged.countAt 5 = .ok 6 ∧ s2.merged.countAt 0 = .ok 1 ∧
        s2.merged.countAt 3 = .ok 3) ∧
    HasCount demo7 5 0 ∧ (writesOf addDemo).map (Write.samples demo7) = [[], [(0, 1), (7, 3), (5, 3), (3, 3)]] := by
  have hd : Reachable Fp.ideal .u8 demo3 := demo3_reachable
  refine ⟨.newWithBounds (by decide) demo7_eq, ⟨?_, ?_⟩, execThen2 (by decide +kernel), Or.inl (by decide), by decide⟩
  · intro w hw
    simp [addDemo, writesOf] at hw
    rcases hw with rfl | rfl <;> exact ⟨hd, Or.inr (by decide)⟩
  · intro i; simp [addDemo]

/-- The restriction in (3) and (4) is needed: if `u64::MAX` is recorded, the refresh that merges it panics, and the sample
is lost (it has been taken from the channel). -/
theorem C47_max_refuted : Reachable Fp.ideal .u8 demoTop ∧ exec (HistOps.concrete Fp.ideal .u8)
    [.recorder, .write 0 (.recordN U64MAX 1), .drop 0, .dropSend 0, .start false, .drain] (Sys.init demoTop) =
      some (.error .expect) :=
  ⟨demoTop_reachable, execPanics (by decide +kernel)⟩

/-! ## C50 -/

/-- C50: as long as no guard returned by `idle` is leaked, the recorder count equals the number of recorders that exist
and are not idle, whenever the lock protecting the count is free; and the count never underflows: neither `drop` nor
`idle` (the operations that decrement it) panics there. -/
theorem C50_count (h : H) (ls : List (Label W)) (s : Sys H) (hf : ∀ i, Label.forget i ∉ ls)
    (e : exec o ls (Sys.init h) = some (.ok s)) :
    (s.lock = none → s.recorders = (s.recs.filter (·.pc.active)).length) ∧
      ∀ i p, step o s (.drop i) ≠ some (.error p) ∧ step o s (.idle i) ≠ some (.error p) := by
  obtain ⟨hc, L⟩ := count_exec (notForget_of hf) e
  constructor
  · intro hl
    rw [hc, length_filter_eq_sumR]
    apply sumR_congr
    intro r hr
    obtain ⟨i, hi⟩ := List.getElem?_of_mem hr
    have := L.none_of_lock hl i r hi
    unfold countOf
    cases hp : r.pc <;> simp_all [Pc.holds, Pc.counted, Pc.active]
  · intro i p
    have key : ∀ r, s.recs[i]? = some r → r.pc = .ready → subU s.recorders 1 = .ok (s.recorders - 1) := by
      intro r hr hp
      have h1 := sumR_le_of_mem (f := countOf) (mem_of_get hr)
      have h2 : countOf r = 1 := by unfold countOf; rw [hp]; rfl
      unfold subU
      rw [if_pos (by omega)]
    constructor
    · intro e
      obtain ⟨r, hr, hp, e⟩ := at_some e
      dsimp only at e
      split at e
      · rw [key r hr hp] at e; cases e
      · cases e
    · intro e
      obtain ⟨r, hr, hp, e⟩ := at_some e
      dsimp only at e
      split at e
      · rw [key r hr hp] at e; cases e
      · cases e

example : ∃ s, exec (HistOps.concrete Fp.ideal .u8)
      (syncDemo ++ [.writeSend 1, .clone 1, .clone 1, .idle 2, .idlePhase 2]) (Sys.init demo) = some (.ok s) ∧
    (s.lock = none ∧ s.recorders = 2 ∧ s.recs.length = 4) :=
  execThen (by decide +kernel)

/-- C50 without the condition: leaking the guard (`std::mem::forget`, safe code) and dropping the recorder subtracts one
from a count of zero, which panics in debug builds. -/
theorem C50_forget_refuted : ∃ ls : List (Label (Write .u8)),
    exec (HistOps.concrete Fp.ideal .u8) ls (Sys.init demo) = some (.error .overflow) :=
  ⟨[.recorder, .idle 0, .idlePhase 0, .forget 0, .drop 0], execPanics (by decide +kernel)⟩

/-! ## C48 -/

/-- the recorder is idle -/
def Sync.Pc.isIdle (pc : Pc) : Bool := pc = .idle

/-- C48, under the condition that recorders do nothing but write while a refresh is in progress (`Undisturbed`, at every
step of the execution): when the refresh returns, every write made before it began is in the merged histogram, except
those held by recorders that were idle. -/
theorem C48_refresh_partial (h : H) (ls1 ls2 : List (Label W)) (t : Bool) (s1 s2 : Sys (H × List W))
    (e1 : exec o.traced ls1 (Sys.init (h, [])) = some (.ok s1))
    (e2 : exec o.traced (.start t :: ls2) s1 = some (.ok s2)) (hstart : ∀ t, Label.start t ∉ ls2)
    (hu : Always o.traced Undisturbed (ls1 ++ .start t :: ls2) (Sys.init (h, []))) (hout : s2.reader = .out) :
    (writesOf ls1).Subperm (s2.merged.2 ++ s1.localWrites Pc.isIdle) := by
  classical
  rw [List.subperm_iff_count]
  intro w
  obtain ⟨u1, u2⟩ := always_append hu e1
  have G1 := exec_inv (I := Good) (fun s l s' G hl st => good_step G hl st) good_init u1 e1
  obtain ⟨s1', e3, e4⟩ := exec_cons e2
  have st := step_ok e3
  have hl : s1.lock = none := u2.1
  have u3 := u2.2 s1' e3
  have G1' := good_step G1 u2.1 st
  have m := traced_measure (o := o) w
  have hcons := conserved e1 w
  have hgone := gone_exec m e1
  rw [count_chanWrites, count_localWrites] at hcons
  rw [List.count_append, count_localWrites]
  have hrd : s1.reader = .out := by cases st; assumption
  have hC : ∀ r ∈ s1.recs, OutOk s1.phase r := by
    have := G1.1
    unfold Calm at this
    rw [hrd] at this
    exact this
  have hR : ∀ r ∈ s1.recs, RestOk s1.phase r := fun r hr => (hC r hr).rest G1.2.1 hl hr
  have hsum : sumR (fun r => if r.pc.live then r.loc.2.count w else 0) s1.recs =
      sumR (own fun h => h.2.count w) s1.recs + sumR (fun r => if r.pc.isIdle then r.loc.2.count w else 0) s1.recs := by
    clear hcons hgone
    generalize s1.recs = l at hR
    induction l with
    | nil => rfl
    | cons x xs ih =>
      have ih := ih fun r hr => hR r (by simp [hr])
      have hx := hR x (by simp)
      simp only [sumR, List.map_cons, List.sum_cons] at ih ⊢
      have : (if x.pc.live then x.loc.2.count w else 0) =
          own (fun h => h.2.count w) x + (if x.pc.isIdle then x.loc.2.count w else 0) := by
        rcases hx with hx | hx | hx
        · simp [own, hx.1, Pc.live, Pc.isIdle, Pc.active]
        · simp [own, hx, Pc.live, Pc.isIdle, Pc.active]
        · simp [own, hx, Pc.live, Pc.isIdle, Pc.active]
      omega
  have K1 : Coming (fun h => h.2.count w) ((writesOf ls1).count w)
      (sumR (fun r => if r.pc.isIdle then r.loc.2.count w else 0) s1.recs) s1' := by
    cases st
    unfold Coming
    dsimp only
    omega
  have := exec_inv (P := fun s l => Undisturbed s l ∧ ∀ t, l ≠ .start t)
    (I := fun s => Coming (fun h => h.2.count w) ((writesOf ls1).count w)
      (sumR (fun r => if r.pc.isIdle then r.loc.2.count w else 0) s1.recs) s ∧ Good s)
    (fun s l s' I hl st => ⟨coming_step m I.1 I.2 hl.1 hl.2 st, good_step I.2 hl.1 st⟩)
    ⟨K1, G1'⟩ (always_and u3 (always_of_mem fun l hl _ t hc => hstart t (hc ▸ hl))) e4
  have := this.1
  unfold Coming at this
  rw [hout] at this
  exact this

/-- three recorders write, the third becomes idle -/
def syncFirst : List (Label (Write .u8)) :=
  [.recorder, .clone 0, .write 0 (.recordN 5 1), .write 1 (.recordN 3 2), .recorder, .write 2 (.recordN 9 1), .idle 2,
   .idlePhase 2]

/-- a refresh during which the active recorders write -/
def syncSecond : List (Label (Write .u8)) :=
  [.drainEnd, .count, .bump, .write 1 (.recordN 7 1), .writeSend 1, .write 0 (.recordN 1 1), .recv, .writeSend 0, .recv,
   .waitEnd, .finalEnd]

example : (∃ s1 s2, exec (HistOps.concrete Fp.ideal .u8).traced syncFirst (Sys.init (demo, [])) = some (.ok s1) ∧
      exec (HistOps.concrete Fp.ideal .u8).traced (.start false :: syncSecond) s1 = some (.ok s2) ∧
      s2.reader = .out ∧ s2.merged.2.length = 4 ∧ (s1.localWrites Pc.isIdle).length = 1) ∧
    (∀ t, Label.start t ∉ syncSecond) ∧
    Always (HistOps.concrete Fp.ideal .u8).traced Undisturbed (syncFirst ++ .start false :: syncSecond)
      (Sys.init (demo, [])) :=
  ⟨execThen2 (by decide +kernel), by intro t; simp [syncSecond], always_of_B undisturbed_of_B (by decide +kernel)⟩

/-- C48 without the condition fails even in a program without threads: a sample is recorded, its recorder becomes idle,
and the following refresh does not see the sample. -/
theorem C48_idle_refuted : ∃ s, exec (HistOps.concrete Fp.ideal .u8)
      [.recorder, .write 0 (.recordN 5 1), .idle 0, .idlePhase 0,
       .start false, .drainEnd, .count, .bump, .waitEnd, .finalEnd] (Sys.init demo) = some (.ok s) ∧
    (s.reader = .out ∧ s.merged.countAt 5 = .ok 0) :=
  execThen (by decide +kernel)

/-- C48 without the condition: recorder 1 has written before the refresh; recorder 0 is dropped between the draining of
the channel and the reading of the recorder count; its last histogram is then taken for the answer of recorder 1, and the
refresh returns without the sample. -/
theorem C48_drop_refuted : ∃ s, exec (HistOps.concrete Fp.ideal .u8)
      [.recorder, .recorder, .write 1 (.recordN 5 1),
       .start false, .drainEnd, .drop 0, .dropSend 0, .count, .bump, .recv, .waitEnd, .finalEnd]
      (Sys.init demo) = some (.ok s) ∧
    (s.reader = .out ∧ s.merged.countAt 5 = .ok 0) :=
  execThen (by decide +kernel)

/-- C48 without the condition: recorder 0 answers the refresh and is then dropped, which sends a second histogram, taken
for the answer of recorder 1. -/
theorem C48_drop_after_write_refuted : ∃ s, exec (HistOps.concrete Fp.ideal .u8)
      [.recorder, .recorder, .write 1 (.recordN 5 1),
       .start false, .drainEnd, .count, .bump, .write 0 (.recordN 3 1), .writeSend 0, .drop 0, .dropSend 0,
       .recv, .recv, .waitEnd, .finalEnd]
      (Sys.init demo) = some (.ok s) ∧
    (s.reader = .out ∧ s.merged.countAt 5 = .ok 0) :=
  execThen (by decide +kernel)

/-- C48 without the condition, with a fixed set of recorders that do nothing but write: after a refresh that timed out
recorder 0 is behind by a phase; its late answer arrives during the next refresh and, together with its proper one, is
taken for the answer of recorder 1. -/
theorem C48_timeout_refuted : ∃ s, exec (HistOps.concrete Fp.ideal .u8)
      [.recorder, .recorder, .start true, .drainEnd, .count, .bump, .timeout, .finalEnd, .write 1 (.recordN 1 1),
       .writeSend 1, .write 1 (.recordN 5 1),
       .start false, .drain, .drainEnd, .write 0 (.recordN 3 1), .writeSend 0, .count, .bump, .write 0 (.recordN 3 1),
       .writeSend 0, .recv, .recv, .waitEnd, .finalEnd]
      (Sys.init demo) = some (.ok s) ∧
    (s.reader = .out ∧ s.merged.countAt 5 = .ok 0) :=
  execThen (by decide +kernel)

/-- C48 without the condition: the clone of a recorder that has not answered yet answers as well. -/
theorem C48_clone_refuted : ∃ s, exec (HistOps.concrete Fp.ideal .u8)
      [.recorder, .recorder, .write 1 (.recordN 5 1),
       .start false, .drainEnd, .count, .bump, .clone 0, .write 0 (.recordN 3 1), .writeSend 0, .write 2 (.recordN 3 1),
       .writeSend 2, .recv, .recv, .waitEnd, .finalEnd]
      (Sys.init demo) = some (.ok s) ∧
    (s.reader = .out ∧ s.merged.countAt 5 = .ok 0) :=
  execThen (by decide +kernel)

/-! ## C49 -/

/-- a waiting refresh can go on to its end when all recorders have answered -/
theorem progress_of {ls2 : List (Label W)} {s1 s2 : Sys H} {t : Bool} {n k : Nat} (G : GapInv s1)
    (P : ∀ r ∈ s1.recs, PhaseOk s1.phase r)
    (e2 : exec o (.bump :: ls2) s1 = some (.ok s2)) (hb : Label.bump ∉ ls2) (hf : ∀ i, Label.forget i ∉ ls2)
    (hw : s2.reader = .wait t n k)
    (hmoved : ∀ i r, s1.recs[i]? = some r → r.pc.active = true →
      (∃ w, Label.write i w ∈ ls2) ∨ Label.drop i ∈ ls2 ∨ Label.idle i ∈ ls2)
    (hrest : ∀ r ∈ s2.recs, r.pc.atRest = true) : Finishes o s2 := by
  obtain ⟨s1', e3, e4⟩ := exec_cons e2
  have st := step_ok e3
  have hr1 : s1'.recs = s1.recs := by cases st; rfl
  have K := exec_inv (P := fun _ l => l ≠ .bump) (I := WaitInv s1.recs.length) (fun s l s' I hl st => wait_step I hl st)
    (wait_bump G P st) (always_of_mem fun l hl _ hc => hb (hc ▸ hl)) e4
  have ans : ∀ i l, l ∈ ls2 → ((∃ w, l = .write i w) ∨ l = .drop i ∨ l = .idle i) → Answered i s2 ∧ i < s2.recs.length := by
    intro i l hl hk
    obtain ⟨a, b, rfl⟩ := List.append_of_mem hl
    obtain ⟨u, ea, eb⟩ := exec_append e4
    obtain ⟨v, ev, eb⟩ := exec_cons eb
    refine exec_inv (P := fun s l => NotForget s l ∧ l ≠ .bump) (I := fun s => Answered i s ∧ i < s.recs.length)
      (fun s l s' A hl st => answered_step A hl st) (answered_by hk (step_ok ev)) ?_ eb
    exact always_and (notForget_of fun j hj => hf j (by simp [hj])) (always_of_mem fun l' hl' _ hc => hb (by
      subst hc; simp [hl']))
  have nb : ∀ l ∈ ls2, ∀ s : Sys H, l ≠ .bump := fun l hl _ hc => hb (hc ▸ hl)
  have done : ∀ i, i < s1.recs.length → Answered i s2 := by
    intro i hi
    have hg : s1.recs[i]? = some s1.recs[i] := List.getElem?_eq_getElem hi
    by_cases ha : s1.recs[i].pc.active = true
    · rcases hmoved i _ hg ha with ⟨w, hl⟩ | hl | hl
      · exact (ans i _ hl (Or.inl ⟨w, rfl⟩)).1
      · exact (ans i _ hl (Or.inr (Or.inl rfl))).1
      · exact (ans i _ hl (Or.inr (Or.inr rfl))).1
    · refine (exec_inv (P := fun s l => NotForget s l ∧ l ≠ .bump) (I := fun s => Answered i s ∧ i < s.recs.length)
        (fun s l s' A hl st => answered_step A hl st) ⟨fun r hr => ?_, by rw [hr1]; exact hi⟩
        (always_and (notForget_of hf) (always_of_mem nb)) e4).1
      rw [hr1, hg] at hr
      cases hr
      exact ⟨fun h => absurd (by rw [h]; rfl) ha, fun p h => absurd (by rw [h]; rfl) ha⟩
  have zero : sumR (owes s2.phase) (s2.recs.take s1.recs.length) = 0 := by
    have : sumR (owes s2.phase) (s2.recs.take s1.recs.length) = sumR (fun _ => 0) (s2.recs.take s1.recs.length) := by
      apply sumR_congr
      intro r hr
      obtain ⟨i, hi⟩ := List.getElem?_of_mem hr
      have hlt : i < s1.recs.length := by
        by_contra hc
        rw [List.getElem?_take_eq_none (by omega)] at hi; cases hi
      rw [List.getElem?_take_of_lt hlt] at hi
      have h1 := hrest r (mem_of_get hi)
      have h2 := done i hlt r hi
      unfold owes
      cases hp : r.pc with
      | ready => simp [h2.1 hp]
      | idle | gone => rfl
      | send | dropSend | idlePhase | idleSend | wakePhase => simp [hp, Pc.atRest] at h1
    rw [this]
    simp [sumR]
  exact wait_finishes hw (by have := K.2 t n k hw; omega)

/-- C49, under the conditions that no recorder starts to go idle between the reader's reading of the recorder count and
its phase change, and that no guard is leaked: consider a refresh that has changed the phase and waits. If since then
every recorder active at the phase change has made a write, been idled or been dropped, and no call is in progress, the
refresh can go on to its end without any recorder doing anything more. -/
theorem C49_progress_partial (h : H) (ls1 ls2 : List (Label W)) (s1 s2 : Sys H) (t : Bool) (n k : Nat)
    (e1 : exec o ls1 (Sys.init h) = some (.ok s1)) (hgap : Always o NoIdleInGap ls1 (Sys.init h))
    (e2 : exec o (.bump :: ls2) s1 = some (.ok s2)) (hb : Label.bump ∉ ls2) (hf : ∀ i, Label.forget i ∉ ls2)
    (hw : s2.reader = .wait t n k)
    (hmoved : ∀ i r, s1.recs[i]? = some r → r.pc.active = true →
      (∃ w, Label.write i w ∈ ls2) ∨ Label.drop i ∈ ls2 ∨ Label.idle i ∈ ls2)
    (hrest : ∀ r ∈ s2.recs, r.pc.atRest = true) : Finishes o s2 := by
  have I1 := exec_inv (P := NoIdleInGap)
    (I := fun s => GapInv s ∧ LockInv s ∧ s.recorders ≤ sumR countOf s.recs ∧ ∀ r ∈ s.recs, PhaseOk s.phase r)
    (fun s l s' I hl st => ⟨gap_step I.1 I.2.1 I.2.2.1 hl st, lock_step I.2.1 st, count_le_step I.2.2.1 st,
      phase_step I.2.2.2 st⟩)
    ⟨(fun t n hn => by simp [Sys.init] at hn), lock_init, Nat.le_refl _, by simp [Sys.init]⟩ hgap e1
  exact progress_of I1.1 I1.2.2.2 e2 hb hf hw hmoved hrest

/-- C49 with the real histograms: if the writes stay clear of `u64::MAX`, the refresh returns. -/
theorem C49_returns_partial {T : CounterTy} {fp : Fp} {h : Hist T} (R : Reachable fp T h) (ls1 ls2 : List (Label (Write T)))
    (s1 s2 : Sys (Hist T)) (t : Bool) (n k : Nat) (hp : SafeRun fp h (ls1 ++ .bump :: ls2))
    (e1 : exec (HistOps.concrete fp T) ls1 (Sys.init h) = some (.ok s1))
    (hgap : Always (HistOps.concrete fp T) NoIdleInGap ls1 (Sys.init h))
    (e2 : exec (HistOps.concrete fp T) (.bump :: ls2) s1 = some (.ok s2)) (hb : Label.bump ∉ ls2)
    (hw : s2.reader = .wait t n k)
    (hmoved : ∀ i r, s1.recs[i]? = some r → r.pc.active = true →
      (∃ w, Label.write i w ∈ ls2) ∨ Label.drop i ∈ ls2 ∨ Label.idle i ∈ ls2)
    (hrest : ∀ r ∈ s2.recs, r.pc.atRest = true) :
    ∃ ls s3, (∀ l ∈ ls, l.reader = true) ∧ exec (HistOps.concrete fp T) ls s2 = some (.ok s3) ∧ s3.reader = .out := by
  obtain ⟨ls, hl, h1⟩ := C49_progress_partial h ls1 ls2 s1 s2 t n k e1 hgap e2 hb
    (fun i hi => hp.2 i (by simp [hi])) hw hmoved hrest
  rcases h1 with ⟨s3, h1, h2⟩ | ⟨p, h1⟩
  · exact ⟨ls, s3, hl, h1, h2⟩
  · exfalso
    refine C47_no_panic_partial R ((ls1 ++ .bump :: ls2) ++ ls) ⟨?_, ?_⟩ p
      (exec_trans (exec_trans e1 e2) h1)
    · have hz : writesOf ((ls1 ++ .bump :: ls2) ++ ls) = writesOf (ls1 ++ .bump :: ls2) := by
        clear hp e1 e2 hmoved hgap h1
        generalize ls1 ++ .bump :: ls2 = a
        induction a with
        | nil =>
          induction ls with
          | nil => rfl
          | cons x xs ih =>
            have hx := hl x (by simp)
            have ih := ih fun l h => hl l (by simp [h])
            cases x <;> first | (cases hx; done) | exact ih
        | cons l ls ih => cases l <;> simp only [List.cons_append, writesOf, ih]
      rw [hz]; exact hp.1
    · intro i hi
      rcases List.mem_append.mp hi with hi | hi
      · exact hp.2 i hi
      · have := hl _ hi; cases this

/-- a check implying `NoIdleInGap` -/
def noIdleB (s : Sys H) : Label W → Bool
  | .idle _ =>
    match s.reader with
    | .counted _ _ => false
    | _ => true
  | _ => true

theorem noIdle_of_B (s : Sys H) (l : Label W) (h : noIdleB s l = true) : NoIdleInGap s l := by
  cases l with
  | idle i =>
    intro t n hc
    simp only [noIdleB, hc] at h
    cases h
  | _ => trivial

/-- four recorders, one idle, and a refresh up to its reading of the recorder count -/
def waitFirst : List (Label (Write .u8)) :=
  [.recorder, .clone 0, .clone 0, .clone 1, .idle 3, .idlePhase 3, .start false, .drainEnd, .count]

/-- the refresh waits; the active recorders write, are idled or dropped -/
def waitSecond : List (Label (Write .u8)) :=
  [.write 0 (.recordN 5 1), .writeSend 0, .recv, .idle 1, .idlePhase 1, .idleSend 1, .drop 2, .dropSend 2]

example : (∃ s1 s2, exec (HistOps.concrete Fp.ideal .u8) waitFirst (Sys.init demo) = some (.ok s1) ∧
      exec (HistOps.concrete Fp.ideal .u8) (.bump :: waitSecond) s1 = some (.ok s2) ∧
      s2.reader = .wait false 3 1 ∧ (s1.recs.map (·.pc)) = [.ready, .ready, .ready, .idle] ∧
      ∀ r ∈ s2.recs, r.pc.atRest = true) ∧
    Always (HistOps.concrete Fp.ideal .u8) NoIdleInGap waitFirst (Sys.init demo) ∧
    Label.bump ∉ waitSecond ∧ (∀ i, Label.forget i ∉ waitSecond) ∧ Label.write 0 (.recordN 5 1) ∈ waitSecond ∧
    Label.idle 1 ∈ waitSecond ∧ Label.drop 2 ∈ waitSecond :=
  ⟨execThen2 (by decide +kernel), always_of_B noIdle_of_B (by decide +kernel), by simp [waitSecond],
    by intro i; simp [waitSecond], by simp [waitSecond], by simp [waitSecond], by simp [waitSecond]⟩

/-- C49 without the first condition: a recorder that goes idle between the reader's reading of the count and its phase
change is counted but sends nothing. The refresh waits although no recorder is active, and no step of any kind changes that
until the recorder is woken or cloned (or its guard leaked): reader and recorder have no other step. -/
theorem C49_refuted : ∃ s, exec (HistOps.concrete Fp.ideal .u8)
      [.recorder, .start false, .drainEnd, .count, .idle 0, .idlePhase 0, .bump] (Sys.init demo) = some (.ok s) ∧
    s.reader = .wait false 1 0 ∧ s.recorders = 0 ∧ s.recs.map (·.pc) = [.idle] ∧
    ∀ l, step (HistOps.concrete Fp.ideal .u8) s l ≠ none → l = .wake 0 ∨ l = .clone 0 ∨ l = .forget 0 := by
  refine ⟨{ merged := demo, chan := [], recorders := 0, phase := 1, lock := none
            recs := [{ loc := demo, lastPhase := 0, pc := .idle }], reader := .wait false 1 0 }, ?_, rfl, rfl, rfl, ?_⟩
  · rfl
  · intro l h
    have at0 : ∀ (i : Nat) (pc : Pc) (k : Rec (Hist .u8) → Option (M (Sys (Hist .u8)))), (i = 0 → pc ≠ .idle) →
        Sys.at ({ merged := demo, chan := [], recorders := 0, phase := 1, lock := none
                  recs := [{ loc := demo, lastPhase := 0, pc := .idle }], reader := .wait false 1 0 } : Sys (Hist .u8))
          i pc k = none := by
      intro i pc k hk
      unfold Sys.at
      cases i with
      | zero => simp [Ne.symm (hk rfl)]
      | succ i => rfl
    cases l with
    | write i w => exact absurd (at0 i .ready _ (by simp)) h
    | drop i => exact absurd (at0 i .ready _ (by simp)) h
    | dropSend i => exact absurd (at0 i .dropSend _ (by simp)) h
    | idle i => exact absurd (at0 i .ready _ (by simp)) h
    | idlePhase i => exact absurd (at0 i .idlePhase _ (by simp)) h
    | wakePhase i => exact absurd (at0 i .wakePhase _ (by simp)) h
    | wake i =>
      cases i with
      | zero => simp
      | succ i => exact absurd rfl h
    | forget i =>
      cases i with
      | zero => simp
      | succ i => exact absurd rfl h
    | clone i =>
      cases i with
      | zero => simp
      | succ i => exact absurd rfl h
    | writeSend i => cases i <;> exact absurd rfl h
    | idleSend i => cases i <;> exact absurd rfl h
    | _ => exact absurd rfl h

end Hdr
