import Verif.Proofs.SyncPanicHist
import Verif.Props.Sync

/-!
# Concurrent recording when panics are caught: C93
-/

namespace Hdr

open Hdr.Sync

variable {H W : Type} {o : HistOps H W}

theorem pexecThen {ls : List (Label W)} {x0 : PSys H} {P : PSys H → Prop} [DecidablePred P]
    (h : (match pexec o ls x0 with
      | some x => decide (P x)
      | none => false) = true) : ∃ x, pexec o ls x0 = some x ∧ P x := by
  split at h
  · rename_i x e; exact ⟨x, e, of_decide_eq_true h⟩
  · cases h

/-- two recorders; the first records `u64::MAX`, the second 5; both are dropped. The first refresh panics, and the second
returns. -/
def fatalDemo : List (Label (Write .u8)) :=
  [.recorder, .clone 0, .write 0 (.recordN U64MAX 1), .write 1 (.recordN 5 1), .drop 0, .dropSend 0, .drop 1, .dropSend 1,
   .start false, .drain, .start false, .drain, .drainEnd, .count, .bump, .waitEnd, .finalEnd]

/-- a guard is leaked, the recorder dropped, and a refresh tried -/
def poisonDemo : List (Label (Write .u8)) :=
  [.recorder, .recorder, .write 1 (.recordN 5 1), .idle 0, .idlePhase 0, .forget 0, .drop 0, .dropSend 0, .drop 1,
   .start false, .drain, .drainEnd, .count]

/-- The lists of writes do not influence the execution. -/
theorem C93_ghost (ls : List (Label W)) (x : PSys (H × List W)) :
    pexec o ls x.erase = (pexec o.traced ls x).map PSys.erase := erase_pexec

/-- C93 (1): whatever the interleaving, and whichever panics are caught, every write made so far is in exactly one place:
in the merged histogram, in the channel, in the local histogram of one live recorder, or among those lost. -/
theorem C93_exactly_once (h : H) (ls : List (Label W)) (x : PSys (H × List W))
    (e : pexec o.traced ls (PSys.init (h, [])) = some x) :
    (x.sys.merged.2 ++ x.sys.chanWrites ++ x.sys.localWrites Pc.live ++ x.lostWrites).Perm (writesOf ls) := by
  classical
  rw [List.perm_iff_count]
  intro w
  rw [List.count_append, List.count_append, List.count_append]
  exact pconserved e w

example : ∃ x, pexec (HistOps.concrete Fp.ideal .u8).traced fatalDemo (PSys.init (demoTop, [])) = some x ∧
    (x.sys.merged.2.length = 1 ∧ x.sys.chanWrites.length = 0 ∧ (x.sys.localWrites Pc.live).length = 0 ∧
      x.lostWrites.length = 1 ∧ (writesOf fatalDemo).length = 2 ∧ x.sys.reader = .out) :=
  pexecThen (by decide +kernel)

section
variable {T : CounterTy} {fp : Fp}

/-- C93 (2): the panics of the real code. With writes of the right types, a step panics only if it is a merge of the
refresh, or a decrement of the recorder count that is already zero. A merge panics exactly if the histogram does not
resize automatically and the histogram received is not empty and has `max() == u64::MAX`. -/
theorem C93_panics {h : Hist T} (R : Reachable fp T h) (ls : List (Label (Write T))) (x : PSys (Hist T))
    (ht : TypedLabels fp ls) (e : pexec (HistOps.concrete fp T) ls (PSys.init h) = some x) :
    (∀ l p, TypedLabels fp [l] → step (HistOps.concrete fp T) x.sys l = some (.error p) →
      x.sys.reader.takes l ∨ x.sys.recorders = 0 ∧ ∃ i, l = .drop i ∨ l = .idle i) ∧
    (∀ l g rest, x.sys.reader.takes l → x.sys.chan = g :: rest →
      ((∃ p, step (HistOps.concrete fp T) x.sys l = some (.error p)) ↔
        h.isAutoResize = false ∧ g.len ≠ 0 ∧ g.max = .ok U64MAX)) := by
  have A := hist_pall R.wf ht e
  refine ⟨fun l p hl he => ?_, fun l g rest htk hc => ?_⟩
  · rcases mild_error (hist_mild R.wf) A.1 (typed_ok hl l (by simp)) he with ⟨h1, -⟩ | ⟨h1, i, r, h2, -⟩
    · exact Or.inl h1
    · exact Or.inr ⟨h1, i, h2⟩
  · obtain ⟨next, hs⟩ := takes_step (o := HistOps.concrete fp T) htk
    have Bg : Base fp h false g := A.1.2.1 g (by rw [hc]; simp)
    have hmax : g.max = .ok U64MAX ↔ g.lmax = U64MAX := by
      rw [Bg.wf.max_eq]
      exact ⟨fun h => Except.ok.inj h, fun h => by rw [h]⟩
    rw [hs, hmax]
    simp only [receive, hc]
    rcases mild_add A.1.1 Bg with ⟨y, ey, -, hn⟩ | ⟨p, ep, hf⟩
    · constructor
      · rintro ⟨p, hp⟩
        simp only [HistOps.concrete, ey] at hp
        cases hp
      · exact fun hf => absurd hf hn
    · exact ⟨fun _ => hf, fun _ => ⟨p, by simp only [HistOps.concrete, ep]; rfl⟩⟩

/-- C93 (3): what failed merges lose is histograms with `max() == u64::MAX`, and none if the histogram resizes
automatically. -/
theorem C93_lost {h : Hist T} (R : Reachable fp T h) (ls : List (Label (Write T))) (x : PSys (Hist T))
    (ht : TypedLabels fp ls) (e : pexec (HistOps.concrete fp T) ls (PSys.init h) = some x) :
    ∀ g ∈ x.lost, h.isAutoResize = false ∧ g.len ≠ 0 ∧ g.max = .ok U64MAX := by
  have A := hist_pall R.wf ht e
  intro g hg
  obtain ⟨B, h1, h2, h3⟩ := A.2 g hg
  exact ⟨h1, h2, by rw [B.wf.max_eq, h3]⟩

end

example : ∃ x, pexec (HistOps.concrete Fp.ideal .u8) fatalDemo (PSys.init demoTop) = some x ∧
    (x.lost = [demoTop1] ∧ x.sys.merged.countAt 5 = .ok 1 ∧ x.sys.merged.len = 1) :=
  pexecThen (by decide +kernel)

/-- C93 (4): as long as no guard returned by `idle` is leaked, caught panics leave no lock held or poisoned and the recorder
count right (whenever the lock is free it is the number of recorders that exist and are not idle), and what is lost is what
failed merges have dropped: no dropped recorder has kept anything. -/
theorem C93_sound (h : H) (ls : List (Label W)) (x : PSys (H × List W)) (hf : ∀ i, Label.forget i ∉ ls)
    (e : pexec o.traced ls (PSys.init (h, [])) = some x) :
    x.poisoned = false ∧ (x.sys.lock = none → x.sys.recorders = (x.sys.recs.filter (·.pc.active)).length) ∧
      x.lostWrites = x.lost.flatMap Prod.snd := by
  obtain ⟨hp, N, L⟩ := sound_exec hf e
  refine ⟨hp, fun hl => ?_, ?_⟩
  · rw [N, length_filter_eq_sumR]
    apply sumR_congr
    intro r hr
    obtain ⟨i, hi⟩ := List.getElem?_of_mem hr
    have := L.none_of_lock hl i r hi
    unfold countOf
    cases hp : r.pc <;> simp_all [Pc.holds, Pc.counted, Pc.active]
  · classical
    unfold PSys.lostWrites
    have : x.sys.localWrites (fun pc => !pc.live) = [] := by
      unfold Sys.localWrites
      rw [List.flatMap_eq_nil_iff]
      intro r hr
      rw [List.mem_filter] at hr
      have hg : r.pc = .gone := by
        have := hr.2
        cases hp : r.pc <;> simp_all [Pc.live]
      rw [List.eq_nil_iff_forall_not_mem]
      intro w hw
      have := pgone_exec (traced_measure (o := o) w) hf e r hr.1 hg
      rw [List.count_eq_zero] at this
      exact this hw
    rw [this, List.append_nil]

example : ∃ x, pexec (HistOps.concrete Fp.ideal .u8) (fatalDemo.take 10) (PSys.init demoTop) = some x ∧
    (x.poisoned = false ∧ x.sys.lock = none ∧ x.sys.reader = .out ∧ x.lost.length = 1 ∧ x.sys.chan.length = 1) :=
  pexecThen (by decide +kernel)

/-- C93 (5): the `SyncHistogram` stays usable. After any execution with caught panics and no leaked guard that has left no
refresh running, a refresh begun later can complete as in C49: if no recorder starts to go idle between its reading of the
count and its phase change, and since the phase change every recorder active then has made a write, been idled or been
dropped, and no call is in progress, it can go on to its end without any recorder doing anything more. -/
theorem C93_progress (h : H) (ls0 ls1 ls2 : List (Label W)) (x : PSys H) (s1 s2 : Sys H) (t : Bool) (n k : Nat)
    (hf0 : ∀ i, Label.forget i ∉ ls0) (e0 : pexec o ls0 (PSys.init h) = some x) (ho : x.sys.reader = .out)
    (e1 : exec o ls1 x.sys = some (.ok s1)) (hgap : Always o NoIdleInGap ls1 x.sys)
    (e2 : exec o (.bump :: ls2) s1 = some (.ok s2)) (hb : Label.bump ∉ ls2) (hf : ∀ i, Label.forget i ∉ ls2)
    (hw : s2.reader = .wait t n k)
    (hmoved : ∀ i r, s1.recs[i]? = some r → r.pc.active = true →
      (∃ w, Label.write i w ∈ ls2) ∨ Label.drop i ∈ ls2 ∨ Label.idle i ∈ ls2)
    (hrest : ∀ r ∈ s2.recs, r.pc.atRest = true) : Finishes o s2 := by
  obtain ⟨-, N, L⟩ := sound_exec hf0 e0
  have P : ∀ r ∈ x.sys.recs, PhaseOk x.sys.phase r := by
    refine pexec_inv (P := fun _ => True) (I := fun x : PSys H => ∀ r ∈ x.sys.recs, PhaseOk x.sys.phase r)
      (fun x l x' I _ st => ?_) (by simp [PSys.init, Sys.init]) (fun _ _ => trivial) e0
    have gone : ∀ (i : Nat) (r : Rec H), x.sys.recs[i]? = some r → ∀ pc, (pc = .gone ∨ pc = .ready) →
        ∀ r' ∈ x.sys.recs.set i { r with pc := pc }, PhaseOk x.sys.phase r' := by
      intro i r hr pc hpc
      have := I r (mem_of_get hr)
      refine all_set I ⟨this.1, fun p h => ?_, fun p h => ?_⟩
      · rcases hpc with rfl | rfl <;> cases h
      · rcases hpc with rfl | rfl <;> cases h
    cases st with
    | ok l s _ h => exact phase_step I (step_ok h)
    | merge => exact I
    | drop i r hr _ _ _ => exact gone i r hr _ (Or.inl rfl)
    | idle => exact I
    | stay => exact I
    | lateDrop i r _ _ hr _ => exact gone i r hr _ (Or.inl rfl)
    | lateWake i r _ _ hr _ => exact gone i r hr _ (Or.inr rfl)
    | lateCount => exact I
  have I1 := exec_inv (P := NoIdleInGap)
    (I := fun s => GapInv s ∧ LockInv s ∧ s.recorders ≤ sumR countOf s.recs ∧ ∀ r ∈ s.recs, PhaseOk s.phase r)
    (fun s l s' I hl st => ⟨gap_step I.1 I.2.1 I.2.2.1 hl st, lock_step I.2.1 st, count_le_step I.2.2.1 st,
      phase_step I.2.2.2 st⟩)
    ⟨(fun t n hn => by rw [ho] at hn; cases hn), L, N.le, P⟩ hgap e1
  exact progress_of I1.1 I1.2.2.2 e2 hb hf hw hmoved hrest

/-- a third recorder is made after the panic, and the next refresh waits for it; it writes, and the refresh returns -/
example : ∃ x, pexec (HistOps.concrete Fp.ideal .u8)
      (fatalDemo.take 10 ++ [.recorder, .start false, .drain, .drainEnd, .count, .bump, .write 2 (.recordN 7 1),
        .writeSend 2]) (PSys.init demoTop) = some x ∧
    (x.sys.reader = .wait false 1 0 ∧ x.sys.chan.length = 1 ∧ ∀ r ∈ x.sys.recs, r.pc.atRest = true) :=
  pexecThen (by decide +kernel)

/-- C93 (6): a poisoned mutex stays so, and no refresh begun then ever returns: the phase and the recorder count never
change again, and no recorder is ever made. -/
theorem C93_poisoned (ls : List (Label W)) (x x' : PSys H) (hp : x.poisoned = true) (ho : x.sys.reader = .out)
    (e : pexec o ls x = some x') :
    x'.poisoned = true ∧ Label.finalEnd ∉ ls ∧ x'.sys.phase = x.sys.phase ∧ x'.sys.recorders = x.sys.recorders ∧
      x'.sys.recs.length = x.sys.recs.length := by
  suffices key : ∀ (ls : List (Label W)) (x x' : PSys H), x.poisoned = true →
      (x.sys.reader = .out ∨ (∃ t, x.sys.reader = .drain t) ∨ ∃ t, x.sys.reader = .count t) →
      pexec o ls x = some x' → x'.poisoned = true ∧ Label.finalEnd ∉ ls ∧ x'.sys.phase = x.sys.phase ∧
        x'.sys.recorders = x.sys.recorders ∧ x'.sys.recs.length = x.sys.recs.length from key ls x x' hp (Or.inl ho) e
  intro ls
  induction ls with
  | nil => intro x x' hp _ e; cases e; exact ⟨hp, by simp, rfl, rfl, rfl⟩
  | cons l ls ih =>
    intro x x' hp ho e
    obtain ⟨y, e1, e2⟩ := pexec_cons e
    have one : y.poisoned = true ∧ (y.sys.reader = .out ∨ (∃ t, y.sys.reader = .drain t) ∨ ∃ t, y.sys.reader = .count t) ∧
        l ≠ .finalEnd ∧ y.sys.phase = x.sys.phase ∧ y.sys.recorders = x.sys.recorders ∧
        y.sys.recs.length = x.sys.recs.length := by
      cases pstep_rel e1 with
      | ok l s hn h =>
        have hl : l.locks = false := by
          cases hc : l.locks with
          | true => exact absurd ⟨hp, hc⟩ hn
          | false => rfl
        cases step_ok h with
        | recorder | clone | drop | idle | wake | count => cases hl
        | write | writeSend | dropSend | idlePhaseNew | idlePhaseOld | idleSend | wakePhase | forget =>
          exact ⟨hp, ho, by simp, rfl, rfl, by simp [Sys.put]⟩
        | start t h1 => exact ⟨hp, Or.inr (Or.inl ⟨t, rfl⟩), by simp, rfl, rfl, rfl⟩
        | drain t _ _ _ h1 => exact ⟨hp, Or.inr (Or.inl ⟨t, rfl⟩), by simp, rfl, rfl, rfl⟩
        | drainEnd t h1 => exact ⟨hp, Or.inr (Or.inr ⟨t, rfl⟩), by simp, rfl, rfl, rfl⟩
        | bump t n h1 => rcases ho with h | ⟨_, h⟩ | ⟨_, h⟩ <;> rw [h] at h1 <;> cases h1
        | recv t n k _ _ _ h1 => rcases ho with h | ⟨_, h⟩ | ⟨_, h⟩ <;> rw [h] at h1 <;> cases h1
        | timeout n k h1 => rcases ho with h | ⟨_, h⟩ | ⟨_, h⟩ <;> rw [h] at h1 <;> cases h1
        | waitEnd t n k h1 => rcases ho with h | ⟨_, h⟩ | ⟨_, h⟩ <;> rw [h] at h1 <;> cases h1
        | finalRecv _ _ _ h1 => rcases ho with h | ⟨_, h⟩ | ⟨_, h⟩ <;> rw [h] at h1 <;> cases h1
        | finalEnd h1 => rcases ho with h | ⟨_, h⟩ | ⟨_, h⟩ <;> rw [h] at h1 <;> cases h1
      | merge l p h rest hl _ _ =>
        exact ⟨hp, Or.inl rfl, (by rintro rfl; cases hl), rfl, rfl, rfl⟩
      | drop => exact ⟨rfl, ho, by simp, rfl, rfl, by simp [Sys.put]⟩
      | idle => exact ⟨rfl, ho, by simp, rfl, rfl, rfl⟩
      | stay l _ hl _ => exact ⟨hp, ho, (by rintro rfl; cases hl), rfl, rfl, rfl⟩
      | lateDrop => exact ⟨hp, ho, by simp, rfl, rfl, by simp [Sys.put]⟩
      | lateWake => exact ⟨hp, ho, by simp, rfl, rfl, by simp [Sys.put]⟩
      | lateCount => exact ⟨hp, Or.inl rfl, by simp, rfl, rfl, rfl⟩
    obtain ⟨a1, a2, a3, a4, a5, a6⟩ := one
    obtain ⟨b1, b2, b3, b4, b5⟩ := ih y x' a1 a2 e2
    refine ⟨b1, ?_, b3.trans a4, b4.trans a5, b5.trans a6⟩
    intro hm
    rcases List.mem_cons.mp hm with h | h
    · exact a3 h.symm
    · exact b2 h

/-- The condition in (4) is needed, and (6) can happen: a guard is leaked and its recorder dropped; then the drop of the
other recorder panics with the lock held. Its write is lost, and the next refresh panics. -/
theorem C93_poison_refuted : ∃ x, pexec (HistOps.concrete Fp.ideal .u8).traced poisonDemo (PSys.init (demo, [])) = some x ∧
    (x.poisoned = true ∧ x.sys.reader = .out ∧ x.lostWrites.length = 1 ∧ x.sys.merged.2.length = 0 ∧
      x.sys.recs.map (·.pc) = [.gone, .gone]) :=
  pexecThen (by decide +kernel)

end Hdr
