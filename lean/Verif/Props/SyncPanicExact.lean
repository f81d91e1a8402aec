import Verif.Props.SyncPanic
import Verif.Props.SyncExact

/-!
# What a refresh misses when panics are caught: C93 (7)–(9)
-/

namespace Hdr.Sync

variable {H W : Type} {o : HistOps H W} {T : CounterTy} {fp : Fp}

/-- a merge that does not fail -/
theorem add_holds {h0 : Hist T} {base : Nat → Nat} {m x : Hist T × List (Write T)} {g : Hist T}
    (hm : Holds fp h0 base m) (hx : Holds fp h0 (fun _ => 0) x) (eg : addExpect m.1 x.1 = .ok g) :
    Holds fp h0 base (g, m.2 ++ x.2) := by
  have hcfg : SameConfig m.1 x.1 :=
    ⟨hx.cfg.auto.trans hm.cfg.auto.symm, hx.cfg.low.trans hm.cfg.low.symm, hx.cfg.sig.trans hm.cfg.sig.symm,
      hx.cfg.um.trans hm.cfg.um.symm, hx.cfg.mag.trans hm.cfg.mag.symm⟩
  have hcount : ∀ g : Hist T, (∀ j, g.counts.getD j 0 = min (m.1.counts.getD j 0 + x.1.counts.getD j 0) T.max) →
      ∀ j, g.counts.getD j 0 = min (base j + h0.hits (samplesOf h0 (m.2 ++ x.2)) j) T.max := by
    intro g hg j
    rw [hg, hm.counts, hx.counts]
    unfold samplesOf
    rw [List.flatMap_append, hits_append]
    omega
  obtain ⟨y, r, e, Wy, hr⟩ := hm.wf.add_spec hx.wf
  unfold addExpect at eg
  rw [e] at eg
  cases r with
  | error q => cases eg
  | ok u =>
    cases eg
    rcases hr with ⟨h0', rfl⟩ | ⟨-, hauto, c, hl, hh, hc, -⟩
    · refine ⟨Wy, hm.cfg, hm.len, hm.high, hcount _ fun j => ?_⟩
      rw [hx.wf.getD_zero_of_empty h0']
      have := hm.wf.getD_le j
      dsimp only; omega
    · refine ⟨Wy, hm.cfg.trans c, ?_, fun ha => ?_, hcount _ fun j => ?_⟩
      · dsimp only; rw [hl]
        exact le_trans hm.len (hm.wf.addGrown (s := x.1)).2.2.2.2.2.2.2.1
      · dsimp only; rw [hh]
        unfold Hist.addGrown
        rw [if_neg (fun hlt => by
          have := hauto hlt
          rw [hm.cfg.auto, ha] at this; cases this)]
        exact hm.high ha
      · rw [hc, moved_same hcfg.um.symm hcfg.mag.symm]

theorem Holds.base {h0 : Hist T} {base : Nat → Nat} {x : Hist T × List (Write T)} (h : Holds fp h0 base x) :
    Base fp h0 false x.1 := ⟨h.wf, h.cfg, h.len, h.high, fun h => by cases h⟩

theorem holds_mild {h0 : Hist T} (W : WF fp h0) (base : Nat → Nat) :
    Mild (HistOps.concrete fp T).traced (Write.Counted fp h0) (Holds fp h0 base) (Holds fp h0 fun _ => 0)
      (fun x => Fatal h0 x.1) where
  freshM _ hh := by
    obtain ⟨y, e, L⟩ := fresh_fine W hh
    exact ⟨y, e, L.1⟩
  freshL _ hh := by
    obtain ⟨y, e, L⟩ := fresh_fine W hh
    exact ⟨y, e, L.1⟩
  add m x hm hx := by
    rcases mild_add hm.base hx.base with ⟨y, e, -, hf⟩ | ⟨p, e, hf⟩
    · refine Or.inl ⟨(y, m.2 ++ x.2), ?_, add_holds hm hx e, hf⟩
      simp only [HistOps.traced, HistOps.concrete, e]; rfl
    · refine Or.inr ⟨p, ?_, hf⟩
      simp only [HistOps.traced, HistOps.concrete, e]; rfl
  write w x hw hx := by
    obtain ⟨y, e, L⟩ := write_keeps (b := false) W w x hw (fun h => by cases h) ⟨hx, fun h => by cases h⟩
    exact ⟨y, e, L.1⟩

theorem mem_writesOf {ls : List (Label W)} {i : Nat} {w : W} (h : Label.write i w ∈ ls) : w ∈ writesOf ls := by
  induction ls with
  | nil => cases h
  | cons x xs ih =>
    rcases List.mem_cons.mp h with h | h
    · subst h; simp [writesOf]
    · have := ih h
      cases x <;> simp [writesOf, this]

theorem kept_pexec {ls : List (Label W)} {x x' : PSys (H × List W)} {acc : Nat → List W} (K : Kept x.sys acc)
    (e : pexec o.traced ls x = some x') : Kept x'.sys (fun i => ls.foldl (unsentStep i) (acc i)) := by
  induction ls generalizing x acc with
  | nil => cases e; exact K
  | cons l ls ih =>
    obtain ⟨y, e1, e2⟩ := pexec_cons e
    refine ih ?_ e2
    have st := pstep_rel e1
    cases st with
    | ok l s _ h => exact kept_step K (step_ok h)
    | merge l p h rest hl _ _ =>
      cases l <;> first | exact K | cases hl
    | drop i r hr _ _ _ => exact kept_set (a := { r with pc := .gone }) K hr (K.1 i r hr) (fun _ _ => rfl) rfl
    | idle => exact K
    | stay l _ hl _ => cases l <;> first | exact K | cases hl
    | lateDrop i r _ _ hr _ => exact kept_set (a := { r with pc := .gone }) K hr (K.1 i r hr) (fun _ _ => rfl) rfl
    | lateWake i r _ _ hr _ => exact kept_set (a := { r with pc := .ready }) K hr (K.1 i r hr) (fun _ _ => rfl) rfl
    | lateCount => exact K

end Hdr.Sync

namespace Hdr

open Hdr.Sync

variable {H W : Type} {o : HistOps H W}

/-- C93 (7): what a refresh misses when panics are caught, without conditions. When a refresh returns, the writes that are
not in the merged histogram are those in histograms that earlier failed merges have dropped, and those some recorder has
made since it last sent its histogram. -/
theorem C93_missing (h : H) (ls : List (Label W)) (x : PSys (H × List W))
    (e : pexec o.traced (ls ++ [.finalEnd]) (PSys.init (h, [])) = some x) :
    (x.sys.merged.2 ++ x.lost.flatMap Prod.snd ++ (List.range x.sys.recs.length).flatMap fun i => unsent i ls).Perm
      (writesOf ls) := by
  classical
  have hw : writesOf (ls ++ [.finalEnd]) = writesOf ls := by
    clear e
    induction ls with
    | nil => rfl
    | cons l ls ih => cases l <;> simp only [List.cons_append, writesOf, ih]
  have hu : ∀ i, (ls ++ [Label.finalEnd]).foldl (unsentStep i) [] = unsent i ls := by
    intro i; rw [List.foldl_append]; rfl
  have K := kept_pexec (o := o) (acc := fun _ => []) (x := PSys.init (h, []))
    ⟨by simp [PSys.init, Sys.init], fun _ _ => rfl⟩ e
  have hc : x.sys.chan = [] := by
    obtain ⟨t, -, e2⟩ := pexec_append e
    obtain ⟨t', e3, e4⟩ := pexec_cons e2
    cases e4
    have st := pstep_rel e3
    cases st with
    | ok l s _ h =>
      have st := step_ok h
      cases st with
      | finalEnd hrd hc => exact hc
    | merge l p h rest hl _ _ => cases hl
    | stay l _ hl _ => cases hl
  have all : (List.range x.sys.recs.length).flatMap (fun i => unsent i ls) = x.sys.recs.flatMap fun r => r.loc.2 :=
    (flatMap_range x.sys.recs (fun r => r.loc.2) (fun i => unsent i ls) fun i a ha => by
      rw [← hu i]; exact K.1 i a ha).symm
  rw [List.perm_iff_count]
  intro w
  have h1 := ptotal_exec (traced_measure (o := o) w) e
  rw [all, ← hw, count_writesOf]
  simp only [ptotal, PSys.init, total, Sys.init, sumR_nil, List.map_nil, List.sum_nil, List.count_nil, Nat.add_zero,
    Nat.zero_add, hc] at h1
  rw [← h1, List.count_append, List.count_append, List.count_flatMap, List.count_flatMap]
  unfold sumR
  simp only [Function.comp_def]
  omega

example : ∃ x, pexec (HistOps.concrete Fp.ideal .u8).traced (fatalDemo.dropLast ++ [.finalEnd]) (PSys.init (demoTop, [])) =
      some x ∧
    (x.sys.merged.2.length = 1 ∧ (x.lost.flatMap Prod.snd).length = 1 ∧ x.sys.recs.length = 2) :=
  pexecThen (by decide +kernel)

section
variable {T : CounterTy} {fp : Fp}

/-- C93 (8): with the real histograms, at any time, whichever panics have been caught, the merged histogram holds for every
value what was there at the start and what was recorded by the writes that have been merged: a failed merge adds nothing. A
histogram that was lost holds what was recorded by its writes. -/
theorem C93_counts {h : Hist T} (R : Reachable fp T h) (ls : List (Label (Write T))) (x : PSys (Hist T × List (Write T)))
    (hw : ∀ w ∈ writesOf ls, w.Counted fp h)
    (e : pexec (HistOps.concrete fp T).traced ls (PSys.init (h, [])) = some x) (v n : Nat) (hv : v ≤ U64MAX)
    (hn : HasCount h v n) :
    HasCount x.sys.merged.1 v (min (n + recordedFor h (x.sys.merged.2.flatMap (Write.samples h)) v) T.max) ∧
      ∀ g ∈ x.lost, HasCount g.1 v (min (recordedFor h (g.2.flatMap (Write.samples h)) v) T.max) := by
  have W := R.wf
  have hl : ∀ l ∈ ls, okLabel (Write.Counted fp h) l := by
    intro l hl
    cases l with
    | write i w => exact hw w (mem_writesOf hl)
    | _ => trivial
  have A := pall_exec (holds_mild W fun j => h.counts.getD j 0) (holds_init W) hl e
  have perm := C93_exactly_once h ls x e
  have hval : ∀ ws : List (Write T), (∀ w ∈ ws, w ∈ writesOf ls) →
      ∀ p ∈ ws.flatMap (Write.samples h), p.1 ≤ U64MAX := by
    intro ws hws p hpm
    obtain ⟨w, hwm, hpw⟩ := List.mem_flatMap.mp hpm
    exact counted_le W (hw w (hws w hwm)) p hpw
  constructor
  · have hm := A.1.1
    rw [hm.wf.hasCount_iff hv, hm.counts, hm.cfg.lidx]
    rw [W.hasCount_iff hv] at hn
    rw [W.recordedFor_eq (hval _ fun w hw => perm.subset (by simp [hw])) hv, ← hn]
    rfl
  · intro g hg
    have hm := (A.2 g hg).1
    rw [hm.wf.hasCount_iff hv, hm.counts, hm.cfg.lidx]
    rw [W.recordedFor_eq (hval _ fun w hw => perm.subset (by
      refine List.mem_append_right _ ?_
      unfold PSys.lostWrites
      exact List.mem_append_left _ (List.mem_flatMap.mpr ⟨g, hg, hw⟩))) hv, Nat.zero_add]
    rfl

end

example : (∀ w ∈ writesOf fatalDemo, w.Counted Fp.ideal demoTop) ∧ HasCount demoTop 5 0 ∧
    ∃ x, pexec (HistOps.concrete Fp.ideal .u8).traced fatalDemo (PSys.init (demoTop, [])) = some x ∧
      (recordedFor demoTop (x.sys.merged.2.flatMap (Write.samples demoTop)) 5 = 1 ∧ x.sys.merged.1.countAt 5 = .ok 1 ∧
        x.lost.map (fun g => recordedFor demoTop (g.2.flatMap (Write.samples demoTop)) U64MAX) = [1]) := by
  refine ⟨?_, ?_, pexecThen (by decide +kernel)⟩
  · intro w hw
    simp [fatalDemo, writesOf] at hw
    rcases hw with rfl | rfl <;> exact ⟨by decide, by decide⟩
  · exact Or.inl (by decide)

/-- recorder 1's answer makes the first refresh panic, and recorder 0 has not answered. Then recorder 1 records 5. In the
second refresh recorder 0 answers twice. -/
def afterDemo : List (Label (Write .u8)) :=
  [.recorder, .recorder, .start false, .drainEnd, .count, .bump, .write 1 (.recordN U64MAX 1), .writeSend 1, .recv,
   .write 1 (.recordN 5 1), .start false, .drainEnd, .write 0 (.recordN 3 1), .writeSend 0, .count, .bump,
   .write 0 (.recordN 3 1), .writeSend 0, .recv, .recv, .waitEnd]

/-- After a caught panic a refresh that returns may miss what was recorded before it began, even if recorders do nothing
but write: the answer to the refresh that panicked is counted for the one that follows. -/
theorem C93_refresh_refuted : (∀ i, Label.forget i ∉ afterDemo) ∧
    (∃ x, pexec (HistOps.concrete Fp.ideal .u8) (afterDemo.take 10) (PSys.init demoTop) = some x ∧
      (x.sys.reader = .out ∧ x.lost = [demoTop1])) ∧
    ∃ x, pexec (HistOps.concrete Fp.ideal .u8) (afterDemo ++ [.finalEnd]) (PSys.init demoTop) = some x ∧
      (x.sys.reader = .out ∧ x.sys.merged.countAt 5 = .ok 0 ∧ x.sys.merged.countAt 3 = .ok 2) :=
  ⟨by intro i; simp [afterDemo], pexecThen (by decide +kernel), pexecThen (by decide +kernel)⟩

/-- C93 (9): a failed merge ends the refresh and loses the one histogram it was merging. Nothing else changes: not the
merged histogram, the recorders, their count, the phase, the lock, nor the rest of the channel. -/
theorem C93_failed_merge (x : PSys H) (l : Label W) (p : Panic) (ht : x.sys.reader.takes l)
    (e : step o x.sys l = some (.error p)) :
    ∃ g rest, x.sys.chan = g :: rest ∧
      pexec o [l] x = some { x with sys := { x.sys with chan := rest, reader := .out }, lost := x.lost ++ [g] } := by
  obtain ⟨next, hs⟩ := takes_step (o := o) ht
  rw [hs] at e
  obtain ⟨g, rest, hc, -⟩ := receive_error e
  refine ⟨g, rest, hc, ?_⟩
  have hl : l.locks = false ∧ l.receives = true := by
    unfold Reader.takes at ht
    split at ht <;> first | exact ⟨rfl, rfl⟩ | exact ht.elim
  have : pstep o x l = some { x with sys := { x.sys with chan := rest, reader := .out }, lost := x.lost ++ [g] } := by
    unfold pstep
    rw [if_neg (fun h => by rw [hl.1] at h; cases h.2), hs, e]
    have : onPanic x l = failedMerge x := by cases l <;> first | rfl | cases hl.2
    simp only [this, failedMerge, hc]
  simp only [pexec, this]

example : ∃ x, pexec (HistOps.concrete Fp.ideal .u8) (fatalDemo.take 9) (PSys.init demoTop) = some x ∧
    (x.sys.reader = .drain false ∧ x.sys.chan.length = 2 ∧
      (match step (HistOps.concrete Fp.ideal .u8) x.sys .drain with
        | some (.error _) => true
        | _ => false) = true) :=
  pexecThen (by decide +kernel)

theorem lost_put {x : PSys (H × List W)} {i : Nat} {r : Rec (H × List W)} (hr : x.sys.recs[i]? = some r)
    (hp : r.pc = .ready) (b : Bool) :
    ({ x with sys := x.sys.put i { r with pc := .gone }, poisoned := b } : PSys (H × List W)).lostWrites.Perm
      (x.lostWrites ++ r.loc.2) := by
  classical
  rw [List.perm_iff_count]
  intro w
  unfold PSys.lostWrites
  rw [List.count_append, List.count_append, List.count_append, count_localWrites, count_localWrites]
  have := sumR_set (f := fun r => if (!r.pc.live) = true then r.loc.2.count w else 0) (a := { r with pc := .gone }) hr
  have h1 : (!Pc.live r.pc) = false := by rw [hp]; rfl
  have h2 : (!Pc.live .gone) = true := rfl
  dsimp only at this
  rw [h1, h2, if_pos rfl, if_neg (by decide)] at this
  simp only [Sys.put]
  omega

/-- C93 (10): a recorder dropped when the mutex is poisoned, or when the count is already zero (which poisons it), is gone,
and with it the writes it had not sent. -/
theorem C93_drop_loses (x : PSys (H × List W)) (i : Nat) (r : Rec (H × List W)) (hr : x.sys.recs[i]? = some r)
    (hp : r.pc = .ready) (hl : x.sys.lock = none) (hx : x.poisoned = true ∨ x.sys.recorders = 0) :
    ∃ x', pexec o.traced [.drop i] x = some x' ∧ x'.poisoned = true ∧ x'.lostWrites.Perm (x.lostWrites ++ r.loc.2) ∧
      x'.sys.merged = x.sys.merged ∧ x'.sys.chan = x.sys.chan ∧ x'.sys.reader = x.sys.reader ∧
      x'.sys.recs.map (·.pc) = (x.sys.recs.map (·.pc)).set i .gone := by
  have e : pstep o.traced x (.drop i) = some { x with sys := x.sys.put i { r with pc := .gone }, poisoned := true } := by
    unfold pstep
    cases hpo : x.poisoned with
    | true =>
      rw [if_pos ⟨rfl, rfl⟩, if_pos hl]
      simp only [onPoisoned, Sys.recAt, hr]
      rw [if_pos hp]
      simp only [Option.map_some, hpo]
    | false =>
      have h0 : x.sys.recorders = 0 := hx.resolve_left (by rw [hpo]; simp)
      rw [if_neg (by simp)]
      have : step o.traced x.sys (.drop i) = some (.error .overflow) := by
        simp only [step, Sync.drop, Sys.at, hr]
        rw [if_pos hp, if_pos hl, h0]; rfl
      simp only [this, onPanic, hr, Option.map_some]
  refine ⟨_, by simp only [pexec, e], rfl, lost_put hr hp true, rfl, rfl, rfl, ?_⟩
  simp only [Sys.put, List.map_set]

example : ∃ x, pexec (HistOps.concrete Fp.ideal .u8).traced (poisonDemo.take 8) (PSys.init (demo, [])) = some x ∧
    (x.sys.recs.map (·.pc) = [.gone, .ready] ∧ x.sys.lock = none ∧ x.sys.recorders = 0 ∧ x.poisoned = false) :=
  pexecThen (by decide +kernel)

end Hdr
