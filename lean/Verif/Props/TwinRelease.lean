import Verif.Props.Twin

/-!
# C118: equal histograms are interchangeable in release builds
-/

namespace Hdr

variable {T : CounterTy} {fp : Fp}

namespace Release

section
variable {P : Type} (h : Hdr.Hist T) (x y : Nat)

theorem stats_iterNextLoop (pk : Picker P) : ∀ (n : Nat) (s : IterState P),
    Hist.iterNextLoop (h.stats x y) pk n s = Hist.iterNextLoop h pk n s
  | 0, _ => rfl
  | n + 1, s => by
    simp only [Hist.iterNextLoop]
    rw [show Hist.iterPass (h.stats x y) pk s = Hist.iterPass h pk s from rfl]
    congr 1
    refine congrArg _ (funext fun r => ?_)
    cases r with
    | finished s => rfl
    | emitted s v => rfl
    | again s => exact stats_iterNextLoop pk n s

theorem stats_iterCollect (pk : Picker P) : ∀ (n : Nat) (s : IterState P),
    Hist.iterCollect (h.stats x y) pk n s = Hist.iterCollect h pk n s
  | 0, _ => rfl
  | n + 1, s => by
    simp only [Hist.iterCollect, Hist.iterNext]
    rw [stats_iterNextLoop]
    refine congrArg _ (funext fun r => ?_)
    obtain ⟨s', _ | v⟩ := r
    · rfl
    · dsimp only
      rw [stats_iterCollect pk n s']

theorem stats_quantileLoop (target : Nat) (z : Bool) : ∀ (l : List Nat) (i t : Nat),
    Hist.quantileLoop (h.stats x y) target z l i t = Hist.quantileLoop h target z l i t
  | [], _, _ => rfl
  | c :: cs, i, t => by
    simp only [Hist.quantileLoop]
    refine congrArg _ (funext fun c => ?_)
    rw [stats_quantileLoop target z cs]
    rfl

theorem stats_meanLoop : ∀ (l : List IterValue) (t : F64), Hist.meanLoop (h.stats x y) l t = Hist.meanLoop h l t
  | [], _ => rfl
  | v :: vs, t => by
    simp only [Hist.meanLoop]
    refine congrArg _ (funext fun c => ?_)
    rw [stats_meanLoop vs]
    rfl

theorem stats_stdevLoop (m : F64) : ∀ (l : List IterValue) (t : F64),
    Hist.stdevLoop (h.stats x y) m l t = Hist.stdevLoop h m l t
  | [], _ => rfl
  | v :: vs, t => by
    simp only [Hist.stdevLoop]
    refine congrArg _ (funext fun c => ?_)
    rw [stats_stdevLoop m vs]
end

section
variable {a b : Hdr.Hist T} (t : Twin a b) (W : WF fp a)
include t

theorem twin_iterCollect {P : Type} (pk : Picker P) (n : Nat) (s : IterState P) :
    Hist.iterCollect b pk n s = Hist.iterCollect a pk n s := by
  obtain ⟨L, x, y, rfl, M, N⟩ := t
  exact stats_iterCollect a x y pk n s

theorem twin_valueAtQuantile (q : F64) : Hist.valueAtQuantile b q = Hist.valueAtQuantile a q := by
  obtain ⟨L, x, y, rfl, M, N⟩ := t
  exact stats_quantileLoop ..

include W

theorem twin_max : Hist.max b = Hist.max a := by
  have e := W.max_eq
  rw [(Hist.max_le a).out _ e, (Hist.max_le b).out _ (t.max.trans e)]

theorem twin_iterNew {P : Type} (p : P) : Hist.iterNew b p = Hist.iterNew a p := by
  have e := twin_max t W
  obtain ⟨L, x, y, rfl, M, N⟩ := t
  unfold Hist.iterNew
  rw [e]
  rfl

theorem twin_iterRecorded (n : Nat) : Hist.iterRecorded b n = Hist.iterRecorded a n := by
  unfold Hist.iterRecorded
  rw [twin_iterNew t W]
  refine congrArg _ (funext fun s => twin_iterCollect t _ _ _)

theorem twin_iterLinear (step n : Nat) : Hist.iterLinear b step n = Hist.iterLinear a step n := by
  have e1 : Hist.linearPicker b = Hist.linearPicker a := by obtain ⟨L, x, y, rfl, M, N⟩ := t; rfl
  have e2 : Hist.linearNew b step = Hist.linearNew a step := by
    unfold Hist.linearNew
    simp only [twin_iterNew t W]
    obtain ⟨L, x, y, rfl, M, N⟩ := t; rfl
  unfold Hist.iterLinear
  rw [e1, e2]
  refine congrArg _ (funext fun s => twin_iterCollect t _ _ _)

theorem twin_iterLog (start : Nat) (base : F64) (n : Nat) : Hist.iterLog b start base n = Hist.iterLog a start base n := by
  have e1 : Hist.logPicker b = Hist.logPicker a := by obtain ⟨L, x, y, rfl, M, N⟩ := t; rfl
  have e2 : Hist.logNew b start base = Hist.logNew a start base := by
    unfold Hist.logNew
    simp only [twin_iterNew t W]
    obtain ⟨L, x, y, rfl, M, N⟩ := t; rfl
  unfold Hist.iterLog
  rw [e1, e2]
  refine congrArg _ (funext fun s => twin_iterCollect t _ _ _)

theorem twin_iterQuantiles (lg : F64 → Nat) (ticks n : Nat) :
    Hist.iterQuantiles lg b ticks n = Hist.iterQuantiles lg a ticks n := by
  have e1 : Hist.quantilePicker lg b = Hist.quantilePicker lg a := by obtain ⟨L, x, y, rfl, M, N⟩ := t; rfl
  have e2 : Hist.quantileNew b ticks = Hist.quantileNew a ticks := by
    unfold Hist.quantileNew
    simp only [twin_iterNew t W]
  unfold Hist.iterQuantiles
  rw [e1, e2]
  refine congrArg _ (funext fun s => twin_iterCollect t _ _ _)

theorem twin_mean : Hist.mean b = Hist.mean a := by
  have e := twin_iterRecorded t W
  obtain ⟨L, x, y, rfl, M, N⟩ := t
  unfold Hist.mean
  simp only [e, stats_meanLoop]
  rfl

theorem twin_variance : Hist.variance b = Hist.variance a := by
  have e := twin_iterRecorded t W
  have e' := twin_mean t W
  obtain ⟨L, x, y, rfl, M, N⟩ := t
  unfold Hist.variance
  simp only [e, e', stats_stdevLoop]
  rfl

theorem twin_stdev : Hist.stdev b = Hist.stdev a := by
  have e := twin_variance t W
  obtain ⟨L, x, y, rfl, M, N⟩ := t
  unfold Hist.stdev
  simp only [e]
  rfl
end

end Release

namespace Api

open Release in
theorem float_same_release {a b : Hist T} (t : Twin a b) (W : WF fp a) (lg : F64 → Nat) (fuel : Nat) (q : FloatQuery) :
    q.step .release lg fuel b = q.step .release lg fuel a := by
  cases q with
  | valueAtQuantile q => exact congrArg (fun m => Answer.nat <$> m) (twin_valueAtQuantile t q)
  | valueAtPercentile q => exact congrArg (fun m => Answer.nat <$> m) (twin_valueAtQuantile t _)
  | quantileBelow v => obtain ⟨L, x, y, rfl, M, N⟩ := t; rfl
  | percentileBelow v => obtain ⟨L, x, y, rfl, M, N⟩ := t; rfl
  | mean => exact congrArg (fun m => Answer.float <$> m) (twin_mean t W)
  | stdev => exact congrArg (fun m => Answer.float <$> m) (twin_stdev t W)
  | iterLinear step => exact congrArg (fun m => Answer.items <$> m) (twin_iterLinear t W step fuel)
  | iterLog start base => exact congrArg (fun m => Answer.items <$> m) (twin_iterLog t W start base fuel)
  | iterQuantiles ticks => exact congrArg (fun m => Answer.items <$> m) (twin_iterQuantiles t W lg ticks fuel)

/-- one call in a release build, on related states -/
theorem full_rel_release (E : Env) (fuel : Nat) {st st' : List AnyHist} (F : List.Forall₂ Tw st st') (G : Good E.fp st)
    {c : FullCall} (hf : c.Fits st) :
    Rel (fun r r' => StepRel r r' ∧ Good E.fp r.1) (c.step .release E fuel st) (c.step .release E fuel st') := by
  cases c with
  | safe c =>
    have H := full_rel E fuel F G hf
    obtain ⟨s1, e1, G1⟩ := call_ok G hf
    rw [Call.run_eq] at e1
    cases e : c.step .debug E.fp st with
    | error p => rw [e] at e1; cases e1
    | ok r =>
      rw [e] at e1
      cases e1
      cases e' : c.step .debug E.fp st' with
      | error p =>
        exfalso
        simp only [FullCall.step, e, e'] at H
        exact H
      | ok r' =>
        simp only [FullCall.step, e, e'] at H
        simp only [FullCall.step]
        rw [(c.step_le E.fp st).out _ e, (c.step_le E.fp st').out _ e']
        exact ⟨H, G1⟩
  | float i q =>
    simp only [FullCall.step]
    rcases tw_get F i with ⟨e, e'⟩ | ⟨T, a, b, e, e', t⟩
    · rw [e, e']; exact ⟨⟨F, rfl⟩, G⟩
    · rw [e, e']
      dsimp only
      rw [float_same_release t (G.get e).wf]
      exact Rel.map (R := Eq) (Rel.eq.mpr rfl) fun r r' er => ⟨⟨F, er⟩, G⟩
  | deserialize T bytes =>
    simp only [FullCall.step]
    obtain ⟨r, er, er'⟩ := C81_deserialize E.fp E.z T bytes
    rw [show Build.release.deserialize E.fp E.z T bytes = .ok r from er']
    rcases r with e | ⟨h, rest⟩
    · exact ⟨⟨F, rfl⟩, G⟩
    · exact ⟨⟨tw_append F (deserialize_twin er), rfl⟩, G.append (x := ⟨T, h⟩) (Reachable.deserialize E.z false _ _ er)⟩

theorem exec_rel_release (E : Env) (fuel : Nat) (p : Observer) (hp : ∀ w c, p.script w = some c → c.Fits w.hists) :
    ∀ (n : Nat) (st st' : List AnyHist) (as : List Answer), List.Forall₂ Tw st st' → Good E.fp st →
    Rel (fun w w' => List.Forall₂ Tw w.hists w'.hists ∧ w.answers = w'.answers)
      (exec .release E fuel p.script n ⟨st, as⟩) (exec .release E fuel p.script n ⟨st', as⟩)
  | 0, _, _, _, F, _ => ⟨F, rfl⟩
  | n + 1, st, st', as, F, G => by
    have ep : p.script ⟨st', as⟩ = p.script ⟨st, as⟩ := by
      unfold Observer.script
      dsimp only
      rw [tw_views F]
    cases e : p.script ⟨st, as⟩ with
    | none =>
      rw [exec_none _ _ _ _ _ _ e, exec_none _ _ _ _ _ _ (ep.trans e)]
      exact ⟨F, rfl⟩
    | some c =>
      rw [exec_succ _ _ _ _ _ _ e, exec_succ _ _ _ _ _ _ (ep.trans e)]
      refine Rel.bind (full_rel_release E fuel F G (hp _ _ e)) ?_
      rintro ⟨s1, a1⟩ ⟨s2, a2⟩ ⟨⟨F', ea⟩, G'⟩
      dsimp only at ea F' G'
      subst ea
      exact exec_rel_release E fuel p hp n s1 s2 _ F' G'

/-- all a program has seen after its first `n` calls in a release build, when it starts with the histograms `st` -/
def observeRelease (E : Env) (fuel : Nat) (p : Observer) (n : Nat) (st : List AnyHist) : M (List Answer × List View) :=
  (fun w => (w.answers, w.hists.map AnyHist.view)) <$> exec .release E fuel p.script n ⟨st, []⟩

end Api

open Api in
/-- C118 (1): Also in a release build, where overflow wraps around instead of panicking: histograms that compare equal, have
the same `high()` and the same `is_auto_resize()` are interchangeable. A program that makes any calls of the API, deciding on each
from all it has seen, sees the same, and panics with the same panic at the same call. -/
theorem C118_interchangeable (E : Env) (fuel : Nat) (p : Observer) (hp : ∀ w c, p.script w = some c → c.Fits w.hists) (n : Nat)
    {st st' : List AnyHist} (A : List.Forall₂ (Alike E.fp) st st') :
    observeRelease E fuel p n st' = observeRelease E fuel p n st := by
  have F : List.Forall₂ Tw st st' := A.imp fun x y a => Alike.tw a
  have G : Good E.fp st := by
    clear F
    induction A with
    | nil => intro x hx; simp at hx
    | cons a _ ih =>
      intro x hx
      rcases List.mem_cons.mp hx with rfl | hx
      · obtain ⟨T, a, b, rfl, rfl, Ra, -⟩ := a; exact Ra
      · exact ih x hx
  have H := exec_rel_release E fuel p hp n st st' [] F G
  refine (Rel.eq.mp ?_).symm
  unfold observeRelease
  exact Rel.map H fun w w' ⟨F, e⟩ => by rw [tw_views F, e]

namespace Api

theorem observe_ask_release (E : Env) (fuel : Nat) (q : Query) {a : Hist T} {r : Answer} (e : q.step .debug a = .ok r) :
    observeRelease E fuel (ask q) 1 [⟨T, a⟩] = .ok ([r], [AnyHist.view ⟨T, a⟩]) := by
  unfold observeRelease
  rw [exec_succ _ _ _ _ _ _ (c := .safe (.query 0 q)) rfl]
  have : FullCall.step .release E fuel [⟨T, a⟩] (.safe (.query 0 q)) = .ok ([⟨T, a⟩], r) := by
    show (fun r => (_, r)) <$> q.step .release a = _
    rw [(q.step_le a).out _ e]; rfl
  rw [this]
  rfl

end Api

open Api in
/-- C118 (2): and no others are. -/
theorem C118_iff (E : Env) (fuel : Nat) {a b : Hist T} (Ra : Reachable E.fp T a) (Rb : Reachable E.fp T b) :
    (∀ (p : Observer), (∀ w c, p.script w = some c → c.Fits w.hists) → ∀ (n : Nat),
      observeRelease E fuel p n [⟨T, b⟩] = observeRelease E fuel p n [⟨T, a⟩]) ↔
    a.eq b = .ok true ∧ a.high = b.high ∧ a.isAutoResize = b.isAutoResize := by
  constructor
  · intro H
    have Wa := Ra.wf
    have Wb := Rb.wf
    have hv : ([] , [AnyHist.view ⟨T, b⟩]) = (([] : List Answer), [AnyHist.view ⟨T, a⟩]) :=
      Except.ok.inj (H (fun _ _ => none) (fun _ _ e => nomatch e) 0)
    obtain ⟨-, h1, h2, h3, h4, h5, h6, h7⟩ := View.mk.inj (List.cons.inj (Prod.mk.inj hv).2).1
    have A : ∀ (q : Query) (r r' : Answer), q.Fits → q.step .debug a = .ok r → q.step .debug b = .ok r' → r' = r := by
      intro q r r' hq e e'
      have := H (ask q) (ask_fits hq) 1
      rw [observe_ask_release E fuel q e, observe_ask_release E fuel q e'] at this
      exact (List.cons.inj (Prod.mk.inj (Except.ok.inj this)).1).1
    have hmax : b.lmax = a.lmax := Answer.nat.inj (A .max (.nat a.lmax) (.nat b.lmax) trivial
      (by show Answer.nat <$> a.max = _; rw [Wa.max_eq]; rfl) (by show Answer.nat <$> b.max = _; rw [Wb.max_eq]; rfl))
    have hmin : b.lminNz = a.lminNz := Answer.nat.inj (A .minNz (.nat a.lminNz) (.nat b.lminNz) trivial
      (by show Answer.nat <$> a.minNz = _; rw [Wa.minNz_eq]; rfl) (by show Answer.nat <$> b.minNz = _; rw [Wb.minNz_eq]; rfl))
    replace h1 : b.lowestDiscernible = a.lowestDiscernible := h1
    replace h3 : b.sigDigits = a.sigDigits := h3
    have hum : b.unitMag = a.unitMag := by rw [Wa.um, Wb.um, h1]
    have hmag : b.subBucketHalfCountMag = a.subBucketHalfCountMag := by
      have x := Wa.mag; have y := Wb.mag; rw [h3] at y; omega
    have hlen : a.counts.length = b.counts.length := h6.symm
    have hcs : a.counts = b.counts := by
      refine List.ext_getElem hlen fun i hi hi' => ?_
      have hval : b.lval i = a.lval i := by unfold Hist.lval; rw [hum, hmag]
      have := Answer.nat.inj (A (.countAt (a.lval i)) (.nat (a.counts.getD i 0)) (.nat (b.counts.getD i 0)) (Wa.lval_le' hi)
        (by show Answer.nat <$> a.countAt _ = _; rw [Wa.countAt_lval hi]; rfl)
        (by show Answer.nat <$> b.countAt _ = _; rw [← hval, Wb.countAt_lval hi']; rfl))
      rw [List.getD_eq_getElem?_getD, List.getElem?_eq_getElem hi', List.getD_eq_getElem?_getD,
        List.getElem?_eq_getElem hi] at this
      exact this.symm
    obtain ⟨r, er, hr⟩ := Wa.eq_spec Wb
    have : r = true := hr.mpr ⟨h1.symm, h3.symm, h4.symm, hmax.symm, hmin.symm, hcs ▸ List.prefix_rfl⟩
    rw [this] at er
    exact ⟨er, h2.symm, h7.symm⟩
  · rintro ⟨h1, h2, h3⟩ p hp n
    exact C118_interchangeable E fuel p hp n (.cons ⟨T, a, b, rfl, rfl, Ra, Rb, h1, h2, h3⟩ .nil)

open Api in
/-- C118 (3): so what can take the place of what does not depend on the build. -/
theorem C118_builds (E : Env) (fuel : Nat) {a b : Hist T} (Ra : Reachable E.fp T a) (Rb : Reachable E.fp T b) :
    (∀ (p : Observer), (∀ w c, p.script w = some c → c.Fits w.hists) → ∀ (n : Nat),
      observeRelease E fuel p n [⟨T, b⟩] = observeRelease E fuel p n [⟨T, a⟩]) ↔
    (∀ (p : Observer), (∀ w c, p.script w = some c → c.Fits w.hists) → ∀ (n : Nat),
      observe E fuel p n [⟨T, b⟩] = observe E fuel p n [⟨T, a⟩]) :=
  (C118_iff E fuel Ra Rb).trans (C97_iff E fuel Ra Rb).symm

/-- `demoU` (unit 4) after `record(5)` and `record_n(100, u64::MAX)` -/
def wrapA : Hist .u64 :=
  match recordSeq [(5, 1), (100, U64MAX)] demoU with
  | .ok (h, _) => h
  | .error _ => demoU
/-- `demoU` after `record(6)` and `record_n(97, u64::MAX)` -/
def wrapB : Hist .u64 :=
  match recordSeq [(6, 1), (97, U64MAX)] demoU with
  | .ok (h, _) => h
  | .error _ => demoU

/-- beyond what C97 says: two different such histograms for which a debug build panics, and a release build wraps around -/
example : Alike Fp.ideal ⟨.u64, wrapA⟩ ⟨.u64, wrapB⟩ ∧ wrapA.maxValue ≠ wrapB.maxValue ∧
    wrapA.valueAtQuantile (.fin 1) = .error .overflow ∧ Release.Hist.valueAtQuantile wrapA (.fin 1) = .ok 0 ∧
    Release.Hist.valueAtQuantile wrapB (.fin 1) = .ok 0 :=
  ⟨⟨.u64, wrapA, wrapB, rfl, rfl,
      reachable_recordSeq (l := [(5, 1), (100, U64MAX)]) (r := .ok ()) demoU_reachable (by decide) (by decide +kernel),
      reachable_recordSeq (l := [(6, 1), (97, U64MAX)]) (r := .ok ()) demoU_reachable (by decide) (by decide +kernel),
      by decide +kernel, by decide +kernel, by decide +kernel⟩,
    by decide +kernel, by decide +kernel, by decide +kernel, by decide +kernel⟩

end Hdr
