import Verif.Proofs.Twin
import Verif.Props.Release
import Verif.Props.WireExact

/-!
# Equal histograms are interchangeable (C97)
-/

namespace Hdr

variable {T : CounterTy} {fp : Fp}

/-- the raw statistics of a reachable histogram are masked -/
theorem Reachable.twin {h : Hist T} (R : Reachable fp T h) : Twin h h := by
  induction R with
  | newWithBounds _ e => exact newWithBounds_twin e
  | newWithMax _ e => exact newWithBounds_twin e
  | new e => exact new_twin e
  | newFrom _ e _ => exact newFrom_twin e
  | deserialize z checks bytes rest e => exact deserialize_twin e
  | recordN _ hv _ e t => exact (Rel.self_iff.mp (t.recordN hv) _ e).1
  | saturatingRecordN R hv _ e t =>
    have W := R.wf
    exact Rel.self_iff.mp (t.saturatingRecordN hv ⟨W.highmax, by have := W.low63; omega⟩) _ e
  | recordNCorrect _ hv _ e t => exact (Rel.self_iff.mp (t.recordNCorrect hv) _ e).1
  | add _ _ e t ts => exact (Rel.self_iff.mp (t.add ts) _ e).1
  | subtract _ _ e t ts => exact (Rel.self_iff.mp (t.subtract ts) _ e).1
  | setTo _ _ e t ts => exact (Rel.self_iff.mp (t.setTo ts) _ e).1
  | addCorrect _ _ e t ts => exact (Rel.self_iff.mp (t.addCorrect ts _) _ e).1
  | setToCorrected _ _ e t ts => exact (Rel.self_iff.mp (t.setToCorrected ts _) _ e).1
  | cloneCorrect _ e t => exact Rel.self_iff.mp (t.cloneCorrect _) _ e
  | reset _ t => exact t.reset
  | clear _ t => exact t.clear
  | auto b _ t => exact t.auto b

/-- equal histograms with the same `high()` and `is_auto_resize()` differ in the raw statistics only -/
theorem twin_of_eq {a b : Hist T} (Ra : Reachable fp T a) (Rb : Reachable fp T b) (e : a.eq b = .ok true)
    (hh : a.high = b.high) (ha : a.isAutoResize = b.isAutoResize) : Twin a b := by
  have Wa := Ra.wf
  have Wb := Rb.wf
  obtain ⟨La, xa, ya, -, Ma, Na⟩ := Ra.twin
  obtain ⟨Lb, xb, yb, -, Mb, Nb⟩ := Rb.twin
  have Ma := Ma.self
  have Mb := Mb.self
  obtain ⟨r, er, hr⟩ := Wa.eq_spec Wb
  rw [e] at er
  cases er
  obtain ⟨h1, h2, h3, h4, h5, h6⟩ := hr.mp rfl
  replace h1 : a.lowestDiscernible = b.lowestDiscernible := h1
  replace h2 : a.sigDigits = b.sigDigits := h2
  replace h3 : a.totalCount = b.totalCount := h3
  replace hh : a.highestTrackable = b.highestTrackable := hh
  replace ha : a.autoResize = b.autoResize := ha
  have hum : b.unitMag = a.unitMag := by rw [Wa.um, Wb.um, h1]
  have hmag : b.subBucketHalfCountMag = a.subBucketHalfCountMag := by
    have x := Wa.mag; have y := Wb.mag; rw [h2] at x; omega
  have S : SameShape a b := by
    refine ⟨?_, ?_, hmag, hum, ?_, ?_, ?_⟩
    · rw [La.sbc, Lb.sbc, hmag]
    · rw [La.half, Lb.half, hmag]
    · rw [La.lzb, Lb.lzb, hmag, hum]
    · rw [La.mask, Lb.mask, hmag, hum]
    · rw [La.ummask, Lb.ummask, hum]
  have hbc : b.bucketCount = a.bucketCount := by
    rw [Wa.bc, Wb.bc, hh]
    unfold Hist.lbkt
    rw [hum, hmag]
  have hlen : a.counts.length = b.counts.length := by rw [Wa.len, Wb.len, hbc, hmag]
  have hcs : a.counts = b.counts := h6.eq_of_length hlen
  have hlidx : ∀ v, b.lidx v = a.lidx v := by
    intro v; unfold Hist.lidx; rw [hum, hmag]
  have zero : ∀ {g k : Hist T}, WF fp g → WF fp k → g.lmax = k.lmax → g.maxValue = 0 → k.maxValue = 0 := by
    intro g k _ Wk e1 e2
    unfold Hist.lmax at e1
    rw [if_pos e2] at e1
    by_contra hc
    rw [if_neg hc] at e1
    have := lhi_ge (h := k) Wk.maxle
    omega
  have hU : U64MAX = 18446744073709551615 := rfl
  have top : ∀ {g k : Hist T}, WF fp g → WF fp k → g.lmax = k.lmax → g.maxValue = U64MAX → k.maxValue = U64MAX := by
    intro g k _ Wk e1 e2
    unfold Hist.lmax at e1
    rw [if_neg (by omega), e2] at e1
    by_contra hc
    by_cases h0 : k.maxValue = 0
    · rw [if_pos h0] at e1
      unfold Hist.lhi at e1
      rw [if_pos rfl] at e1
      omega
    · rw [if_neg h0] at e1
      unfold Hist.lhi at e1
      rw [if_pos rfl, if_neg hc] at e1
      have := Nat.min_le_right (k.llo k.maxValue + k.lwid k.maxValue) U64MAX
      omega
  have mtop : ∀ {g k : Hist T}, WF fp k → g.lminNz = k.lminNz → g.minNonZero = U64MAX → k.minNonZero = U64MAX := by
    intro g k Wk e1 e2
    unfold Hist.lminNz at e1
    rw [if_pos e2] at e1
    by_contra hc
    rw [if_neg hc] at e1
    have : k.llo k.minNonZero ≤ k.minNonZero := Lay.lo_le
    have := Wk.minle
    omega
  have M : MaxLike a a.maxValue b.maxValue := by
    refine ⟨Ma.le, Mb.le, Ma.masked, ?_, ⟨zero Wa Wb h4, zero Wb Wa h4.symm⟩, ⟨top Wa Wb h4, top Wb Wa h4.symm⟩, ?_⟩
    · rw [← S.ummask]; exact Mb.masked
    · rw [← Wa.lidx_lmax, h4, ← hlidx, ← hlidx, Wb.lidx_lmax]
  have N : MinLike a a.minNonZero b.minNonZero := by
    refine ⟨Na.le, Nb.le, ⟨mtop Wb h5, mtop Wa h5.symm⟩, ?_⟩
    rw [← lidx_lminNz, h5, ← hlidx, ← hlidx, lidx_lminNz]
  refine ⟨La, b.maxValue, b.minNonZero, ?_, M, N⟩
  obtain ⟨⟩ := a
  obtain ⟨⟩ := b
  obtain ⟨s1, s2, s3, s4, s5, s6, s7⟩ := S
  dsimp only at *
  subst s1 s2 s3 s4 s5 s6 s7 h1 h2 h3 hh ha hbc hcs
  rfl

/-! ### programs -/

namespace Api

/-- the same histogram but for raw statistics -/
def Tw (x y : AnyHist) : Prop := ∃ (T : CounterTy) (a b : Hist T), x = ⟨T, a⟩ ∧ y = ⟨T, b⟩ ∧ Twin a b

theorem Tw.view {x y : AnyHist} (t : Tw x y) : y.view = x.view := by
  obtain ⟨T, a, b, rfl, rfl, L, x, y, rfl, M, N⟩ := t
  rfl

theorem tw_views {st st' : List AnyHist} (F : List.Forall₂ Tw st st') : st'.map AnyHist.view = st.map AnyHist.view := by
  induction F with
  | nil => rfl
  | cons t _ ih => rw [List.map_cons, List.map_cons, t.view, ih]

theorem tw_get {st st' : List AnyHist} (F : List.Forall₂ Tw st st') (i : Nat) :
    (st[i]? = none ∧ st'[i]? = none) ∨
    ∃ (T : CounterTy) (a b : Hist T), st[i]? = some ⟨T, a⟩ ∧ st'[i]? = some ⟨T, b⟩ ∧ Twin a b := by
  induction F generalizing i with
  | nil => exact .inl ⟨rfl, rfl⟩
  | cons t _ ih =>
    cases i with
    | zero =>
      obtain ⟨T, a, b, rfl, rfl, t⟩ := t
      exact .inr ⟨T, a, b, rfl, rfl, t⟩
    | succ i => exact ih i

theorem tw_append {st st' : List AnyHist} (F : List.Forall₂ Tw st st') {T : CounterTy} {a b : Hist T} (t : Twin a b) :
    List.Forall₂ Tw (st ++ [⟨T, a⟩]) (st' ++ [⟨T, b⟩]) := by
  induction F with
  | nil => exact .cons ⟨T, a, b, rfl, rfl, t⟩ .nil
  | cons t _ ih => exact .cons t ih

theorem tw_set {st st' : List AnyHist} (F : List.Forall₂ Tw st st') (i : Nat) {T : CounterTy} {a b : Hist T} (t : Twin a b) :
    List.Forall₂ Tw (st.set i ⟨T, a⟩) (st'.set i ⟨T, b⟩) := by
  induction F generalizing i with
  | nil => exact .nil
  | cons u F ih =>
    cases i with
    | zero => exact .cons ⟨T, a, b, rfl, rfl, t⟩ F
    | succ i => exact .cons u (ih i)

/-- related results of a call -/
def StepRel (r r' : List AnyHist × Answer) : Prop := List.Forall₂ Tw r.1 r'.1 ∧ r.2 = r'.2

theorem keep_rel {st st' : List AnyHist} (F : List.Forall₂ Tw st st') {r : Except CreationError (Hist T)}
    (H : ∀ h, r = .ok h → Twin h h) : StepRel (keep st r) (keep st' r) := by
  cases r with
  | error e => exact ⟨F, rfl⟩
  | ok h => exact ⟨tw_append F (H h rfl), rfl⟩

theorem create_rel {st st' : List AnyHist} (F : List.Forall₂ Tw st st') (c : Create) :
    Rel StepRel (c.step .debug fp st) (c.step .debug fp st') := by
  cases c with
  | newWithBounds T low high sigfig =>
    exact Rel.map (R := fun r r' => r' = r ∧ ∀ h, r = .ok h → Twin h h)
      (Rel.self fun r e => ⟨rfl, fun h eh => newWithBounds_twin (e.trans (congrArg _ eh))⟩)
      (by rintro r _ ⟨rfl, H⟩; exact keep_rel F H)
  | newWithMax T high sigfig =>
    exact Rel.map (R := fun r r' => r' = r ∧ ∀ h, r = .ok h → Twin h h)
      (Rel.self fun r e => ⟨rfl, fun h eh => newWithBounds_twin (e.trans (congrArg _ eh))⟩)
      (by rintro r _ ⟨rfl, H⟩; exact keep_rel F H)
  | new T sigfig =>
    exact Rel.map (R := fun r r' => r' = r ∧ ∀ h, r = .ok h → Twin h h)
      (Rel.self fun r e => ⟨rfl, fun h eh => new_twin (e.trans (congrArg _ eh))⟩)
      (by rintro r _ ⟨rfl, H⟩; exact keep_rel F H)
  | newFrom T i =>
    simp only [Create.step]
    rcases tw_get F i with ⟨e, e'⟩ | ⟨T', a, b, e, e', t⟩
    · rw [e, e']; exact ⟨F, rfl⟩
    · rw [e, e']
      dsimp only
      rw [show Build.debug.newFrom fp T b = Build.debug.newFrom fp T a from t.newFrom]
      exact Rel.map (R := Twin) (Rel.self fun h e => newFrom_twin e) fun g g' tg => ⟨tw_append F tg, rfl⟩
  | clone i =>
    simp only [Create.step]
    rcases tw_get F i with ⟨e, e'⟩ | ⟨T', a, b, e, e', t⟩
    · rw [e, e']; exact ⟨F, rfl⟩
    · rw [e, e']; exact ⟨tw_append F t, rfl⟩
  | cloneCorrect i interval =>
    simp only [Create.step]
    rcases tw_get F i with ⟨e, e'⟩ | ⟨T', a, b, e, e', t⟩
    · rw [e, e']; exact ⟨F, rfl⟩
    · rw [e, e']
      exact Rel.map (t.cloneCorrect interval) fun g g' tg => ⟨tw_append F tg, rfl⟩

/-- related results of a call on one histogram -/
def OneRel (r r' : Hist T × Answer) : Prop := Twin r.1 r'.1 ∧ r.2 = r'.2

theorem one_of {ε : Type} {m m' : M (Hist T × ε)} (H : Rel TwinRes m m') (f : ε → Answer) :
    Rel OneRel ((fun r => (r.1, f r.2)) <$> m) ((fun r => (r.1, f r.2)) <$> m') :=
  Rel.map H fun _ _ ⟨t, e⟩ => ⟨t, congrArg f e⟩

theorem update_rel {a b : Hist T} (t : Twin a b) (Ra : Reachable fp T a) {u : Update} (hf : u.Fits T) :
    Rel OneRel (u.step .debug a) (u.step .debug b) := by
  have W := Ra.wf
  have hb : a.highestTrackable ≤ U64MAX ∧ a.lowestDiscernible ≤ U64MAX := ⟨W.highmax, by have := W.low63; omega⟩
  cases u with
  | record v => exact one_of (t.recordN hf) _
  | recordN v c => exact one_of (t.recordN hf.1) _
  | saturatingRecord v => exact Rel.map (t.saturatingRecordN hf hb) fun g g' tg => ⟨tg, rfl⟩
  | saturatingRecordN v c => exact Rel.map (t.saturatingRecordN hf.1 hb) fun g g' tg => ⟨tg, rfl⟩
  | recordCorrect v i => exact one_of (t.recordNCorrect hf) _
  | recordNCorrect v c i => exact one_of (t.recordNCorrect hf.1) _
  | reset => exact ⟨t.reset, rfl⟩
  | clear => exact ⟨t.clear, rfl⟩
  | auto b => exact ⟨t.auto b, rfl⟩

theorem combine_rel {a b s s' : Hist T} (t : Twin a b) (ts : Twin s s') (c : Combine) :
    Rel OneRel (c.step .debug a s) (c.step .debug b s') := by
  cases c with
  | add => exact one_of (t.add ts) _
  | subtract => exact one_of (t.subtract ts) _
  | setTo => exact one_of (t.setTo ts) _
  | addCorrect i => exact one_of (t.addCorrect ts i) _
  | setToCorrected i => exact one_of (t.setToCorrected ts i) _

theorem query_same {a b : Hist T} (t : Twin a b) (q : Query) : q.step .debug b = q.step .debug a := by
  have hd : b.distinctValues = a.distinctValues := by obtain ⟨L, x, y, rfl, M, N⟩ := t; rfl
  cases q with
  | min => exact congrArg (fun m => Answer.nat <$> m) t.min
  | max => exact congrArg (fun m => Answer.nat <$> m) t.max
  | minNz => exact congrArg (fun m => Answer.nat <$> m) t.minNz
  | countBetween v w => exact congrArg (fun m => Answer.nat <$> m) (t.countBetween v w)
  | iterRecorded => simp only [Query.step]; rw [hd]; exact congrArg (fun m => Answer.items <$> m) (t.iterRecorded _)
  | iterAll => simp only [Query.step]; rw [hd]; exact congrArg (fun m => Answer.items <$> m) (t.iterAll _)
  | serialize junk => exact congrArg (fun m => Answer.written <$> m) (t.serialize junk)
  | countAt v => obtain ⟨L, x, y, rfl, M, N⟩ := t; rfl
  | lowestEquivalent v => obtain ⟨L, x, y, rfl, M, N⟩ := t; rfl
  | highestEquivalent v => obtain ⟨L, x, y, rfl, M, N⟩ := t; rfl
  | medianEquivalent v => obtain ⟨L, x, y, rfl, M, N⟩ := t; rfl
  | nextNonEquivalent v => obtain ⟨L, x, y, rfl, M, N⟩ := t; rfl
  | equivalentRange v => obtain ⟨L, x, y, rfl, M, N⟩ := t; rfl
  | equivalent v w => obtain ⟨L, x, y, rfl, M, N⟩ := t; rfl

theorem float_same {a b : Hist T} (t : Twin a b) (lg : F64 → Nat) (fuel : Nat) (q : FloatQuery) :
    q.step .debug lg fuel b = q.step .debug lg fuel a := by
  cases q with
  | valueAtQuantile q => exact congrArg (fun m => Answer.nat <$> m) (t.valueAtQuantile q)
  | valueAtPercentile q => exact congrArg (fun m => Answer.nat <$> m) (t.valueAtQuantile _)
  | quantileBelow v => obtain ⟨L, x, y, rfl, M, N⟩ := t; rfl
  | percentileBelow v => obtain ⟨L, x, y, rfl, M, N⟩ := t; rfl
  | mean => exact congrArg (fun m => Answer.float <$> m) t.mean
  | stdev => exact congrArg (fun m => Answer.float <$> m) t.stdev
  | iterLinear step => exact congrArg (fun m => Answer.items <$> m) (t.iterLinear step fuel)
  | iterLog start base => exact congrArg (fun m => Answer.items <$> m) (t.iterLog start base fuel)
  | iterQuantiles ticks => exact congrArg (fun m => Answer.items <$> m) (t.iterQuantiles lg ticks fuel)

theorem call_rel {st st' : List AnyHist} (F : List.Forall₂ Tw st st') (G : Good fp st) {c : Call} (hf : c.Fits st) :
    Rel StepRel (c.step .debug fp st) (c.step .debug fp st') := by
  cases c with
  | create c => exact create_rel F c
  | update i u =>
    simp only [Call.step]
    rcases tw_get F i with ⟨e, e'⟩ | ⟨T, a, b, e, e', t⟩
    · rw [e, e']; exact ⟨F, rfl⟩
    · rw [e, e']
      obtain ⟨x, ex, hu⟩ := hf
      rw [e] at ex
      cases ex
      exact Rel.map (update_rel t (G.get e) hu) fun r r' ⟨tr, er⟩ => ⟨tw_set F i tr, er⟩
  | combine i j c =>
    simp only [Call.step]
    rcases tw_get F i with ⟨e, e'⟩ | ⟨T, a, b, e, e', t⟩
    · rw [e, e']; exact ⟨F, rfl⟩
    rw [e, e']
    rcases tw_get F j with ⟨f, f'⟩ | ⟨T', s, s', f, f', ts⟩
    · rw [f, f']; exact ⟨F, rfl⟩
    rw [f, f']
    dsimp only
    by_cases hT : T' = T
    · subst hT
      rw [dif_pos rfl, dif_pos rfl]
      exact Rel.map (combine_rel t ts c) fun r r' ⟨tr, er⟩ => ⟨tw_set F i tr, er⟩
    · rw [dif_neg hT, dif_neg hT]; exact ⟨F, rfl⟩
  | query i q =>
    simp only [Call.step]
    rcases tw_get F i with ⟨e, e'⟩ | ⟨T, a, b, e, e', t⟩
    · rw [e, e']; exact ⟨F, rfl⟩
    · rw [e, e']
      dsimp only
      rw [query_same t]
      exact Rel.map (R := Eq) (Rel.eq.mpr rfl) fun r r' er => ⟨F, er⟩
  | compare i j =>
    simp only [Call.step]
    rcases tw_get F i with ⟨e, e'⟩ | ⟨T, a, b, e, e', t⟩
    · rw [e, e']; exact ⟨F, rfl⟩
    rw [e, e']
    rcases tw_get F j with ⟨f, f'⟩ | ⟨T', s, s', f, f', ts⟩
    · rw [f, f']; exact ⟨F, rfl⟩
    rw [f, f']
    dsimp only
    by_cases hT : T' = T
    · subst hT
      rw [dif_pos rfl, dif_pos rfl]
      rw [show Build.debug.eq b s' = Build.debug.eq a s from t.eq ts]
      exact Rel.map (R := Eq) (Rel.eq.mpr rfl) fun r r' er => ⟨F, by rw [er]⟩
    · rw [dif_neg hT, dif_neg hT]; exact ⟨F, rfl⟩

theorem full_rel (E : Env) (fuel : Nat) {st st' : List AnyHist} (F : List.Forall₂ Tw st st') (G : Good E.fp st)
    {c : FullCall} (hf : c.Fits st) : Rel StepRel (c.step .debug E fuel st) (c.step .debug E fuel st') := by
  cases c with
  | safe c => exact call_rel F G hf
  | float i q =>
    simp only [FullCall.step]
    rcases tw_get F i with ⟨e, e'⟩ | ⟨T, a, b, e, e', t⟩
    · rw [e, e']; exact ⟨F, rfl⟩
    · rw [e, e']
      dsimp only
      rw [float_same t]
      exact Rel.map (R := Eq) (Rel.eq.mpr rfl) fun r r' er => ⟨F, er⟩
  | deserialize T bytes =>
    refine Rel.map (R := fun r r' => r' = r ∧ ∀ h rest, r = .ok (h, rest) → Twin h h)
      (Rel.self fun r e => ⟨rfl, fun h rest eh => deserialize_twin (e.trans (congrArg _ eh))⟩) ?_
    intro r r' ⟨er, H⟩
    subst er
    rcases r' with e | ⟨h, rest⟩
    · exact ⟨F, rfl⟩
    · exact ⟨tw_append F (H h rest rfl), rfl⟩

/-- calls keep histograms reachable -/
theorem full_good (E : Env) (fuel : Nat) {st : List AnyHist} (G : Good E.fp st) {c : FullCall} (hf : c.Fits st)
    {r : List AnyHist × Answer} (e : c.step .debug E fuel st = .ok r) : Good E.fp r.1 := by
  cases c with
  | safe c =>
    obtain ⟨st', e1, G'⟩ := call_ok G hf
    rw [Call.run_eq, show c.step .debug E.fp st = .ok r from e] at e1
    cases e1
    exact G'
  | float i q =>
    simp only [FullCall.step] at e
    cases h : st[i]? with
    | none => rw [h] at e; cases e; exact G
    | some x =>
      rw [h] at e
      dsimp only at e
      cases h2 : FloatQuery.step .debug E.lg fuel x.h q with
      | error p => rw [h2] at e; cases e
      | ok a => rw [h2] at e; cases e; exact G
  | deserialize T bytes =>
    simp only [FullCall.step] at e
    cases h : Build.debug.deserialize E.fp E.z T bytes with
    | error p => rw [h] at e; cases e
    | ok r =>
      rw [h] at e
      rcases r with x | ⟨g, rest⟩
      · cases e; exact G
      · cases e
        exact G.append (x := ⟨T, g⟩) (Reachable.deserialize E.z true _ _ h)

theorem exec_rel (E : Env) (fuel : Nat) (p : Observer) (hp : ∀ w c, p.script w = some c → c.Fits w.hists) :
    ∀ (n : Nat) (st st' : List AnyHist) (as : List Answer), List.Forall₂ Tw st st' → Good E.fp st →
    Rel (fun w w' => List.Forall₂ Tw w.hists w'.hists ∧ w.answers = w'.answers)
      (exec .debug E fuel p.script n ⟨st, as⟩) (exec .debug E fuel p.script n ⟨st', as⟩)
  | 0, _, _, _, F, _ => ⟨F, rfl⟩
  | n + 1, st, st', as, F, G => by
    have ep : p.script ⟨st', as⟩ = p.script ⟨st, as⟩ := by
      unfold Observer.script
      dsimp only
      rw [tw_views F]
    cases e : p.script ⟨st, as⟩ with
    | none =>
      rw [exec_none _ _ _ _ _ _ e, exec_none _ _ _ _ _ _ (ep.trans e)]
      exact ⟨F, rfl⟩
    | some c =>
      rw [exec_succ _ _ _ _ _ _ e, exec_succ _ _ _ _ _ _ (ep.trans e)]
      have hf := hp _ _ e
      have H := full_rel E fuel F G hf
      have H2 : Rel (fun r r' => StepRel r r' ∧ Good E.fp r.1) (c.step .debug E fuel st) (c.step .debug E fuel st') := by
        have G' := fun r => full_good E fuel G hf (r := r)
        revert H G'
        cases c.step .debug E fuel st <;> cases c.step .debug E fuel st'
        · exact fun H _ => H
        · exact fun H _ => H
        · exact fun H _ => H
        · exact fun H G' => ⟨H, G' _ rfl⟩
      refine Rel.bind H2 ?_
      rintro ⟨s1, a1⟩ ⟨s2, a2⟩ ⟨⟨F', ea⟩, G'⟩
      dsimp only at ea F' G'
      subst ea
      exact exec_rel E fuel p hp n s1 s2 _ F' G'

theorem Alike.tw {x y : AnyHist} (A : Alike fp x y) : Tw x y := by
  obtain ⟨T, a, b, rfl, rfl, Ra, Rb, e, hh, ha⟩ := A
  exact ⟨T, a, b, rfl, rfl, twin_of_eq Ra Rb e hh ha⟩

end Api

open Api in
/-- C97: Two histograms that compare equal, have the same `high()` and the same `is_auto_resize()` are interchangeable. A
program that makes any calls of the API, deciding on each from all answers and read-outs it has seen, sees the same answers
and read-outs, and panics with the same panic at the same call, if it starts with one in place of the other; whatever else it
holds, and however many histograms are exchanged. -/
theorem C97_interchangeable (E : Env) (fuel : Nat) (p : Observer) (hp : ∀ w c, p.script w = some c → c.Fits w.hists) (n : Nat)
    {st st' : List AnyHist} (A : List.Forall₂ (Alike E.fp) st st') :
    observe E fuel p n st' = observe E fuel p n st := by
  have F : List.Forall₂ Tw st st' := A.imp fun x y a => Alike.tw a
  have G : Good E.fp st := by
    clear F
    induction A with
    | nil => intro x hx; simp at hx
    | cons a _ ih =>
      intro x hx
      rcases List.mem_cons.mp hx with rfl | hx
      · obtain ⟨T, a, b, rfl, rfl, Ra, -⟩ := a; exact Ra
      · exact ih x hx
  have H := exec_rel E fuel p hp n st st' [] F G
  refine (Rel.eq.mp ?_).symm
  unfold observe
  exact Rel.map H fun w w' ⟨F, e⟩ => by rw [tw_views F, e]

namespace Api

/-- the program that asks its only histogram one question -/
def ask (q : Query) : Observer
  | [], [_] => some (.safe (.query 0 q))
  | _, _ => none

theorem ask_fits {q : Query} (hq : q.Fits) : ∀ w c, (ask q).script w = some c → c.Fits w.hists := by
  rintro ⟨st, as⟩ c e
  unfold Observer.script at e
  dsimp only at e
  match as, st with
  | [], [x] =>
    cases e
    exact ⟨Nat.zero_lt_one, hq⟩
  | [], [] => cases e
  | [], _ :: _ :: _ => cases e
  | _ :: _, _ => cases e

theorem observe_ask (E : Env) (fuel : Nat) (q : Query) {a : Hist T} {r : Answer} (e : q.step .debug a = .ok r) :
    observe E fuel (ask q) 1 [⟨T, a⟩] = .ok ([r], [AnyHist.view ⟨T, a⟩]) := by
  unfold observe
  rw [exec_succ _ _ _ _ _ _ (c := .safe (.query 0 q)) rfl]
  have : FullCall.step .debug E fuel [⟨T, a⟩] (.safe (.query 0 q)) = .ok ([⟨T, a⟩], r) := by
    show (fun r => (_, r)) <$> q.step .debug a = _
    rw [e]; rfl
  rw [this]
  rfl

end Api

open Api in
/-- C97: and no others are: a histogram can take the place of another in every program exactly if they compare equal and
have the same `high()` and `is_auto_resize()`. -/
theorem C97_iff (E : Env) (fuel : Nat) {a b : Hist T} (Ra : Reachable E.fp T a) (Rb : Reachable E.fp T b) :
    (∀ (p : Observer), (∀ w c, p.script w = some c → c.Fits w.hists) → ∀ (n : Nat),
      observe E fuel p n [⟨T, b⟩] = observe E fuel p n [⟨T, a⟩]) ↔
    a.eq b = .ok true ∧ a.high = b.high ∧ a.isAutoResize = b.isAutoResize := by
  constructor
  · intro H
    have Wa := Ra.wf
    have Wb := Rb.wf
    have hv : ([] , [AnyHist.view ⟨T, b⟩]) = (([] : List Answer), [AnyHist.view ⟨T, a⟩]) :=
      Except.ok.inj (H (fun _ _ => none) (fun _ _ e => nomatch e) 0)
    obtain ⟨-, h1, h2, h3, h4, h5, h6, h7⟩ := View.mk.inj (List.cons.inj (Prod.mk.inj hv).2).1
    have A : ∀ (q : Query) (r r' : Answer), q.Fits → q.step .debug a = .ok r → q.step .debug b = .ok r' → r' = r := by
      intro q r r' hq e e'
      have := H (ask q) (ask_fits hq) 1
      rw [observe_ask E fuel q e, observe_ask E fuel q e'] at this
      exact (List.cons.inj (Prod.mk.inj (Except.ok.inj this)).1).1
    have hmax : b.lmax = a.lmax := Answer.nat.inj (A .max (.nat a.lmax) (.nat b.lmax) trivial
      (by show Answer.nat <$> a.max = _; rw [Wa.max_eq]; rfl) (by show Answer.nat <$> b.max = _; rw [Wb.max_eq]; rfl))
    have hmin : b.lminNz = a.lminNz := Answer.nat.inj (A .minNz (.nat a.lminNz) (.nat b.lminNz) trivial
      (by show Answer.nat <$> a.minNz = _; rw [Wa.minNz_eq]; rfl) (by show Answer.nat <$> b.minNz = _; rw [Wb.minNz_eq]; rfl))
    replace h1 : b.lowestDiscernible = a.lowestDiscernible := h1
    replace h3 : b.sigDigits = a.sigDigits := h3
    have hum : b.unitMag = a.unitMag := by rw [Wa.um, Wb.um, h1]
    have hmag : b.subBucketHalfCountMag = a.subBucketHalfCountMag := by
      have x := Wa.mag; have y := Wb.mag; rw [h3] at y; omega
    have hlen : a.counts.length = b.counts.length := h6.symm
    have hcs : a.counts = b.counts := by
      refine List.ext_getElem hlen fun i hi hi' => ?_
      have hval : b.lval i = a.lval i := by unfold Hist.lval; rw [hum, hmag]
      have := Answer.nat.inj (A (.countAt (a.lval i)) (.nat (a.counts.getD i 0)) (.nat (b.counts.getD i 0)) (Wa.lval_le' hi)
        (by show Answer.nat <$> a.countAt _ = _; rw [Wa.countAt_lval hi]; rfl)
        (by show Answer.nat <$> b.countAt _ = _; rw [← hval, Wb.countAt_lval hi']; rfl))
      rw [List.getD_eq_getElem?_getD, List.getElem?_eq_getElem hi', List.getD_eq_getElem?_getD,
        List.getElem?_eq_getElem hi] at this
      exact this.symm
    obtain ⟨r, er, hr⟩ := Wa.eq_spec Wb
    have : r = true := hr.mpr ⟨h1.symm, h3.symm, h4.symm, hmax.symm, hmin.symm, hcs ▸ List.prefix_rfl⟩
    rw [this] at er
    exact ⟨er, h2.symm, h7.symm⟩
  · rintro ⟨h1, h2, h3⟩ p hp n
    exact C97_interchangeable E fuel p hp n (.cons ⟨T, a, b, rfl, rfl, Ra, Rb, h1, h2, h3⟩ .nil)

/-- C97: A histogram whose statistics are those a reader computes can be replaced in every program by what is read back from
its serialization, once `auto` is set as it was. -/
theorem C97_read_back {h : Hist T} (R : Reachable fp T h) {junk : Nat → UInt8} {bytes : List UInt8} {n : Nat}
    (e : V2.serialize junk h = .ok (.ok (bytes, n))) (z : V2.Zlib) (checks : Bool) {cs : List Cls} (C : Classes h cs)
    (S : ReadStats h cs) :
    ∃ g, V2.deserialize fp z T checks bytes = .ok (.ok (g, [])) ∧ Alike fp ⟨T, h⟩ ⟨T, g.auto h.isAutoResize⟩ := by
  obtain ⟨g, b, d, eb, -, hb⟩ := C36_eq_iff R e z checks C
  obtain ⟨g', d', Q, Rg⟩ := C36_round_trip R e z checks T C fun c hc => by
    obtain ⟨i, hi, rfl⟩ := (R.wf.mem_classes C).mp hc
    exact R.wf.cmax _ (by
      show h.counts.getD i 0 ∈ _
      rw [List.getD_eq_getElem?_getD, List.getElem?_eq_getElem hi]
      exact List.getElem_mem hi)
  rw [d] at d'
  cases d'
  rw [hb.mpr S] at eb
  exact ⟨g, d, T, h, g.auto _, rfl, rfl, R, Rg.auto _, eb, Q.high.symm, rfl⟩

/-- after `record(6)`, `record(5)` -/
def twinA : Hist .u8 := { demo with maxValue := 6, minNonZero := 5, totalCount := 2, counts := [0, 0, 0, 2, 0] }
/-- after `record_n(4, 2)`: other raw statistics -/
def twinB : Hist .u8 := { demo with maxValue := 4, minNonZero := 4, totalCount := 2, counts := [0, 0, 0, 2, 0] }

theorem twins_alike : Alike Fp.ideal ⟨.u8, twinA⟩ ⟨.u8, twinB⟩ :=
  ⟨.u8, twinA, twinB, rfl, rfl,
    reachable_recordSeq (l := [(6, 1), (5, 1)]) (r := .ok ()) demo_reachable (by decide) (by decide),
    reachable_recordSeq (l := [(4, 2)]) (r := .ok ()) demo_reachable (by decide) (by decide),
    by decide, rfl, rfl⟩

/-- a program that records what it was told is the maximum, and then asks again -/
def twinProgram : Api.Observer
  | [], [_] => some (.safe (.query 0 .max))
  | [.nat v], [x] => if v + x.len ≤ U64MAX then some (.safe (.update 0 (.record (v + x.len)))) else none
  | [_, _], [_] => some (.safe (.query 0 .iterRecorded))
  | _, _ => none

theorem twinProgram_fits : ∀ w c, twinProgram.script w = some c → c.Fits w.hists := by
  rintro ⟨st, as⟩ c e
  unfold Api.Observer.script at e
  dsimp only at e
  match as, st with
  | [], [x] => cases e; exact ⟨Nat.zero_lt_one, trivial⟩
  | [.nat v], [x] =>
    simp only [List.map, twinProgram] at e
    split at e
    · rename_i h
      cases e
      exact ⟨x, rfl, h⟩
    · cases e
  | [_, _], [x] =>
    simp only [List.map, twinProgram] at e
    cases e; exact ⟨Nat.zero_lt_one, trivial⟩
  | [], [] => cases e
  | [], _ :: _ :: _ => cases e
  | [a], [] => cases a <;> cases e
  | [a], _ :: _ :: _ => cases a <;> cases e
  | [_, _], [] => simp [twinProgram] at e
  | [_, _], _ :: _ :: _ => simp [twinProgram] at e
  | _ :: _ :: _ :: _, _ => simp [twinProgram] at e

/-- it sees the same of both: `max()` is 7, then 9 is recorded -/
example : let E : Api.Env := ⟨Fp.ideal, fun _ => 0, V2.Zlib.stored, true⟩
    (Api.observe E 5 twinProgram 3 [⟨.u8, twinA⟩]).toOption.map (fun r => r.1.tail) =
      some [.recorded (.ok ()), .nat 7] ∧
    Api.observe E 5 twinProgram 3 [⟨.u8, twinB⟩] = Api.observe E 5 twinProgram 3 [⟨.u8, twinA⟩] :=
  ⟨by decide +kernel, C97_interchangeable _ 5 twinProgram twinProgram_fits 3 (.cons twins_alike .nil)⟩

/-- an empty histogram with unit 1 and 1 significant digit -/
def madeTo (high : Nat) : Hist .u8 := match Hist.newWithBounds Fp.ideal .u8 1 high 1 with
  | .ok (.ok h) => h
  | _ => demo

/-- after `saturating_record(v)` -/
def saturated (h : Hist .u8) (v : Nat) : Hist .u8 := match h.saturatingRecordN v 1 with
  | .ok h => h
  | _ => h

/-- C97: `==` alone is not enough: two empty histograms that compare equal, one made with `high` 31, one with 20, differ after
`saturating_record(100)`. -/
theorem C97_high_matters :
    ∃ a b a' b' : Hist .u8, Hist.newWithBounds Fp.ideal .u8 1 31 1 = .ok (.ok a) ∧
      Hist.newWithBounds Fp.ideal .u8 1 20 1 = .ok (.ok b) ∧ a.eq b = .ok true ∧ b.eq a = .ok true ∧
      a.isAutoResize = b.isAutoResize ∧ a.saturatingRecordN 100 1 = .ok a' ∧ b.saturatingRecordN 100 1 = .ok b' ∧
      a'.max = .ok 31 ∧ b'.max = .ok 20 ∧ a'.eq b' = .ok false :=
  ⟨madeTo 31, madeTo 20, saturated (madeTo 31) 100, saturated (madeTo 20) 100, by decide +kernel, by decide +kernel,
    by decide +kernel, by decide +kernel, by decide +kernel, by decide +kernel, by decide +kernel, by decide +kernel,
    by decide +kernel, by decide +kernel⟩

end Hdr
