import Verif.Spec.RecordCalls
import Verif.Props.Record
import Verif.Spec.Demo

/-!
# C100: the recording calls commute

Unlike C14, which speaks about a sequence of `record_n` all of which succeed, the calls here are any of the six
methods, and each is made whether or not earlier ones failed.
-/

namespace Hdr
variable {fp : Fp} {T : CounterTy}

/-- what recording on `h0` leaves as it is -/
private structure From (fp : Fp) (h0 h : Hist T) : Prop where
  wf : WF fp h
  cfg : SameConfig h0 h
  len : h0.counts.length ≤ h.counts.length
  fixed : h0.autoResize = false → h.counts.length = h0.counts.length ∧ h.highestTrackable = h0.highestTrackable

private theorem From.refl {h : Hist T} (W : WF fp h) : From fp h h := ⟨W, SameConfig.refl h, le_rfl, fun _ => ⟨rfl, rfl⟩⟩

private theorem From.put {h0 h : Hist T} (F : From fp h0 h) {v : Nat} (c : Nat) (hv : v ≤ U64MAX)
    (hk : h0.lidx v < h0.counts.length ∨ h0.autoResize = true) : From fp h0 ((h.growTo v).recorded v c) := by
  refine ⟨F.wf.record_wf hv, F.cfg.trans ((growTo_config h v).trans (recorded_config _ v c)), ?_, fun ha => ?_⟩
  · have h1 := F.wf.growTo_len_le v
    have h2 : ((h.growTo v).recorded v c).counts.length = (h.growTo v).counts.length := by simp [Hist.recorded]
    have h3 := F.len
    omega
  · have hk : h0.lidx v < h0.counts.length := by
      rcases hk with hk | hk
      · exact hk
      · rw [ha] at hk; cases hk
    have hg : h.growTo v = h := by
      unfold Hist.growTo
      rw [if_pos (by rw [F.cfg.lidx, (F.fixed ha).1]; exact hk)]
    rw [hg]
    exact ⟨by simp [Hist.recorded, (F.fixed ha).1], (F.fixed ha).2⟩

private theorem From.recordN {h0 h : Hist T} (F : From fp h0 h) {v c : Nat} (hv : v ≤ U64MAX) (hc : c ≤ T.max) :
    h.recordN v c = .ok (if h0.lidx v < h0.counts.length ∨ h0.autoResize = true
      then ((h.growTo v).recorded v c, .ok ()) else (h, .error .ValueOutOfRangeResizeDisabled)) := by
  rw [F.wf.recordN_eq hv hc, F.cfg.lidx, F.cfg.auto]
  cases ha : h0.autoResize with
  | true => rw [if_pos (Or.inr rfl), if_pos (Or.inr rfl)]
  | false =>
    rw [(F.fixed ha).1]
    split <;> rfl

private theorem From.seq {h0 : Hist T} {l : List (Nat × Nat)} :
    ∀ {h : Hist T}, From fp h0 h → (∀ p ∈ l, p.1 ≤ U64MAX ∧ p.2 ≤ T.max) →
      (∀ p ∈ l, h0.lidx p.1 < h0.counts.length ∨ h0.autoResize = true) →
      ∃ h', recordSeq l h = .ok (h', .ok ()) ∧ From fp h0 h' := by
  induction l with
  | nil => intro h F _ _; exact ⟨h, rfl, F⟩
  | cons p l ih =>
    obtain ⟨v, c⟩ := p
    intro h F hl hk
    have hvc := hl (v, c) (by simp)
    have hkv := hk (v, c) (by simp)
    obtain ⟨h', e, F'⟩ := ih (F.put c hvc.1 hkv) (fun p hp => hl p (by simp [hp])) (fun p hp => hk p (by simp [hp]))
    exact ⟨h', by rw [recordSeq_cons, F.recordN hvc.1 hvc.2, if_pos hkv, M.ok_bind]; exact e, F'⟩

/-- the samples a call enters on a histogram that started as `h0` -/
private def enters (h0 : Hist T) (k : RecCall) : List (Nat × Nat) :=
  if k.saturating then [(h0.clampTo k.value, k.count)]
  else if h0.lidx k.value < h0.counts.length ∨ h0.autoResize = true then
    (k.value :: (match k with
      | .recordCorrect v i | .recordNCorrect v _ i => hiddenSeries v i
      | _ => [])).map fun x => (x, k.count)
  else []

/-- what it returns -/
private def answer (h0 : Hist T) (k : RecCall) : Except RecordError Unit :=
  if k.saturating then .ok ()
  else if h0.lidx k.value < h0.counts.length ∨ h0.autoResize = true then .ok ()
  else .error .ValueOutOfRangeResizeDisabled

private theorem enters_valid {h0 : Hist T} (W0 : WF fp h0) {k : RecCall} (hk : k.Valid T) :
    (∀ p ∈ enters h0 k, p.1 ≤ U64MAX ∧ p.2 ≤ T.max) ∧
    (∀ p ∈ enters h0 k, h0.lidx p.1 < h0.counts.length ∨ h0.autoResize = true) := by
  obtain ⟨hv, hc⟩ := hk
  unfold enters
  split
  · constructor
    · intro p hp; rw [List.mem_singleton] at hp; subst hp; exact ⟨W0.clampTo_le hv, hc⟩
    · intro p hp; rw [List.mem_singleton] at hp; subst hp; exact Or.inl (W0.clampTo_cov _)
  · split
    · rename_i hcov
      have hx : ∀ x ∈ (k.value :: (match k with
          | .recordCorrect v i | .recordNCorrect v _ i => hiddenSeries v i
          | _ => [])), x ≤ k.value := by
        intro x hx
        rw [List.mem_cons] at hx
        rcases hx with rfl | hx
        · exact le_rfl
        · cases k with
          | recordCorrect v i => exact (hiddenSeries_lt hx).1.le
          | recordNCorrect v c i => exact (hiddenSeries_lt hx).1.le
          | _ => cases hx
      constructor
      · intro p hp
        rw [List.mem_map] at hp
        obtain ⟨x, hxm, rfl⟩ := hp
        exact ⟨(hx x hxm).trans hv, hc⟩
      · intro p hp
        rw [List.mem_map] at hp
        obtain ⟨x, hxm, rfl⟩ := hp
        rcases hcov with hcov | hcov
        · exact Or.inl (lt_of_le_of_lt (Lay.idx_mono (hx x hxm)) hcov)
        · exact Or.inr hcov
    · exact ⟨by simp, by simp⟩

private theorem From.one {h0 h : Hist T} (F : From fp h0 h) (W0 : WF fp h0) {k : RecCall} (hk : k.Valid T)
    (hs : h0.autoResize = false ∨ (k.saturating = true → h0.Covers k.value)) :
    ∃ h', k.run h = .ok (h', answer h0 k) ∧ recordSeq (enters h0 k) h = .ok (h', .ok ()) ∧ From fp h0 h' := by
  obtain ⟨hl, hcov⟩ := enters_valid W0 hk
  obtain ⟨h', e, F'⟩ := F.seq hl hcov
  refine ⟨h', ?_, e, F'⟩
  have sat : ∀ v c, v ≤ U64MAX → c ≤ T.max → (h0.autoResize = false ∨ h0.Covers v) →
      recordSeq [(h0.clampTo v, c)] h = .ok (h', .ok ()) → h.saturatingRecordN v c = .ok h' := by
    intro v c hv hc hs e
    have hcl : h.clampTo v = h0.clampTo v := by
      unfold Hist.clampTo
      rw [F.cfg.lidx]
      rcases hs with hs | hs
      · rw [(F.fixed hs).1, (F.fixed hs).2]
      · rw [W0.covers_iff] at hs
        rw [if_pos hs, if_pos (lt_of_lt_of_le hs F.len)]
    rw [recordSeq_cons, ← hcl, F.wf.recordN_cov (F.wf.clampTo_le hv) hc (F.wf.clampTo_cov v), M.ok_bind] at e
    rw [F.wf.saturatingRecordN_eq hv]
    injection e with e
    injection e with e
    rw [e]
  have plain : ∀ v c i, v ≤ U64MAX → c ≤ T.max →
      recordSeq (if h0.lidx v < h0.counts.length ∨ h0.autoResize = true
        then (v :: hiddenSeries v i).map (fun x => (x, c)) else []) h = .ok (h', .ok ()) →
      h.recordNCorrect v c i = .ok (h', if h0.lidx v < h0.counts.length ∨ h0.autoResize = true then .ok ()
        else .error .ValueOutOfRangeResizeDisabled) := by
    intro v c i hv hc e
    rw [recordNCorrect_eq]
    by_cases hcv : h0.lidx v < h0.counts.length ∨ h0.autoResize = true
    · rw [if_pos hcv] at e ⊢; exact e
    · rw [if_neg hcv] at e ⊢
      injection e with e
      injection e with e
      rw [List.map_cons, recordSeq_cons, F.recordN hv hc, if_neg hcv, M.ok_bind, e]
  have single : ∀ v c, v ≤ U64MAX → c ≤ T.max →
      recordSeq (if h0.lidx v < h0.counts.length ∨ h0.autoResize = true
        then [(v, c)] else []) h = .ok (h', .ok ()) →
      h.recordN v c = .ok (h', if h0.lidx v < h0.counts.length ∨ h0.autoResize = true then .ok ()
        else .error .ValueOutOfRangeResizeDisabled) := by
    intro v c hv hc e
    rw [F.recordN hv hc]
    by_cases hcv : h0.lidx v < h0.counts.length ∨ h0.autoResize = true
    · rw [if_pos hcv] at e
      rw [if_pos hcv, if_pos hcv]
      rw [recordSeq_cons, F.recordN hv hc, if_pos hcv, M.ok_bind] at e
      injection e with e
      injection e with e
      rw [e]
    · rw [if_neg hcv] at e
      rw [if_neg hcv, if_neg hcv]
      injection e with e
      injection e with e
      rw [e]
  obtain ⟨hv, hc⟩ := hk
  cases k with
  | record v => exact single v 1 hv hc e
  | recordN v c => exact single v c hv hc e
  | saturatingRecord v =>
    simp only [RecCall.run, Hist.saturatingRecord]
    rw [sat v 1 hv hc (hs.imp id fun s => s rfl) e]; rfl
  | saturatingRecordN v c =>
    simp only [RecCall.run]
    rw [sat v c hv hc (hs.imp id fun s => s rfl) e]; rfl
  | recordCorrect v i => exact plain v 1 i hv hc e
  | recordNCorrect v c i => exact plain v c i hv hc e

private theorem From.all {h0 : Hist T} (W0 : WF fp h0) {ks : List RecCall} :
    ∀ {h : Hist T}, From fp h0 h → (∀ k ∈ ks, k.Valid T) →
      (h0.autoResize = false ∨ ∀ k ∈ ks, k.saturating = true → h0.Covers k.value) →
      ∃ h', RecCall.runAll ks h = .ok (h', ks.map fun k => (k, answer h0 k)) ∧
        recordSeq (ks.flatMap (enters h0)) h = .ok (h', .ok ()) := by
  induction ks with
  | nil => intro h F _ _; exact ⟨h, rfl, rfl⟩
  | cons k ks ih =>
    intro h F hk hs
    obtain ⟨h1, e1, s1, F1⟩ := F.one W0 (hk k (by simp)) (hs.imp id fun s => s k (by simp))
    obtain ⟨h', e, s⟩ := ih F1 (fun k hm => hk k (by simp [hm])) (hs.imp id fun s k hm => s k (by simp [hm]))
    refine ⟨h', ?_, ?_⟩
    · unfold RecCall.runAll; rw [e1, M.ok_bind]; dsimp only; rw [e]; rfl
    · rw [List.flatMap_cons, recordSeq_append, s1, M.ok_bind]; exact s

/-- C100: recording calls can be made in any order.  The very same histogram results, and every call returns what
it returned in the other order, whether or not some of the calls fail; no call panics.  With auto-resize on this
asks that a value passed to a saturating method be covered from the start: see `C100_saturating_refuted`. -/
theorem C100_order_partial {h : Hist T} (R : Reachable fp T h) {ks ks' : List RecCall} (hp : ks.Perm ks')
    (hk : ∀ k ∈ ks, k.Valid T)
    (hs : h.isAutoResize = false ∨ ∀ k ∈ ks, k.saturating = true → h.Covers k.value) :
    ∃ h' rs rs', RecCall.runAll ks h = .ok (h', rs) ∧ RecCall.runAll ks' h = .ok (h', rs') ∧ rs.Perm rs' := by
  have W := R.wf
  obtain ⟨h1, e1, s1⟩ := From.all W (From.refl W) hk hs
  obtain ⟨h2, e2, s2⟩ := From.all W (From.refl W) (fun k hm => hk k (hp.mem_iff.mpr hm))
    (hs.imp id fun s k hm => s k (hp.mem_iff.mpr hm))
  have := W.recordSeq_perm (hp.flatMap_right (enters h)) (fun p hm => by
    rw [List.mem_flatMap] at hm
    obtain ⟨k, hkm, hm⟩ := hm
    exact (enters_valid W (hk k hkm)).1 p hm) s1
  rw [this] at s2
  injection s2 with s2
  injection s2 with s2
  subst s2
  exact ⟨h1, _, _, e1, e2, hp.map _⟩

/-- C100: what each of the calls returns is settled before the first one is made: an error exactly for a value
that is not covered, if auto-resize is off and the method does not saturate. -/
theorem C100_answers {h : Hist T} (R : Reachable fp T h) {ks : List RecCall} (hk : ∀ k ∈ ks, k.Valid T)
    (hs : h.isAutoResize = false ∨ ∀ k ∈ ks, k.saturating = true → h.Covers k.value) :
    ∃ h', RecCall.runAll ks h = .ok (h', ks.map fun k =>
      (k, if k.saturating = false ∧ h.isAutoResize = false ∧ ¬ h.Covers k.value
        then .error .ValueOutOfRangeResizeDisabled else .ok ())) := by
  have W := R.wf
  obtain ⟨h1, e1, -⟩ := From.all W (From.refl W) hk hs
  refine ⟨h1, e1.trans ?_⟩
  have : (fun k : RecCall => (k, answer h k)) = fun k =>
      (k, if k.saturating = false ∧ h.isAutoResize = false ∧ ¬ h.Covers k.value
        then .error .ValueOutOfRangeResizeDisabled else .ok ()) := by
    funext k
    unfold answer Hist.isAutoResize
    simp only [W.covers_iff]
    by_cases hc : h.lidx k.value < h.counts.length <;> cases k.saturating <;> cases h.autoResize <;> simp [hc]
  rw [this]

/-- C100, the exception: with auto-resize on, a saturating method clamps a value to `high()`, and `high()` grows
with the recordings made before. -/
theorem C100_saturating_refuted : ∃ h : Hist .u8, Reachable Fp.ideal .u8 h ∧ h.isAutoResize = true ∧
    ∃ a b, RecCall.Valid .u8 a ∧ RecCall.Valid .u8 b ∧ ∃ h1 h2 rs1 rs2,
      RecCall.runAll [a, b] h = .ok (h1, rs1) ∧ RecCall.runAll [b, a] h = .ok (h2, rs2) ∧
      h1.countAt 100 = .ok 0 ∧ h2.countAt 100 = .ok 1 := by
  have h0 : (match RecCall.runAll [.saturatingRecord 100, .record 1000] (demo.auto true),
      RecCall.runAll [.record 1000, .saturatingRecord 100] (demo.auto true) with
    | .ok r1, .ok r2 => decide (r1.1.countAt 100 = .ok 0 ∧ r2.1.countAt 100 = .ok 1)
    | _, _ => false) = true := by decide +kernel
  refine ⟨demo.auto true, .auto true demo_reachable, rfl, .saturatingRecord 100, .record 1000, by decide, by decide, ?_⟩
  cases h1 : RecCall.runAll [.saturatingRecord 100, .record 1000] (demo.auto true) with
  | error e => rw [h1] at h0; cases h0
  | ok r1 =>
    cases h2 : RecCall.runAll [.record 1000, .saturatingRecord 100] (demo.auto true) with
    | error e => rw [h1, h2] at h0; cases h0
    | ok r2 =>
      rw [h1, h2] at h0
      have h0 := of_decide_eq_true h0
      exact ⟨r1.1, r2.1, r1.2, r2.2, rfl, rfl, h0.1, h0.2⟩

/-! Non-trivial cases: calls of which some fail, clamp, or enter a hidden series. -/

example : ∃ h' rs rs',
    RecCall.runAll [.record 5, .recordN 1000 3, .saturatingRecord 2000, .recordNCorrect 12 2 4] demo = .ok (h', rs) ∧
    RecCall.runAll [.saturatingRecord 2000, .recordNCorrect 12 2 4, .recordN 1000 3, .record 5] demo = .ok (h', rs') ∧
    rs.Perm rs' :=
  C100_order_partial demo_reachable (by decide) (by decide) (Or.inl rfl)

/-- auto-resize on: the first call of one order grows the array, the first of the other does not -/
example : ∃ h' rs rs', RecCall.runAll [.record 1000, .saturatingRecord 3, .recordCorrect 90 30] (demo.auto true) = .ok (h', rs) ∧
    RecCall.runAll [.saturatingRecord 3, .recordCorrect 90 30, .record 1000] (demo.auto true) = .ok (h', rs') ∧ rs.Perm rs' :=
  C100_order_partial (.auto true demo_reachable) (by decide) (by decide) (Or.inr (by decide))

example : ∃ h', RecCall.runAll [.record 5, .recordN 1000 3, .saturatingRecord 2000, .recordNCorrect 12 2 4] demo =
    .ok (h', [(.record 5, .ok ()), (.recordN 1000 3, .error .ValueOutOfRangeResizeDisabled),
      (.saturatingRecord 2000, .ok ()), (.recordNCorrect 12 2 4, .ok ())]) ∧ h'.counts = [0, 0, 0, 3, 5] :=
  ⟨_, rfl, by decide⟩

end Hdr
