import Verif.Proofs.LogLevels
import Verif.Spec.Steps
import Verif.Props.Quantile

/-!
# C31, C32: iteration by linear and logarithmic steps
-/

namespace Hdr

variable {T : CounterTy} {fp : Fp} {P : Type}

theorem countUpTo_split (cs : List Cls) {p v : Nat} (h : p ≤ v + 1) :
    ((cs.filter fun c => decide (c.lo < p)).map (·.count)).sum + countIn cs p (v + 1) = countUpTo cs v := by
  induction cs with
  | nil => rfl
  | cons c cs ih =>
    unfold countIn countUpTo at ih ⊢
    simp only [List.filter_cons]
    by_cases h1 : c.lo < p
    · have h2 : ¬ (p ≤ c.lo ∧ c.lo < v + 1) := by omega
      have h3 : c.lo ≤ v := by omega
      simp only [h1, h2, h3, decide_true, decide_false, if_true, Bool.false_eq_true, if_false, List.map_cons, List.sum_cons]
      omega
    · by_cases h3 : c.lo ≤ v
      · have h2 : p ≤ c.lo ∧ c.lo < v + 1 := by omega
        simp only [h1, h2, h3, decide_true, decide_false, if_true, Bool.false_eq_true, if_false, List.map_cons,
          List.sum_cons, and_self]
        omega
      · have h2 : ¬ (p ≤ c.lo ∧ c.lo < v + 1) := by omega
        simp only [h1, h2, h3, decide_false, Bool.false_eq_true, if_false]
        exact ih

theorem countUpTo_succ (cs : List Cls) {p v : Nat} (h : p ≤ v) :
    countIn cs (p + 1) (v + 1) = countUpTo cs v - countUpTo cs p := by
  have h1 := countUpTo_split cs (p := p + 1) (v := v) (by omega)
  have h2 : ((cs.filter fun c => decide (c.lo < p + 1)).map (·.count)).sum = countUpTo cs p := by
    unfold countUpTo
    simp only [Nat.lt_succ_iff]
  omega

theorem countUpTo_first (cs : List Cls) (v : Nat) : countIn cs 0 (v + 1) = countUpTo cs v := by
  have h1 := countUpTo_split cs (p := 0) (v := v) (by omega)
  simpa using h1

theorem WF.stepItem_ok {h : Hist T} (W : WF fp h) {cs : List Cls} (C : Classes h cs) {L : Nat → Nat} {k : Nat}
    (hm : ∀ j, j + 1 = k → L j ≤ L k) (hv : L k ≤ U64MAX) :
    StepItem h cs (levelFrom L k) (L k) (h.stepItem (L k) (h.stepBase L k)) := by
  refine ⟨rfl, ?_, ?_, rfl, ?_⟩
  · show Min.min _ _ = _
    rw [← W.countUpTo_eq C]
    cases k with
    | zero => simp only [Hist.stepBase, levelFrom]; rw [countUpTo_first]; rfl
    | succ j =>
      simp only [Hist.stepBase, levelFrom]
      rw [countUpTo_succ _ (hm j rfl), ← W.countUpTo_eq C]
  · show F64.div _ _ = _
    rw [← W.countUpTo_eq C]
    rfl
  · exact W.countAt_eq hv

/-! ### the schedules -/

theorem WF.slotOf_le_iff {h : Hist T} (W : WF fp h) {v i : Nat} (hi : i < h.counts.length) :
    (h.llo v ≤ h.lval i ∨ i = h.counts.length - 1) ↔ h.slotOf v ≤ i := by
  have hp := W.len_pos
  have h1 : h.llo v ≤ h.lval i ↔ h.lidx v ≤ i := by
    have e : h.llo v = h.lval (h.lidx v) := Lay.val_idx.symm
    rw [e]
    constructor
    · intro hle
      by_contra hlt
      have := Lay.val_lt_val (um := h.unitMag) (m := h.subBucketHalfCountMag) (show i < h.lidx v by omega)
      exact absurd hle (not_le.mpr this)
    · exact fun h => Lay.val_le_val h
  rw [h1]
  unfold Hist.slotOf
  omega

theorem WF.len_lt_all {h : Hist T} (W : WF fp h) (hc : ¬ h.Covers U64MAX) : h.counts.length < h.lall := by
  have h1 : h.lval h.counts.length < 2 ^ 64 := by
    rw [W.lval_len]
    unfold Hist.Covers at hc
    have : U64MAX = 18446744073709551615 := rfl
    omega
  exact (Lay.val_lt_iff W.sum62).mp h1

theorem WF.lval_max {h : Hist T} (W : WF fp h) : h.llo h.lmax = h.lval (h.lidx h.maxValue) := by
  rw [← W.lidx_lmax]; exact Lay.val_idx.symm

/-- the levels of `iter_linear` -/
def linLevel (step k : Nat) : Nat := (k + 1) * step - 1

/-- its states -/
def Hist.linState (h : Hist T) (step k : Nat) : Hist.LinearState :=
  { step := step, highest := linLevel step k, lowest := h.llo (linLevel step k) }

theorem linLevel_mono {step j k : Nat} (hjk : j ≤ k) : linLevel step j ≤ linLevel step k := by
  unfold linLevel
  have := Nat.mul_le_mul_right step (show j + 1 ≤ k + 1 by omega)
  omega

theorem linLevel_succ {step k : Nat} (hs : 0 < step) : linLevel step k + step = linLevel step (k + 1) := by
  unfold linLevel
  have : 0 < (k + 1) * step := by positivity
  have h2 : (k + 1 + 1) * step = (k + 1) * step + step := by ring
  omega

theorem WF.linPick {h : Hist T} (W : WF fp h) {step k : Nat} (hs : 0 < step) (hL : linLevel step (k + 1) ≤ U64MAX)
    (i t c : Nat) (hi : i < h.counts.length) :
    h.linearPicker.pick (h.linState step k) i t c =
      if h.slotOf (linLevel step k) ≤ i then .ok (h.linState step (k + 1), some ⟨none, some (linLevel step k)⟩)
      else .ok (h.linState step k, none) := by
  show h.linearPick (h.linState step k) i = _
  unfold Hist.linearPick
  rw [W.valueFor hi, M.ok_bind, W.lastIndex, M.ok_bind]
  have e : ((h.linState step k).lowest ≤ h.lval i ∨ i = h.counts.length - 1) ↔ h.slotOf (linLevel step k) ≤ i :=
    W.slotOf_le_iff (v := linLevel step k) hi
  by_cases hle : h.slotOf (linLevel step k) ≤ i
  · rw [if_pos (e.mpr hle), if_pos hle]
    have hadd : addU64 (h.linState step k).highest (h.linState step k).step = .ok (linLevel step (k + 1)) := by
      unfold addU64
      rw [show (h.linState step k).highest + (h.linState step k).step = linLevel step (k + 1) from linLevel_succ hs,
        if_pos hL]
    rw [hadd, M.ok_bind, lowestEquivalent_eq W.toLayoutOK hL, M.ok_bind]
    rfl
  · rw [if_neg (fun hc => hle (e.mp hc)), if_neg hle]
    rfl

theorem WF.linMore {h : Hist T} (W : WF fp h) {step k i : Nat} (hi : i + 1 < h.lall) :
    h.linearPicker.more (h.linState step k) i
      = .ok (h.linState step k, decide (linLevel step k < h.lval (i + 1))) := by
  show h.linearMore _ i = _
  unfold Hist.linearMore
  have h2 : h.lall < 2 ^ 24 := Lay.allSlots_lt W.mag17
  have h3 : 2 ^ 24 + 1 ≤ U64MAX := by decide
  rw [if_pos (by omega), expectM_some, M.ok_bind, valueFor_eq W.toLayoutOK hi, M.ok_bind]
  rfl

/-- the class of `max()` starts at or below a level -/
theorem WF.linReach {h : Hist T} (W : WF fp h) {step j : Nat} (hs : 0 < step) (hj : 0 < j) :
    (∀ m l, h.max = .ok m → h.lowestEquivalent m = .ok l → l < j * step) ↔
      h.lidx h.maxValue ≤ h.slotOf (linLevel step (j - 1)) := by
  have hc := W.maxcov
  have h1 : (∀ m l, h.max = .ok m → h.lowestEquivalent m = .ok l → l < j * step) ↔
      h.lval (h.lidx h.maxValue) ≤ linLevel step (j - 1) := by
    have h0 : 0 < j * step := by positivity
    have h2 : linLevel step (j - 1) = j * step - 1 := by unfold linLevel; rw [Nat.sub_add_cancel hj]
    rw [h2]
    constructor
    · intro hh
      have := hh _ _ W.max_eq (lowestEquivalent_eq W.toLayoutOK lmax_le)
      rw [W.lval_max] at this
      omega
    · intro hh m l hm hl
      rw [W.max_eq] at hm
      cases hm
      rw [lowestEquivalent_eq W.toLayoutOK lmax_le, W.lval_max] at hl
      cases hl
      omega
  rw [h1, show h.lval (h.lidx h.maxValue) ≤ _ ↔ _ from Lay.val_le_iff]
  change h.lidx h.maxValue ≤ h.lidx _ ↔ _
  unfold Hist.slotOf
  omega

/-- between two levels that are both reported -/
theorem WF.linCont {h : Hist T} (W : WF fp h) {step n k : Nat} (hs : 0 < step) (hn : LinearSteps h step n) (hk : k + 1 < n)
    (hk1 : linLevel step (k + 1) ≤ U64MAX) :
    h.slotOf (linLevel step k) < h.lidx h.maxValue ∨
      (h.slotOf (linLevel step (k + 1)) = h.slotOf (linLevel step k) ∧
        h.linearPicker.more (h.linState step (k + 1)) (h.slotOf (linLevel step k)) = .ok (h.linState step (k + 1), true)) := by
  have hk0 : linLevel step k ≤ U64MAX := (linLevel_mono (by omega)).trans hk1
  have hleast := hn.2
  by_contra hcon
  rw [not_or] at hcon
  obtain ⟨ha, hb⟩ := hcon
  have hnd : ¬ LinearDone h step (k + 1) := by
    intro hd
    have := hleast ⟨by omega, hd⟩
    omega
  apply hnd
  refine ⟨(W.linReach hs (show 0 < k + 1 by omega)).mpr (by simpa using ha), ?_⟩
  rintro ⟨hcov, heq, htop⟩
  apply hb
  change h.Covers (linLevel step (k + 1)) at hcov
  change Equiv h (linLevel step k) (linLevel step (k + 1)) at heq
  change ¬ Equiv h (linLevel step k) U64MAX at htop
  unfold Equiv at heq htop
  rw [equivalent_eq W.toLayoutOK hk0 hk1] at heq
  rw [equivalent_eq W.toLayoutOK hk0 le_rfl] at htop
  have htop : h.lidx (linLevel step k) ≠ h.lidx U64MAX := fun hc => htop (by
    have : h.llo (linLevel step k) = h.llo U64MAX := Lay.lo_eq_iff.mpr hc
    simp [this])
  have htop' : h.lidx (linLevel step k) ≤ h.lidx U64MAX := Lay.idx_mono hk0
  have hall := lidx_lt_all W.toLayoutOK (v := U64MAX) le_rfl
  have heq : h.llo (linLevel step k) = h.llo (linLevel step (k + 1)) := by simpa using heq
  have hidx : h.lidx (linLevel step k) = h.lidx (linLevel step (k + 1)) := Lay.lo_eq_iff.mp heq
  have hlt := (W.lidx_lt_iff_lt _).mpr hcov
  refine ⟨by unfold Hist.slotOf; rw [hidx], ?_⟩
  rw [W.linMore (by unfold Hist.slotOf; omega)]
  congr 2
  refine decide_eq_true ?_
  refine Lay.lt_val_iff.mpr ?_
  change h.lidx _ < _
  unfold Hist.slotOf
  omega

/-- being asked for more in the last slot of a histogram that covers all of `u64` -/
theorem WF.linMoreTop {h : Hist T} (W : WF fp h) {step k i : Nat} (hi : i + 1 = h.lall) :
    h.linearPicker.more (h.linState step k) i
      = if h.subBucketHalfCountMag = 0 then .error .overflow else .ok (h.linState step k, false) := by
  show h.linearMore _ i = _
  unfold Hist.linearMore
  have h2 : h.lall < 2 ^ 24 := Lay.allSlots_lt W.mag17
  have h3 : 2 ^ 24 + 1 ≤ U64MAX := by decide
  rw [if_pos (by omega), expectM_some, M.ok_bind, hi, valueFor_all W.toLayoutOK]
  split <;> rfl

/-- the last slot of a histogram that covers all of `u64` -/
theorem WF.slotOf_top {h : Hist T} (W : WF fp h) (v : Nat) :
    h.slotOf v + 1 = h.lall ↔ h.Covers U64MAX ∧ h.llo U64MAX ≤ v := by
  have hp := W.len_pos
  have h1 := W.len_le_all
  have h2 : h.lidx U64MAX < h.counts.length ↔ h.Covers U64MAX := W.lidx_lt_iff_lt U64MAX
  have h3 := lidx_lt_all W.toLayoutOK (v := U64MAX) le_rfl
  have h4 : h.llo U64MAX ≤ v ↔ h.lidx U64MAX ≤ h.lidx v := by
    rw [show h.llo U64MAX = h.lval (h.lidx U64MAX) from Lay.val_idx.symm]
    exact Lay.val_le_iff
  have h5 : h.lidx U64MAX + 1 = h.lall := by
    by_contra hne
    have h6 : h.lidx U64MAX + 1 < h.lall := by omega
    have h7 : h.lval (h.lidx U64MAX + 1) < 2 ^ 64 := (Lay.val_lt_iff W.sum62).mpr h6
    have h8 : U64MAX < h.lval (h.lidx U64MAX + 1) := Lay.lt_val_iff.mpr (by show h.lidx U64MAX < _; omega)
    have hU : U64MAX = 18446744073709551615 := rfl
    omega
  rw [h4, ← h2]
  unfold Hist.slotOf
  omega

theorem WF.mag_zero {h : Hist T} (W : WF fp h) : h.subBucketHalfCountMag = 0 ↔ h.sigfig = 0 := by
  have h1 := W.mag
  have h2 := W.sig5
  show _ ↔ h.sigDigits = 0
  have h3 : ∀ s, s ≤ 5 → (Hist.subBucketCountMag s = 1 ↔ s = 0) := by decide
  have := h3 _ h2
  omega

theorem WF.linSched {h : Hist T} (W : WF fp h) {step n : Nat} (hs : 0 < step) (hn : LinearSteps h step n)
    (hmax : (n + 1) * step ≤ U64MAX + 1)
    (htop : h.sigfig = 0 → h.Covers U64MAX → ∀ l, h.lowestEquivalent U64MAX = .ok l → n * step ≤ l) :
    Sched h h.linearPicker (h.linState step) (linLevel step) n := by
  obtain ⟨⟨hn0, hdone⟩, hleast⟩ := hn
  have hlev : ∀ k, k ≤ n → linLevel step k ≤ U64MAX := by
    intro k hk
    have h1 := linLevel_mono (step := step) hk
    have h2 : linLevel step n = (n + 1) * step - 1 := rfl
    omega
  have h4 : linLevel step (n - 1) = n * step - 1 := by unfold linLevel; rw [Nat.sub_add_cancel hn0]
  refine ⟨hn0, fun k _ => linLevel_mono (by omega), ?_, ?_, (W.linReach hs hn0).mp hdone.1, ?_⟩
  · intro k hk i t c hi
    exact W.linPick hs (hlev (k + 1) hk) i t c hi
  · intro k hk
    exact W.linCont hs ⟨⟨hn0, hdone⟩, hleast⟩ hk (hlev (k + 1) (by omega))
  · refine ⟨h.linState step n, ?_⟩
    have h2 := W.slotOf_lt (linLevel step (n - 1))
    have h5 := W.len_le_all
    by_cases hlast : h.slotOf (linLevel step (n - 1)) + 1 = h.lall
    · rw [W.linMoreTop hlast, if_neg]
      rw [W.mag_zero]
      intro hsig
      obtain ⟨hc, hle⟩ := (W.slotOf_top _).mp hlast
      have h6 := htop hsig hc _ (lowestEquivalent_eq W.toLayoutOK le_rfl)
      have h7 : 0 < n * step := by positivity
      omega
    · rw [W.linMore (by omega)]
      congr 2
      refine decide_eq_false ?_
      intro hlt
      have hlt := Lay.lt_val_iff.mp hlt
      change h.lidx _ < _ at hlt
      have h1 : h.lidx (linLevel step (n - 1)) ≤ h.lidx (linLevel step n) := Lay.idx_mono (linLevel_mono (by omega))
      have h3 : h.slotOf (linLevel step (n - 1)) ≤ h.lidx (linLevel step (n - 1)) := by unfold Hist.slotOf; omega
      apply hdone.2
      refine ⟨(W.lidx_lt_iff_lt _).mp (show h.lidx (linLevel step n) < _ by omega), ?_, ?_⟩
      · unfold Equiv
        rw [← h4]
        change h.equivalent _ (linLevel step n) = _
        rw [equivalent_eq W.toLayoutOK (hlev _ (by omega)) (hlev _ le_rfl)]
        have : h.llo (linLevel step (n - 1)) = h.llo (linLevel step n) := Lay.lo_eq_iff.mpr (by
          change h.lidx _ = h.lidx _
          omega)
        simp [this]
      · rw [← h4]
        unfold Equiv
        rw [equivalent_eq W.toLayoutOK (hlev _ (by omega)) le_rfl]
        intro hc
        have hc : h.llo (linLevel step (n - 1)) = h.llo U64MAX := by simpa using hc
        apply hlast
        rw [W.slotOf_top]
        have hidx : h.lidx (linLevel step (n - 1)) = h.lidx U64MAX := Lay.lo_eq_iff.mp hc
        exact ⟨(W.lidx_lt_iff_lt _).mp (by omega), by rw [← hc]; exact Lay.lo_le⟩

/-! ## C31 -/

/-- the counts since the last iteration add up -/
theorem WF.sched_sum {h : Hist T} (W : WF fp h) {pk : Picker P} {p : Nat → P} {L : Nat → Nat} {n : Nat}
    (S : Sched h pk p L n) (hs : h.counts.sum ≤ U64MAX) :
    (((List.range n).map fun k => h.stepItem (L k) (h.stepBase L k)).map (·.countSinceLastIteration)).sum
      = h.counts.sum := by
  have hle : ∀ i, (h.counts.take i).sum ≤ h.counts.sum := by
    intro i
    have := take_drop_sum h.counts i
    omega
  have hpart : ∀ j, j < n → (((List.range (j + 1)).map fun k => h.stepItem (L k) (h.stepBase L k)).map
      (·.countSinceLastIteration)).sum = (h.counts.take (h.slotOf (L j) + 1)).sum := by
    intro j
    induction j with
    | zero =>
      intro _
      simp only [List.range_succ, List.range_zero, List.nil_append, List.map_cons, List.map_nil, List.sum_cons, List.sum_nil,
        Hist.stepItem, Hist.stepBase, List.take_zero]
      have := hle (h.slotOf (L 0) + 1)
      omega
    | succ j ih =>
      intro hj
      rw [List.range_succ, List.map_append, List.map_append, List.sum_append, ih (by omega)]
      simp only [List.map_cons, List.map_nil, List.sum_cons, List.sum_nil, Hist.stepItem, Hist.stepBase]
      have h1 := hle (h.slotOf (L (j + 1)) + 1)
      have h2 := take_sum_mono h.counts (Nat.succ_le_succ (slotOf_mono (h := h) (S.mono j hj)))
      simp only [Nat.succ_eq_add_one] at h2
      omega
  have hn := S.pos
  have h1 := hpart (n - 1) (by omega)
  rw [Nat.sub_add_cancel hn] at h1
  rw [h1]
  have h2 := take_drop_sum h.counts (h.slotOf (L (n - 1)) + 1)
  have h3 : (h.counts.drop (h.slotOf (L (n - 1)) + 1)).sum = 0 := by
    refine List.sum_eq_zero (W.drop_zero_after ?_)
    have := S.reach
    omega
  omega

/-- C31 (partial): `iter_linear(step)` yields exactly the levels `step - 1, 2 * step - 1, …`, as many as `LinearSteps` says,
each with the samples of the classes that start in the step's interval; it ends, and does not panic. Missing: the code
computes one level more than it reports, so this level must fit `u64` (`hmax`); and after the last level it computes the end
of that level's class, so in a histogram with 0 significant digits this must not be the class of `u64::MAX` (`htop`). In all
other cases it panics: `C31_panic`, `C31_refuted`. -/
theorem C31_linear_partial {h : Hist T} (R : Reachable fp T h) {cs : List Cls} (C : Classes h cs) {step n : Nat}
    (hs : 0 < step) (hn : LinearSteps h step n) (hmax : (n + 1) * step ≤ U64MAX + 1)
    (htop : h.sigfig = 0 → h.Covers U64MAX → ∀ l, h.lowestEquivalent U64MAX = .ok l → n * step ≤ l) :
    ∃ items, (∀ fuel, n < fuel → h.iterLinear step fuel = .ok items) ∧ items.length = n ∧
      (∀ k it, items[k]? = some it → StepItem h cs (k * step) ((k + 1) * step - 1) it) ∧
      ((cs.map (·.count)).sum ≤ U64MAX →
        (items.map (·.countSinceLastIteration)).sum = (cs.map (·.count)).sum) := by
  have W := R.wf
  have S := W.linSched hs hn hmax htop
  have hlev : ∀ k, k ≤ n → linLevel step k ≤ U64MAX := by
    intro k hk
    have h1 := linLevel_mono (step := step) hk
    have h2 : linLevel step n = (n + 1) * step - 1 := rfl
    omega
  refine ⟨(List.range n).map fun k => h.stepItem (linLevel step k) (h.stepBase (linLevel step) k), ?_, ?_, ?_, ?_⟩
  · intro fuel hf
    unfold Hist.iterLinear Hist.linearNew
    rw [assertM_true (decide_eq_true hs), M.ok_bind]
    have h0 : subU step 1 = .ok (linLevel step 0) := by
      unfold subU linLevel
      rw [if_pos (by omega), Nat.zero_add, Nat.one_mul]
    rw [h0, M.ok_bind, lowestEquivalent_eq W.toLayoutOK (hlev 0 (by omega)), M.ok_bind]
    exact W.schedCollect S hf
  · simp
  · intro k it hit
    rw [List.getElem?_map] at hit
    have hk : k < n := by
      by_contra hk
      rw [List.getElem?_eq_none (by simp; omega)] at hit
      cases hit
    rw [List.getElem?_range hk] at hit
    cases hit
    have := W.stepItem_ok C (L := linLevel step) (k := k) (fun j hj => linLevel_mono (by omega)) (hlev k hk.le)
    cases k with
    | zero => rw [Nat.zero_mul]; exact this
    | succ j =>
      simp only [levelFrom] at this
      rwa [show linLevel step j + 1 = (j + 1) * step by
        unfold linLevel
        have : 0 < (j + 1) * step := by positivity
        omega] at this
  · intro hsum
    rw [W.sum_classes C] at hsum ⊢
    exact W.sched_sum S hsum

/-- C31: the number of steps exists; the covered range and two steps more are enough room for all levels. -/
theorem C31_steps {h : Hist T} (R : Reachable fp T h) {step : Nat} (hs : 0 < step) :
    ∃ n, LinearSteps h step n ∧ (n + 1) * step ≤ h.coverEnd + 2 * step := by
  have W := R.wf
  have hl : ∀ m l, h.max = .ok m → h.lowestEquivalent m = .ok l → l < h.coverEnd := by
    intro m l hm hl
    rw [W.max_eq] at hm
    cases hm
    rw [lowestEquivalent_eq W.toLayoutOK lmax_le, W.lval_max] at hl
    cases hl
    rw [← W.lval_len]
    exact Lay.val_lt_val W.maxcov
  have hex : ∃ j, 0 < j ∧ LinearDone h step j := by
    refine ⟨h.coverEnd + 1, by omega, ?_, ?_⟩
    · intro m l hm hl'
      have h1 := hl m l hm hl'
      have h2 : (h.coverEnd + 1) * 1 ≤ (h.coverEnd + 1) * step := Nat.mul_le_mul_left _ hs
      omega
    · rintro ⟨hc, -⟩
      unfold Hist.Covers at hc
      have h2 : (h.coverEnd + 1 + 1) * 1 ≤ (h.coverEnd + 1 + 1) * step := Nat.mul_le_mul_left _ hs
      omega
  classical
  refine ⟨Nat.find hex, ⟨Nat.find_spec hex, fun j hj => Nat.find_min' hex hj⟩, ?_⟩
  obtain ⟨h0, -⟩ := Nat.find_spec hex
  generalize hN : Nat.find hex = n at h0
  have hpred : (n - 1) * step ≤ h.coverEnd := by
    by_cases h1 : n = 1
    · subst h1; simp
    · have hnot : ¬ (0 < n - 1 ∧ LinearDone h step (n - 1)) := Nat.find_min hex (by omega)
      by_contra hgt
      apply hnot
      refine ⟨by omega, ?_, ?_⟩
      · intro m l hm hl'
        have := hl m l hm hl'
        omega
      · rintro ⟨hc, -⟩
        unfold Hist.Covers at hc
        have : (n - 1) * step ≤ (n - 1 + 1) * step := Nat.mul_le_mul_right _ (by omega)
        omega
  have : (n + 1) * step = (n - 1) * step + 2 * step := by
    obtain ⟨k, rfl⟩ : ∃ k, n = k + 1 := ⟨n - 1, by omega⟩
    rw [Nat.add_sub_cancel]
    ring
  omega

/-- C31: hence no panic, for any fuel from the number of steps on, whenever there is that much room. -/
theorem C31_total_partial {h : Hist T} (R : Reachable fp T h) {step : Nat} (hs : 0 < step)
    (hroom : h.coverEnd + 2 * step ≤ U64MAX + 1) :
    ∃ n items, ∀ fuel, n < fuel → h.iterLinear step fuel = .ok items := by
  obtain ⟨n, hn, hle⟩ := C31_steps R hs
  have hc : ¬ h.Covers U64MAX := by unfold Hist.Covers; omega
  obtain ⟨items, hi, -⟩ := C31_linear_partial R R.wf.classes hs hn (by omega) (fun _ h => absurd h hc)
  exact ⟨n, items, hi⟩

/-- `demo3` in steps of 3: five of them, the last three in the class 8 to 15 of the maximum -/
example : LinearSteps demo3 3 5 ∧ (5 + 1) * 3 ≤ U64MAX + 1 ∧ ¬ demo3.Covers U64MAX ∧
    (demo3.iterLinear 3 6).toOption.map (·.map fun it => (it.valueIteratedTo, it.countSinceLastIteration))
      = some [(2, 1), (5, 3), (8, 200), (11, 0), (14, 0)] := by
  refine ⟨⟨⟨by decide, ?_, by decide +kernel⟩, ?_⟩, by decide, by decide +kernel, by decide +kernel⟩
  · intro m l hm hl
    rw [show demo3.max = .ok 15 by decide +kernel] at hm
    cases hm
    rw [show demo3.lowestEquivalent 15 = .ok 8 by decide +kernel] at hl
    cases hl
    decide
  · intro j ⟨h0, h1, h2⟩
    by_contra hlt
    have h1 := h1 15 8 (by decide +kernel) (by decide +kernel)
    have : j = 3 ∨ j = 4 := by omega
    rcases this with rfl | rfl
    · exact h2 (by decide +kernel)
    · exact h2 (by decide +kernel)

/-- The panics outside these conditions. With a sample at `2^63`, the levels `2^63 - 1` and `2^64 - 1` are due in steps of
`2^63`, but the level after the last overflows; and in steps of `2^62`, all levels fit, but the end of the last class is
computed by shifting by 64 bits. -/
theorem C31_refuted : ∃ h, demoTop.recordN (2 ^ 63) 1 = .ok (h, .ok ()) ∧ h.iterLinear (2 ^ 63) 10 = .error .overflow ∧
    h.iterLinear (2 ^ 62) 10 = .error .overflow :=
  okThen (by decide +kernel)

/-! ## C32 -/

/-- the states of `iter_log` -/
def Hist.logState (h : Hist T) (start : Nat) (b : F64) (k : Nat) : Hist.LogState :=
  { nextLevel := logF start b k, logBase := b, lowest := h.llo (logLevel start b k), highest := logLevel start b k }

theorem WF.logPick {h : Hist T} (W : WF fp h) {start : Nat} {b : F64} (hs : 0 < start) (hm : start ≤ U64MAX)
    (hv : b.Valid) (hb : F64.lt (.fin 1) b = true) (k i t c : Nat) (hi : i < h.counts.length) :
    h.logPicker.pick (h.logState start b k) i t c =
      if h.slotOf (logLevel start b k) ≤ i then
        .ok (h.logState start b (k + 1), some ⟨none, some (logLevel start b k)⟩)
      else .ok (h.logState start b k, none) := by
  show h.logPick (h.logState start b k) i = _
  unfold Hist.logPick
  rw [W.valueFor hi, M.ok_bind, W.lastIndex, M.ok_bind]
  have e : ((h.logState start b k).lowest ≤ h.lval i ∨ i = h.counts.length - 1) ↔ h.slotOf (logLevel start b k) ≤ i :=
    W.slotOf_le_iff (v := logLevel start b k) hi
  by_cases hle : h.slotOf (logLevel start b k) ≤ i
  · rw [if_pos (e.mpr hle), if_pos hle]
    have hsub : subU (F64.mul (h.logState start b k).nextLevel (h.logState start b k).logBase).toU64 1
        = .ok (logLevel start b (k + 1)) := by
      unfold subU
      exact if_pos (logF_toU64_pos hs hm hv hb (k + 1))
    have hL : logLevel start b (k + 1) ≤ U64MAX := by have := logLevel_le hm (b := b) (k + 1); omega
    simp only [hsub, M.ok_bind, lowestEquivalent_eq W.toLayoutOK hL]
    rfl
  · rw [if_neg (fun hc => hle (e.mp hc)), if_neg hle]
    rfl

theorem logLevel_mono {start : Nat} {b : F64} (hs : 0 < start) (hm : start ≤ U64MAX)
    (hv : b.Valid) (hb : F64.lt (.fin 1) b = true) {j k : Nat} (hjk : j ≤ k) :
    logLevel start b j ≤ logLevel start b k := by
  induction hjk with
  | refl => exact le_rfl
  | step _ ih => exact ih.trans (logLevel_step hs hm hv hb _)

theorem WF.logMore {h : Hist T} (W : WF fp h) {start : Nat} {b : F64} (hs : 0 < start) (hm : start ≤ U64MAX)
    (hv : b.Valid) (hb : F64.lt (.fin 1) b = true) (k : Nat) :
    h.logPicker.more (h.logState start b (k + 1)) (h.slotOf (logLevel start b k))
      = .ok (h.logState start b (k + 1), false) := by
  show h.logMore _ _ = _
  unfold Hist.logMore
  have h1 := logF_toU64_pos hs hm hv hb (k + 1)
  have h2 := F64.toU64_le (logF start b (k + 1))
  rw [show (h.logState start b (k + 1)).nextLevel = logF start b (k + 1) from rfl,
    lowestEquivalent_eq W.toLayoutOK h2, M.ok_bind, W.valueFor (W.slotOf_lt _), M.ok_bind]
  refine congrArg _ (Prod.ext rfl (decide_eq_false ?_))
  rw [not_lt, show h.llo (logF start b (k + 1)).toU64 = h.lval (h.lidx (logF start b (k + 1)).toU64) from Lay.val_idx.symm]
  refine Lay.val_le_val ?_
  have h3 : h.lidx (logLevel start b k) ≤ h.lidx (logF start b (k + 1)).toU64 := by
    refine Lay.idx_mono ((logLevel_step hs hm hv hb k).trans ?_)
    simp only [logLevel]
    omega
  unfold Hist.slotOf
  omega

theorem WF.max_starts_le {h : Hist T} (W : WF fp h) (v : Nat) :
    (∀ m l, h.max = .ok m → h.lowestEquivalent m = .ok l → l ≤ v) ↔ h.lidx h.maxValue ≤ h.slotOf v := by
  have hc := W.maxcov
  have h1 : (∀ m l, h.max = .ok m → h.lowestEquivalent m = .ok l → l ≤ v) ↔ h.lval (h.lidx h.maxValue) ≤ v := by
    constructor
    · intro hh
      have := hh _ _ W.max_eq (lowestEquivalent_eq W.toLayoutOK lmax_le)
      rwa [W.lval_max] at this
    · intro hh m l hm hl
      rw [W.max_eq] at hm
      cases hm
      rw [lowestEquivalent_eq W.toLayoutOK lmax_le, W.lval_max] at hl
      cases hl
      exact hh
  rw [h1, show h.lval (h.lidx h.maxValue) ≤ _ ↔ _ from Lay.val_le_iff]
  change h.lidx h.maxValue ≤ h.lidx _ ↔ _
  unfold Hist.slotOf
  omega

theorem WF.logSched {h : Hist T} (W : WF fp h) {start n : Nat} {b : F64} (hs : 0 < start) (hm : start ≤ U64MAX)
    (hv : b.Valid) (hb : F64.lt (.fin 1) b = true) (hn : LogSteps h start b n) :
    Sched h h.logPicker (h.logState start b) (logLevel start b) n := by
  obtain ⟨⟨hn0, hreach⟩, hleast⟩ := hn
  refine ⟨hn0, fun k _ => logLevel_step hs hm hv hb k, fun k _ => W.logPick hs hm hv hb k, ?_,
    (W.max_starts_le _).mp hreach, ⟨h.logState start b n, ?_⟩⟩
  · intro k hk
    left
    by_contra hge
    have hd := (W.max_starts_le (logLevel start b k)).mpr (by omega)
    have : n ≤ k + 1 := hleast ⟨by omega, by simpa using hd⟩
    omega
  · have := W.logMore hs hm hv hb (n - 1)
    rwa [Nat.sub_add_cancel hn0] at this

/-- C32: `iter_log(start, base)` never panics, for every start above 0 and every `f64` base above 1. It yields exactly the
levels `start * base^k` (in `f64` arithmetic, truncated, minus one), up to the first that is not below the class of
`max()`, each with the samples of the classes that start after the previous level and up to this one; together they are all
samples. -/
theorem C32_log {h : Hist T} (R : Reachable fp T h) {cs : List Cls} (C : Classes h cs) {start : Nat} {b : F64}
    (hs : 0 < start) (hm : start ≤ U64MAX) (hv : b.Valid) (hb : F64.lt (.fin 1) b = true) :
    ∃ n items, LogSteps h start b n ∧ (∀ fuel, n < fuel → h.iterLog start b fuel = .ok items) ∧ items.length = n ∧
      (∀ k it, items[k]? = some it →
        StepItem h cs (levelFrom (logLevel start b) k) (logLevel start b k) it) ∧
      ((cs.map (·.count)).sum ≤ U64MAX →
        (items.map (·.countSinceLastIteration)).sum = (cs.map (·.count)).sum) := by
  have W := R.wf
  have hex : ∃ n, LogSteps h start b n := by
    obtain ⟨k, hk⟩ := logLevel_reaches hs hm hv hb
    have hex : ∃ j, 0 < j ∧ ∀ m l, h.max = .ok m → h.lowestEquivalent m = .ok l → l ≤ logLevel start b (j - 1) := by
      refine ⟨k + 1, by omega, (W.max_starts_le _).mpr ?_⟩
      rw [Nat.add_sub_cancel, hk]
      have h1 := W.maxcov
      have h2 : h.lidx (U64MAX - 1) = h.lidx U64MAX := by
        refine Lay.idx_eq_iff.mpr ⟨?_, ?_⟩
        · have h3 := Lay.lo_add_wid_le (v := U64MAX) W.sum62 (by decide)
          have h4 : Lay.wid h.unitMag h.subBucketHalfCountMag U64MAX ≠ 1 := by
            unfold Lay.wid Lay.bkt
            rw [show Nat.log2 U64MAX = 63 by decide +kernel]
            have := W.sum62
            refine (Nat.one_lt_two_pow (by omega)).ne'
          have h5 : 0 < Lay.wid h.unitMag h.subBucketHalfCountMag U64MAX := Lay.wid_pos
          have hU : (2 : Nat) ^ 64 = U64MAX + 1 := by decide
          omega
        · have := Lay.lt_lo_add (um := h.unitMag) (m := h.subBucketHalfCountMag) (v := U64MAX)
          omega
      have h3 : h.lidx h.maxValue ≤ h.lidx U64MAX := Lay.idx_mono W.maxle
      unfold Hist.slotOf
      omega
    classical
    exact ⟨Nat.find hex, Nat.find_spec hex, fun j hj => Nat.find_min' hex hj⟩
  obtain ⟨n, hn⟩ := hex
  have S := W.logSched hs hm hv hb hn
  refine ⟨n, (List.range n).map fun k => h.stepItem (logLevel start b k) (h.stepBase (logLevel start b) k), hn, ?_, by simp,
    ?_, ?_⟩
  · intro fuel hf
    unfold Hist.iterLog Hist.logNew
    rw [assertM_true (decide_eq_true hs), M.ok_bind, assertM_true hb, M.ok_bind]
    have h0 : subU start 1 = .ok (logLevel start b 0) := by
      unfold subU
      rw [if_pos (by omega)]
      rfl
    rw [h0, M.ok_bind, lowestEquivalent_eq W.toLayoutOK (by have := logLevel_le hm (b := b) 0; omega), M.ok_bind]
    exact W.schedCollect S hf
  · intro k it hit
    rw [List.getElem?_map] at hit
    have hk : k < n := by
      by_contra hk
      rw [List.getElem?_eq_none (by simp; omega)] at hit
      cases hit
    rw [List.getElem?_range hk] at hit
    cases hit
    exact W.stepItem_ok C (L := logLevel start b) (k := k) (fun j hj => logLevel_mono hs hm hv hb (by omega))
      (by have := logLevel_le hm (b := b) k; omega)
  · intro hsum
    rw [W.sum_classes C] at hsum ⊢
    exact W.sched_sum S hsum

/-- the schedule 3, 6, 12 for base 2, and the iteration over `demo3` with it -/
example : F64.Valid (.fin 2) ∧ F64.lt (.fin 1) (.fin 2) = true ∧
    [0, 1, 2].map (logLevel 3 (.fin 2)) = [2, 5, 11] ∧
    (demo3.iterLog 3 (.fin 2) 4).toOption.map (·.map fun it => (it.valueIteratedTo, it.countSinceLastIteration))
      = some [(2, 1), (5, 3), (11, 200)] :=
  ⟨show F64.rnd 2 = .fin 2 by decide +kernel, by decide +kernel, by decide +kernel, by decide +kernel⟩

/-- In `f64` arithmetic the schedule need not move: 1, 1.5, 2.25 are truncated to the levels 0, 0, 1. -/
example : [0, 1, 2].map (logLevel 1 (.fin (3 / 2))) = [0, 0, 1] := by decide +kernel

end Hdr
