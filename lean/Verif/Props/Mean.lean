import Verif.Proofs.Mean
import Verif.Props.Quantile

/-!
# C52: the mean
-/

namespace Hdr

variable {T : CounterTy} {fp : Fp}

/-- C52 (1): the mean of a histogram without samples is 0. -/
theorem C52_empty (h : Hist T) (h0 : h.len = 0) : h.mean = .ok (.fin 0) := by
  unfold Hist.mean
  rw [if_pos (show h.totalCount = 0 from h0)]
  rfl

theorem WF.range_lt {h : Hist T} : ∀ i ∈ List.range h.counts.length, i < h.counts.length :=
  fun _ hi => List.mem_range.mp hi

theorem WF.exactMean_eq {h : Hist T} (W : WF fp h) {cs : List Cls} (C : Classes h cs) {ms : List Nat} (hm : Medians h cs ms) :
    exactMean h cs ms = (h.meanSum (List.range h.counts.length) : ℚ) / h.totalCount := by
  unfold exactMean
  rw [W.classes_unique C] at hm ⊢
  rw [W.weightedSum_eq _ WF.range_lt hm]
  rfl

/-- C52 (2): the mean of a histogram with samples is a finite number. It differs from the exact count-weighted average of
the medians of its classes by the effect of at most 6 roundings plus one per class with samples, so by a relative error of
at most 2^-28. -/
theorem C52_mean {h : Hist T} (R : Reachable fp T h) {cs : List Cls} (C : Classes h cs) {ms : List Nat}
    (hm : Medians h cs ms) (h0 : h.len ≠ 0) :
    ∃ x, h.mean = .ok (.fin x) ∧ Near (6 + Cls.used cs) x (exactMean h cs ms) ∧
      |x - exactMean h cs ms| ≤ exactMean h cs ms / 2 ^ 28 := by
  have W := R.wf
  rw [W.exactMean_eq C hm, W.classes_unique C, used_eq]
  obtain ⟨x, e, hn⟩ := W.mean_near h0
  refine ⟨x, e, hn, hn.abs (by positivity) ?_⟩
  have h1 := meanUsed_le (h := h) (List.range h.counts.length)
  have h2 := W.len_le_all
  have h3 : h.lall < 2 ^ 24 := Lay.allSlots_lt W.mag17
  rw [List.length_range] at h1
  norm_num at h3
  omega

/-- the medians always exist -/
theorem C52_medians {h : Hist T} (R : Reachable fp T h) {cs : List Cls} (C : Classes h cs) : ∃ ms, Medians h cs ms := by
  have W := R.wf
  rw [W.classes_unique C]
  refine ⟨(List.range h.counts.length).map fun i => h.lval i + h.lwid (h.lval i) / 2, ?_⟩
  unfold Medians
  rw [List.forall₂_map_left_iff, List.forall₂_map_right_iff, List.forall₂_same]
  intro i hi
  exact (W.median_top (List.mem_range.mp hi)).2.1

/-- C52 (3, partial): the mean lies between `min()` and `max()` up to rounding, when `len()` is the sum of the counts,
`min()` is not the value `u64::MAX` and `max()` is not 0 (or the unit is 1). The claim fails for other histograms, see
`C52_refuted`. -/
theorem C52_range_partial {h : Hist T} (R : Reachable fp T h) {cs : List Cls} (C : Classes h cs)
    (hl : h.len = (cs.map (·.count)).sum) (h0 : h.len ≠ 0) {lo hi : Nat} (hlo : h.min = .ok lo) (hhi : h.max = .ok hi)
    (hU : lo ≠ U64MAX) (hz : hi ≠ 0 ∨ h.highestEquivalent 0 = .ok 0) :
    ∃ x, h.mean = .ok (.fin x) ∧ (lo : ℚ) * (1 - 1 / 2 ^ 28) ≤ x ∧ x ≤ hi * (1 + 1 / 2 ^ 28) := by
  have W := R.wf
  have hz := hz.imp_right W.unit_one
  obtain ⟨ms, hm⟩ := C52_medians R C
  obtain ⟨x, e, -, hx⟩ := C52_mean R C hm h0
  rw [W.exactMean_eq C hm] at hx
  rw [W.sum_classes C] at hl
  rw [W.max_eq] at hhi
  rw [W.min_eq] at hlo
  injection hhi with hhi
  injection hlo with hlo
  subst hhi
  have hpos : (0 : ℚ) < h.totalCount := by exact_mod_cast Nat.pos_of_ne_zero h0
  have hl : h.totalCount = h.counts.sum := hl
  have b1 := meanSum_le (h := h) (b := h.lmax) (List.range h.counts.length)
    (fun i hi hc => W.median_le_max (List.mem_range.mp hi) hc hz)
  have b2 : lo * ((List.range h.counts.length).map fun i => h.counts.getD i 0).sum
      ≤ h.meanSum (List.range h.counts.length) := by
    refine le_meanSum _ ?_
    intro i _ hc
    subst hlo
    split
    · exact Nat.zero_le _
    · rename_i hn
      rw [if_neg hn] at hU
      exact W.min_le_median hc (by omega) hU
  rw [sum_range_getD, ← hl] at b1 b2
  have b1 : (h.meanSum (List.range h.counts.length) : ℚ) ≤ h.lmax * h.totalCount := by exact_mod_cast b1
  have b2 : (lo : ℚ) * h.totalCount ≤ (h.meanSum (List.range h.counts.length) : ℚ) := by exact_mod_cast b2
  rw [← div_le_iff₀ hpos] at b1
  rw [← le_div_iff₀ hpos] at b2
  generalize (h.meanSum (List.range h.counts.length) : ℚ) / h.totalCount = y at *
  rw [abs_le] at hx
  refine ⟨x, e, ?_, ?_⟩
  · norm_num at hx ⊢
    linarith [hx.1]
  · norm_num at hx ⊢
    linarith [hx.2]

/-- an instance of (2) and (3): `demo3` holds one 0, three fives and 200 nines -/
example : Classes demo3 demo3Classes ∧ demo3.len ≠ 0 ∧ demo3.len = (demo3Classes.map (·.count)).sum ∧
    demo3.min = .ok 0 ∧ demo3.max = .ok 15 := ⟨demo3_classes, by decide, by decide, by decide, by decide⟩

/-- The range claim fails with a saturated counter (the mean is below `min()`), with a unit above 1 and only zeros
recorded (the mean is above `max()`) and when only `u64::MAX` was recorded (the mean is below `min()`). -/
theorem C52_refuted :
    (∃ x, demoSat.mean = .ok (.fin x) ∧ demoSat.min = .ok 8 ∧ x < 8 * (1 - 1 / 2 ^ 28)) ∧
    (∃ h', demoU.recordN 0 1 = .ok (h', .ok ()) ∧ h'.mean = .ok (.fin 2) ∧ h'.max = .ok 0) ∧
    (demoTop1.mean = .ok (.fin (2 ^ 63 + 2 ^ 62)) ∧ demoTop1.min = .ok U64MAX) := by
  refine ⟨⟨4306567143673037 / 562949953421312, by decide +kernel, by decide +kernel, by norm_num⟩, okThen (by decide +kernel), by decide +kernel, by decide +kernel⟩

end Hdr
