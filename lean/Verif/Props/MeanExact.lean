import Verif.Props.Mean

/-!
# C52: the range of `mean()` in every case
-/

namespace Hdr

variable {T : CounterTy} {fp : Fp}

/-- C52 (3), without a condition: if all samples are in classes between `a` and `b`, the mean is between `a` and `b`, up to rounding,
both multiplied with the sum of the counts over `len()`. This factor is 1 unless a counter or `len()` has saturated, and `a` and `b` are not
the `min()` and `max()` the histogram shows if these are wrong (see `C52_refuted`). -/
theorem C52_range_all {h : Hist T} (R : Reachable fp T h) {cs : List Cls} (C : Classes h cs) (h0 : h.len ≠ 0) {a b : Nat}
    (hab : ∀ c ∈ cs, c.count ≠ 0 → a ≤ c.lo ∧ c.hi ≤ b) :
    ∃ x, h.mean = .ok (.fin x) ∧ (a : ℚ) * ((cs.map (·.count)).sum / h.len) * (1 - 1 / 2 ^ 28) ≤ x ∧
      x ≤ b * ((cs.map (·.count)).sum / h.len) * (1 + 1 / 2 ^ 28) := by
  have W := R.wf
  obtain ⟨ms, hm⟩ := C52_medians R C
  obtain ⟨x, e, -, hx⟩ := C52_mean R C hm h0
  rw [W.exactMean_eq C hm] at hx
  rw [W.sum_classes C]
  have hpos : (0 : ℚ) < h.totalCount := by exact_mod_cast Nat.pos_of_ne_zero h0
  have hcls : ∀ i, i < h.counts.length → h.counts.getD i 0 ≠ 0 → a ≤ h.lval i ∧ h.lhi (h.lval i) ≤ b := by
    intro i hi hc
    exact hab (h.lcls i) ((W.mem_classes C).mpr ⟨i, hi, rfl⟩) hc
  have b1 := meanSum_le (h := h) (b := b) (List.range h.counts.length) (by
    intro i hi hc
    have hi := List.mem_range.mp hi
    have h1 := (hcls i hi hc).2
    have hv := W.lval_le hi
    obtain ⟨-, -, h2⟩ := W.median_top hi
    by_cases hU : h.lval i = U64MAX
    · have : h.lhi (h.lval i) = U64MAX := by unfold Hist.lhi; rw [if_pos hU]
      omega
    · have e1 : h.lhi (h.lval i + h.lwid (h.lval i) / 2) = h.lhi (h.lval i) :=
        lhi_eq_of_lidx (by rw [lidx_median]; exact (Lay.idx_val).symm) (W.median_ne hi) hU
      have := lhi_ge (h := h) h2
      omega)
  have b2 := le_meanSum (h := h) (b := a) (List.range h.counts.length) (by
    intro i hi hc
    exact le_trans (hcls i (List.mem_range.mp hi) hc).1 (Nat.le_add_right _ _))
  rw [sum_range_getD] at b1 b2
  have b1 : (h.meanSum (List.range h.counts.length) : ℚ) ≤ b * h.counts.sum := by exact_mod_cast b1
  have b2 : (a : ℚ) * h.counts.sum ≤ (h.meanSum (List.range h.counts.length) : ℚ) := by exact_mod_cast b2
  have b1 := div_le_div_of_nonneg_right b1 hpos.le
  have b2 := div_le_div_of_nonneg_right b2 hpos.le
  show ∃ x, h.mean = .ok (.fin x) ∧ (a : ℚ) * (h.counts.sum / h.totalCount) * (1 - 1 / 2 ^ 28) ≤ x ∧
      x ≤ b * (h.counts.sum / h.totalCount) * (1 + 1 / 2 ^ 28)
  rw [← mul_div_assoc, ← mul_div_assoc]
  generalize (h.meanSum (List.range h.counts.length) : ℚ) / h.totalCount = y at *
  generalize (a : ℚ) * h.counts.sum / h.totalCount = u at *
  generalize (b : ℚ) * h.counts.sum / h.totalCount = v at *
  rw [abs_le] at hx
  refine ⟨x, e, ?_, ?_⟩
  · norm_num at hx ⊢
    linarith [hx.1]
  · norm_num at hx ⊢
    linarith [hx.2]

/-- an instance with a saturated counter: 255 of 400 samples are counted, so the mean lies between 8 and 15 multiplied with 255/400 -/
example : Reachable Fp.ideal .u8 demoSat ∧
    Classes demoSat [⟨0, 0, 0⟩, ⟨1, 1, 0⟩, ⟨2, 3, 0⟩, ⟨4, 7, 0⟩, ⟨8, 15, 255⟩] ∧ demoSat.len = 400 :=
  ⟨demoSat_reachable, ⟨by decide +kernel, by decide +kernel, by decide +kernel⟩, rfl⟩

end Hdr
