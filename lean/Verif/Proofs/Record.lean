import Verif.Proofs.WF

/-!
# Recording: exact post-states and preservation of validity
-/

namespace Hdr

variable {T : CounterTy} {fp : Fp}

namespace Hist
/-- cached maximum after seeing `v` -/
def newMax (h : Hist T) (v : Nat) : Nat := if h.maxValue < v then v ||| h.unitMagMask else h.maxValue
/-- cached non-zero minimum after seeing `v` -/
def newMin (h : Hist T) (v : Nat) : Nat :=
  if v < h.minNonZero ∧ h.unitMagMask < v then v &&& notU64 h.unitMagMask else h.minNonZero
/-- post-state of a successful record of `c` samples of a covered `v` -/
def recorded (h : Hist T) (v c : Nat) : Hist T :=
  { h with
    counts := h.counts.set (h.lidx v) (T.satAdd (h.counts.getD (h.lidx v) 0) c)
    maxValue := h.newMax v
    minNonZero := h.newMin v
    totalCount := Hdr.satAdd h.totalCount c }
/-- the array grown (if needed) so that it covers `v`, as `record_n_inner` does it -/
def growTo (h : Hist T) (v : Nat) : Hist T :=
  if h.lidx v < h.counts.length then h
  else { h.resized v with
    highestTrackable := h.lhi (h.lval ((h.resized v).counts.length - 1)) }
end Hist

theorem updateMinMax_eq (h : Hist T) (v : Nat) :
    h.updateMinMax v = { h with maxValue := h.newMax v, minNonZero := h.newMin v } := by
  unfold Hist.updateMinMax Hist.updateMax Hist.updateMin Hist.newMax Hist.newMin
  have h1 : v ≤ v ||| h.unitMagMask := Nat.left_le_or
  have h2 : v &&& Hist.notU64 h.unitMagMask ≤ v := Nat.and_le_left
  by_cases ha : h.maxValue < v
  · have ha' : h.maxValue < v ||| h.unitMagMask := by omega
    by_cases hb : v < h.minNonZero ∧ v ≠ 0
    · by_cases hc : v ≤ h.unitMagMask
      · have : ¬ (h.unitMagMask < v) := by omega
        simp [ha, ha', hb, hc, this]
      · have hc' : h.unitMagMask < v := by omega
        have : v &&& Hist.notU64 h.unitMagMask < h.minNonZero := by omega
        simp [ha, ha', hb, hc, hc', this]
    · have : ¬ (v < h.minNonZero ∧ h.unitMagMask < v) := by omega
      simp [ha, ha', hb, this]
  · by_cases hb : v < h.minNonZero ∧ v ≠ 0
    · by_cases hc : v ≤ h.unitMagMask
      · have : ¬ (h.unitMagMask < v) := by omega
        simp [ha, hb, hc, this]
      · have hc' : h.unitMagMask < v := by omega
        have : v &&& Hist.notU64 h.unitMagMask < h.minNonZero := by omega
        simp [ha, hb, hc, hc', this]
    · have : ¬ (v < h.minNonZero ∧ h.unitMagMask < v) := by omega
      simp [ha, hb, this]

theorem bump_finish_eq (h : Hist T) (v c : Nat) :
    (h.bumpSat (h.lidx v) c).finishRecord v c = h.recorded v c := by
  unfold Hist.finishRecord
  rw [updateMinMax_eq]
  rfl

theorem set_finish_eq (h : Hist T) (v c x : Nat) (hx : x = T.satAdd (h.counts.getD (h.lidx v) 0) c) :
    ({ h with counts := h.counts.set (h.lidx v) x } : Hist T).finishRecord v c = h.recorded v c := by
  subst hx
  exact bump_finish_eq h v c

section
variable {h : Hist T} (L : LayoutOK h) {v : Nat}
include L

theorem lidx_newMax : h.lidx (h.newMax v) = max (h.lidx h.maxValue) (h.lidx v) := by
  unfold Hist.newMax
  split
  · rename_i hlt
    rw [L.ummask]
    show Lay.idx _ _ (v ||| (2 ^ h.unitMag - 1)) = _
    rw [or_mask_idx, Nat.max_eq_right]
    exact Lay.idx_mono hlt.le
  · rename_i hlt
    rw [Nat.max_eq_left]
    exact Lay.idx_mono (by omega)

theorem newMax_le (hm : h.maxValue ≤ U64MAX) (hv : v ≤ U64MAX) : h.newMax v ≤ U64MAX := by
  unfold Hist.newMax
  split
  · rw [L.ummask]; exact or_mask_le hv (by have := L.sum62; omega)
  · exact hm

theorem lidx_newMin (hv : v ≤ U64MAX) (h0 : h.lidx v ≠ 0) :
    h.lidx (h.newMin v) = min (h.lidx h.minNonZero) (h.lidx v) := by
  have hm : h.unitMagMask < v := by
    have hp : 0 < 2 ^ h.unitMag := by positivity
    rw [L.ummask]
    by_contra hc
    exact h0 (Lay.idx_eq_zero_iff.mpr (by omega))
  unfold Hist.newMin
  split
  · rename_i hlt
    rw [L.ummask, and_not_mask hv (by have := L.sum62; omega)]
    show Lay.idx _ _ _ = _
    rw [unit_idx, Nat.min_eq_right]
    exact Lay.idx_mono hlt.1.le
  · rename_i hlt
    rw [Nat.min_eq_left]
    exact Lay.idx_mono (by omega)

theorem newMin_zero (h0 : h.lidx v = 0) : h.newMin v = h.minNonZero := by
  have := Lay.idx_eq_zero_iff.mp h0
  unfold Hist.newMin
  rw [if_neg]
  rw [L.ummask]; omega

omit L in
theorem newMin_le : h.newMin v ≤ h.minNonZero := by
  unfold Hist.newMin
  split
  · rename_i hlt
    exact le_trans Nat.and_le_left hlt.1.le
  · exact le_rfl

omit L in
theorem lidx_newMin_le :
    h.lidx (h.newMin v) ≤ h.lidx h.minNonZero := Lay.idx_mono (newMin_le)
end

theorem satAdd_le (T : CounterTy) (a c : Nat) : T.satAdd a c ≤ T.max := Nat.min_le_right _ _
theorem satAdd_le_add (T : CounterTy) (a c : Nat) : T.satAdd a c ≤ a + c := Nat.min_le_left _ _

/-- recording a covered value keeps validity -/
theorem WF.recorded {h : Hist T} (W : WF fp h) {v c : Nat} (hv : v ≤ U64MAX)
    (hcov : h.lidx v < h.counts.length) : WF fp (h.recorded v c) := by
  have L := W.toLayoutOK
  refine { (⟨L.sbc, L.half, L.mag17, L.sum62, L.lzb, L.mask, L.ummask⟩ : LayoutOK (h.recorded v c)) with
    sig5 := W.sig5, mag := W.mag, low1 := W.low1, low63 := W.low63, highlow := W.highlow
    highmax := W.highmax, um := W.um, bc := W.bc, len := ?_, cmax := ?_
    tot := Nat.min_le_right _ _, totsum := ?_
    maxle := newMax_le L W.maxle hv, maxcov := ?_
    minle := le_trans (newMin_le) W.minle, minpos := ?_, trackMax := ?_, trackMin := ?_ }
  · simp only [Hist.recorded, List.length_set]; exact W.len
  · intro x hx
    simp only [Hist.recorded] at hx
    rcases List.mem_or_eq_of_mem_set hx with hx | hx
    · exact W.cmax x hx
    · rw [hx]; exact satAdd_le _ _ _
  · have h1 := sum_set h.counts (h.lidx v) (T.satAdd (h.counts.getD (h.lidx v) 0) c) hcov
    have h2 := satAdd_le_add T (h.counts.getD (h.lidx v) 0) c
    have h3 := W.totsum
    simp only [Hist.recorded, Hdr.satAdd]
    omega
  · show h.lidx (h.newMax v) < _
    rw [lidx_newMax L]
    simp only [Hist.recorded, List.length_set]
    exact max_lt W.maxcov hcov
  · show h.lidx (h.newMin v) ≠ 0
    by_cases h0 : h.lidx v = 0
    · rw [newMin_zero L h0]; exact W.minpos
    · rw [lidx_newMin L hv h0]; have := W.minpos; omega
  · intro i hi
    show i ≤ h.lidx (h.newMax v)
    rw [lidx_newMax L]
    simp only [Hist.recorded, getD_set] at hi
    split at hi
    · rename_i he; rw [← he.1]; exact le_max_right _ _
    · exact le_trans (W.trackMax i hi) (le_max_left _ _)
  · intro i h0 hi
    show h.lidx (h.newMin v) ≤ i
    simp only [Hist.recorded, getD_set] at hi
    split at hi
    · rename_i he
      rw [lidx_newMin L hv (by omega), ← he.1]; exact min_le_right _ _
    · exact le_trans (lidx_newMin_le) (W.trackMin i h0 hi)

/-! ### growing -/

theorem WF.high_lt_of_not_cov {h : Hist T} (W : WF fp h) {v : Nat}
    (hcov : ¬ h.lidx v < h.counts.length) : h.highestTrackable < v := by
  by_contra hc
  exact hcov (W.cov_of_le (by omega))

theorem WF.resized_len {h : Hist T} (_ : WF fp h) (v : Nat) :
    (h.resized v).counts.length = (h.lbkt v + 2) * 2 ^ h.subBucketHalfCountMag := by
  simp only [Hist.resized, length_vecResize]

theorem WF.growTo {h : Hist T} (W : WF fp h) {v : Nat} (hv : v ≤ U64MAX) : WF fp (h.growTo v) := by
  unfold Hist.growTo
  split
  · exact W
  rename_i hcov
  have hlt := W.high_lt_of_not_cov hcov
  have hbk : h.lbkt h.highestTrackable < h.lbkt v := by
    rw [W.covered_iff] at hcov; omega
  have hlow := W.highlow
  have Wr := W.resized hv (by omega) hbk.le
  have hlen := W.resized_len v
  have hpos := Wr.len_pos
  have hp : 0 < 2 ^ h.subBucketHalfCountMag := by positivity
  set last := (h.resized v).counts.length - 1 with hlast
  have hval : h.lval last ≤ U64MAX := Wr.lval_le (i := last) (by omega)
  have hidx : h.lidx (h.lhi (h.lval last)) = last := by
    rw [lidx_lhi hval]; exact Lay.idx_val
  have hbkt : h.lbkt (h.lhi (h.lval last)) = h.lbkt v := by
    show Lay.bkt _ _ _ = _
    rw [← Lay.idx_bkt]
    change h.lidx (h.lhi (h.lval last)) / _ - 1 = _
    rw [hidx, hlast, hlen]
    have : ((h.lbkt v + 2) * 2 ^ h.subBucketHalfCountMag - 1) / 2 ^ h.subBucketHalfCountMag
        = h.lbkt v + 1 := by
      rw [Nat.div_eq_iff hp]
      constructor
      · have : (h.lbkt v + 2) * 2 ^ h.subBucketHalfCountMag
          = (h.lbkt v + 1) * 2 ^ h.subBucketHalfCountMag + 2 ^ h.subBucketHalfCountMag := by ring
        omega
      · have : (h.lbkt v + 2) * 2 ^ h.subBucketHalfCountMag
          = (h.lbkt v + 1) * 2 ^ h.subBucketHalfCountMag + 2 ^ h.subBucketHalfCountMag := by ring
        omega
    omega
  have hhigh : h.highestTrackable ≤ h.lhi (h.lval last) := by
    by_contra hc
    have h1 : h.lidx (h.lhi (h.lval last)) ≤ h.lidx h.highestTrackable := Lay.idx_mono (by omega)
    have h2 : h.lbkt _ ≤ h.lbkt _ := bkt_mono_idx h1
    omega
  have Lr := Wr.toLayoutOK
  exact { (⟨Lr.sbc, Lr.half, Lr.mag17, Lr.sum62, Lr.lzb, Lr.mask, Lr.ummask⟩ : LayoutOK _) with
    sig5 := Wr.sig5, mag := Wr.mag, low1 := Wr.low1, low63 := Wr.low63
    highlow := le_trans hlow hhigh
    highmax := lhi_le, um := Wr.um
    bc := by
      show h.lbkt v + 1 = h.lbkt (h.lhi (h.lval last)) + 1
      rw [hbkt]
    len := Wr.len, cmax := Wr.cmax, tot := Wr.tot, totsum := Wr.totsum, maxle := Wr.maxle
    maxcov := Wr.maxcov, minle := Wr.minle, minpos := Wr.minpos, trackMax := Wr.trackMax, trackMin := Wr.trackMin }
where
  bkt_mono_idx {um m a b : Nat} (hab : Lay.idx um m a ≤ Lay.idx um m b) :
      Lay.bkt um m a ≤ Lay.bkt um m b := by
    rw [← Lay.idx_bkt, ← Lay.idx_bkt (v := b)]
    exact Nat.sub_le_sub_right (Nat.div_le_div_right hab) 1

@[simp] theorem growTo_unitMag (h : Hist T) (v : Nat) : (h.growTo v).unitMag = h.unitMag := by
  unfold Hist.growTo; split <;> rfl
@[simp] theorem growTo_mag (h : Hist T) (v : Nat) :
    (h.growTo v).subBucketHalfCountMag = h.subBucketHalfCountMag := by
  unfold Hist.growTo; split <;> rfl
@[simp] theorem growTo_max (h : Hist T) (v : Nat) : (h.growTo v).maxValue = h.maxValue := by
  unfold Hist.growTo; split <;> rfl
@[simp] theorem growTo_min (h : Hist T) (v : Nat) : (h.growTo v).minNonZero = h.minNonZero := by
  unfold Hist.growTo; split <;> rfl
@[simp] theorem growTo_total (h : Hist T) (v : Nat) : (h.growTo v).totalCount = h.totalCount := by
  unfold Hist.growTo; split <;> rfl
@[simp] theorem growTo_auto (h : Hist T) (v : Nat) : (h.growTo v).autoResize = h.autoResize := by
  unfold Hist.growTo; split <;> rfl
@[simp] theorem growTo_low (h : Hist T) (v : Nat) :
    (h.growTo v).lowestDiscernible = h.lowestDiscernible := by
  unfold Hist.growTo; split <;> rfl
@[simp] theorem growTo_sig (h : Hist T) (v : Nat) : (h.growTo v).sigDigits = h.sigDigits := by
  unfold Hist.growTo; split <;> rfl

theorem WF.resized_len_le {h : Hist T} (W : WF fp h) {v : Nat}
    (hcov : ¬ h.lidx v < h.counts.length) :
    h.counts.length ≤ (h.lbkt v + 1 + 1) * 2 ^ h.subBucketHalfCountMag := by
  have hbk : h.lbkt h.highestTrackable < h.lbkt v := by
    rw [W.covered_iff] at hcov; omega
  rw [W.len, W.bc]; exact Nat.mul_le_mul_right _ (by omega)

theorem WF.growTo_getD {h : Hist T} (W : WF fp h) (v i : Nat) :
    (h.growTo v).counts.getD i 0 = h.counts.getD i 0 := by
  unfold Hist.growTo
  split
  · rfl
  · rename_i hcov
    simp only [Hist.resized, getD_vecResize_grow (W.resized_len_le hcov)]

theorem WF.growTo_cov {h : Hist T} (W : WF fp h) (v : Nat) :
    h.lidx v < (h.growTo v).counts.length := by
  unfold Hist.growTo
  split
  · assumption
  · show h.lidx v < (h.resized v).counts.length
    rw [W.resized_len]; exact Lay.idx_lt_iff_bkt.mpr le_rfl

theorem WF.growTo_len_le {h : Hist T} (W : WF fp h) (v : Nat) :
    h.counts.length ≤ (h.growTo v).counts.length := by
  unfold Hist.growTo
  split
  · exact le_rfl
  · rename_i hcov
    simp only [Hist.resized, length_vecResize]
    exact W.resized_len_le hcov

theorem recorded_lidx (h : Hist T) (v c w : Nat) : (h.recorded v c).lidx w = h.lidx w := rfl

/-- `record_n_inner` without clamping, evaluated -/
theorem WF.recordN_eq {h : Hist T} (W : WF fp h) {v c : Nat} (hv : v ≤ U64MAX) (hc : c ≤ T.max) :
    h.recordN v c =
      if h.lidx v < h.counts.length ∨ h.autoResize = true then
        .ok ((h.growTo v).recorded v c, .ok ())
      else .ok (h, .error .ValueOutOfRangeResizeDisabled) := by
  have L := W.toLayoutOK
  unfold Hist.recordN Hist.recordNInner
  rw [mutAt_eq L hv, M.ok_bind]
  by_cases hcov : h.lidx v < h.counts.length
  · rw [if_pos hcov, if_pos (Or.inl hcov)]
    simp only [bump_finish_eq, M.pure_eq, Hist.growTo, if_pos hcov]
  · rw [if_neg hcov]
    by_cases ha : h.autoResize = true
    · rw [if_pos (Or.inr ha)]
      have hlt := W.high_lt_of_not_cov hcov
      have hlow := W.highlow
      have hbk : h.lbkt h.highestTrackable < h.lbkt v := by
        rw [W.covered_iff] at hcov; omega
      have Wr := W.resized hv (by omega) hbk.le
      have hpos := Wr.len_pos
      have hgw := W.growTo hv
      have hgrow : h.growTo v = { h.resized v with
          highestTrackable := h.lhi (h.lval ((h.resized v).counts.length - 1)) } := by
        unfold Hist.growTo; rw [if_neg hcov]
      have hz : (h.growTo v).counts.getD (h.lidx v) 0 = 0 := by
        rw [W.growTo_getD, getD_ge (by omega)]
      simp only [ha, Bool.not_true, Bool.false_eq_true, if_false]
      rw [resize_eq L hv (by omega), M.ok_bind, Wr.lastIndex, M.ok_bind,
        Wr.valueFor (by omega), M.ok_bind,
        highestEquivalent_eq Wr.toLayoutOK (Wr.lval_le (by omega)), M.ok_bind]
      change Hist.recordAfterResize ({ h.resized v with
          highestTrackable := h.lhi (h.lval ((h.resized v).counts.length - 1)) } : Hist T) v c = _
      rw [← hgrow]
      unfold Hist.recordAfterResize
      rw [mutAt_eq hgw.toLayoutOK hv, M.ok_bind]
      have hcov' : (h.growTo v).lidx v < (h.growTo v).counts.length := by
        have := W.growTo_cov v
        simpa [Hist.lidx] using this
      have hli : (h.growTo v).lidx v = h.lidx v := by simp [Hist.lidx]
      rw [if_pos hcov', expectM_some, M.ok_bind]
      rw [hli, hz]
      unfold CounterTy.checkedAdd
      rw [if_pos (by omega), expectM_some, M.ok_bind]
      rw [← hli]
      dsimp only
      rw [set_finish_eq]
      · rfl
      · rw [hli, hz]; unfold CounterTy.satAdd; rw [Nat.min_eq_left (by omega)]
    · have hor : ¬ (h.lidx v < h.counts.length ∨ h.autoResize = true) := by
        rintro (h1 | h1)
        · exact hcov h1
        · exact ha h1
      rw [if_neg hor]
      simp [ha]

/-- the clamped value of `saturating_record` -/
def Hist.clampTo (h : Hist T) (v : Nat) : Nat :=
  if h.lidx v < h.counts.length then v else h.highestTrackable

theorem WF.clampTo_cov {h : Hist T} (W : WF fp h) (v : Nat) :
    h.lidx (h.clampTo v) < h.counts.length := by
  unfold Hist.clampTo; split
  · assumption
  · exact W.high_cov

theorem WF.clampTo_le {h : Hist T} (W : WF fp h) {v : Nat} (hv : v ≤ U64MAX) :
    h.clampTo v ≤ U64MAX := by
  unfold Hist.clampTo; split
  · assumption
  · exact W.highmax

theorem WF.saturatingRecordN_eq {h : Hist T} (W : WF fp h) {v c : Nat} (hv : v ≤ U64MAX) :
    h.saturatingRecordN v c = .ok (h.recorded (h.clampTo v) c) := by
  have L := W.toLayoutOK
  unfold Hist.saturatingRecordN Hist.recordNInner Hist.clampTo
  rw [mutAt_eq L hv, M.ok_bind]
  by_cases hcov : h.lidx v < h.counts.length
  · simp [if_pos hcov, bump_finish_eq]
  · have hlt := W.high_lt_of_not_cov hcov
    simp only [if_neg hcov, if_pos hlt, if_true]
    rw [mutAt_eq L W.highmax, M.ok_bind, if_pos W.high_cov]
    simp [bump_finish_eq]

theorem WF.record_wf {h : Hist T} (W : WF fp h) {v c : Nat} (hv : v ≤ U64MAX) :
    WF fp ((h.growTo v).recorded v c) := by
  refine (W.growTo hv).recorded hv ?_
  have := W.growTo_cov v
  simpa [Hist.lidx] using this

end Hdr
