import Verif.Proofs.Layout

/-!
# The validity invariant of histograms and its preservation by construction, resizing and recording
-/

namespace Hdr

variable {T : CounterTy} {fp : Fp}

theorem T_max_le (T : CounterTy) : T.max ≤ U64MAX := by cases T <;> decide
theorem T_max_pos (T : CounterTy) : 1 ≤ T.max := by cases T <;> decide

/-- Validity invariant. -/
structure WF (fp : Fp) (h : Hist T) : Prop extends LayoutOK h where
  sig5 : h.sigDigits ≤ 5
  mag : h.subBucketHalfCountMag + 1 = Hist.subBucketCountMag h.sigDigits
  low1 : 1 ≤ h.lowestDiscernible
  low63 : h.lowestDiscernible ≤ U64MAX / 2
  highlow : 2 * h.lowestDiscernible ≤ h.highestTrackable
  highmax : h.highestTrackable ≤ U64MAX
  um : h.unitMag = fp.log2Floor h.lowestDiscernible
  bc : h.bucketCount = h.lbkt h.highestTrackable + 1
  len : h.counts.length = (h.bucketCount + 1) * 2 ^ h.subBucketHalfCountMag
  cmax : ∀ c ∈ h.counts, c ≤ T.max
  tot : h.totalCount ≤ U64MAX
  totsum : min h.counts.sum U64MAX ≤ h.totalCount
  maxle : h.maxValue ≤ U64MAX
  maxcov : h.lidx h.maxValue < h.counts.length
  minle : h.minNonZero ≤ U64MAX
  minpos : h.lidx h.minNonZero ≠ 0
  trackMax : ∀ i, h.counts.getD i 0 ≠ 0 → i ≤ h.lidx h.maxValue
  trackMin : ∀ i, i ≠ 0 → h.counts.getD i 0 ≠ 0 → h.lidx h.minNonZero ≤ i

/-! ### lists -/

theorem getD_set (l : List Nat) (i j a : Nat) :
    (l.set i a).getD j 0 = if i = j ∧ i < l.length then a else l.getD j 0 := by
  simp only [List.getD_eq_getElem?_getD, List.getElem?_set]
  by_cases h : i = j
  · subst h
    by_cases h2 : i < l.length
    · simp [h2]
    · simp [h2]
  · simp [h]

theorem sum_set (l : List Nat) (i a : Nat) (hi : i < l.length) :
    (l.set i a).sum + l.getD i 0 = l.sum + a := by
  induction l generalizing i with
  | nil => simp at hi
  | cons x xs ih =>
    cases i with
    | zero => simp; omega
    | succ i =>
      have := ih i (by simpa using hi)
      simp at this ⊢
      omega

theorem getD_le_sum (l : List Nat) (i : Nat) : l.getD i 0 ≤ l.sum := by
  induction l generalizing i with
  | nil => simp
  | cons x xs ih =>
    cases i with
    | zero => simp
    | succ i => have := ih i; simp at this ⊢; omega

theorem getD_mem_le {l : List Nat} {b : Nat} (h : ∀ c ∈ l, c ≤ b) (i : Nat) : l.getD i 0 ≤ b := by
  rw [List.getD_eq_getElem?_getD]
  by_cases hi : i < l.length
  · rw [List.getElem?_eq_getElem hi]; exact h _ (List.getElem_mem hi)
  · rw [List.getElem?_eq_none (by omega)]; simp

theorem getElem?_getD_lt {l : List Nat} {i : Nat} (hi : i < l.length) : l[i]? = some (l.getD i 0) := by
  rw [List.getD_eq_getElem?_getD, List.getElem?_eq_getElem hi]; rfl

theorem getD_ge {l : List Nat} {i : Nat} (hi : l.length ≤ i) : l.getD i 0 = 0 := by
  rw [List.getD_eq_getElem?_getD, List.getElem?_eq_none hi]; rfl

theorem getD_append_zeros (l : List Nat) (n i : Nat) :
    (l ++ List.replicate n 0).getD i 0 = l.getD i 0 := by
  simp only [List.getD_eq_getElem?_getD, List.getElem?_append]
  split
  · rfl
  · rw [List.getElem?_replicate, List.getElem?_eq_none (by omega)]
    split <;> rfl

theorem vecResize_grow {l : List Nat} {n : Nat} (hn : l.length ≤ n) :
    Hist.vecResize l n = l ++ List.replicate (n - l.length) 0 := by
  unfold Hist.vecResize
  split
  · have : n = l.length := by omega
    subst this; simp
  · rfl

theorem getD_vecResize_grow {l : List Nat} {n : Nat} (hn : l.length ≤ n) (i : Nat) :
    (Hist.vecResize l n).getD i 0 = l.getD i 0 := by
  rw [vecResize_grow hn, getD_append_zeros]

theorem length_vecResize (l : List Nat) (n : Nat) : (Hist.vecResize l n).length = n := by
  unfold Hist.vecResize; split <;> simp <;> omega

/-! ### coverage -/

theorem Lay.idx_lt_iff_bkt {um m v b : Nat} :
    Lay.idx um m v < (b + 2) * 2 ^ m ↔ Lay.bkt um m v ≤ b := by
  have h1 := @Lay.sub_lt um m v
  have h2 := @Lay.sub_ge um m v
  have hp : 0 < 2 ^ m := by positivity
  rw [pow_succ] at h1
  unfold Lay.idx
  constructor
  · intro h
    by_contra hc
    obtain ⟨k, hk⟩ : ∃ k, Lay.bkt um m v = b + 1 + k := ⟨Lay.bkt um m v - (b + 1), by omega⟩
    have := h2 (by omega)
    rw [hk] at h
    have e : (b + 1 + k) * 2 ^ m = b * 2 ^ m + 2 ^ m + k * 2 ^ m := by ring
    have e2 : (b + 2) * 2 ^ m = b * 2 ^ m + 2 * 2 ^ m := by ring
    omega
  · intro h
    have : Lay.bkt um m v * 2 ^ m ≤ b * 2 ^ m := Nat.mul_le_mul_right _ h
    have e2 : (b + 2) * 2 ^ m = b * 2 ^ m + 2 ^ m * 2 := by ring
    omega

section
variable {h : Hist T} (W : WF fp h)
include W

theorem WF.covered_iff (v : Nat) : h.lidx v < h.counts.length ↔ h.lbkt v ≤ h.lbkt h.highestTrackable := by
  rw [W.len, W.bc]; exact Lay.idx_lt_iff_bkt

theorem WF.len_pos : 0 < h.counts.length := by
  rw [W.len]; positivity

theorem WF.counts_ne : h.counts ≠ [] := List.length_pos_iff.mp W.len_pos

theorem WF.len_le_all : h.counts.length ≤ h.lall := by
  have hb := bkt_sum W.toLayoutOK W.highmax
  rw [W.len, W.bc]
  exact Nat.mul_le_mul_right _ (by omega)

theorem WF.valueFor {i : Nat} (hi : i < h.counts.length) : h.valueFor i = .ok (h.lval i) :=
  valueFor_eq W.toLayoutOK (lt_of_lt_of_le hi W.len_le_all)

theorem WF.lval_le {i : Nat} (hi : i < h.counts.length) : h.lval i ≤ U64MAX :=
  U64MAX_lt.mpr ((Lay.val_lt_iff W.sum62).mpr (lt_of_lt_of_le hi W.len_le_all))

theorem WF.lastIndex : h.lastIndex = .ok (h.counts.length - 1) := by
  have := W.len_pos
  unfold Hist.lastIndex checkedSub Hist.distinctValues
  rw [if_pos (by omega)]; rfl

theorem WF.getD_le (i : Nat) : h.counts.getD i 0 ≤ T.max := getD_mem_le W.cmax i

theorem WF.high_cov : h.lidx h.highestTrackable < h.counts.length := (W.covered_iff _).mpr le_rfl

theorem WF.low_cov : h.lidx h.lowestDiscernible < h.counts.length := by
  refine lt_of_le_of_lt (Lay.idx_mono ?_) W.high_cov
  have := W.highlow; omega

theorem WF.cov_of_le {v : Nat} (hv : v ≤ h.highestTrackable) : h.lidx v < h.counts.length :=
  lt_of_le_of_lt (Lay.idx_mono hv) W.high_cov

end

/-! ### the highest value of a class -/

section
variable {h : Hist T} {v : Nat}

theorem lhi_ge (hv : v ≤ U64MAX) : v ≤ h.lhi v := by
  unfold Hist.lhi
  split
  · omega
  · have h1 : v < h.llo v + h.lwid v := Lay.lt_lo_add
    rcases Nat.le_total (h.llo v + h.lwid v) U64MAX with hc | hc
    · rw [Nat.min_eq_left hc]; omega
    · rw [Nat.min_eq_right hc]; omega

theorem lhi_le : h.lhi v ≤ U64MAX := by
  unfold Hist.lhi
  split
  · exact le_rfl
  · have := Nat.min_le_right (h.llo v + h.lwid v) U64MAX; omega

theorem lidx_lhi (hv : v ≤ U64MAX) : h.lidx (h.lhi v) = h.lidx v := by
  have hge : v ≤ h.lhi v := lhi_ge hv
  have hlo : h.llo v ≤ v := Lay.lo_le
  have hp : 0 < h.lwid v := Lay.wid_pos
  refine Lay.idx_eq_iff.mpr ⟨le_trans hlo hge, ?_⟩
  have h1 : v < h.llo v + h.lwid v := Lay.lt_lo_add
  unfold Hist.lhi
  split
  · show U64MAX < h.llo v + h.lwid v
    omega
  · have := Nat.min_le_left (h.llo v + h.lwid v) U64MAX
    have : 0 < min (h.llo v + h.lwid v) U64MAX := Nat.lt_min.mpr ⟨by omega, by decide⟩
    show min (h.llo v + h.lwid v) U64MAX - 1 < h.llo v + h.lwid v
    omega

/-- away from the top class the computed highest value is the true one -/
theorem lhi_eq (hne : h.llo v + h.lwid v ≤ U64MAX) : h.lhi v = h.llo v + h.lwid v - 1 := by
  have h1 : v < h.llo v + h.lwid v := Lay.lt_lo_add
  unfold Hist.lhi
  rw [if_neg (by omega), Nat.min_eq_left hne]

theorem lhi_top (ht : h.llo v + h.lwid v = 2 ^ 64) (hv : v ≠ U64MAX) : h.lhi v = U64MAX - 1 := by
  unfold Hist.lhi
  rw [if_neg hv, Nat.min_eq_right]
  rw [ht]; norm_num
end

/-! ### resize -/

theorem bucketsLoop_eq {v : Nat} (hv : v ≤ U64MAX) (fuel s n : Nat) (hs0 : 1 ≤ s) (hs : s ≤ 63)
    (hf : 65 ≤ fuel + s) (hn : n + (64 - s) ≤ 255) :
    Hist.bucketsLoop v fuel (2 ^ s) n = .ok (n + (Nat.log2 v + 1 - s)) := by
  induction fuel generalizing s n with
  | zero => omega
  | succ fuel ih =>
    unfold Hist.bucketsLoop
    by_cases h0 : v = 0
    · subst h0
      have : 0 < 2 ^ s := by positivity
      rw [if_neg (by omega)]
      simp; omega
    have hl : Nat.log2 v ≤ 63 := Nat.lt_succ_iff.mp ((Nat.log2_lt h0).mpr (U64MAX_lt.mp hv))
    by_cases hc : 2 ^ s ≤ v
    · have hsl := (Nat.le_log2 h0).mpr hc
      rw [if_pos hc]
      by_cases h63 : s = 63
      · subst h63
        rw [if_pos (by norm_num), addU8_ok (by omega)]
        congr 1; omega
      · have hlt : ¬ U64MAX / 2 < 2 ^ s := by
          have : 2 ^ s ≤ 2 ^ 62 := Nat.pow_le_pow_right (by norm_num) (by omega)
          have e : (2:Nat) ^ 62 < U64MAX / 2 := by norm_num
          omega
        rw [if_neg hlt, shlU64_ok (by norm_num), M.ok_bind, addU8_ok (by omega), M.ok_bind]
        · rw [← pow_add, ih (s + 1) (n + 1) (by omega) (by omega) (by omega) (by omega)]
          congr 1; omega
        · rw [← pow_add]; exact Nat.pow_lt_pow_right (by norm_num) (by omega)
    · rw [if_neg hc]
      have := (Nat.log2_lt h0).mpr (Nat.lt_of_not_le hc)
      congr 1; omega

theorem bucketsToCover_eq {h : Hist T} (L : LayoutOK h) {v : Nat} (hv : v ≤ U64MAX) :
    h.bucketsToCover v = .ok (h.lbkt v + 1) := by
  have hs := L.sum62
  unfold Hist.bucketsToCover
  have e : (2 ^ (h.subBucketHalfCountMag + 1)) * 2 ^ h.unitMag = 2 ^ (h.unitMag + h.subBucketHalfCountMag + 1) := by
    rw [← pow_add]; congr 1; ring
  rw [L.sbc, shlU64_ok (by omega), M.ok_bind, e]
  · rw [bucketsLoop_eq hv _ _ _ (by omega) (by omega) (by omega) (by omega)]
    congr 1; unfold Hist.lbkt Lay.bkt; omega
  · rw [e]; exact Nat.pow_lt_pow_right (by norm_num) (by omega)

/-- the result of `resize` -/
def Hist.resized (h : Hist T) (high : Nat) : Hist T :=
  { h with
    bucketCount := h.lbkt high + 1
    highestTrackable := high
    counts := Hist.vecResize h.counts ((h.lbkt high + 1 + 1) * 2 ^ h.subBucketHalfCountMag) }

theorem resize_eq {h : Hist T} (L : LayoutOK h) {high : Nat} (hh : high ≤ U64MAX)
    (hl : 2 * h.lowestDiscernible ≤ high) : h.resize high = .ok (h.resized high) := by
  have hb := bkt_sum L hh
  have hp : 2 ^ h.subBucketHalfCountMag ≤ 2 ^ 17 := Nat.pow_le_pow_right (by norm_num) L.mag17
  have hn : h.numBins (h.lbkt high + 1)
      = .ok ((h.lbkt high + 1 + 1) * 2 ^ h.subBucketHalfCountMag) := by
    unfold Hist.numBins
    rw [addU32_ok (by omega), M.ok_bind, mulU32_ok]
    · rw [L.half]
    · rw [L.half]
      calc (h.lbkt high + 1 + 1) * 2 ^ h.subBucketHalfCountMag ≤ 65 * 2 ^ 17 :=
            Nat.mul_le_mul (by omega) hp
        _ < _ := by norm_num
  unfold Hist.resize
  rw [mulU64_ok (by omega), M.ok_bind, assertM_true (by simp; omega), M.ok_bind,
    bucketsToCover_eq L hh, M.ok_bind, hn]
  rfl

theorem sum_append_zeros (l : List Nat) (n : Nat) : (l ++ List.replicate n 0).sum = l.sum := by
  simp

theorem resized_layout {h : Hist T} (L : LayoutOK h) (high : Nat) : LayoutOK (h.resized high) :=
  ⟨L.sbc, L.half, L.mag17, L.sum62, L.lzb, L.mask, L.ummask⟩

/-- growing keeps validity -/
theorem WF.resized {h : Hist T} (W : WF fp h) {high : Nat} (hh : high ≤ U64MAX)
    (hl : 2 * h.lowestDiscernible ≤ high) (hg : h.lbkt h.highestTrackable ≤ h.lbkt high) :
    WF fp (h.resized high) := by
  have hlen : h.counts.length ≤ (h.lbkt high + 1 + 1) * 2 ^ h.subBucketHalfCountMag := by
    rw [W.len, W.bc]; exact Nat.mul_le_mul_right _ (by omega)
  refine { resized_layout W.toLayoutOK high with
    sig5 := W.sig5, mag := W.mag, low1 := W.low1, low63 := W.low63, highlow := hl, highmax := hh,
    um := W.um, bc := rfl, len := length_vecResize _ _, cmax := ?_, tot := W.tot, totsum := ?_,
    maxle := W.maxle, maxcov := ?_, minle := W.minle, minpos := W.minpos, trackMax := ?_, trackMin := ?_ }
  · intro c hc
    simp only [Hist.resized, vecResize_grow hlen, List.mem_append, List.mem_replicate] at hc
    rcases hc with hc | hc
    · exact W.cmax c hc
    · omega
  · simp only [Hist.resized, vecResize_grow hlen, sum_append_zeros]; exact W.totsum
  · have := W.maxcov
    simp only [Hist.resized, length_vecResize]
    exact lt_of_lt_of_le this hlen
  · intro i; simp only [Hist.resized, getD_vecResize_grow hlen]; exact W.trackMax i
  · intro i; simp only [Hist.resized, getD_vecResize_grow hlen]; exact W.trackMin i

/-- the sentinel minimum is not in the zero unit -/
theorem lidx_top {h : Hist T} (L : LayoutOK h) : h.lidx U64MAX ≠ 0 := by
  intro h0
  have h1 := Lay.idx_eq_zero_iff.mp h0
  have h2 : 2 ^ h.unitMag ≤ 2 ^ 62 := Nat.pow_le_pow_right (by omega) (by have := L.sum62; omega)
  have h3 : 2 ^ 62 ≤ U64MAX := by decide
  omega

/-! ### construction -/

theorem scm_bounds {s : Nat} (hs : s ≤ 5) :
    1 ≤ Hist.subBucketCountMag s ∧ Hist.subBucketCountMag s ≤ 18 := by
  have : s = 0 ∨ s = 1 ∨ s = 2 ∨ s = 3 ∨ s = 4 ∨ s = 5 := by omega
  rcases this with rfl | rfl | rfl | rfl | rfl | rfl <;> decide

/-- a histogram before its counts array has been allocated -/
def Hist.blank (fp : Fp) (T : CounterTy) (low high sigfig : Nat) : Hist T :=
  let um := fp.log2Floor low
  let n := Hist.subBucketCountMag sigfig
  { autoResize := false
    highestTrackable := high
    lowestDiscernible := low
    sigDigits := sigfig
    bucketCount := 0
    subBucketCount := 2 ^ n
    subBucketHalfCount := 2 ^ (n - 1)
    subBucketHalfCountMag := n - 1
    subBucketMask := (2 ^ n - 1) * 2 ^ um
    leadingZeroCountBase := 64 - um - n
    unitMag := um
    unitMagMask := 2 ^ um - 1
    maxValue := 0
    minNonZero := U64MAX
    totalCount := 0
    counts := [] }

/-- the fresh histogram -/
def Hist.fresh (fp : Fp) (T : CounterTy) (low high sigfig : Nat) : Hist T :=
  (Hist.blank fp T low high sigfig).resized high

theorem blank_layout {low high sigfig : Nat} (hs : sigfig ≤ 5)
    (hsum : fp.log2Floor low + Hist.subBucketCountMag sigfig ≤ 63) :
    LayoutOK (Hist.blank fp T low high sigfig) := by
  have hb := scm_bounds hs
  have e : Hist.subBucketCountMag sigfig - 1 + 1 = Hist.subBucketCountMag sigfig := by omega
  constructor <;> simp only [Hist.blank, e] <;> omega

/-- The constructor up to the sizing of the array, evaluated. -/
theorem newUnsized_eq (fp : Fp) (T : CounterTy) (low high sigfig : Nat) :
    Hist.newUnsized fp T low high sigfig =
      .ok (if low < 1 then .error .LowIsZero
        else if U64MAX / 2 < low then .error .LowExceedsMax
        else if high < 2 * low then .error .HighLessThanTwiceLow
        else if 5 < sigfig then .error .SigFigExceedsMax
        else if 63 < fp.log2Floor low + Hist.subBucketCountMag sigfig then
          .error .CannotRepresentSigFigBeyondLow
        else .ok (Hist.blank fp T low high sigfig)) := by
  unfold Hist.newUnsized
  simp only [M.pure_eq]
  by_cases h1 : low < 1
  · simp only [if_pos h1]
  by_cases h2 : U64MAX / 2 < low
  · simp only [if_neg h1, if_pos h2]
  rw [mulU64_ok (by omega)]
  simp only [if_neg h1, if_neg h2, M.ok_bind]
  by_cases h3 : high < 2 * low
  · simp only [if_pos h3]
  by_cases h4 : 5 < sigfig
  · simp only [if_neg h3, if_pos h4]
  have hum : fp.log2Floor low ≤ 63 := fp.le63 low (by norm_num at h2 ⊢; omega)
  have hb := scm_bounds (s := sigfig) (by omega)
  have hp : 0 < 2 ^ fp.log2Floor low := by positivity
  have hp2 : 0 < 2 ^ Hist.subBucketCountMag sigfig := by positivity
  simp only [if_neg h3, if_neg h4]
  rw [shlU64_ok (by omega) (by rw [one_mul]; exact Nat.pow_lt_pow_right (by norm_num) (by omega)),
    M.ok_bind, subU_ok (by omega), M.ok_bind, subU_ok (by omega), M.ok_bind,
    shlU32_ok (by omega) (by rw [one_mul]; exact Nat.pow_lt_pow_right (by norm_num) (by omega)),
    M.ok_bind, addU8_ok (by omega), M.ok_bind]
  by_cases h5 : 63 < fp.log2Floor low + Hist.subBucketCountMag sigfig
  · simp only [if_pos h5]
  simp only [if_neg h5, one_mul]
  have hm : (2 ^ Hist.subBucketCountMag sigfig - 1) * 2 ^ fp.log2Floor low < 2 ^ 64 := by
    calc _ < 2 ^ Hist.subBucketCountMag sigfig * 2 ^ fp.log2Floor low :=
          Nat.mul_lt_mul_of_pos_right (by omega) hp
      _ = 2 ^ (Hist.subBucketCountMag sigfig + fp.log2Floor low) := by rw [pow_add]
      _ ≤ 2 ^ 64 := Nat.pow_le_pow_right (by norm_num) (by omega)
  rw [subU_ok (by omega), M.ok_bind, shlU64_ok (by omega) hm, M.ok_bind, subU_ok (by omega),
    M.ok_bind, subU_ok (by omega), M.ok_bind]
  have hhalf : 2 ^ Hist.subBucketCountMag sigfig / 2 = 2 ^ (Hist.subBucketCountMag sigfig - 1) := by
    obtain ⟨k, hk⟩ : ∃ k, Hist.subBucketCountMag sigfig = k + 1 :=
      ⟨Hist.subBucketCountMag sigfig - 1, by omega⟩
    rw [hk]; simp [pow_succ]
  rw [hhalf]
  rfl

/-- The constructor, evaluated. -/
theorem newWithBounds_eq (fp : Fp) (T : CounterTy) {low high sigfig : Nat}
    (hh : high ≤ U64MAX) :
    Hist.newWithBounds fp T low high sigfig =
      .ok (if low < 1 then .error .LowIsZero
        else if U64MAX / 2 < low then .error .LowExceedsMax
        else if high < 2 * low then .error .HighLessThanTwiceLow
        else if 5 < sigfig then .error .SigFigExceedsMax
        else if 63 < fp.log2Floor low + Hist.subBucketCountMag sigfig then
          .error .CannotRepresentSigFigBeyondLow
        else .ok (Hist.fresh fp T low high sigfig)) := by
  unfold Hist.newWithBounds
  rw [newUnsized_eq, M.ok_bind]
  by_cases h1 : low < 1
  · simp only [if_pos h1, M.pure_eq]
  by_cases h2 : U64MAX / 2 < low
  · simp only [if_neg h1, if_pos h2, M.pure_eq]
  by_cases h3 : high < 2 * low
  · simp only [if_neg h1, if_neg h2, if_pos h3, M.pure_eq]
  by_cases h4 : 5 < sigfig
  · simp only [if_neg h1, if_neg h2, if_neg h3, if_pos h4, M.pure_eq]
  by_cases h5 : 63 < fp.log2Floor low + Hist.subBucketCountMag sigfig
  · simp only [if_neg h1, if_neg h2, if_neg h3, if_neg h4, if_pos h5, M.pure_eq]
  simp only [if_neg h1, if_neg h2, if_neg h3, if_neg h4, if_neg h5]
  have hbl := blank_layout (fp := fp) (T := T) (low := low) (high := high) (sigfig := sigfig)
    (by omega) (by omega)
  rw [resize_eq hbl (high := high) hh (by simp only [Hist.blank]; omega)]
  rfl

theorem fresh_wf {low high sigfig : Nat} (h1 : 1 ≤ low) (h2 : low ≤ U64MAX / 2)
    (h3 : 2 * low ≤ high) (hh : high ≤ U64MAX) (h4 : sigfig ≤ 5)
    (h5 : fp.log2Floor low + Hist.subBucketCountMag sigfig ≤ 63) :
    WF fp (Hist.fresh fp T low high sigfig) := by
  have hbl := blank_layout (fp := fp) (T := T) (low := low) (high := high) h4 h5
  have hb := scm_bounds h4
  have hcounts : (Hist.fresh fp T low high sigfig).counts =
      List.replicate (((Hist.fresh fp T low high sigfig).lbkt high + 1 + 1) *
        2 ^ (Hist.fresh fp T low high sigfig).subBucketHalfCountMag) 0 := by
    unfold Hist.fresh Hist.resized
    rw [vecResize_grow (by simp [Hist.blank])]
    simp [Hist.blank]
  have hget : ∀ i, (Hist.fresh fp T low high sigfig).counts.getD i 0 = 0 := by
    intro i; rw [hcounts, List.getD_eq_getElem?_getD, List.getElem?_replicate]; split <;> rfl
  refine { resized_layout hbl high with
    sig5 := h4, mag := by simp only [Hist.fresh, Hist.resized, Hist.blank]; omega
    low1 := h1, low63 := h2, highlow := h3, highmax := hh,
    um := rfl, bc := rfl, len := length_vecResize _ _, cmax := ?_, tot := by simp [Hist.fresh, Hist.resized, Hist.blank], totsum := ?_,
    maxle := by simp [Hist.fresh, Hist.resized, Hist.blank], maxcov := ?_,
    minle := by simp [Hist.fresh, Hist.resized, Hist.blank], minpos := lidx_top (resized_layout hbl high), trackMax := ?_, trackMin := ?_ }
  · intro c hc
    change c ∈ (Hist.fresh fp T low high sigfig).counts at hc
    rw [hcounts, List.mem_replicate] at hc; omega
  · show min (Hist.fresh fp T low high sigfig).counts.sum U64MAX ≤ _
    rw [hcounts]; simp
  · change Lay.idx _ _ 0 < _
    rw [Lay.idx_zero, hcounts, List.length_replicate]
    positivity
  · intro i hi; exact absurd (hget i) hi
  · intro i _ hi; exact absurd (hget i) hi

/-! ### cached statistics -/

theorem or_mask_idx (um m v : Nat) : Lay.idx um m (v ||| (2 ^ um - 1)) = Lay.idx um m v := by
  -- both lie in the same unit
  have hdiv : (v ||| (2 ^ um - 1)) / 2 ^ um = v / 2 ^ um := by
    rw [← Nat.shiftRight_eq_div_pow, ← Nat.shiftRight_eq_div_pow]
    apply Nat.eq_of_testBit_eq
    intro i
    simp [Nat.testBit_shiftRight, Nat.testBit_two_pow_sub_one]
  have hp : 0 < 2 ^ um := by positivity
  -- classes are unions of units
  have key : ∀ a b : Nat, a / 2 ^ um = b / 2 ^ um → Lay.idx um m a ≤ Lay.idx um m b := by
    intro a b hab
    rw [← Lay.val_le_iff, Lay.val_idx]
    have h1 : Lay.lo um m a ≤ a := Lay.lo_le
    have h2 : Lay.lo um m a = a / Lay.wid um m a * 2 ^ Lay.bkt um m a * 2 ^ um := by
      unfold Lay.lo; conv_lhs => rw [Lay.wid, pow_add]
      unfold Lay.wid; rw [pow_add]; ring
    have h3 : a / Lay.wid um m a * 2 ^ Lay.bkt um m a ≤ a / 2 ^ um := by
      rw [Nat.le_div_iff_mul_le hp, ← h2]; exact h1
    rw [hab] at h3
    rw [h2]
    exact (Nat.le_div_iff_mul_le hp).mp h3
  exact le_antisymm (key _ _ hdiv) (key _ _ hdiv.symm)

theorem and_not_mask {um v : Nat} (hv : v ≤ U64MAX) (hum : um < 64) :
    v &&& Hist.notU64 (2 ^ um - 1) = v / 2 ^ um * 2 ^ um := by
  have e : Hist.notU64 (2 ^ um - 1) = (2 ^ (64 - um) - 1) * 2 ^ um := by
    unfold Hist.notU64
    have h1 : (2 ^ (64 - um) - 1) * 2 ^ um = 2 ^ 64 - 2 ^ um := by
      rw [Nat.sub_mul, ← pow_add, one_mul]; congr 2; omega
    have : 0 < 2 ^ um := by positivity
    have h2 : 2 ^ um < 2 ^ 64 := Nat.pow_lt_pow_right (by norm_num) hum
    rw [h1]
    have : U64MAX = 2 ^ 64 - 1 := by norm_num
    omega
  rw [e]
  apply Nat.eq_of_testBit_eq
  intro i
  have hv' := U64MAX_lt.mp hv
  rw [Nat.testBit_and, ← Nat.shiftLeft_eq, ← Nat.shiftLeft_eq, ← Nat.shiftRight_eq_div_pow]
  simp only [Nat.testBit_shiftLeft, Nat.testBit_shiftRight, Nat.testBit_two_pow_sub_one]
  by_cases hi : um ≤ i
  · simp only [hi, decide_true, Bool.true_and]
    rw [Nat.add_sub_cancel' hi]
    by_cases h64 : i < 64
    · have : i - um < 64 - um := by omega
      simp [this]
    · rw [Nat.testBit_lt_two_pow (lt_of_lt_of_le hv' (Nat.pow_le_pow_right (by norm_num) (by omega)))]
      simp
  · simp [hi]

theorem or_mask_le {um v : Nat} (hv : v ≤ U64MAX) (hum : um < 64) : v ||| (2 ^ um - 1) ≤ U64MAX := by
  rw [U64MAX_lt] at *
  apply Nat.or_lt_two_pow hv
  have : 2 ^ um < 2 ^ 64 := Nat.pow_lt_pow_right (by norm_num) hum
  omega

theorem unit_idx (um m v : Nat) : Lay.idx um m (v / 2 ^ um * 2 ^ um) = Lay.idx um m v := by
  rw [← or_mask_idx um m v, ← or_mask_idx um m (v / 2 ^ um * 2 ^ um)]
  congr 1
  apply Nat.eq_of_testBit_eq
  intro i
  rw [← Nat.shiftLeft_eq, ← Nat.shiftRight_eq_div_pow]
  simp only [Nat.testBit_or, Nat.testBit_shiftLeft, Nat.testBit_shiftRight, Nat.testBit_two_pow_sub_one]
  by_cases hi : um ≤ i
  · simp [hi]
  · simp [hi]; intro _; omega

end Hdr
