import Verif.Proofs.Record

/-!
# Cached statistics: `max`, `min_nz`, `min`, `restat`, `clear`, `reset`
-/

namespace Hdr

variable {T : CounterTy} {fp : Fp}

/-- closed form of `max()` -/
def Hist.lmax (h : Hist T) : Nat := if h.maxValue = 0 then 0 else h.lhi h.maxValue
/-- closed form of `min_nz()` -/
def Hist.lminNz (h : Hist T) : Nat := if h.minNonZero = U64MAX then U64MAX else h.llo h.minNonZero

theorem max_eq {h : Hist T} (L : LayoutOK h) (hm : h.maxValue ≤ U64MAX) : h.max = .ok h.lmax := by
  unfold Hist.max Hist.lmax
  split
  · rfl
  · exact highestEquivalent_eq L hm

theorem minNz_eq {h : Hist T} (L : LayoutOK h) (hm : h.minNonZero ≤ U64MAX) :
    h.minNz = .ok h.lminNz := by
  unfold Hist.minNz Hist.lminNz
  split
  · rfl
  · exact lowestEquivalent_eq L hm

theorem WF.max_eq {h : Hist T} (W : WF fp h) : h.max = .ok h.lmax := Hdr.max_eq W.toLayoutOK W.maxle
theorem WF.minNz_eq {h : Hist T} (W : WF fp h) : h.minNz = .ok h.lminNz :=
  Hdr.minNz_eq W.toLayoutOK W.minle

theorem lmax_le {h : Hist T} : h.lmax ≤ U64MAX := by
  unfold Hist.lmax; split
  · decide
  · exact lhi_le

theorem WF.maxValue_le_lmax {h : Hist T} (W : WF fp h) : h.maxValue ≤ h.lmax := by
  unfold Hist.lmax; split
  · omega
  · exact lhi_ge W.maxle

theorem WF.lidx_lmax {h : Hist T} (W : WF fp h) : h.lidx h.lmax = h.lidx h.maxValue := by
  unfold Hist.lmax; split
  · rename_i h0; rw [h0]
  · exact lidx_lhi W.maxle

theorem lminNz_le {h : Hist T} (hm : h.minNonZero ≤ U64MAX) : h.lminNz ≤ U64MAX := by
  unfold Hist.lminNz; split
  · exact le_rfl
  · exact le_trans Lay.lo_le hm

theorem lidx_lminNz {h : Hist T} : h.lidx h.lminNz = h.lidx h.minNonZero := by
  unfold Hist.lminNz; split
  · rename_i h0; rw [h0]
  · exact Lay.idx_lo

theorem WF.countAtIndex {h : Hist T} {i : Nat} (hi : i < h.counts.length) :
    h.countAtIndex i = some (h.counts.getD i 0) := getElem?_getD_lt hi

theorem WF.min_eq {h : Hist T} (W : WF fp h) :
    h.min = .ok (if h.totalCount = 0 ∨ h.counts.getD 0 0 ≠ 0 then 0 else h.lminNz) := by
  unfold Hist.min
  by_cases h0 : h.totalCount = 0
  · simp [h0]
  · rw [if_neg h0, WF.countAtIndex W.len_pos, expectM_some, M.ok_bind]
    by_cases h1 : h.counts.getD 0 0 = 0
    · have hn : ¬ (h.totalCount = 0 ∨ h.counts.getD 0 0 ≠ 0) := by
        rintro (h | h)
        · exact h0 h
        · exact h h1
      rw [if_neg (by rw [h1]; simp), if_neg hn]; exact W.minNz_eq
    · rw [if_pos h1, if_pos (Or.inr h1)]; rfl

theorem WF.sum_zero_of_empty {h : Hist T} (W : WF fp h) (h0 : h.totalCount = 0) : h.counts.sum = 0 := by
  have := W.totsum
  have hm : U64MAX ≠ 0 := by decide
  omega

theorem WF.getD_zero_of_empty {h : Hist T} (W : WF fp h) (h0 : h.totalCount = 0) (i : Nat) :
    h.counts.getD i 0 = 0 := by
  have := getD_le_sum h.counts i
  have := W.sum_zero_of_empty h0
  omega

/-! ### restat -/

/-- index of the last non-zero count -/
def lastNz : List Nat → Nat → Option Nat
  | [], _ => none
  | c :: cs, i =>
    match lastNz cs (i + 1) with
    | some j => some j
    | none => if c ≠ 0 then some i else none

/-- index of the first non-zero count, ignoring index zero -/
def firstNz : List Nat → Nat → Option Nat
  | [], _ => none
  | c :: cs, i => if c ≠ 0 ∧ i ≠ 0 then some i else firstNz cs (i + 1)

theorem restatLoop_eq (l : List Nat) (i : Nat) (s : Hist.RestatState) (hs : s.totalCount ≤ U64MAX) :
    Hist.restatLoop l i s =
      { maxIndex := (lastNz l i).or s.maxIndex
        minIndex := s.minIndex.or (firstNz l i)
        totalCount := min (s.totalCount + l.sum) U64MAX } := by
  induction l generalizing i s with
  | nil =>
    simp [Hist.restatLoop, lastNz, firstNz]
    cases s; simp at hs ⊢; omega
  | cons c cs ih =>
    unfold Hist.restatLoop
    by_cases hc : c = 0
    · subst hc
      rw [if_neg (by simp), ih _ _ hs]
      simp only [lastNz, firstNz, List.sum_cons]
      congr 1
      · cases lastNz cs (i + 1) <;> simp
      all_goals simp
    · rw [if_pos hc, ih]
      · simp only [Hist.RestatState.onNonzeroCount, lastNz, firstNz, List.sum_cons, Hdr.satAdd]
        congr 1
        · cases lastNz cs (i + 1) <;> simp [hc]
        · cases hm : s.minIndex with
          | none =>
            by_cases hi : i = 0
            · simp [hi]
            · simp [hi, hc]
          | some k => simp
        · omega
      · exact Nat.min_le_right _ _

theorem lastNz_spec (l : List Nat) (i : Nat) :
    match lastNz l i with
    | none => ∀ k, l.getD k 0 = 0
    | some j => i ≤ j ∧ j - i < l.length ∧ l.getD (j - i) 0 ≠ 0 ∧ ∀ k, l.getD k 0 ≠ 0 → i + k ≤ j := by
  induction l generalizing i with
  | nil => simp [lastNz]
  | cons c cs ih =>
    have h := ih (i + 1)
    unfold lastNz
    cases hl : lastNz cs (i + 1) with
    | some j =>
      rw [hl] at h
      simp only at h ⊢
      obtain ⟨h1, h2, h3, h4⟩ := h
      refine ⟨by omega, by simp; omega, ?_, ?_⟩
      · have : j - i = (j - (i + 1)) + 1 := by omega
        rw [this]; simpa using h3
      · intro k hk
        cases k with
        | zero => omega
        | succ k => have := h4 k (by simpa using hk); omega
    | none =>
      rw [hl] at h
      simp only at h
      by_cases hc : c = 0
      · simp only [hc, ne_eq, not_true_eq_false, if_false]
        intro k
        cases k with
        | zero => rfl
        | succ k => simpa using h k
      · simp only [ne_eq, hc, not_false_eq_true, if_true]
        refine ⟨le_rfl, by simp, by simpa using hc, ?_⟩
        intro k hk
        cases k with
        | zero => omega
        | succ k => exact absurd (by simpa using h k) hk

theorem firstNz_spec (l : List Nat) (i : Nat) :
    match firstNz l i with
    | none => ∀ k, i + k ≠ 0 → l.getD k 0 = 0
    | some j => i ≤ j ∧ j ≠ 0 ∧ j - i < l.length ∧ l.getD (j - i) 0 ≠ 0
        ∧ ∀ k, i + k ≠ 0 → l.getD k 0 ≠ 0 → j ≤ i + k := by
  induction l generalizing i with
  | nil => simp [firstNz]
  | cons c cs ih =>
    unfold firstNz
    by_cases hc : c ≠ 0 ∧ i ≠ 0
    · rw [if_pos hc]
      refine ⟨le_rfl, hc.2, by simp, by simpa using hc.1, ?_⟩
      intros; omega
    · rw [if_neg hc]
      have h := ih (i + 1)
      cases hl : firstNz cs (i + 1) with
      | none =>
        rw [hl] at h
        simp only at h ⊢
        intro k hk
        cases k with
        | zero => simp; omega
        | succ k => simpa using h k (by omega)
      | some j =>
        rw [hl] at h
        simp only at h ⊢
        obtain ⟨h1, h2, h3, h4, h5⟩ := h
        refine ⟨by omega, h2, by simp; omega, ?_, ?_⟩
        · have : j - i = (j - (i + 1)) + 1 := by omega
          rw [this]; simpa using h4
        · intro k hk hne
          cases k with
          | zero => exfalso; apply hc; simp at hne; exact ⟨hne, by omega⟩
          | succ k => have := h5 k (by omega) (by simpa using hne); omega

/-- cached maximum computed by a rescan -/
def Hist.scanMax (h : Hist T) : Nat :=
  match lastNz h.counts 0 with
  | none => h.unitMagMask
  | some i => h.lhi (h.lval i) ||| h.unitMagMask
/-- cached non-zero minimum computed by a rescan -/
def Hist.scanMin (h : Hist T) : Nat :=
  match firstNz h.counts 0 with
  | none => U64MAX
  | some i => h.lval i
/-- a histogram with statistics recomputed -/
def Hist.restated (h : Hist T) : Hist T :=
  { h with maxValue := h.scanMax, minNonZero := h.scanMin, totalCount := Min.min h.counts.sum U64MAX }

theorem unit_dvd_lval (um m i : Nat) : 2 ^ um ∣ Lay.val um m i := by
  unfold Lay.val
  rw [pow_add]
  exact Dvd.dvd.mul_left (Dvd.intro _ rfl) _

theorem updateMin_mk {h : Hist T} (L : LayoutOK h) {i : Nat} (hi : i ≠ 0) (hall : i < h.lall)
    (hmin : h.minNonZero = U64MAX) :
    h.updateMin (h.lval i) = { h with minNonZero := h.lval i } := by
  have hv : h.lval i ≤ U64MAX := U64MAX_lt.mpr ((Lay.val_lt_iff L.sum62).mpr hall)
  have hge : ¬ h.lval i ≤ h.unitMagMask := by
    rw [L.ummask]
    have hp : 0 < 2 ^ h.unitMag := by positivity
    intro hc
    have := (Lay.idx_eq_zero_iff (um := h.unitMag) (m := h.subBucketHalfCountMag)).mpr
      (show h.lval i < 2 ^ h.unitMag by omega)
    rw [Lay.idx_val] at this
    exact hi this
  unfold Hist.updateMin
  rw [if_neg hge]
  have e : h.lval i &&& Hist.notU64 h.unitMagMask = h.lval i := by
    rw [L.ummask, and_not_mask hv (by have := L.sum62; omega)]
    exact Nat.div_mul_cancel (unit_dvd_lval _ _ _)
  simp only [e]
  split
  · rfl
  · have : h.lval i = h.minNonZero := by omega
    rw [this]

theorem applyMaxIndex_eq {h : Hist T} (L : LayoutOK h) {i : Nat} (hi : i < h.lall)
    (hm : h.maxValue = h.unitMagMask) :
    h.applyMaxIndex (some i) = .ok { h with maxValue := h.lhi (h.lval i) ||| h.unitMagMask } := by
  have hv : h.lval i ≤ U64MAX := U64MAX_lt.mpr ((Lay.val_lt_iff L.sum62).mpr hi)
  have hmask : h.unitMagMask ≤ h.lhi (h.lval i) ||| h.unitMagMask := Nat.right_le_or
  unfold Hist.applyMaxIndex
  simp only
  rw [valueFor_eq L hi, M.ok_bind, highestEquivalent_eq L hv, M.ok_bind, M.pure_eq]
  unfold Hist.updateMax
  simp only
  split
  · rfl
  · have e1 : h.lhi (h.lval i) ||| h.unitMagMask = h.maxValue := by omega
    rw [e1]

theorem applyMinIndex_eq {h : Hist T} (L : LayoutOK h) {i : Nat} (h0 : i ≠ 0) (hi : i < h.lall)
    (hm : h.minNonZero = U64MAX) :
    h.applyMinIndex (some i) = .ok { h with minNonZero := h.lval i } := by
  unfold Hist.applyMinIndex
  simp only
  rw [valueFor_eq L hi, M.ok_bind, M.pure_eq, updateMin_mk L h0 hi hm]

theorem restat_eq {h : Hist T} (L : LayoutOK h) (hlen : h.counts.length ≤ h.lall) :
    h.restat h.counts.length = .ok h.restated := by
  unfold Hist.restat
  simp only [Hist.resetMax, Hist.resetMin, if_true]
  rw [assertM_true (by simp), M.ok_bind, List.take_length,
    restatLoop_eq _ _ _ (by simp [Hist.RestatState.new])]
  unfold Hist.RestatState.updateHistogram
  have e0 : ORIGINAL_MAX ||| h.unitMagMask = h.unitMagMask := by simp
  simp only [Hist.RestatState.new, Option.or_none, Option.none_or, Nat.zero_add, e0]
  unfold Hist.restated Hist.scanMax Hist.scanMin
  have hl := lastNz_spec h.counts 0
  have hf := firstNz_spec h.counts 0
  cases h1 : lastNz h.counts 0 with
  | none =>
    rw [h1] at hl
    cases h2 : firstNz h.counts 0 with
    | none => rfl
    | some j =>
      rw [h2] at hf
      exact absurd (hl (j - 0)) hf.2.2.2.1
  | some i =>
    rw [h1] at hl
    obtain ⟨-, hi, -, -⟩ := hl
    simp only
    let h' : Hist T := { h with maxValue := h.unitMagMask, minNonZero := ORIGINAL_MIN }
    have L' : LayoutOK h' := ⟨L.sbc, L.half, L.mag17, L.sum62, L.lzb, L.mask, L.ummask⟩
    have hia : i < h'.lall := by
      show i < h.lall
      omega
    rw [show Hist.applyMaxIndex _ (some i) = _ from applyMaxIndex_eq L' hia rfl, M.ok_bind]
    cases h2 : firstNz h.counts 0 with
    | none => rfl
    | some j =>
      rw [h2] at hf
      obtain ⟨-, hj0, hj, -, -⟩ := hf
      simp only
      let h'' : Hist T := { h' with maxValue := h'.lhi (h'.lval i) ||| h'.unitMagMask }
      have L'' : LayoutOK h'' := ⟨L.sbc, L.half, L.mag17, L.sum62, L.lzb, L.mask, L.ummask⟩
      have hja : j < h''.lall := by
        show j < h.lall
        omega
      rw [show Hist.applyMinIndex _ (some j) = _ from applyMinIndex_eq L'' hj0 hja rfl, M.ok_bind]
      rfl

/-- Validity without the parts that concern the cached statistics. -/
structure WFc (fp : Fp) (h : Hist T) : Prop extends LayoutOK h where
  sig5 : h.sigDigits ≤ 5
  mag : h.subBucketHalfCountMag + 1 = Hist.subBucketCountMag h.sigDigits
  low1 : 1 ≤ h.lowestDiscernible
  low63 : h.lowestDiscernible ≤ U64MAX / 2
  highlow : 2 * h.lowestDiscernible ≤ h.highestTrackable
  highmax : h.highestTrackable ≤ U64MAX
  um : h.unitMag = fp.log2Floor h.lowestDiscernible
  bc : h.bucketCount = h.lbkt h.highestTrackable + 1
  len : h.counts.length = (h.bucketCount + 1) * 2 ^ h.subBucketHalfCountMag
  cmax : ∀ c ∈ h.counts, c ≤ T.max

theorem WF.toWFc {h : Hist T} (W : WF fp h) : WFc fp h :=
  { W.toLayoutOK with
    sig5 := W.sig5, mag := W.mag, low1 := W.low1, low63 := W.low63, highlow := W.highlow,
    highmax := W.highmax, um := W.um, bc := W.bc, len := W.len, cmax := W.cmax }

/-- validity from the core part and the statistics part -/
theorem WFc.mk_wf {h : Hist T} (W : WFc fp h) (tot : h.totalCount ≤ U64MAX)
    (totsum : min h.counts.sum U64MAX ≤ h.totalCount) (maxle : h.maxValue ≤ U64MAX)
    (maxcov : h.lidx h.maxValue < h.counts.length) (minle : h.minNonZero ≤ U64MAX)
    (minpos : h.lidx h.minNonZero ≠ 0)
    (trackMax : ∀ i, h.counts.getD i 0 ≠ 0 → i ≤ h.lidx h.maxValue)
    (trackMin : ∀ i, i ≠ 0 → h.counts.getD i 0 ≠ 0 → h.lidx h.minNonZero ≤ i) : WF fp h :=
  { W.toLayoutOK with
    sig5 := W.sig5, mag := W.mag, low1 := W.low1, low63 := W.low63, highlow := W.highlow,
    highmax := W.highmax, um := W.um, bc := W.bc, len := W.len, cmax := W.cmax
    tot := tot, totsum := totsum, maxle := maxle, maxcov := maxcov, minle := minle, minpos := minpos
    trackMax := trackMax, trackMin := trackMin }

theorem WFc.len_pos {h : Hist T} (W : WFc fp h) : 0 < h.counts.length := by
  rw [W.len]; positivity

theorem WFc.len_le_all {h : Hist T} (W : WFc fp h) : h.counts.length ≤ h.lall := by
  have hb := bkt_sum W.toLayoutOK W.highmax
  rw [W.len, W.bc]
  exact Nat.mul_le_mul_right _ (by omega)

theorem WFc.lval_le {h : Hist T} (W : WFc fp h) {i : Nat} (hi : i < h.counts.length) :
    h.lval i ≤ U64MAX :=
  U64MAX_lt.mpr ((Lay.val_lt_iff W.sum62).mpr (lt_of_lt_of_le hi W.len_le_all))

theorem lidx_mask {h : Hist T} (L : LayoutOK h) : h.lidx h.unitMagMask = 0 := by
  rw [L.ummask]
  have hp : 0 < 2 ^ h.unitMag := by positivity
  exact Lay.idx_eq_zero_iff.mpr (by omega)

theorem mask_le {h : Hist T} (L : LayoutOK h) : h.unitMagMask ≤ U64MAX := by
  have := or_mask_le (v := 0) (um := h.unitMag) (by decide) (by have := L.sum62; omega)
  rw [L.ummask]; simpa using this

theorem lidx_or_mask {h : Hist T} (L : LayoutOK h) (v : Nat) :
    h.lidx (v ||| h.unitMagMask) = h.lidx v := by
  rw [L.ummask]; exact or_mask_idx _ _ _

theorem WFc.restated {h : Hist T} (W : WFc fp h) : WF fp h.restated := by
  have L := W.toLayoutOK
  have hl := lastNz_spec h.counts 0
  have hf := firstNz_spec h.counts 0
  have Wc : WFc fp h.restated :=
    { (⟨L.sbc, L.half, L.mag17, L.sum62, L.lzb, L.mask, L.ummask⟩ : LayoutOK h.restated) with
      sig5 := W.sig5, mag := W.mag, low1 := W.low1, low63 := W.low63, highlow := W.highlow,
      highmax := W.highmax, um := W.um, bc := W.bc, len := W.len, cmax := W.cmax }
  have hmaxi : h.scanMax ≤ U64MAX ∧ h.lidx h.scanMax < h.counts.length ∧
      ∀ i, h.counts.getD i 0 ≠ 0 → i ≤ h.lidx h.scanMax := by
    unfold Hist.scanMax
    cases h1 : lastNz h.counts 0 with
    | none =>
      rw [h1] at hl
      simp only
      rw [lidx_mask L]
      exact ⟨mask_le L, W.len_pos, fun i hi => absurd (hl i) hi⟩
    | some i =>
      rw [h1] at hl
      obtain ⟨-, hi, -, hmx⟩ := hl
      have hv := W.lval_le (i := i) (by omega)
      have e : h.lidx (h.lhi (h.lval i) ||| h.unitMagMask) = i := by
        rw [lidx_or_mask L, lidx_lhi hv]; exact Lay.idx_val
      simp only
      rw [e]
      refine ⟨?_, by omega, fun k hk => by have := hmx k hk; omega⟩
      rw [L.ummask]; exact or_mask_le lhi_le (by have := L.sum62; omega)
  have hmini : h.scanMin ≤ U64MAX ∧ h.lidx h.scanMin ≠ 0 ∧
      ∀ i, i ≠ 0 → h.counts.getD i 0 ≠ 0 → h.lidx h.scanMin ≤ i := by
    unfold Hist.scanMin
    cases h1 : firstNz h.counts 0 with
    | none =>
      rw [h1] at hf
      exact ⟨le_rfl, lidx_top L, fun i hi hne => absurd (hf i (by omega)) hne⟩
    | some i =>
      rw [h1] at hf
      obtain ⟨-, hi0, hi, -, hmn⟩ := hf
      have e : h.lidx (h.lval i) = i := Lay.idx_val
      refine ⟨W.lval_le (by omega), by simp only; rw [e]; exact hi0, fun k hk hne => ?_⟩
      simp only
      rw [e]
      have := hmn k (by omega) hne; omega
  exact Wc.mk_wf (Nat.min_le_right _ _) le_rfl hmaxi.1 hmaxi.2.1 hmini.1 hmini.2.1 hmaxi.2.2 hmini.2.2

theorem restat_ok {h : Hist T} (W : WFc fp h) : h.restat h.distinctValues = .ok h.restated :=
  restat_eq W.toLayoutOK W.len_le_all

/-! ### clear and reset -/

theorem getD_map_zero (l : List Nat) (i : Nat) : (l.map (fun _ => 0)).getD i 0 = 0 := by
  rw [List.getD_eq_getElem?_getD, List.getElem?_map]
  cases l[i]? <;> rfl

theorem sum_map_zero (l : List Nat) : (l.map (fun _ => 0)).sum = 0 := by
  induction l <;> simp_all

theorem WF.clear {h : Hist T} (W : WF fp h) : WF fp h.clear := by
  have L := W.toLayoutOK
  refine { (⟨L.sbc, L.half, L.mag17, L.sum62, L.lzb, L.mask, L.ummask⟩ : LayoutOK h.clear) with
    sig5 := W.sig5, mag := W.mag, low1 := W.low1, low63 := W.low63, highlow := W.highlow
    highmax := W.highmax, um := W.um, bc := W.bc, len := ?_, cmax := ?_
    tot := Nat.zero_le _, totsum := ?_
    maxle := W.maxle, maxcov := ?_
    minle := W.minle, minpos := W.minpos, trackMax := ?_, trackMin := ?_ }
  · simp only [Hist.clear, List.length_map]; exact W.len
  · intro x hx; simp only [Hist.clear, List.mem_map] at hx; obtain ⟨_, _, rfl⟩ := hx; omega
  · simp only [Hist.clear, sum_map_zero]; simp
  · simp only [Hist.clear, List.length_map]; exact W.maxcov
  · intro i hi; exact absurd (getD_map_zero _ _) hi
  · intro i _ hi; exact absurd (getD_map_zero _ _) hi

theorem WF.reset {h : Hist T} (W : WF fp h) : WF fp h.reset := by
  have Wc := W.clear
  have L := W.toLayoutOK
  refine { (⟨L.sbc, L.half, L.mag17, L.sum62, L.lzb, L.mask, L.ummask⟩ : LayoutOK h.reset) with
    sig5 := W.sig5, mag := W.mag, low1 := W.low1, low63 := W.low63, highlow := W.highlow
    highmax := W.highmax, um := W.um, bc := W.bc, len := Wc.len, cmax := Wc.cmax
    tot := Wc.tot, totsum := Wc.totsum
    maxle := ?_, maxcov := ?_
    minle := ?_, minpos := by show h.lidx U64MAX ≠ 0; exact lidx_top L, trackMax := ?_, trackMin := ?_ }
  · show 0 ||| h.unitMagMask ≤ _
    rw [Nat.zero_or]; exact mask_le L
  · show h.lidx (0 ||| h.unitMagMask) < h.clear.counts.length
    rw [Nat.zero_or, lidx_mask L]; exact Wc.len_pos
  · exact le_rfl
  · intro i hi; exact absurd (getD_map_zero _ _) hi
  · intro i _ hi; exact absurd (getD_map_zero _ _) hi

theorem WF.auto {h : Hist T} (W : WF fp h) (b : Bool) : WF fp (h.auto b) :=
  { (⟨W.sbc, W.half, W.mag17, W.sum62, W.lzb, W.mask, W.ummask⟩ : LayoutOK (h.auto b)) with
    sig5 := W.sig5, mag := W.mag, low1 := W.low1, low63 := W.low63, highlow := W.highlow
    highmax := W.highmax, um := W.um, bc := W.bc, len := W.len, cmax := W.cmax
    tot := W.tot, totsum := W.totsum, maxle := W.maxle, maxcov := W.maxcov
    minle := W.minle, minpos := W.minpos, trackMax := W.trackMax, trackMin := W.trackMin }

end Hdr
