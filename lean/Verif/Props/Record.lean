import Verif.Proofs.Stats
import Verif.Spec.Demo

/-!
# C09–C16: recording
-/

namespace Hdr

variable {T : CounterTy} {fp : Fp}

/-! ## C09 -/

/-- C09: a successful `record_n(v, c)` adds `c` (saturating) to the class of `v`, changes no other class, and
adds `c` (saturating) to `len()`. -/
theorem C09_record_effect {h h' : Hist T} (R : Reachable fp T h) {v c : Nat} (hv : v ≤ U64MAX) (hc : c ≤ T.max)
    (e : h.recordN v c = .ok (h', .ok ())) :
    (∀ w n, w ≤ U64MAX → HasCount h w n → HasCount h' w (if Equiv h v w then min (n + c) T.max else n)) ∧
    h'.len = min (h.len + c) U64MAX ∧
    (∀ a b, a ≤ U64MAX → b ≤ U64MAX → (Equiv h' a b ↔ Equiv h a b)) := by
  have W := R.wf
  rw [W.recordN_eq hv hc] at e
  split at e
  case isFalse => cases e
  cases e
  obtain ⟨W1, c1, l1, g1, t1, -⟩ := W.step (c := c) hv
  refine ⟨fun w n hw hn => ?_, t1, fun a b ha hb => ?_⟩
  · rw [W.hasCount_iff hw] at hn
    rw [W1.hasCount_iff hw, c1.lidx, g1, hn]
    simp only [W.equiv_iff hv hw]
    split
    · rfl
    · have := W.getD_le (h.lidx w)
      omega
  · rw [W1.equiv_iff ha hb, W.equiv_iff ha hb, c1.lidx, c1.lidx]

example : ∃ h', demo3.recordN 4 7 = .ok (h', .ok ()) ∧ h'.countAt 7 = .ok 10 ∧ h'.countAt 8 = .ok 200
    ∧ h'.len = 211 := okThen (by decide +kernel)
/-- saturating -/
example : ∃ h', demo3.recordN 12 100 = .ok (h', .ok ()) ∧ h'.countAt 9 = .ok 255 ∧ h'.len = 304 :=
  okThen (by decide +kernel)

/-! ## C10 -/

/-- C10: `record_n` never panics; it fails, changing nothing, exactly for uncovered values with auto-resize off. -/
theorem C10_record_fails {h : Hist T} (R : Reachable fp T h) {v c : Nat} (hv : v ≤ U64MAX) (hc : c ≤ T.max) :
    ∃ h' r, h.recordN v c = .ok (h', r) ∧
      (r = .error .ValueOutOfRangeResizeDisabled ↔ ¬ h.Covers v ∧ h.isAutoResize = false) ∧
      (r ≠ .error .ValueOutOfRangeResizeDisabled ↔ r = .ok ()) ∧
      (r ≠ .ok () → h' = h) := by
  have W := R.wf
  rw [W.recordN_eq hv hc, W.covers_iff]
  unfold Hist.isAutoResize
  by_cases hcov : h.lidx v < h.counts.length
  · rw [if_pos (Or.inl hcov)]
    exact ⟨_, _, rfl, by simp [hcov], by simp, by simp⟩
  · cases ha : h.autoResize with
    | true => rw [if_pos (Or.inr rfl)]; exact ⟨_, _, rfl, by simp, by simp, by simp⟩
    | false => rw [if_neg (by simp [hcov])]; exact ⟨_, _, rfl, by simp [hcov], by simp, by simp⟩

example : demo3.recordN 16 1 = .ok (demo3, .error .ValueOutOfRangeResizeDisabled) := by decide

/-! ## C11 -/

/-- C11: with auto-resize on every `u64` can be recorded; all old counts are kept, the value is then covered, and
if the array had to grow `high()` is the largest value the new array distinguishes (`u64::MAX - 1` for the array
that covers everything), so at least the value unless that is `u64::MAX`. -/
theorem C11_auto_resize {h : Hist T} (R : Reachable fp T h) (ha : h.isAutoResize = true) {v c : Nat}
    (hv : v ≤ U64MAX) (hc : c ≤ T.max) :
    ∃ h', h.recordN v c = .ok (h', .ok ()) ∧ h'.Covers v ∧
      (∀ w n, w ≤ U64MAX → HasCount h w n → ¬ Equiv h v w → HasCount h' w n) ∧
      (∀ w, h.Covers w → h'.Covers w) ∧
      (h.Covers v → h'.high = h.high ∧ h'.coverEnd = h.coverEnd) ∧
      (¬ h.Covers v → h'.high = min h'.coverEnd U64MAX - 1 ∧ (v ≤ h'.high ∨ v = U64MAX)) := by
  have W := R.wf
  have e : h.recordN v c = .ok ((h.growTo v).recorded v c, .ok ()) := by
    rw [W.recordN_eq hv hc, if_pos (show _ ∨ h.autoResize = true from Or.inr ha)]
  obtain ⟨W1, c1, l1, g1, t1, -⟩ := W.step (c := c) hv
  have hcov1 : ((h.growTo v).recorded v c).Covers v := by
    rw [W1.covers_iff, c1.lidx]; simp only [Hist.recorded, List.length_set]; exact W.growTo_cov v
  refine ⟨_, e, hcov1, fun w n hw hn hne => ?_, fun w hcw => ?_, fun hcv => ?_, fun hncv => ?_⟩
  · have := (C09_record_effect R hv hc e).1 w n hw hn
    rwa [if_neg hne] at this
  · rw [W.covers_iff] at hcw
    rw [W1.covers_iff, c1.lidx]; omega
  · rw [W.covers_iff] at hcv
    have : h.growTo v = h := by unfold Hist.growTo; rw [if_pos hcv]
    rw [this]; exact ⟨rfl, rfl⟩
  · rw [W.covers_iff] at hncv
    -- the new array ends with the last class of the bucket of `v`
    have hlen : ((h.growTo v).recorded v c).counts.length = (h.lbkt v + 2) * 2 ^ h.subBucketHalfCountMag := by
      have : (h.growTo v).counts.length = (h.resized v).counts.length := by
        unfold Hist.growTo; rw [if_neg hncv]
      simp only [Hist.recorded, List.length_set]
      rw [this]; exact W.resized_len v
    have hbc : ((h.growTo v).recorded v c).bucketCount = h.lbkt v + 1 := by
      change (h.growTo v).bucketCount = _
      unfold Hist.growTo; rw [if_neg hncv]; rfl
    have hhi : ((h.growTo v).recorded v c).high
        = h.lhi (h.lval ((h.lbkt v + 2) * 2 ^ h.subBucketHalfCountMag - 1)) := by
      change (h.growTo v).highestTrackable = _
      unfold Hist.growTo; rw [if_neg hncv]
      change h.lhi (h.lval ((h.resized v).counts.length - 1)) = _
      rw [W.resized_len]
    have hend : h.lval ((h.lbkt v + 2) * 2 ^ h.subBucketHalfCountMag) = ((h.growTo v).recorded v c).coverEnd := by
      unfold Hist.coverEnd
      rw [hbc, c1.um, c1.mag]
      have hp : 0 < 2 ^ h.subBucketHalfCountMag := by positivity
      unfold Hist.lval Lay.val
      rw [Nat.mul_div_cancel _ hp]
      have : (h.lbkt v + 2) * 2 ^ h.subBucketHalfCountMag - (h.lbkt v + 2 - 1) * 2 ^ h.subBucketHalfCountMag
          = 2 ^ h.subBucketHalfCountMag := by
        rw [← Nat.sub_mul]
        have : h.lbkt v + 2 - (h.lbkt v + 2 - 1) = 1 := by omega
        rw [this, one_mul]
      rw [this, ← pow_add]
      congr 1; omega
    have hpos : 1 ≤ (h.lbkt v + 2) * 2 ^ h.subBucketHalfCountMag := Nat.mul_pos (by omega) (by positivity)
    have hsucc : h.lval ((h.lbkt v + 2) * 2 ^ h.subBucketHalfCountMag - 1)
        + h.lwid (h.lval ((h.lbkt v + 2) * 2 ^ h.subBucketHalfCountMag - 1))
        = ((h.growTo v).recorded v c).coverEnd := by
      rw [← hend]
      conv_rhs => rw [← Nat.sub_add_cancel hpos]
      exact (Lay.val_succ).symm
    have hlo : h.llo (h.lval ((h.lbkt v + 2) * 2 ^ h.subBucketHalfCountMag - 1))
        = h.lval ((h.lbkt v + 2) * 2 ^ h.subBucketHalfCountMag - 1) := Lay.lo_val
    have hne : h.lval ((h.lbkt v + 2) * 2 ^ h.subBucketHalfCountMag - 1) ≠ U64MAX := by
      intro hc
      rw [hc] at hlo
      have h3 : h.llo U64MAX + h.lwid U64MAX ≤ 2 ^ 64 :=
        Lay.lo_add_wid_le (um := h.unitMag) (m := h.subBucketHalfCountMag) (v := U64MAX) W.sum62
        (U64MAX_lt.mp le_rfl)
      have h4 : 4 ≤ h.lwid U64MAX := by
        have h17 := W.mag17
        have : 2 ^ 2 ≤ h.lwid U64MAX := by
          unfold Hist.lwid Lay.wid
          refine Nat.pow_le_pow_right (by norm_num) ?_
          unfold Lay.bkt
          have : Nat.log2 U64MAX = 63 := by decide
          omega
        exact this
      have hU : U64MAX = 18446744073709551615 := rfl
      omega
    have heq : ((h.growTo v).recorded v c).high = min ((h.growTo v).recorded v c).coverEnd U64MAX - 1 := by
      rw [hhi]
      unfold Hist.lhi
      rw [if_neg hne, hlo, hsucc]
    refine ⟨heq, ?_⟩
    unfold Hist.Covers at hcov1
    omega

example : ∃ h', (demo3.auto true).recordN 100 7 = .ok (h', .ok ()) ∧ h'.high = 127 ∧ h'.countAt 100 = .ok 7
    ∧ h'.countAt 9 = .ok 200 := okThen (by decide +kernel)

/-! ## C12 -/

/-- C12: `saturating_record_n` records the value, or `high()` if the value is not covered. -/
theorem C12_saturating {h : Hist T} (R : Reachable fp T h) {v c : Nat} (hv : v ≤ U64MAX) (hc : c ≤ T.max) :
    ∃ h', h.saturatingRecordN v c = .ok h' ∧
      h.recordN (if h.Covers v then v else h.high) c = .ok (h', .ok ()) ∧
      h'.high = h.high ∧ h'.distinctValues = h.distinctValues ∧ h'.isAutoResize = h.isAutoResize := by
  have W := R.wf
  refine ⟨_, W.saturatingRecordN_eq hv, ?_, rfl, by simp [Hist.distinctValues, Hist.recorded], rfl⟩
  have : (if h.Covers v then v else h.high) = h.clampTo v := by
    unfold Hist.clampTo Hist.high; simp only [W.covers_iff]
  rw [this]
  exact W.recordN_cov (W.clampTo_le hv) hc (W.clampTo_cov v)

example : ∃ h', demo3.saturatingRecordN 1000 5 = .ok h' ∧ h'.countAt 15 = .ok 205 := ⟨_, rfl, by decide⟩

/-! ## C13 -/

/-- C13 (1): every non-empty class lies between `min()` and `max()`, and above `min_nz()` unless it is the class
of zero.  Exceptions, all reachable: with a unit above 1, after recording only zeros, `max()` is 0 although the
class of 0 extends to `unit - 1`; the class ending at `u64::MAX` (see `C05_classes`), for which `max()` may answer
`u64::MAX - 1` and `min()` and `min_nz()` may answer `u64::MAX`. -/
theorem C13_bounds_partial {h : Hist T} (R : Reachable fp T h) {v n : Nat} (hv : v ≤ U64MAX) (hn : HasCount h v n)
    (h0 : n ≠ 0) :
    ∃ mn mnz mx lo hi, h.min = .ok mn ∧ h.minNz = .ok mnz ∧ h.max = .ok mx
      ∧ h.lowestEquivalent v = .ok lo ∧ h.highestEquivalent v = .ok hi
      ∧ (mn ≤ lo ∨ mn = U64MAX ∧ Equiv h v U64MAX)
      ∧ (Equiv h v 0 ∨ mnz ≤ lo ∨ mnz = U64MAX ∧ Equiv h v U64MAX)
      ∧ lo ≤ mx
      ∧ (hi ≤ mx ∨ mx = 0 ∧ Equiv h v 0 ∨ v = U64MAX ∧ mx = U64MAX - 1) := by
  have W := R.wf
  rw [W.hasCount_iff hv] at hn
  have hne : h.counts.getD (h.lidx v) 0 ≠ 0 := by omega
  have hmx := W.trackMax _ hne
  have hmnz : h.lidx v ≠ 0 → h.lminNz ≤ h.llo v ∨ h.lminNz = U64MAX ∧ Equiv h v U64MAX := by
    intro hz
    have h1 := W.trackMin _ hz hne
    unfold Hist.lminNz
    split
    · rename_i hs
      right
      refine ⟨rfl, (W.equiv_iff hv le_rfl).mpr ?_⟩
      rw [hs] at h1
      exact Nat.le_antisymm (Lay.idx_mono hv) h1
    · left; exact llo_le_of_lidx h1
  refine ⟨_, _, _, _, _, W.min_eq, W.minNz_eq, W.max_eq, lowestEquivalent_eq W.toLayoutOK hv,
    highestEquivalent_eq W.toLayoutOK hv, ?_, ?_, ?_, ?_⟩
  · split
    · left; omega
    · rename_i hc
      push Not at hc
      exact hmnz (fun hz => hne (by rw [hz]; exact hc.2))
  · by_cases hz : h.lidx v = 0
    · left; rw [W.equiv_iff hv (by omega), hz]; exact (Lay.idx_zero).symm
    · right; exact hmnz hz
  · have h1 : h.llo v ≤ h.llo h.maxValue := llo_le_of_lidx hmx
    have h2 : h.llo h.maxValue ≤ h.maxValue := Lay.lo_le
    have := W.maxValue_le_lmax
    omega
  · unfold Hist.lmax
    split
    · rename_i hz
      right; left
      refine ⟨rfl, ?_⟩
      rw [hz] at hmx
      have : h.lidx 0 = 0 := Lay.idx_zero
      rw [W.equiv_iff hv (by omega)]; omega
    · rcases Nat.lt_or_ge (h.lidx v) (h.lidx h.maxValue) with hlt | hge
      · left
        have h1 := lidx_lhi (h := h) hv
        have h2 : h.lhi v < h.maxValue := by
          by_contra hc
          have := Lay.idx_mono (um := h.unitMag) (m := h.subBucketHalfCountMag) (Nat.le_of_not_lt hc)
          unfold Hist.lidx at *
          omega
        have := lhi_ge (h := h) W.maxle
        omega
      · have he : h.lidx v = h.lidx h.maxValue := Nat.le_antisymm hmx hge
        by_cases hvm : v = U64MAX
        · by_cases hmm : h.maxValue = U64MAX
          · left; rw [hvm, hmm]
          · right; right
            refine ⟨hvm, ?_⟩
            have hw := lwid_eq_of_lidx he
            have hl : h.llo v = h.llo h.maxValue := Lay.lo_eq_iff.mpr he
            have h2 := @Lay.lt_lo_add h.unitMag h.subBucketHalfCountMag v
            unfold Hist.lhi
            rw [if_neg hmm, ← hl, ← hw]
            unfold Hist.llo Hist.lwid
            omega
        · left
          by_cases hmm : h.maxValue = U64MAX
          · rw [hmm]; unfold Hist.lhi; simp; split <;> omega
          · rw [lhi_eq_of_lidx he hvm hmm]

/-- a histogram that holds nothing and whose statistics say so -/
structure Blank (h : Hist T) : Prop where
  len : h.len = 0
  minNz : h.minNz = .ok U64MAX
  max : ∃ m, m ≤ U64MAX ∧ h.max = .ok m ∧ Equiv h m 0

/-- new histograms are blank -/
theorem Blank.newWithBounds {low high sigfig : Nat} {h : Hist T} (hh : high ≤ U64MAX)
    (e : Hist.newWithBounds fp T low high sigfig = .ok (.ok h)) : Blank h := by
  obtain ⟨W, rfl, -⟩ := newWithBounds_wf hh e
  refine ⟨rfl, by rw [W.minNz_eq]; rfl, 0, by omega, by rw [W.max_eq]; rfl, (W.equiv_iff (by omega) (by omega)).mpr rfl⟩

theorem Blank.new {sigfig : Nat} {h : Hist T}
    (e : Hist.new fp T sigfig = .ok (.ok h)) : Blank h := by
  obtain ⟨W, rfl, -⟩ := new_wf e
  refine ⟨rfl, by rw [W.minNz_eq]; rfl, 0, by omega, by rw [W.max_eq]; rfl, (W.equiv_iff (by omega) (by omega)).mpr rfl⟩

/-- so is every reset histogram -/
theorem Blank.reset {h : Hist T} (R : Reachable fp T h) : Blank h.reset := by
  have W := (Reachable.reset R).wf
  refine ⟨rfl, by rw [W.minNz_eq]; rfl, h.reset.lmax, lmax_le, W.max_eq, ?_⟩
  rw [W.equiv_iff lmax_le (by omega), W.lidx_lmax]
  have h1 : h.reset.maxValue = h.unitMagMask := by
    unfold Hist.reset Hist.resetMin Hist.resetMax; simp [ORIGINAL_MAX, Hist.clear]
  have h2 : h.reset.unitMag = h.unitMag := by
    simp [Hist.reset, Hist.resetMin, Hist.resetMax, Hist.clear]
  have hp : 0 < 2 ^ h.unitMag := by positivity
  have h3 : h.reset.lidx 0 = 0 := Lay.idx_zero
  rw [h1, h3, R.wf.ummask]
  exact Lay.idx_eq_zero_iff.mpr (by rw [h2]; omega)

theorem Blank.lidx_max {h : Hist T} (B : Blank h) (W : WF fp h) : h.lidx h.maxValue = 0 := by
  obtain ⟨m, hm, e, he⟩ := B.max
  rw [W.max_eq] at e; cases e
  rw [W.equiv_iff hm (by omega), W.lidx_lmax] at he
  rw [he]; exact Lay.idx_zero

theorem Blank.min_sentinel {h : Hist T} (B : Blank h) (W : WF fp h) : h.minNonZero = U64MAX := by
  have e := B.minNz
  rw [W.minNz_eq] at e
  have e : h.lminNz = U64MAX := by injection e
  unfold Hist.lminNz at e
  split at e
  · assumption
  · have h1 : h.llo h.minNonZero ≤ h.minNonZero := Lay.lo_le
    have := W.minle
    omega

theorem Blank.getD {h : Hist T} (B : Blank h) (W : WF fp h) (j : Nat) : h.counts.getD j 0 = 0 :=
  W.getD_zero_of_empty B.len j

/-- C13 (2), `max()` (partial): after recording `l` into a blank histogram, `max()` is the highest equivalent of the largest
value `M` recorded.  Excluded: `M` in the class ending at `u64::MAX`, where `highest_equivalent` itself is not the
end of the class, and `M = 0` with a unit above 1, where `max()` is 0 and not `unit - 1`. -/
theorem C13_max_partial {h h' : Hist T} (R : Reachable fp T h) (B : Blank h) {l : List (Nat × Nat)}
    (hl : ∀ p ∈ l, p.1 ≤ U64MAX ∧ p.2 ≤ T.max) (e : recordSeq l h = .ok (h', .ok ())) {M : Nat}
    (hM : ∃ p ∈ l, p.1 = M) (hMax : ∀ p ∈ l, p.1 ≤ M) (hz : M ≠ 0 ∨ h.highestEquivalent 0 = .ok 0)
    (htop : ¬ Equiv h M U64MAX) :
    ∃ x, h'.max = .ok x ∧ h'.highestEquivalent M = .ok x := by
  have W := R.wf
  obtain ⟨h1, r1, e1, W1, hr⟩ := W.recordSeq_spec l hl
  rw [e1] at e; cases e
  obtain ⟨E, -⟩ := hr
  obtain ⟨-, hge⟩ := W.recordSeq_max hl e1
  obtain ⟨p, hp, rfl⟩ := hM
  have hMle := (hl p hp).1
  rw [W.equiv_iff hMle le_rfl] at htop
  have hidx : h.lidx h'.maxValue = h.lidx p.1 := by
    rw [E.max, B.lidx_max W]
    obtain ⟨-, b2, b3⟩ := maxAfter_bounds h l 0
    exact Nat.le_antisymm (b3 _ (by omega) (fun q hq => Lay.idx_mono (hMax q hq))) (b2 p hp)
  rw [← E.cfg.lidx, ← E.cfg.lidx] at hidx
  rw [← E.cfg.lidx, ← E.cfg.lidx] at htop
  refine ⟨_, W1.max_eq, ?_⟩
  rw [highestEquivalent_eq W1.toLayoutOK hMle]
  congr 1
  have hm1 : h'.maxValue ≠ U64MAX := by
    intro hc; rw [hc] at hidx; exact htop hidx.symm
  have hm2 : p.1 ≠ U64MAX := by intro hc; rw [hc] at htop; exact htop rfl
  unfold Hist.lmax
  split
  · rename_i h0
    have := hge p hp
    have hp0 : p.1 = 0 := by omega
    rw [hp0]
    rcases hz with hz | hz
    · exact absurd hp0 hz
    · rw [highestEquivalent_eq W.toLayoutOK (by decide)] at hz
      have hz' : h.lhi 0 = 0 := by injection hz
      have hh : h'.lhi 0 = h.lhi 0 := by
        unfold Hist.lhi Hist.llo Hist.lwid
        rw [E.cfg.um, E.cfg.mag]
      rw [hh, hz']
  · exact (lhi_eq_of_lidx hidx hm1 hm2).symm

/-- C13 (2), `min_nz()` (partial): the lowest equivalent of the smallest value recorded that is not equivalent to 0
(unless that lies in the class ending at `u64::MAX`). -/
theorem C13_min_nz_partial {h h' : Hist T} (R : Reachable fp T h) (B : Blank h) {l : List (Nat × Nat)}
    (hl : ∀ p ∈ l, p.1 ≤ U64MAX ∧ p.2 ≤ T.max) (e : recordSeq l h = .ok (h', .ok ())) {m : Nat}
    (hm : ∃ p ∈ l, p.1 = m) (hnz : ¬ Equiv h m 0) (hmin : ∀ p ∈ l, ¬ Equiv h p.1 0 → m ≤ p.1)
    (htop : ¬ Equiv h m U64MAX) :
    ∃ x, h'.minNz = .ok x ∧ h'.lowestEquivalent m = .ok x := by
  have W := R.wf
  obtain ⟨h1, r1, e1, W1, hr⟩ := W.recordSeq_spec l hl
  rw [e1] at e; cases e
  obtain ⟨E, -⟩ := hr
  obtain ⟨p, hp, rfl⟩ := hm
  have hle := (hl p hp).1
  have hz0 : h.lidx 0 = 0 := Lay.idx_zero
  rw [W.equiv_iff hle le_rfl] at htop
  rw [W.equiv_iff hle (by omega), hz0] at hnz
  have hidx : h.lidx h'.minNonZero = h.lidx p.1 := by
    rw [E.min, B.min_sentinel W]
    obtain ⟨b1, b2, b3⟩ := minAfter_bounds h l (h.lidx U64MAX)
    refine Nat.le_antisymm (b2 p hp hnz) (b3 _ (Lay.idx_mono hle) (fun q hq hne => Lay.idx_mono (hmin q hq ?_)))
    rw [W.equiv_iff (hl q hq).1 (by omega), hz0]; exact hne
  rw [← E.cfg.lidx, ← E.cfg.lidx] at hidx htop
  refine ⟨_, W1.minNz_eq, ?_⟩
  rw [lowestEquivalent_eq W1.toLayoutOK hle]
  congr 1
  unfold Hist.lminNz
  rw [if_neg (by intro hc; rw [hc] at hidx; exact htop hidx.symm)]
  exact (Lay.lo_eq_iff.mpr hidx).symm

/-- C13 (2), `min()` (partial): after recording non-zero counts, the lowest equivalent of the smallest value recorded
(unless that lies in the class ending at `u64::MAX`). -/
theorem C13_min_partial {h h' : Hist T} (R : Reachable fp T h) (B : Blank h) {l : List (Nat × Nat)}
    (hl : ∀ p ∈ l, p.1 ≤ U64MAX ∧ p.2 ≤ T.max) (hpos : ∀ p ∈ l, 0 < p.2)
    (e : recordSeq l h = .ok (h', .ok ())) {m : Nat}
    (hm : ∃ p ∈ l, p.1 = m) (hmin : ∀ p ∈ l, m ≤ p.1) (htop : ¬ Equiv h m U64MAX) :
    ∃ x, h'.min = .ok x ∧ h'.lowestEquivalent m = .ok x := by
  have W := R.wf
  have hz0 : h.lidx 0 = 0 := Lay.idx_zero
  have hmle : m ≤ U64MAX := by obtain ⟨p, hp, rfl⟩ := hm; exact (hl p hp).1
  obtain ⟨h1, r1, e1, W1, hr⟩ := W.recordSeq_spec l hl
  have e2 := e
  rw [e1] at e2; cases e2
  obtain ⟨E, -⟩ := hr
  have hc0 : h'.counts.getD 0 0 = min (h.hits l 0) T.max := by
    rw [E.counts, B.getD W, Nat.zero_add]
  have hTp := T_max_pos T
  obtain ⟨p, hp, rfl⟩ := hm
  have hlow := lowestEquivalent_eq W1.toLayoutOK hmle
  rw [W1.min_eq]
  have htot : h'.totalCount ≠ 0 := by
    rw [E.total]
    have h1 := hpos p hp
    have h2 : p.2 ≤ (l.map Prod.snd).sum := mem_le_sum (List.mem_map.mpr ⟨p, hp, rfl⟩)
    have hU : U64MAX = 18446744073709551615 := rfl
    omega
  by_cases hz : h.lidx p.1 = 0
  · refine ⟨0, ?_, ?_⟩
    · rw [if_pos]
      right
      rw [hc0]
      have h1 := hpos p hp
      have h2 : p.2 ≤ h.hits l 0 := by
        unfold Hist.hits
        refine mem_le_sum (List.mem_map.mpr ⟨p, hp, ?_⟩)
        simp [hz]
      omega
    · rw [hlow]
      congr 1
      have h1 : h'.llo p.1 = h'.lval (h'.lidx p.1) := (Lay.val_idx).symm
      rw [h1, E.cfg.lidx, hz]; exact Lay.val_zero
  · have hall : ∀ q ∈ l, h.lidx q.1 ≠ 0 := by
      intro q hq hc
      have := Lay.idx_mono (um := h.unitMag) (m := h.subBucketHalfCountMag) (hmin q hq)
      unfold Hist.lidx at *
      omega
    have hh0 : h.hits l 0 = 0 := by
      unfold Hist.hits
      apply List.sum_eq_zero
      intro x hx
      rw [List.mem_map] at hx
      obtain ⟨q, hq, rfl⟩ := hx
      rw [if_neg (hall q hq)]
    rw [if_neg (by rw [hc0, hh0]; simp [htot])]
    obtain ⟨x, x1, x2⟩ := C13_min_nz_partial R B hl e ⟨p, hp, rfl⟩ (by
      rw [W.equiv_iff hmle (by omega), hz0]; exact hz) (fun q hq _ => hmin q hq) htop
    rw [W1.minNz_eq] at x1
    exact ⟨x, x1, x2⟩

/-- an instance: 5, 9 and 0 recorded into `demo` -/
example : demo3.max = .ok 15 ∧ demo3.highestEquivalent 9 = .ok 15 ∧ demo3.minNz = .ok 4 ∧ demo3.min = .ok 0 := by
  decide
example : Blank demo := Blank.newWithBounds (by decide) demo_eq
example : ¬ Equiv demo 9 U64MAX ∧ ¬ Equiv demo 5 0 := by decide

/-- The exclusions are real: with a unit of 4, recording 0 leaves `max()` at 0 although `highest_equivalent(0)` is 3;
and recording only `u64::MAX` leaves `min()` at `u64::MAX`, which is not its lowest equivalent. -/
theorem C13_refuted :
    (∃ h', demoU.recordN 0 1 = .ok (h', .ok ()) ∧ h'.max = .ok 0 ∧ h'.highestEquivalent 0 = .ok 3) ∧
    (∃ h', (demo.auto true).recordN U64MAX 1 = .ok (h', .ok ()) ∧ h'.min = .ok U64MAX
      ∧ h'.lowestEquivalent U64MAX = .ok (2 ^ 63)) :=
  ⟨okThen (by decide +kernel), okThen (by decide +kernel)⟩

/-! ## C14 -/

/-- C14 (1): after any successful sequence of recordings on a blank histogram the count of every value is the
saturated sum of the counts recorded for values equivalent to it, and `len()` the saturated sum of all of them. -/
theorem C14_history {h h' : Hist T} (R : Reachable fp T h) (B : Blank h) {l : List (Nat × Nat)}
    (hl : ∀ p ∈ l, p.1 ≤ U64MAX ∧ p.2 ≤ T.max) (e : recordSeq l h = .ok (h', .ok ())) :
    (∀ w, w ≤ U64MAX → HasCount h' w (min (recordedFor h l w) T.max)) ∧
    h'.len = min (l.map Prod.snd).sum U64MAX ∧
    (∀ p ∈ l, h'.Covers p.1) := by
  have W := R.wf
  obtain ⟨h1, r1, e1, W1, hr⟩ := W.recordSeq_spec l hl
  rw [e1] at e; cases e
  obtain ⟨E, hcov⟩ := hr
  refine ⟨fun w hw => ?_, ?_, fun p hp => ?_⟩
  · rw [W1.hasCount_iff hw, E.cfg.lidx, E.counts, B.getD W, Nat.zero_add,
      W.recordedFor_eq (fun p hp => (hl p hp).1) hw]
  · have h0 : h.totalCount = 0 := B.len
    unfold Hist.len
    rw [E.total, h0, Nat.zero_add]
  · rw [W1.covers_iff, E.cfg.lidx]; exact hcov p hp

/-- C14 (2): every sequence of recordings runs without panicking; it succeeds iff auto-resize is on or every value
is covered. -/
theorem C14_success {h : Hist T} (R : Reachable fp T h) {l : List (Nat × Nat)}
    (hl : ∀ p ∈ l, p.1 ≤ U64MAX ∧ p.2 ≤ T.max) :
    ∃ h' r, recordSeq l h = .ok (h', r) ∧ (r = .ok () ↔ h.isAutoResize = true ∨ ∀ p ∈ l, h.Covers p.1) := by
  have W := R.wf
  obtain ⟨h1, r1, e1, W1, hr⟩ := W.recordSeq_spec l hl
  refine ⟨h1, r1, e1, ?_⟩
  simp only [W.covers_iff]
  cases r1 with
  | error x =>
    obtain ⟨-, ha, la, p, lb, rfl, -, hp, -⟩ := hr
    simp only [Hist.isAutoResize, ha, reduceCtorEq, Bool.false_eq_true, false_or, false_iff]
    intro hc
    have := hc p (by simp)
    omega
  | ok u =>
    simp only [true_iff]
    cases ha : h.autoResize with
    | true => left; exact ha
    | false =>
      right
      by_contra hc
      push Not at hc
      obtain ⟨p, hp, hlen⟩ := hc
      -- without auto-resize the length never changes
      have key : ∀ (l : List (Nat × Nat)) (h h' : Hist T), WF fp h → h.autoResize = false →
          (∀ p ∈ l, p.1 ≤ U64MAX ∧ p.2 ≤ T.max) → recordSeq l h = .ok (h', .ok ()) →
          h'.counts.length = h.counts.length := by
        intro l
        induction l with
        | nil => intro h h' _ _ _ e; cases e; rfl
        | cons p l ih =>
          intro h h' W ha hl e
          obtain ⟨v, c⟩ := p
          have hvc := hl (v, c) (by simp)
          rw [recordSeq_cons, W.recordN_eq hvc.1 hvc.2] at e
          by_cases hcov : h.lidx v < h.counts.length
          · rw [if_pos (Or.inl hcov), M.ok_bind] at e
            have : h.growTo v = h := by unfold Hist.growTo; rw [if_pos hcov]
            rw [this] at e
            have := ih (h.recorded v c) h' (W.recorded hvc.1 hcov) ha (fun p hp => hl p (by simp [hp])) e
            rw [this]; simp [Hist.recorded]
          · rw [if_neg (by simp [hcov, ha]), M.ok_bind] at e; cases e
      have h2 := hr.2 p hp
      rw [key l h h1 W ha hl e1] at h2
      omega

/-- C14 (3): the order of the recordings does not matter: any permutation of a successful sequence succeeds and
leaves the very same histogram, from any starting point. -/
theorem C14_order {h h' : Hist T} (R : Reachable fp T h) {l l' : List (Nat × Nat)} (hp : l.Perm l')
    (hl : ∀ p ∈ l, p.1 ≤ U64MAX ∧ p.2 ≤ T.max) (e : recordSeq l h = .ok (h', .ok ())) :
    recordSeq l' h = .ok (h', .ok ()) :=
  WF.recordSeq_perm hp R.wf hl e

example : recordedFor demo [(5, 3), (9, 200), (0, 1), (6, 2)] 7 = 5 := by decide
example : recordSeq [(0, 1), (9, 200), (5, 3)] demo = .ok (demo3, .ok ()) := by decide

/-! ## C15 -/

/-- C15: `record_n_correct` is the sequence of recordings of the value and the hidden series. -/
theorem C15_correct (h : Hist T) (v c interval : Nat) :
    h.recordNCorrect v c interval = recordSeq ((v :: hiddenSeries v interval).map fun x => (x, c)) h :=
  recordNCorrect_eq h v c interval

/-- C15: the hidden series consists of exactly the values `v - k * interval` (`k ≥ 1`) that are at least
`interval`, in descending order; it is empty for interval 0. -/
theorem C15_series (v interval : Nat) :
    (interval = 0 → hiddenSeries v interval = []) ∧
    (∀ x, 0 < interval →
      (x ∈ hiddenSeries v interval ↔ ∃ k, 1 ≤ k ∧ x + k * interval = v ∧ interval ≤ x)) ∧
    (hiddenSeries v interval).Pairwise (· > ·) := by
  refine ⟨fun h => by simp [hiddenSeries, h], fun x hi => ?_, ?_⟩
  · unfold hiddenSeries
    rw [if_neg (by omega), List.mem_map]
    constructor
    · rintro ⟨k, hk, rfl⟩
      rw [List.mem_range] at hk
      have h1 : (k + 2) * interval ≤ v := by
        have : k + 2 ≤ v / interval := by omega
        exact (Nat.le_div_iff_mul_le hi).mp this
      refine ⟨k + 1, by omega, ?_, ?_⟩
      · have : (k + 2) * interval = (k + 1) * interval + interval := by ring
        omega
      · have : (k + 2) * interval = (k + 1) * interval + interval := by ring
        omega
    · rintro ⟨k, h1, h2, h3⟩
      refine ⟨k - 1, ?_, ?_⟩
      · rw [List.mem_range]
        have : k + 1 ≤ v / interval := by
          rw [Nat.le_div_iff_mul_le hi]
          have : (k + 1) * interval = k * interval + interval := by ring
          omega
        omega
      · rw [Nat.sub_add_cancel h1]; omega
  · unfold hiddenSeries
    split
    · exact List.Pairwise.nil
    · rename_i hne
      rw [List.pairwise_map]
      have := List.pairwise_lt_range (n := v / interval - 1)
      refine List.Pairwise.imp_of_mem ?_ this
      intro a b ha hb hab
      rw [List.mem_range] at ha hb
      have h1 : (b + 2) * interval ≤ v := by
        have : b + 2 ≤ v / interval := by omega
        exact (Nat.le_div_iff_mul_le (by omega)).mp this
      have h2 : (a + 1 + 1) * interval ≤ (b + 1) * interval := Nat.mul_le_mul_right _ (by omega)
      have h3 : (a + 1 + 1) * interval = (a + 1) * interval + interval := by ring
      have h4 : (b + 2) * interval = (b + 1) * interval + interval := by ring
      omega

/-- C15: it terminates without panicking; if the value itself cannot be recorded nothing changes, and otherwise
everything is recorded. -/
theorem C15_outcome {h : Hist T} (R : Reachable fp T h) {v c interval : Nat} (hv : v ≤ U64MAX) (hc : c ≤ T.max) :
    ∃ h' r, h.recordNCorrect v c interval = .ok (h', r) ∧
      (r = .ok () ↔ h.isAutoResize = true ∨ h.Covers v) ∧ (r ≠ .ok () → h' = h) := by
  obtain ⟨h', r, e, hr⟩ := C14_success R (l := (v :: hiddenSeries v interval).map fun x => (x, c)) (correct_valid hv hc)
  refine ⟨h', r, by rw [C15_correct, e], ?_, ?_⟩
  · rw [hr]
    constructor
    · rintro (h1 | h1)
      · exact Or.inl h1
      · exact Or.inr (h1 (v, c) (by simp))
    · rintro (h1 | h1)
      · exact Or.inl h1
      · right
        intro p hp
        rw [List.mem_map] at hp
        obtain ⟨x, hx, rfl⟩ := hp
        have := hiddenSeries_le hx
        unfold Hist.Covers at *
        omega
  · intro hne
    obtain ⟨h2, r2, e2, f1, f2, f3⟩ := C10_record_fails R hv hc
    rw [List.map_cons, recordSeq_cons, e2, M.ok_bind] at e
    cases r2 with
    | error x => cases e; exact f3 (by simp)
    | ok u =>
      exfalso
      apply hne
      rw [hr]
      by_contra hcon
      push Not at hcon
      obtain ⟨q1, p, hp, hcp⟩ := hcon
      have hcv : ¬ h.Covers v := by
        rw [List.mem_map] at hp
        obtain ⟨x, hx, rfl⟩ := hp
        have := hiddenSeries_le hx
        unfold Hist.Covers at *
        simp only at hcp
        omega
      have := f1.mpr ⟨hcv, by simpa using q1⟩
      cases this

example : hiddenSeries 14 4 = [10, 6] := by decide
example : ∃ h', demo.recordNCorrect 14 2 4 = .ok (h', .ok ()) ∧ h'.countAt 14 = .ok 4 ∧ h'.countAt 6 = .ok 2 :=
  okThen (by decide +kernel)

/-! ## C16 -/

/-- C16 (1): `len()` is never below the sum of all slots (up to saturation at `u64::MAX`). -/
theorem C16_len_ge {h : Hist T} (R : Reachable fp T h) : min h.counts.sum U64MAX ≤ h.len ∧ h.len ≤ U64MAX :=
  ⟨R.wf.totsum, R.wf.tot⟩

/-- Histories as in `Reachable`, but in which no operation saturates a counter and no subtraction fails. -/
inductive Tidy (fp : Fp) : (T : CounterTy) → Hist T → Prop where
  | newWithBounds {T : CounterTy} {low high sigfig h} : high ≤ U64MAX →
      Hist.newWithBounds fp T low high sigfig = .ok (.ok h) → Tidy fp T h
  | new {T : CounterTy} {sigfig h} : Hist.new fp T sigfig = .ok (.ok h) → Tidy fp T h
  | newFrom {F T : CounterTy} {s : Hist F} {h} : Reachable fp F s → Hist.newFrom fp T s = .ok h → Tidy fp T h
  | deserialize {T : CounterTy} {h} (z : V2.Zlib) (checks : Bool) (bytes rest : List UInt8) :
      V2.deserialize fp z T checks bytes = .ok (.ok (h, rest)) → Tidy fp T h
  | recordN {T : CounterTy} {h h' : Hist T} {v c r} : Tidy fp T h → v ≤ U64MAX → c ≤ T.max →
      h.recordN v c = .ok (h', r) → (∀ n ∈ h'.counts, n < T.max) → Tidy fp T h'
  | saturatingRecordN {T : CounterTy} {h h' : Hist T} {v c} : Tidy fp T h → v ≤ U64MAX → c ≤ T.max →
      h.saturatingRecordN v c = .ok h' → (∀ n ∈ h'.counts, n < T.max) → Tidy fp T h'
  | recordNCorrect {T : CounterTy} {h h' : Hist T} {v c i r} : Tidy fp T h → v ≤ U64MAX → c ≤ T.max →
      h.recordNCorrect v c i = .ok (h', r) → (∀ n ∈ h'.counts, n < T.max) → Tidy fp T h'
  | add {T : CounterTy} {h s h' : Hist T} {r} : Tidy fp T h → Tidy fp T s →
      h.add s = .ok (h', r) → (∀ n ∈ h'.counts, n < T.max) → Tidy fp T h'
  | subtract {T : CounterTy} {h s h' : Hist T} : Tidy fp T h → Reachable fp T s →
      h.subtract s = .ok (h', .ok ()) → Tidy fp T h'
  | setTo {T : CounterTy} {h s h' : Hist T} {r} : Reachable fp T h → Tidy fp T s →
      h.setTo s = .ok (h', r) → (∀ n ∈ h'.counts, n < T.max) → Tidy fp T h'
  | addCorrect {T : CounterTy} {h s h' : Hist T} {i r} : Tidy fp T h → Reachable fp T s →
      h.addCorrect s i = .ok (h', r) → (∀ n ∈ h'.counts, n < T.max) → Tidy fp T h'
  | cloneCorrect {T : CounterTy} {h h' : Hist T} {i} : Reachable fp T h →
      Hist.cloneCorrect fp h i = .ok h' → (∀ n ∈ h'.counts, n < T.max) → Tidy fp T h'
  | reset {T : CounterTy} {h : Hist T} : Reachable fp T h → Tidy fp T h.reset
  | clear {T : CounterTy} {h : Hist T} : Reachable fp T h → Tidy fp T h.clear
  | auto {T : CounterTy} {h : Hist T} (b : Bool) : Tidy fp T h → Tidy fp T (h.auto b)

theorem Tidy.reachable {h : Hist T} (D : Tidy fp T h) : Reachable fp T h := by
  induction D with
  | newWithBounds hh e => exact .newWithBounds hh e
  | new e => exact .new e
  | newFrom R e => exact .newFrom R e
  | deserialize z k b r e => exact .deserialize z k b r e
  | recordN _ hv hc e _ ih => exact .recordN ih hv hc e
  | saturatingRecordN _ hv hc e _ ih => exact .saturatingRecordN ih hv hc e
  | recordNCorrect _ hv hc e _ ih => exact .recordNCorrect ih hv hc e
  | add _ _ e _ ih1 ih2 => exact .add ih1 ih2 e
  | subtract _ R e ih => exact .subtract ih R e
  | setTo R _ e _ ih => exact .setTo R ih e
  | addCorrect _ R e _ ih => exact .addCorrect ih R e
  | cloneCorrect R e _ => exact .cloneCorrect R e
  | reset R => exact .reset R
  | clear R => exact .clear R
  | auto b _ ih => exact .auto b ih

theorem exact_of_empty {h : Hist T} (W : WF fp h) (h0 : h.totalCount = 0) : ExactTotal h := by
  unfold ExactTotal; rw [h0, W.sum_zero_of_empty h0]; decide

/-- C16 (2): in histories without counter saturation and failed subtractions `len()` is exactly the sum of all
slots (saturated at `u64::MAX`). -/
theorem C16_len_exact {h : Hist T} (D : Tidy fp T h) : h.len = min h.counts.sum U64MAX := by
  change ExactTotal h
  induction D with
  | newWithBounds hh e =>
    obtain ⟨W, rfl, -⟩ := newWithBounds_wf hh e
    exact exact_of_empty W rfl
  | new e =>
    obtain ⟨W, rfl, -⟩ := new_wf e
    exact exact_of_empty W rfl
  | newFrom R e =>
    obtain ⟨g, e1, W, h0, -⟩ := R.wf.newFrom_eq
    rw [e1] at e; cases e
    exact exact_of_empty W h0
  | deserialize z k b r e =>
    obtain ⟨-, ⟨g, rfl, Wg⟩, -⟩ := V2.deserialize_valid e
    rfl
  | recordN D hv hc e hns ih =>
    exact D.reachable.wf.recordSeq_exact (by
      intro p hp; rw [List.mem_singleton] at hp; subst hp; exact ⟨hv, hc⟩) (recordN_seq e) hns ih
  | saturatingRecordN D hv hc e hns ih => exact D.reachable.wf.saturating_exact hv hc e hns ih
  | recordNCorrect D hv hc e hns ih =>
    rw [recordNCorrect_eq] at e
    exact D.reachable.wf.recordSeq_exact (correct_valid hv hc) e hns ih
  | add D1 D2 e hns ih1 ih2 => exact D1.reachable.wf.add_exact D2.reachable.wf e hns ih1 ih2
  | subtract D R e ih => exact D.reachable.wf.subtract_exact R.wf e ih
  | setTo R D e hns ih =>
    exact (Reachable.reset R).wf.add_exact D.reachable.wf e hns (exact_of_empty (Reachable.reset R).wf rfl) ih
  | addCorrect D R e hns ih =>
    rw [R.wf.addCorrect_eq] at e
    exact D.reachable.wf.recordSeq_exact (R.wf.corrected_valid _) e hns ih
  | cloneCorrect R e hns =>
    obtain ⟨c, h', e1, Wc, e2, e3, W', -⟩ := R.wf.cloneCorrect_spec _
    rw [e2] at e; cases e
    obtain ⟨g, e4, W4, h0, -⟩ := R.wf.newFrom_eq
    rw [e4] at e1; cases e1
    exact Wc.recordSeq_exact (R.wf.corrected_valid _) e3 hns (exact_of_empty Wc h0)
  | reset R => exact exact_of_empty (Reachable.reset R).wf rfl
  | clear R => exact exact_of_empty (Reachable.clear R).wf rfl
  | auto b _ ih => exact ih

example : Tidy Fp.ideal .u8 demo3 := by
  have h0 : Tidy Fp.ideal .u8 demo := .newWithBounds (by decide +kernel) demo_eq
  have h1 : Tidy Fp.ideal .u8 { demo with maxValue := 5, minNonZero := 5, totalCount := 3, counts := [0, 0, 0, 3, 0] } :=
    .recordN h0 (v := 5) (c := 3) (r := .ok ()) (by decide +kernel) (by decide +kernel) (by decide +kernel) (by decide +kernel)
  have h2 : Tidy Fp.ideal .u8 { demo with maxValue := 9, minNonZero := 5, totalCount := 203, counts := [0, 0, 0, 3, 200] } :=
    .recordN h1 (v := 9) (c := 200) (r := .ok ()) (by decide +kernel) (by decide +kernel) (by decide +kernel) (by decide +kernel)
  exact .recordN h2 (v := 0) (c := 1) (r := .ok ()) (by decide +kernel) (by decide +kernel) (by decide +kernel) (by decide +kernel)

/-- with a saturated counter `len()` exceeds the sum -/
theorem C16_saturated : ∃ h', demo3.recordN 12 100 = .ok (h', .ok ()) ∧ h'.counts.sum = 259 ∧ h'.len = 304 :=
  okThen (by decide +kernel)

end Hdr
