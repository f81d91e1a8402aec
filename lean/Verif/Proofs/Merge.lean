import Verif.Proofs.Classes
import Verif.Proofs.Correct

/-!
# Lemmas for merging histograms
-/

namespace Hdr

variable {T : CounterTy} {fp : Fp}

theorem and_not_mask_dvd {um v : Nat} (hv : v ≤ U64MAX) (hum : um < 64) (hd : 2 ^ um ∣ v) :
    v &&& Hist.notU64 (2 ^ um - 1) = v := by
  rw [and_not_mask hv hum, Nat.div_mul_cancel hd]

/-- a class ends just before a multiple of the unit -/
theorem unit_dvd_end (h : Hist T) (v : Nat) : 2 ^ h.unitMag ∣ h.llo v + h.lwid v := by
  have h1 : h.lval (h.lidx v + 1) = h.llo v + h.lwid v := by
    rw [show h.llo v = h.lval (h.lidx v) from (Lay.val_idx).symm,
      show h.lwid v = h.lwid (h.lval (h.lidx v)) from lwid_eq_of_lidx (Lay.idx_val).symm]
    exact Lay.val_succ
  rw [← h1]; exact unit_dvd_lval _ _ _

theorem WF.lwid_end_le {h : Hist T} (W : WF fp h) {v : Nat} (hv : v ≤ U64MAX) : h.llo v + h.lwid v ≤ 2 ^ 64 :=
  Lay.lo_add_wid_le W.sum62 (U64MAX_lt.mp hv)

/-- what `max()` is when the tracked maximum is the `max()` of a histogram with the same layout -/
theorem lmax_adopt {h s h' : Hist T} (W : WF fp h) (Ws : WF fp s) (c : SameConfig h h')
    (hum : h.unitMag = s.unitMag) (hmag : h.subBucketHalfCountMag = s.subBucketHalfCountMag)
    (h0 : s.lmax ≠ 0) (hx : s.lmax ≠ U64MAX - 1 ∨ h.unitMag = 0)
    (hm : h'.maxValue = s.lmax ||| h.unitMagMask) : h'.lmax = s.lmax := by
  have hp : 0 < 2 ^ h.unitMag := by positivity
  have hlo : ∀ v, h'.llo v = s.llo v := fun v => by unfold Hist.llo; rw [c.um, c.mag, hum, hmag]
  have hwid : ∀ v, h'.lwid v = s.lwid v := fun v => by unfold Hist.lwid; rw [c.um, c.mag, hum, hmag]
  have hhi : ∀ v, h'.lhi v = s.lhi v := fun v => by unfold Hist.lhi; rw [hlo, hwid]
  have hms : s.maxValue ≠ 0 := by
    intro hc; apply h0; unfold Hist.lmax; rw [if_pos hc]
  have hsl : s.lmax = s.lhi s.maxValue := by unfold Hist.lmax; rw [if_neg hms]
  have hne : h'.maxValue ≠ 0 := by
    have : s.lmax ≤ s.lmax ||| h.unitMagMask := Nat.left_le_or
    omega
  have hl' : h'.lmax = s.lhi (s.lmax ||| h.unitMagMask) := by
    unfold Hist.lmax; rw [if_neg hne, hm, hhi]; rfl
  have hU : U64MAX = 18446744073709551615 := rfl
  by_cases hM : s.maxValue = U64MAX
  · have h1 : s.lmax = U64MAX := by rw [hsl, hM]; unfold Hist.lhi; rw [if_pos rfl]
    have h2 : s.lmax ||| h.unitMagMask ≤ U64MAX := by
      rw [W.ummask]; exact or_mask_le lmax_le (by have := W.sum62; omega)
    have h3 : s.lmax ≤ s.lmax ||| h.unitMagMask := Nat.left_le_or
    have h4 : s.lmax ||| h.unitMagMask = U64MAX := by omega
    rw [hl', h4, h1]; unfold Hist.lhi; rw [if_pos rfl]
  · have hend := Ws.lwid_end_le Ws.maxle
    have hpos : s.maxValue < s.llo s.maxValue + s.lwid s.maxValue := Lay.lt_lo_add
    rcases Nat.lt_or_ge U64MAX (s.llo s.maxValue + s.lwid s.maxValue) with hb | hb
    · have ht : s.llo s.maxValue + s.lwid s.maxValue = 2 ^ 64 := by
        have := U64MAX_lt.mp (le_refl U64MAX); omega
      have h1 : s.lmax = U64MAX - 1 := by rw [hsl]; exact lhi_top ht hM
      have hu0 : h.unitMag = 0 := hx.resolve_left (fun hc => hc h1)
      have hmk : h.unitMagMask = 0 := by rw [W.ummask, hu0]; rfl
      rw [hl', hmk, Nat.or_zero]
      have hi : s.lidx s.lmax = s.lidx s.maxValue := Ws.lidx_lmax
      rw [lhi_eq_of_lidx hi (by omega) hM, ← hsl]
    · have h1 : s.lmax = s.llo s.maxValue + s.lwid s.maxValue - 1 := by rw [hsl]; exact lhi_eq hb
      obtain ⟨k, hk⟩ := unit_dvd_end s s.maxValue
      have h2 : s.lmax ||| h.unitMagMask = s.lmax := by
        rw [W.ummask, or_mask_div, h1, hk, ← hum]
        have hk0 : k ≠ 0 := by
          intro hc; subst hc; omega
        obtain ⟨k', rfl⟩ := Nat.exists_eq_succ_of_ne_zero hk0
        have e1 : 2 ^ h.unitMag * (k' + 1) - 1 = k' * 2 ^ h.unitMag + (2 ^ h.unitMag - 1) := by
          rw [Nat.mul_succ, mul_comm]; omega
        rw [Nat.succ_eq_add_one, e1]
        have e2 : (k' * 2 ^ h.unitMag + (2 ^ h.unitMag - 1)) / 2 ^ h.unitMag = k' := by
          rw [mul_comm, Nat.mul_add_div hp, Nat.div_eq_of_lt (by omega)]; rfl
        rw [e2]
      have hi : s.lidx s.lmax = s.lidx s.maxValue := Ws.lidx_lmax
      rw [hl', h2, lhi_eq_of_lidx hi (by omega) hM, ← hsl]

/-- what `min_nz()` is after adopting the `min_nz()` of a histogram with the same layout -/
theorem lminNz_adopt {h s h' : Hist T} (W : WF fp h) (Ws : WF fp s) (c : SameConfig h h')
    (hum : h.unitMag = s.unitMag) (hmag : h.subBucketHalfCountMag = s.subBucketHalfCountMag)
    (hlt : s.lminNz < h.lminNz)
    (hm : h'.minNonZero = (h.updateMin s.lminNz).minNonZero) : h'.lminNz = s.lminNz := by
  have hlo : ∀ v, h'.llo v = s.llo v := fun v => by unfold Hist.llo; rw [c.um, c.mag, hum, hmag]
  have hle : h.lminNz ≤ U64MAX := lminNz_le W.minle
  have hs : s.minNonZero ≠ U64MAX := by
    intro hc
    have : s.lminNz = U64MAX := by unfold Hist.lminNz; rw [if_pos hc]
    omega
  have hsl : s.lminNz = s.llo s.minNonZero := by unfold Hist.lminNz; rw [if_neg hs]
  have hidx : s.lidx s.lminNz ≠ 0 := by rw [lidx_lminNz]; exact Ws.minpos
  have hdv : 2 ^ h.unitMag ∣ s.lminNz := by
    rw [hsl, show s.llo s.minNonZero = s.lval (s.lidx s.minNonZero) from (Lay.val_idx).symm, hum]
    exact unit_dvd_lval _ _ _
  have hgt : ¬ s.lminNz ≤ h.unitMagMask := by
    intro hc
    apply hidx
    rw [W.ummask, hum] at hc
    exact Lay.idx_eq_zero_iff.mpr (by have : 0 < 2 ^ s.unitMag := by positivity
                                      omega)
  have hand : s.lminNz &&& Hist.notU64 h.unitMagMask = s.lminNz := by
    rw [W.ummask]; exact and_not_mask_dvd (by omega) (by have := W.sum62; omega) hdv
  have hlo_h : h.lminNz ≤ h.minNonZero := by
    unfold Hist.lminNz; split
    · omega
    · exact Lay.lo_le
  have e : h'.minNonZero = s.lminNz := by
    rw [hm]; unfold Hist.updateMin
    rw [if_neg hgt]
    simp only [hand]
    rw [if_pos (by omega)]
  have hne : h'.minNonZero ≠ U64MAX := by omega
  have : h'.lminNz = s.llo s.lminNz := by
    unfold Hist.lminNz; rw [if_neg hne, e, hlo]; rfl
  rw [this, hsl]
  exact Lay.lo_lo

theorem WF.same_layout {h s : Hist T} (W : WF fp h) (Ws : WF fp s) (hl : h.low = s.low) (hs : h.sigfig = s.sigfig) :
    h.unitMag = s.unitMag ∧ h.subBucketHalfCountMag = s.subBucketHalfCountMag := by
  unfold Hist.low at hl
  unfold Hist.sigfig at hs
  constructor
  · rw [W.um, Ws.um, hl]
  · have h1 := W.mag
    have h2 := Ws.mag
    rw [hs] at h1; omega

theorem WF.same_bc {h s : Hist T} (W : WF fp h) (Ws : WF fp s) (hl : h.low = s.low) (hh : h.high = s.high)
    (hs : h.sigfig = s.sigfig) : h.bucketCount = s.bucketCount := by
  obtain ⟨h1, h2⟩ := W.same_layout Ws hl hs
  unfold Hist.high at hh
  rw [W.bc, Ws.bc, hh]; unfold Hist.lbkt; rw [h1, h2]

theorem WF.same_coverEnd {h s : Hist T} (W : WF fp h) (Ws : WF fp s) (hl : h.low = s.low) (hh : h.high = s.high)
    (hs : h.sigfig = s.sigfig) : h.coverEnd = s.coverEnd := by
  obtain ⟨h1, h2⟩ := W.same_layout Ws hl hs
  unfold Hist.coverEnd
  rw [h1, h2, W.same_bc Ws hl hh hs]

theorem WF.lmax_covers {s : Hist T} (Ws : WF fp s) : s.Covers s.lmax := by
  rw [Ws.covers_iff, Ws.lidx_lmax]; exact Ws.maxcov

theorem WF.same_ltop {h s : Hist T} (W : WF fp h) (Ws : WF fp s) (hl : h.low = s.low) (hh : h.high = s.high)
    (hs : h.sigfig = s.sigfig) : h.ltop < s.lmax ↔ s.lmax = U64MAX := by
  rw [W.ltop_lt_iff lmax_le]
  have := Ws.lmax_covers
  unfold Hist.Covers at *
  rw [W.same_coverEnd Ws hl hh hs]
  constructor
  · rintro (h1 | h1)
    · exact absurd this h1
    · exact h1
  · exact Or.inr

theorem WF.same_matching {h s : Hist T} (W : WF fp h) (Ws : WF fp s) (hl : h.low = s.low) (hh : h.high = s.high)
    (hs : h.sigfig = s.sigfig) : (h.addGrown s).matching s ∧ (h.addGrown s).counts.length = s.counts.length := by
  obtain ⟨h1, h2⟩ := W.same_layout Ws hl hs
  have h3 := W.same_bc Ws hl hh hs
  obtain ⟨Wg, -, hcfg, -⟩ := W.addGrown (s := s)
  have hbc : (h.addGrown s).bucketCount = s.bucketCount := by
    by_cases hlt : h.ltop < s.lmax
    · have hm := (W.same_ltop Ws hl hh hs).mp hlt
      have hhi : (h.addGrown s).highestTrackable = U64MAX := by
        unfold Hist.addGrown; rw [if_pos hlt, hm]; rfl
      have hlb : ∀ v, (h.addGrown s).lbkt v = s.lbkt v := fun v => by
        unfold Hist.lbkt; rw [hcfg.um, hcfg.mag, h1, h2]
      rw [Wg.bc, Ws.bc, hhi, hlb]
      have c1 : s.lbkt U64MAX ≤ s.lbkt s.highestTrackable := by
        rw [← Ws.covered_iff, ← Ws.covers_iff, ← hm]; exact Ws.lmax_covers
      have c2 : s.lbkt s.highestTrackable ≤ s.lbkt U64MAX := by
        unfold Hist.lbkt Lay.bkt
        have : Nat.log2 s.highestTrackable ≤ Nat.log2 U64MAX := by
          rw [show Nat.log2 U64MAX = 63 by decide]
          by_cases h0 : s.highestTrackable = 0
          · rw [h0]; decide
          · exact Nat.lt_succ_iff.mp ((Nat.log2_lt h0).mpr (U64MAX_lt.mp Ws.highmax))
        omega
      omega
    · unfold Hist.addGrown; rw [if_neg hlt, h3]
  refine ⟨⟨hbc, ?_, by rw [hcfg.um, h1]⟩, ?_⟩
  · rw [Wg.sbc, Ws.sbc, hcfg.mag, h2]
  · rw [Wg.len, Ws.len, hbc, hcfg.mag, h2]

theorem recItems_zip (s : Hist T) (l : List Nat) (i tot : Nat)
    (hl : ∀ k, l.getD k 0 = s.counts.getD (i + k) 0) :
    (s.recItems l i tot).map (fun v => (v.valueIteratedTo, v.countAtValue))
      = (((List.range' i l.length).map s.lcls).filter fun c => decide (c.count ≠ 0)).map fun c => (c.hi, c.count) := by
  induction l generalizing i tot with
  | nil => rfl
  | cons c l ih =>
    have hc : s.counts.getD i 0 = c := by have := hl 0; simpa using this.symm
    have ih' := fun t => ih (i + 1) t (fun k => by
      have := hl (k + 1)
      rw [List.getD_cons_succ] at this
      rw [this]; congr 1; omega)
    unfold Hist.recItems
    rw [List.length_cons, List.range'_succ, List.map_cons, List.filter_cons]
    have hlc : (s.lcls i).count = c := hc
    by_cases h0 : c = 0
    · rw [if_neg (by simpa using h0), if_neg (by rw [hlc]; simpa using h0)]
      exact ih' _
    · rw [if_pos h0, if_pos (by rw [hlc]; simpa using h0), List.map_cons, List.map_cons, ih' _]
      rfl

theorem WF.recItems_classes {s : Hist T} (Ws : WF fp s) {cs : List Cls} (C : Classes s cs) :
    (s.recItems s.counts 0 0).map (fun v => (v.valueIteratedTo, v.countAtValue)) = Cls.nonempty cs := by
  rw [recItems_zip s s.counts 0 0 (fun k => by rw [Nat.zero_add])]
  rw [Ws.classes_unique C, List.range_eq_range']
  rfl

end Hdr
