import Verif.Proofs.Merge
import Verif.Spec.Demo

/-!
# C17–C23: merging histograms
-/

namespace Hdr

variable {T : CounterTy} {fp : Fp}

/-- every histogram has exactly one list of classes -/
theorem Reachable.classes {h : Hist T} (R : Reachable fp T h) : ∃! cs, Classes h cs :=
  ⟨_, R.wf.classes, fun _ C => R.wf.classes_unique C⟩

example : Classes demo3 [⟨0, 0, 1⟩, ⟨1, 1, 0⟩, ⟨2, 3, 0⟩, ⟨4, 7, 3⟩, ⟨8, 15, 200⟩] :=
  ⟨by decide +kernel, by decide +kernel, by decide +kernel⟩

/-- `Histogram::<u8>::new_with_bounds(1, u64::MAX, 0)` -/
def demoTop : Hist .u8 :=
  { autoResize := false, highestTrackable := U64MAX, lowestDiscernible := 1, sigDigits := 0, bucketCount := 64
    subBucketCount := 2, subBucketHalfCount := 1, subBucketHalfCountMag := 0, subBucketMask := 1
    leadingZeroCountBase := 63, unitMag := 0, unitMagMask := 0, maxValue := 0, minNonZero := U64MAX
    totalCount := 0, counts := List.replicate 65 0 }

theorem demoTop_eq : Hist.newWithBounds Fp.ideal .u8 1 U64MAX 0 = .ok (.ok demoTop) := by decide +kernel

theorem demoTop_reachable : Reachable Fp.ideal .u8 demoTop := .newWithBounds (by decide) demoTop_eq

/-- `demoTop` after `record(u64::MAX)` -/
def demoTop1 : Hist .u8 :=
  { demoTop with maxValue := U64MAX, totalCount := 1, counts := List.replicate 64 0 ++ [1] }

theorem demoTop1_eq : demoTop.recordN U64MAX 1 = .ok (demoTop1, .ok ()) := by decide +kernel

theorem demoTop1_reachable : Reachable Fp.ideal .u8 demoTop1 :=
  .recordN demoTop_reachable le_rfl (by decide) demoTop1_eq

/-! ## C17 -/

/-- if 0 is alone in its class the unit is 1 -/
theorem WF.unit_one {h : Hist T} (W : WF fp h) (hz : h.highestEquivalent 0 = .ok 0) : h.unitMag = 0 := by
  rw [highestEquivalent_eq W.toLayoutOK (by decide)] at hz
  have h2 : h.lhi 0 = 0 := by injection hz
  have h0 : Lay.wid h.unitMag h.subBucketHalfCountMag 0 = 2 ^ h.unitMag := by
    unfold Lay.wid Lay.bkt; simp
  have h1 : 2 ^ h.unitMag ≤ 2 ^ 62 := Nat.pow_le_pow_right (by norm_num) (by have := W.sum62; omega)
  have hU : U64MAX = 18446744073709551615 := rfl
  unfold Hist.lhi Hist.llo Hist.lwid at h2
  rw [h0, if_neg (by omega)] at h2
  norm_num at h1
  have h4 : 2 ^ h.unitMag ≤ 2 ^ 0 := by
    generalize 2 ^ h.unitMag = u at *
    omega
  have := (Nat.pow_le_pow_iff_right (by norm_num)).mp h4
  omega

theorem WF.unit_one_iff {h : Hist T} (W : WF fp h) : h.highestEquivalent 0 = .ok 0 ↔ h.unitMag = 0 := by
  refine ⟨W.unit_one, fun hz => ?_⟩
  rw [highestEquivalent_eq W.toLayoutOK (by decide)]
  unfold Hist.lhi Hist.llo Hist.lwid Lay.lo Lay.wid Lay.bkt
  rw [hz]
  simp [U64MAX]

/-- C17 (partial: excludes a source whose `max()` is `u64::MAX` when auto-resize is off, and for `max()` a source
whose `max()` is `u64::MAX - 1` with a unit above 1; see `C17_refuted` and `C17_max_refuted`): adding a histogram
with the same configuration succeeds; the counts of every class add up (saturating), `len()` adds up, and `max()` and
`min_nz()` are the larger and the smaller of the two. -/
theorem C17_add_same_partial {h s : Hist T} (R : Reachable fp T h) (Rs : Reachable fp T s) (S : SameSettings h s)
    (hmx : s.max ≠ .ok U64MAX ∨ h.isAutoResize = true) :
    ∃ h', h.add s = .ok (h', .ok ()) ∧
      (∀ v a b, v ≤ U64MAX → HasCount h v a → HasCount s v b → HasCount h' v (min (a + b) T.max)) ∧
      (s.len = min s.counts.sum U64MAX → h'.len = min (h.len + s.len) U64MAX) ∧
      (∀ a b, h.len ≠ 0 → s.len ≠ 0 → h.max = .ok a → s.max = .ok b → (b = U64MAX - 1 → h.highestEquivalent 0 = .ok 0) →
        h'.max = .ok (max a b)) ∧
      (∀ a b, h.len ≠ 0 → s.len ≠ 0 → h.minNz = .ok a → s.minNz = .ok b → h'.minNz = .ok (min a b)) ∧
      (h.len = 0 → s.len ≠ 0 → h'.max = s.max ∧ h'.minNz = s.minNz ∧ h'.len = s.len) ∧
      (s.len = 0 → h' = h) ∧
      (s.max ≠ .ok U64MAX → SameSettings h' h ∧ h'.isAutoResize = h.isAutoResize) := by
  have W := R.wf
  have Ws := Rs.wf
  obtain ⟨hum, hmag⟩ := W.same_layout Ws S.low S.sigfig
  have hm := W.same_matching Ws S.low S.high S.sigfig
  obtain ⟨h', r, e, W', hr⟩ := W.add_spec Ws
  have hok : r = .ok () := by
    cases r with
    | ok u => rfl
    | error x =>
      cases x with
      | ResizeFailedUsizeTypeTooSmall => exact hr.elim
      | OtherAddendValueExceedsRange =>
        obtain ⟨-, h1, h2, -⟩ := hr
        have := (W.same_ltop Ws S.low S.high S.sigfig).mp h2
        rcases hmx with hx | hx
        · rw [Ws.max_eq, this] at hx; exact absurd rfl hx
        · unfold Hist.isAutoResize at hx; rw [h1] at hx; cases hx
  subst hok
  refine ⟨h', e, ?_⟩
  unfold Hist.len
  rcases hr with ⟨h0, rfl⟩ | ⟨h0, -, hcfg, hlen, hhigh, hcnt, hcopy, htot, hstat⟩
  · refine ⟨fun v a b hv ha hb => ?_, fun _ => ?_, fun _ _ _ hn => absurd h0 hn, fun _ _ _ hn => absurd h0 hn,
      fun _ hn => absurd h0 hn, fun _ => rfl, fun _ => ⟨⟨rfl, rfl, rfl⟩, rfl⟩⟩
    · rw [W.hasCount_iff hv] at ha ⊢
      rw [Ws.hasCount_iff hv, Ws.getD_zero_of_empty h0] at hb
      have := W.getD_le (h'.lidx v)
      omega
    · have := W.tot
      omega
  · have hidx : ∀ v, s.lidx v = h.lidx v := fun v => by unfold Hist.lidx; rw [hum, hmag]
    refine ⟨fun v a b hv ha hb => ?_, fun hx => ?_, fun a b hn _ ha hb hx => ?_, fun a b hn _ ha hb => ?_,
      fun hz _ => ?_, fun hz => absurd hz h0, fun hx => ?_⟩
    · rw [W.hasCount_iff hv] at ha
      rw [Ws.hasCount_iff hv, hidx] at hb
      rw [W'.hasCount_iff hv, hcfg.lidx, hcnt, moved_same hum hmag, ha, hb]
    · by_cases hz : h.totalCount = 0
      · rw [(hcopy ⟨hm.1, hz⟩).2.1, hz]
        have := Ws.tot
        omega
      · rw [htot (fun hc => hz hc.2), hx]; omega
    · obtain ⟨h1, -⟩ := hstat ⟨hm.1, hn⟩
      rw [W.max_eq] at ha
      rw [Ws.max_eq] at hb
      cases ha; cases hb
      rw [W'.max_eq]
      congr 1
      by_cases hlt : h.lmax < s.lmax
      · rw [if_pos hlt] at h1
        have hx' : s.lmax = U64MAX - 1 → h.unitMag = 0 := fun hb => W.unit_one (hx hb)
        rw [lmax_adopt W Ws hcfg hum hmag (by omega) (by tauto) h1]; omega
      · rw [if_neg hlt] at h1
        have : h'.lmax = h.lmax := by
          unfold Hist.lmax Hist.lhi Hist.llo Hist.lwid
          rw [h1, hcfg.um, hcfg.mag]
        rw [this]; omega
    · obtain ⟨-, h1⟩ := hstat ⟨hm.1, hn⟩
      rw [W.minNz_eq] at ha
      rw [Ws.minNz_eq] at hb
      cases ha; cases hb
      rw [W'.minNz_eq]
      congr 1
      by_cases hlt : s.lminNz < h.lminNz
      · rw [if_pos hlt] at h1
        rw [lminNz_adopt W Ws hcfg hum hmag hlt h1]; omega
      · rw [if_neg hlt] at h1
        have : h'.lminNz = h.lminNz := by
          unfold Hist.lminNz Hist.llo
          rw [h1, hcfg.um, hcfg.mag]
        rw [this]; omega
    · obtain ⟨-, h1, h2, h3⟩ := hcopy ⟨hm.1, hz⟩
      have e1 : h'.lmax = s.lmax := by
        unfold Hist.lmax Hist.lhi Hist.llo Hist.lwid
        rw [h2, hcfg.um, hcfg.mag, hum, hmag]
      have e2 : h'.lminNz = s.lminNz := by
        unfold Hist.lminNz Hist.llo
        rw [h3, hcfg.um, hcfg.mag, hum, hmag]
      rw [W'.max_eq, Ws.max_eq, W'.minNz_eq, Ws.minNz_eq, e1, e2]
      exact ⟨rfl, rfl, h1⟩
    · have hnt : ¬ h.ltop < s.lmax := fun hc => by
        rw [Ws.max_eq, (W.same_ltop Ws S.low S.high S.sigfig).mp hc] at hx
        exact hx rfl
      have hg : h.addGrown s = h := by unfold Hist.addGrown; rw [if_neg hnt]
      rw [hg] at hhigh
      exact ⟨⟨hcfg.low, hhigh, hcfg.sig⟩, hcfg.auto⟩

/-- `demo` after `record_n(2, 60)`, `record_n(9, 100)` -/
def demo2 : Hist .u8 :=
  { demo with maxValue := 9, minNonZero := 2, totalCount := 160, counts := [0, 0, 60, 0, 100] }

theorem demo2_eq : recordSeq [(2, 60), (9, 100)] demo = .ok (demo2, .ok ()) := by decide

theorem demo2_reachable : Reachable Fp.ideal .u8 demo2 :=
  reachable_recordSeq demo_reachable (by decide) demo2_eq

example : SameSettings demo3 demo2 ∧ demo2.max ≠ .ok U64MAX := ⟨⟨rfl, rfl, rfl⟩, by decide +kernel⟩
example : ∃ h', demo3.add demo2 = .ok (h', .ok ()) ∧ h'.counts = [1, 0, 60, 3, 255] ∧ h'.len = 364
    ∧ h'.minNz = .ok 2 ∧ h'.max = .ok 15 := okThen (by decide +kernel)

/-- the full claim of C17 is false: adding a histogram that recorded `u64::MAX` to one with the same configuration
fails, although `record(u64::MAX)` succeeds on both -/
theorem C17_refuted : demoTop.add demoTop1 = .ok (demoTop, .error .OtherAddendValueExceedsRange)
    ∧ SameSettings demoTop demoTop1 ∧ Reachable Fp.ideal .u8 demoTop ∧ Reachable Fp.ideal .u8 demoTop1 :=
  ⟨by decide +kernel, ⟨rfl, rfl, rfl⟩, demoTop_reachable, demoTop1_reachable⟩

/-- `Histogram::<u8>::new_with_bounds(4, u64::MAX, 0)` after a deserialization-style restat: `max()` is `MAX - 1` -/
def demoTopU : Hist .u8 :=
  { autoResize := false, highestTrackable := U64MAX, lowestDiscernible := 4, sigDigits := 0, bucketCount := 62
    subBucketCount := 2, subBucketHalfCount := 1, subBucketHalfCountMag := 0, subBucketMask := 4
    leadingZeroCountBase := 61, unitMag := 2, unitMagMask := 3, maxValue := 0, minNonZero := U64MAX
    totalCount := 0, counts := List.replicate 63 0 }

theorem demoTopU_eq : Hist.newWithBounds Fp.ideal .u8 4 U64MAX 0 = .ok (.ok demoTopU) := by decide +kernel

theorem demoTopU_reachable : Reachable Fp.ideal .u8 demoTopU := .newWithBounds (by decide) demoTopU_eq

/-- `demoTopU` after `record(5)` -/
def demoTopU5 : Hist .u8 :=
  { demoTopU with maxValue := 7, minNonZero := 4, totalCount := 1, counts := 0 :: 1 :: List.replicate 61 0 }
/-- `demoTopU` after `record(u64::MAX - 100)` -/
def demoTopUT : Hist .u8 :=
  { demoTopU with maxValue := U64MAX - 100, minNonZero := U64MAX - 103, totalCount := 1
                  counts := List.replicate 62 0 ++ [1] }

/-- `max()` of the sum need not be the larger `max()`: with unit 4, `u64::MAX - 100` in the source has
`max() = u64::MAX - 1`, and after adding it to a histogram holding a 5, `max()` is `u64::MAX` -/
theorem C17_max_refuted :
    demoTopU.recordN 5 1 = .ok (demoTopU5, .ok ()) ∧ demoTopU.recordN (U64MAX - 100) 1 = .ok (demoTopUT, .ok ())
      ∧ SameSettings demoTopU5 demoTopUT
      ∧ demoTopU5.max = .ok 7 ∧ demoTopUT.max = .ok (U64MAX - 1)
      ∧ ∃ h', demoTopU5.add demoTopUT = .ok (h', .ok ()) ∧ h'.max = .ok U64MAX :=
  ⟨by decide +kernel, by decide +kernel, ⟨rfl, rfl, rfl⟩, by decide +kernel, by decide +kernel,
    okThen (by decide +kernel)⟩

/-! ## C18 -/

/-- C18 (partial: `max()` of the source stands for "the values recorded", and `u64::MAX` is refused even when it could
be stored; see `C18_refuted`): `add` never panics; it fails exactly when auto-resize is off and the source is
non-empty with a maximum the target does not cover (or `u64::MAX`), and then the target is unchanged. -/
theorem C18_add_outcome_partial {h s : Hist T} (R : Reachable fp T h) (Rs : Reachable fp T s) :
    ∃ h' r, h.add s = .ok (h', r) ∧
      (r = .ok () ∨ r = .error .OtherAddendValueExceedsRange) ∧
      (∀ mx, s.max = .ok mx → (r = .error .OtherAddendValueExceedsRange ↔
        s.len ≠ 0 ∧ h.isAutoResize = false ∧ (¬ h.Covers mx ∨ mx = U64MAX))) ∧
      (r ≠ .ok () → h' = h) := by
  have W := R.wf
  have Ws := Rs.wf
  obtain ⟨h', r, e, W', hr⟩ := W.add_spec Ws
  refine ⟨h', r, e, ?_, ?_, ?_⟩
  · cases r with
    | ok u => exact Or.inl rfl
    | error x =>
      cases x with
      | ResizeFailedUsizeTypeTooSmall => exact hr.elim
      | OtherAddendValueExceedsRange => exact Or.inr rfl
  · intro mx hmx
    rw [Ws.max_eq] at hmx
    cases hmx
    rw [← W.ltop_lt_iff lmax_le]
    unfold Hist.len Hist.isAutoResize
    cases r with
    | ok u =>
      constructor
      · intro hc; cases hc
      · rintro ⟨h1, h2, h3⟩
        rcases hr with ⟨h0, -⟩ | ⟨-, h4, -⟩
        · exact absurd h0 h1
        · rw [h4 h3] at h2; cases h2
    | error x =>
      cases x with
      | ResizeFailedUsizeTypeTooSmall => exact hr.elim
      | OtherAddendValueExceedsRange =>
        obtain ⟨h1, h2, h3, -⟩ := hr
        exact ⟨fun _ => ⟨h1, h2, h3⟩, fun _ => rfl⟩
  · intro hne
    cases r with
    | ok u => exact absurd rfl hne
    | error x =>
      cases x with
      | ResizeFailedUsizeTypeTooSmall => exact hr.elim
      | OtherAddendValueExceedsRange => exact hr.2.2.2

/-- non-trivial: a u8 histogram covering up to 15 refuses one holding 1000 -/
example : ∃ s, demoTop.recordN 1000 1 = .ok (s, .ok ())
    ∧ demo3.add s = .ok (demo3, .error .OtherAddendValueExceedsRange) := okThen (by decide +kernel)

/-- the full claim of C18 is false: `add` fails although the target can store (indeed holds) every value of the
source -/
theorem C18_refuted : demoTop1.add demoTop1 = .ok (demoTop1, .error .OtherAddendValueExceedsRange)
    ∧ demoTop1.Covers U64MAX ∧ demoTop1.countAt U64MAX = .ok 1 :=
  ⟨by decide +kernel, by decide +kernel, by decide +kernel⟩

/-! ## C19 -/

/-- C19: with any two configurations, a successful `add` adds, for each class of the source, its count to the class of
the target containing the source class's lowest value, and changes nothing else; `len()` adds up; if no counter
saturates the total content is exactly the sum of the two contents. -/
theorem C19_add_moves {h s h' : Hist T} (R : Reachable fp T h) (Rs : Reachable fp T s) {cs : List Cls}
    (C : Classes s cs) (e : h.add s = .ok (h', .ok ())) :
    (∀ v a, v ≤ U64MAX → HasCount h v a → HasCount h' v (min (a + recordedFor h (Cls.records cs) v) T.max)) ∧
    (∀ a b, a ≤ U64MAX → b ≤ U64MAX → (Equiv h' a b ↔ Equiv h a b)) ∧
    (s.len = min (cs.map (·.count)).sum U64MAX → h'.len = min (h.len + s.len) U64MAX) ∧
    ((∀ c ∈ h'.counts, c < T.max) → h'.counts.sum = h.counts.sum + (cs.map (·.count)).sum) := by
  have W := R.wf
  have Ws := Rs.wf
  obtain ⟨h1, r, e1, W', hr⟩ := W.add_spec Ws
  rw [e1] at e; cases e
  rw [Ws.sum_classes C]
  unfold Hist.len
  rcases hr with ⟨h0, rfl⟩ | ⟨h0, -, hcfg, hlen, -, hcnt, hcopy, htot, -⟩
  · refine ⟨fun v a hv ha => ?_, fun _ _ _ _ => Iff.rfl, fun _ => ?_, fun _ => ?_⟩
    · have hz : recordedFor h' (Cls.records cs) v = 0 := by
        rw [W.recordedFor_classes Ws C hv]
        unfold moved
        apply List.sum_eq_zero
        intro x hx
        rw [List.mem_map] at hx
        obtain ⟨i, -, rfl⟩ := hx
        split
        · exact Ws.getD_zero_of_empty h0 i
        · rfl
      rw [hz]
      rw [W.hasCount_iff hv] at ha ⊢
      have := W.getD_le (h'.lidx v)
      omega
    · have := W.tot
      omega
    · rw [Ws.sum_zero_of_empty h0]
      rfl
  · refine ⟨fun v a hv ha => ?_, fun a b ha hb => ?_, fun hx => ?_, fun hns => ?_⟩
    · rw [W.hasCount_iff hv] at ha
      rw [W'.hasCount_iff hv, hcfg.lidx, hcnt, W.recordedFor_classes Ws C hv, ha]
    · rw [W'.equiv_iff ha hb, W.equiv_iff ha hb, hcfg.lidx, hcfg.lidx]
    · by_cases hz : (h.addGrown s).matching s ∧ h.totalCount = 0
      · rw [(hcopy hz).2.1, hz.2]
        have := Ws.tot
        omega
      · rw [htot hz, hx]; omega
    · obtain ⟨Wg, hcov, hcfgg, hget, -, -, -, hleng, -⟩ := W.addGrown (s := s)
      have hlt : ∀ j, h'.counts.getD j 0 < T.max := getD_lt_of_all (by cases T <;> decide) hns
      have hex : ∀ j, h'.counts.getD j 0 = h.counts.getD j 0 + moved h s (List.range s.counts.length) j := by
        intro j; have := hcnt j; have := hlt j; omega
      rw [← sum_range_getD h'.counts]
      have : ((List.range h'.counts.length).map fun j => h'.counts.getD j 0)
          = (List.range h'.counts.length).map fun j =>
            (h.counts.getD j 0 + moved h s (List.range s.counts.length) j) := by
        apply List.map_congr_left; intro j _; exact hex j
      rw [this, List.sum_map_add, sum_moved, sum_range_getD,
        sum_range_prefix _ h.counts.length _ (by omega) (fun i hi => getD_ge hi), sum_range_getD]
      intro i hi hne
      have h1 : s.lidx (s.lval i) = i := Lay.idx_val
      have h2 : s.lval i ≤ s.lmax := by
        have := Ws.trackMax i hne
        rw [← Ws.lidx_lmax, ← h1] at this
        have h3 := llo_le_of_lidx this
        have h4 : s.llo (s.lval i) = s.lval i := Lay.lo_val
        have h5 : s.llo s.lmax ≤ s.lmax := Lay.lo_le
        omega
      rw [hlen]
      refine lt_of_le_of_lt ?_ hcov
      rw [hcfgg.lidx]
      exact Lay.idx_mono h2

/-! `demoU8`: unit 4, up to 200, in u8 counters -/
def demoW : Hist .u8 :=
  { autoResize := true, highestTrackable := 200, lowestDiscernible := 4, sigDigits := 0, bucketCount := 6
    subBucketCount := 2, subBucketHalfCount := 1, subBucketHalfCountMag := 0, subBucketMask := 4
    leadingZeroCountBase := 61, unitMag := 2, unitMagMask := 3, maxValue := 0, minNonZero := U64MAX
    totalCount := 0, counts := [0, 0, 0, 0, 0, 0, 0] }

theorem demoW_reachable : Reachable Fp.ideal .u8 demoW :=
  .auto true (.newWithBounds (low := 4) (high := 200) (sigfig := 0) (h := { demoW with autoResize := false })
    (by decide +kernel) (by decide +kernel))

/-- finer source into a coarser target: the source classes {0}, [4,7], [8,15] land in the target's -/
example : ∃ h', demoW.add demo3 = .ok (h', .ok ()) ∧ h'.counts = [1, 3, 200, 0, 0, 0, 0] ∧ h'.len = 204 :=
  okThen (by decide +kernel)

/-! ## C20 -/

/-- C20 (1): a successful `subtract` lowers the count of each class by exactly the source's content for it, and leaves
`len()` the exact remaining sum (if it was exact before). -/
theorem C20_subtract_effect {h s h' : Hist T} (R : Reachable fp T h) (Rs : Reachable fp T s) {cs : List Cls}
    (C : Classes s cs) (e : h.subtract s = .ok (h', .ok ())) :
    (∀ v a b, v ≤ U64MAX → HasCount h v a → HasCount h' v b → b + recordedFor h (Cls.records cs) v = a) ∧
    (h.len = min h.counts.sum U64MAX → h'.len = min h'.counts.sum U64MAX) ∧
    SameSettings h' h := by
  have W := R.wf
  have Ws := Rs.wf
  refine ⟨fun v a b hv ha hb => ?_, fun hx => W.subtract_exact Ws e hx, ?_⟩
  · obtain ⟨h1, r, e1, W', hr⟩ := W.subtract_spec Ws
    rw [e1] at e; cases e
    rw [W.recordedFor_classes Ws C hv]
    rw [W.hasCount_iff hv] at ha
    rw [W'.hasCount_iff hv] at hb
    rcases hr with ⟨h0, rfl⟩ | ⟨h0, -, hlen, hcnt, hcfg, -⟩
    · have hz : moved h' s (List.range s.counts.length) (h'.lidx v) = 0 := by
        unfold moved
        apply List.sum_eq_zero
        intro x hx
        rw [List.mem_map] at hx
        obtain ⟨i, -, rfl⟩ := hx
        split
        · exact Ws.getD_zero_of_empty h0 i
        · rfl
      omega
    · have hi : h'.lidx v = h.lidx v := by rw [hcfg]
      have := hcnt (h.lidx v)
      rw [hi] at hb
      omega
  · obtain ⟨h1, r, e1, W', hr⟩ := W.subtract_spec Ws
    rw [e1] at e; cases e
    rcases hr with ⟨h0, rfl⟩ | ⟨h0, -, hlen, hcnt, hcfg, -⟩
    · exact ⟨rfl, rfl, rfl⟩
    · rw [hcfg]; exact ⟨rfl, rfl, rfl⟩

/-- the value is refused by `subtract` -/
theorem WF.ltop_lt_lhi_iff {h : Hist T} (W : WF fp h) {x : Nat} (hx : x ≤ U64MAX) :
    h.ltop < h.lhi x ↔ ¬ h.Covers x ∨ x = U64MAX := by
  rw [W.ltop_lt_iff lhi_le, W.covers_iff, W.covers_iff, lidx_lhi hx]
  have : h.lhi x = U64MAX ↔ x = U64MAX := by
    unfold Hist.lhi
    split
    · rename_i h; simp [h]
    · rename_i hne
      have hU : U64MAX = 18446744073709551615 := rfl
      constructor
      · intro hc; omega
      · intro hc; exact absurd hc hne
  rw [this]

/-- C20 (2) (partial: excludes sources whose `max()` is `u64::MAX`, see `C20_refuted`): after an `add` that saturated
no counter, `subtract` of the same histogram succeeds and restores every count and `len()`. -/
theorem C20_subtract_undoes_add_partial {h s h1 : Hist T} (R : Reachable fp T h) (Rs : Reachable fp T s)
    (hx : h.len = min h.counts.sum U64MAX) (hxs : s.len = min s.counts.sum U64MAX)
    (hmx : s.max ≠ .ok U64MAX)
    (e : h.add s = .ok (h1, .ok ())) (hns : ∀ c ∈ h1.counts, c < T.max) :
    ∃ h2, h1.subtract s = .ok (h2, .ok ()) ∧ h2.len = h.len ∧
      (∀ v a, v ≤ U64MAX → HasCount h v a → HasCount h2 v a) := by
  have R1 : Reachable fp T h1 := .add R Rs e
  have W := R.wf
  have Ws := Rs.wf
  have W1 := R1.wf
  have hx1 : ExactTotal h1 := W.add_exact Ws e hns hx hxs
  obtain ⟨g, r, e1, W', hr⟩ := W.add_spec Ws
  rw [e1] at e; cases e
  have hmx' : s.lmax ≠ U64MAX := by
    intro hc; rw [Ws.max_eq, hc] at hmx; exact hmx rfl
  obtain ⟨h2, r2, e2, W2, hr2⟩ := W1.subtract_spec Ws
  -- facts about the sum
  have key : s.totalCount ≠ 0 → h1.lhi s.lmax ≤ h1.ltop ∧
      ∀ j, h1.counts.getD j 0 = h.counts.getD j 0 + moved h1 s (List.range s.counts.length) j := by
    intro h0
    rcases hr with ⟨hc, -⟩ | ⟨-, -, hcfg, hlen, -, hcnt, -⟩
    · exact absurd hc h0
    obtain ⟨Wg, hcov, hcfgg, -⟩ := W.addGrown (s := s)
    constructor
    · apply Nat.le_of_not_lt
      rw [W1.ltop_lt_lhi_iff lmax_le, W1.covers_iff, hcfg.lidx, hlen]
      rw [hcfgg.lidx] at hcov
      simp [hcov, hmx']
    · intro j
      have h3 := hcnt j
      have h4 : h1.counts.getD j 0 < T.max := getD_lt_of_all (by cases T <;> decide) hns j
      rw [moved_config hcfg]
      omega
  cases r2 with
  | error x =>
    exfalso
    cases x with
    | SubtrahendValueExceedsMinuendRange =>
      have := (key hr2.1).1
      have := hr2.2.1
      omega
    | SubtrahendCountExceedsMinuendCount =>
      obtain ⟨h0, -, j, hj⟩ := hr2
      have := (key h0).2 j
      omega
  | ok u =>
    have hcounts : ∀ j, h2.counts.getD j 0 = h.counts.getD j 0 := by
      intro j
      rcases hr2 with ⟨h0, rfl⟩ | ⟨h0, -, -, hcnt2, -⟩
      · rcases hr with ⟨-, rfl⟩ | ⟨hc, -⟩
        · rfl
        · exact absurd h0 hc
      · have := (key h0).2 j
        have := hcnt2 j
        omega
    have hlen2 : h.counts.length ≤ h2.counts.length ∧ SameConfig h h2 := by
      have a1 : h.counts.length ≤ h1.counts.length ∧ SameConfig h h1 := by
        rcases hr with ⟨-, rfl⟩ | ⟨-, -, hcfg, hlen, -⟩
        · exact ⟨le_rfl, SameConfig.refl _⟩
        · obtain ⟨-, -, -, -, -, -, -, hl, -⟩ := W.addGrown (s := s)
          exact ⟨by omega, hcfg⟩
      rcases hr2 with ⟨h0, rfl⟩ | ⟨h0, -, hl, -, hc, -⟩
      · exact a1
      · refine ⟨by omega, a1.2.trans ?_⟩
        rw [hc]
        exact ⟨rfl, rfl, rfl, rfl, rfl⟩
    have hsum : h2.counts.sum = h.counts.sum := by
      rw [← sum_range_getD h2.counts]
      have : ((List.range h2.counts.length).map fun j => h2.counts.getD j 0)
          = (List.range h2.counts.length).map fun j => h.counts.getD j 0 := by
        apply List.map_congr_left; intro j _; exact hcounts j
      rw [this, sum_range_prefix _ h.counts.length _ hlen2.1 (fun i hi => getD_ge hi), sum_range_getD]
    refine ⟨h2, e2, ?_, fun v a hv ha => ?_⟩
    · have := W1.subtract_exact Ws e2 hx1
      unfold ExactTotal at this
      unfold Hist.len at *
      rw [this, hx, hsum]
    · rw [W.hasCount_iff hv] at ha
      rw [W2.hasCount_iff hv, hlen2.2.lidx, hcounts, ha]

/-- `demo` after `record_n(2, 60)`, `record_n(4, 7)` -/
def demo4 : Hist .u8 :=
  { demo with maxValue := 4, minNonZero := 2, totalCount := 67, counts := [0, 0, 60, 7, 0] }

theorem demo4_eq : recordSeq [(2, 60), (4, 7)] demo = .ok (demo4, .ok ()) := by decide

theorem demo4_reachable : Reachable Fp.ideal .u8 demo4 :=
  reachable_recordSeq demo_reachable (by decide) demo4_eq

example : ∃ h1, demo3.add demo4 = .ok (h1, .ok ()) ∧ (∀ c ∈ h1.counts, c < 255)
    ∧ h1.counts = [1, 0, 60, 10, 200] ∧ (h1.subtract demo4).toOption.map (fun p => (p.1.counts, p.1.len)) = some (demo3.counts, 204) := okThen (by decide +kernel)

/-- the full claim of C20 is false for sources holding `u64::MAX`: with auto-resize on, `add` of such a histogram to an
empty one succeeds but `subtract` fails -/
theorem C20_refuted :
    ∃ h1, (demoTop.auto true).add demoTop1 = .ok (h1, .ok ()) ∧ h1.counts = demoTop1.counts ∧
      h1.subtract demoTop1 = .ok (h1, .error .SubtrahendValueExceedsMinuendRange) := okThen (by decide +kernel)

/-! ## C21 -/

theorem moved_pos {h s : Hist T} {j : Nat} (hp : 0 < moved h s (List.range s.counts.length) j) :
    ∃ i, i < s.counts.length ∧ h.lidx (s.lval i) = j := by
  by_contra hc
  have : moved h s (List.range s.counts.length) j = 0 := by
    unfold moved
    apply List.sum_eq_zero
    intro x hx
    rw [List.mem_map] at hx
    obtain ⟨i, hi, rfl⟩ := hx
    rw [if_neg]
    intro h1
    exact hc ⟨i, List.mem_range.mp hi, h1⟩
  omega

/-- C21 (partial: `u64::MAX` is refused even when covered, see `C21_refuted`): `subtract` never panics; it reports an
out-of-range subtrahend exactly when that is non-empty with a maximum outside the range (changing nothing), an excessive count
exactly when otherwise some class has less than is to be taken from it; an empty subtrahend changes nothing. -/
theorem C21_subtract_outcome_partial {h s : Hist T} (R : Reachable fp T h) (Rs : Reachable fp T s) {mx : Nat}
    {cs : List Cls} (C : Classes s cs) (hmx : s.max = .ok mx) :
    ∃ h' r, h.subtract s = .ok (h', r) ∧
      (r = .error .SubtrahendValueExceedsMinuendRange ↔ s.len ≠ 0 ∧ (¬ h.Covers mx ∨ mx = U64MAX)) ∧
      (r = .error .SubtrahendCountExceedsMinuendCount ↔ s.len ≠ 0 ∧ ¬ (¬ h.Covers mx ∨ mx = U64MAX) ∧
        ∃ v a, v ≤ U64MAX ∧ HasCount h v a ∧ a < recordedFor h (Cls.records cs) v) ∧
      (r = .error .SubtrahendValueExceedsMinuendRange → h' = h) ∧
      (s.len = 0 → r = .ok () ∧ h' = h) := by
  have W := R.wf
  have Ws := Rs.wf
  obtain ⟨h', r, e, W', hr⟩ := W.subtract_spec Ws
  rw [Ws.max_eq] at hmx
  cases hmx
  refine ⟨h', r, e, ?_⟩
  rw [← W.ltop_lt_lhi_iff lmax_le]
  unfold Hist.len
  have hz : s.totalCount = 0 → ∀ v ≤ U64MAX, recordedFor h (Cls.records cs) v = 0 := by
    intro h0 v hv
    rw [W.recordedFor_classes Ws C hv]
    unfold moved
    apply List.sum_eq_zero
    intro x hx
    rw [List.mem_map] at hx
    obtain ⟨i, -, rfl⟩ := hx
    split
    · exact Ws.getD_zero_of_empty h0 i
    · rfl
  cases r with
  | ok u =>
    refine ⟨⟨fun hc => (by cases hc), ?_⟩, ⟨fun hc => (by cases hc), ?_⟩, fun hc => (by cases hc), fun h0 => ⟨rfl, ?_⟩⟩
    · rintro ⟨h1, h2⟩
      rcases hr with ⟨h0, -⟩ | ⟨-, h3, -⟩
      · exact absurd h0 h1
      · omega
    · rintro ⟨h1, h2, v, a, hv, ha, hlt⟩
      rcases hr with ⟨h0, -⟩ | ⟨-, h3, hlen, hcnt, -⟩
      · exact absurd h0 h1
      · rw [W.recordedFor_classes Ws C hv] at hlt
        rw [W.hasCount_iff hv] at ha
        have := hcnt (h.lidx v)
        omega
    · rcases hr with ⟨-, h1⟩ | ⟨h1, -⟩
      · exact h1
      · exact absurd h0 h1
  | error x =>
    cases x with
    | SubtrahendValueExceedsMinuendRange =>
      obtain ⟨h0, h1, h2⟩ := hr
      refine ⟨⟨fun _ => ⟨h0, h1⟩, fun _ => rfl⟩, ⟨fun hc => (by simp at hc), ?_⟩, fun _ => h2, fun hc => absurd hc h0⟩
      rintro ⟨-, h3, -⟩
      exact absurd h1 h3
    | SubtrahendCountExceedsMinuendCount =>
      obtain ⟨h0, h1, j, hj⟩ := hr
      refine ⟨⟨fun hc => (by simp at hc), ?_⟩, ⟨fun _ => ⟨h0, by omega, ?_⟩, fun _ => rfl⟩, fun hc => (by simp at hc),
        fun hc => absurd hc h0⟩
      · rintro ⟨-, h3⟩
        omega
      · obtain ⟨i, hi, hij⟩ := moved_pos (Nat.lt_of_le_of_lt (Nat.zero_le _) hj)
        refine ⟨s.lval i, h.counts.getD j 0, Ws.lval_le' hi, ?_, ?_⟩
        · rw [W.hasCount_iff (Ws.lval_le' hi), hij]
        · rw [W.recordedFor_classes Ws C (Ws.lval_le' hi), hij]; exact hj

/-- C21 for equal layouts: what is to be taken from the class of `v` is the subtrahend's count at `v` -/
theorem C21_same_layout {h s : Hist T} (R : Reachable fp T h) (Rs : Reachable fp T s) (hl : h.low = s.low)
    (hs : h.sigfig = s.sigfig) {cs : List Cls} (C : Classes s cs) {v b : Nat} (hv : v ≤ U64MAX)
    (hb : HasCount s v b) : recordedFor h (Cls.records cs) v = b := by
  have W := R.wf
  have Ws := Rs.wf
  obtain ⟨hum, hmag⟩ := W.same_layout Ws hl hs
  rw [W.recordedFor_classes Ws C hv, moved_same hum hmag]
  rw [Ws.hasCount_iff hv] at hb
  rw [hb]
  unfold Hist.lidx; rw [hum, hmag]

/-- excessive count: class of 2 has 0 in `demo3` and 60 in `demo2`; the failed call has lowered nothing here,
but see `C21_failed_subtract_modifies` -/
example : (demo3.subtract demo2).toOption.map (·.2) = some (.error .SubtrahendCountExceedsMinuendCount) := by
  decide +kernel
example : demo3.subtract demo = .ok (demo3, .ok ()) := by decide +kernel

/-- a failed `subtract` may leave the minuend modified: here the count 3 of class [4,7] is already taken when the
excess in class [8,15] is found, and `min_nz()` still reports 4 -/
theorem C21_failed_subtract_modifies :
    ∃ s h', recordSeq [(5, 3), (9, 201)] demo = .ok (s, .ok ()) ∧
      demo3.subtract s = .ok (h', .error .SubtrahendCountExceedsMinuendCount) ∧
      h'.counts = [1, 0, 0, 0, 200] ∧ h'.len = 201 ∧ h'.minNz = .ok 4 :=
  ⟨{ demo with maxValue := 9, minNonZero := 5, totalCount := 204, counts := [0, 0, 0, 3, 201] },
    { demo3 with totalCount := 201, counts := [1, 0, 0, 0, 200] },
    by decide +kernel, by decide +kernel, by decide +kernel, by decide +kernel, by decide +kernel⟩

/-- the full claim of C21 is false: subtracting a histogram holding `u64::MAX` from itself reports an out-of-range
subtrahend -/
theorem C21_refuted : demoTop1.subtract demoTop1 = .ok (demoTop1, .error .SubtrahendValueExceedsMinuendRange) := by
  decide +kernel

/-! ## C22 -/

/-- C22 (1): `reset` empties the histogram and keeps its configuration; `max()` is within the first unit. -/
theorem C22_reset {h : Hist T} (R : Reachable fp T h) :
    (∀ v, v ≤ U64MAX → HasCount h.reset v 0) ∧ h.reset.len = 0 ∧ h.reset.min = .ok 0 ∧ h.reset.minNz = .ok U64MAX ∧
    (∃ mx, h.reset.max = .ok mx ∧ Equiv h mx 0) ∧
    SameSettings h.reset h ∧ h.reset.isAutoResize = h.isAutoResize ∧ h.reset.buckets = h.buckets := by
  have W := R.wf
  have Wr := (Reachable.reset R).wf
  refine ⟨fun v hv => ?_, rfl, ?_, ?_, ⟨_, Wr.max_eq, ?_⟩, ⟨rfl, rfl, rfl⟩, rfl, rfl⟩
  · rw [Wr.hasCount_iff hv, Wr.getD_zero_of_empty rfl]
  · rw [Wr.min_eq, if_pos (Or.inl (show h.reset.totalCount = 0 from rfl))]
  · rfl
  · rw [W.equiv_iff lmax_le (by decide)]
    have h1 : h.lidx h.reset.lmax = h.reset.lidx h.reset.lmax := rfl
    rw [h1, Wr.lidx_lmax]
    have h2 : h.reset.maxValue = h.unitMagMask := by
      change 0 ||| h.unitMagMask = _
      exact Nat.zero_or _
    rw [h2]
    change h.lidx h.unitMagMask = _
    rw [lidx_mask W.toLayoutOK]
    exact (Lay.idx_zero).symm

/-- C22 (2): `clear` empties the histogram and keeps its configuration and its tracked extremes. -/
theorem C22_clear {h : Hist T} (R : Reachable fp T h) :
    (∀ v, v ≤ U64MAX → HasCount h.clear v 0) ∧ h.clear.len = 0 ∧
    h.clear.max = h.max ∧ h.clear.minNz = h.minNz ∧
    SameSettings h.clear h ∧ h.clear.isAutoResize = h.isAutoResize ∧ h.clear.buckets = h.buckets := by
  have Wr := (Reachable.clear R).wf
  refine ⟨fun v hv => ?_, rfl, rfl, rfl, ⟨rfl, rfl, rfl⟩, rfl, rfl⟩
  rw [Wr.hasCount_iff hv, Wr.getD_zero_of_empty rfl]

/-- C22 (3) (partial: for an empty source `max()` and `min_nz()` may differ, and a source whose `max()` is `u64::MAX`
may be refused; see `C22_set_to_refuted`): `set_to` with the same configuration makes all counts, `len()`, `max()`,
`min_nz()` and `min()` equal to the source's. -/
theorem C22_set_to_partial {h s : Hist T} (R : Reachable fp T h) (Rs : Reachable fp T s) (S : SameSettings h s)
    (hmx : s.max ≠ .ok U64MAX) :
    ∃ h', h.setTo s = .ok (h', .ok ()) ∧
      (∀ v a, v ≤ U64MAX → (HasCount h' v a ↔ HasCount s v a)) ∧ h'.len = s.len ∧ SameSettings h' s ∧
      h'.isAutoResize = h.isAutoResize ∧
      (s.len ≠ 0 → h'.max = s.max ∧ h'.minNz = s.minNz ∧ h'.min = s.min) := by
  have Rr := Reachable.reset R
  have W := R.wf
  have Ws := Rs.wf
  have Wr := Rr.wf
  have Sr : SameSettings h.reset s := ⟨S.low, S.high, S.sigfig⟩
  obtain ⟨hum, hmag⟩ := Wr.same_layout Ws Sr.low Sr.sigfig
  have hm := Wr.same_matching Ws Sr.low Sr.high Sr.sigfig
  have hlt : ¬ h.reset.ltop < s.lmax := by
    rw [Wr.same_ltop Ws Sr.low Sr.high Sr.sigfig]
    intro hc
    rw [Ws.max_eq, hc] at hmx; exact hmx rfl
  obtain ⟨h', r, e, W', hr⟩ := Wr.add_spec Ws
  have hok : r = .ok () := by
    cases r with
    | ok u => rfl
    | error x =>
      cases x with
      | ResizeFailedUsizeTypeTooSmall => exact hr.elim
      | OtherAddendValueExceedsRange => exact absurd hr.2.2.1 hlt
  subst hok
  have hidx : ∀ v, s.lidx v = h.reset.lidx v := fun v => by unfold Hist.lidx; rw [hum, hmag]
  refine ⟨h', e, ?_⟩
  unfold Hist.len
  rcases hr with ⟨h0, rfl⟩ | ⟨h0, -, hcfg, hlen, hhigh, hcnt, hcopy, -⟩
  · refine ⟨fun v a hv => ?_, ?_, Sr, rfl, fun hn => absurd h0 hn⟩
    · rw [Wr.hasCount_iff hv, Ws.hasCount_iff hv, Wr.getD_zero_of_empty rfl, Ws.getD_zero_of_empty h0]
    · rw [h0]; rfl
  · obtain ⟨h1, h2, h3, h4⟩ := hcopy ⟨hm.1, rfl⟩
    have e2 : h'.lminNz = s.lminNz := by
      unfold Hist.lminNz Hist.llo
      rw [h4, hcfg.um, hcfg.mag, hum, hmag]
    refine ⟨fun v a hv => ?_, h2, ⟨?_, ?_, ?_⟩, hcfg.auto, fun _ => ⟨?_, ?_, ?_⟩⟩
    · rw [W'.hasCount_iff hv, Ws.hasCount_iff hv, h1, hcfg.lidx, hidx]
    · rw [← Sr.low]; exact hcfg.low
    · rw [← Sr.high]
      unfold Hist.high
      rw [hhigh]; unfold Hist.addGrown; rw [if_neg hlt]
    · rw [← Sr.sigfig]; exact hcfg.sig
    · rw [W'.max_eq, Ws.max_eq]
      congr 1
      unfold Hist.lmax Hist.lhi Hist.llo Hist.lwid
      rw [h3, hcfg.um, hcfg.mag, hum, hmag]
    · rw [W'.minNz_eq, Ws.minNz_eq, e2]
    · rw [W'.min_eq, Ws.min_eq, h1, h2, e2]

example : ∃ h', demo2.setTo demo3 = .ok (h', .ok ()) ∧ h' = demo3 := okThen (by decide +kernel)
example : demo3.reset = demo := by decide +kernel
example : demo3.clear = { demo with maxValue := 9, minNonZero := 5 } := by decide +kernel

/-- the full claim is false for an empty source with a unit above 1: `max()` is 3 afterwards but 0 in the source -/
theorem C22_set_to_refuted : ∃ h', demoU.setTo demoU = .ok (h', .ok ()) ∧ h'.max = .ok 3 ∧ demoU.max = .ok 0 :=
  okThen (by decide +kernel)

/-- hence a reset histogram with a unit above 1 differs from a new one: it reports `max() = 3` though empty -/
theorem C22_reset_max : demoU.reset.max = .ok 3 ∧ demoU.max = .ok 0 ∧ demoU.reset.len = 0 := by decide +kernel

/-! ## C23 -/

theorem correctSeq_eq (interval : Nat) (vs : List IterValue) (h : Hist T) :
    Hist.addCorrectLoop interval vs h
      = correctSeq interval (vs.map fun v => (v.valueIteratedTo, v.countAtValue)) h := by
  induction vs generalizing h with
  | nil => rfl
  | cons v vs ih =>
    unfold Hist.addCorrectLoop
    rw [List.map_cons]
    unfold correctSeq
    cases h.recordNCorrect v.valueIteratedTo v.countAtValue interval with
    | error e => rfl
    | ok r =>
      obtain ⟨h1, r⟩ := r
      cases r with
      | error e => rfl
      | ok u => exact ih h1

/-- C23 (1): `add_correct` is `record_n_correct(highest value, count, interval)` for each non-empty class of the source
in ascending order, stopping at the first error. -/
theorem C23_add_correct {h s : Hist T} (Rs : Reachable fp T s) {cs : List Cls} (C : Classes s cs) (interval : Nat) :
    h.addCorrect s interval = correctSeq interval (Cls.nonempty cs) h := by
  have Ws := Rs.wf
  unfold Hist.addCorrect
  rw [Ws.iterRecorded_eq (by unfold Hist.recordedFuel Hist.distinctValues; omega), M.ok_bind, correctSeq_eq,
    Ws.recItems_classes C]

/-- C23 (2): `clone_correct` never panics: it performs the same calls on an empty histogram of the same
configuration, and they all succeed. -/
theorem C23_clone_correct {s : Hist T} (Rs : Reachable fp T s) {cs : List Cls} (C : Classes s cs) (interval : Nat) :
    ∃ c h', Hist.cloneCorrect fp s interval = .ok h' ∧ SameSettings c s ∧ c.isAutoResize = s.isAutoResize ∧
      c.len = 0 ∧ (∀ v, v ≤ U64MAX → HasCount c v 0) ∧ Reachable fp T c ∧
      correctSeq interval (Cls.nonempty cs) c = .ok (h', .ok ()) ∧
      SameSettings h' s ∧ h'.isAutoResize = s.isAutoResize := by
  have Ws := Rs.wf
  obtain ⟨c, h', e1, Wc, e2, e3, W', E, hlen, hh⟩ := Ws.cloneCorrect_spec interval
  obtain ⟨g, e4, W4, g0, -, -, ga, gl, gh, gs, -⟩ := Ws.newFrom_eq (T := T)
  rw [e4] at e1; injection e1 with e1; subst e1
  refine ⟨g, h', e2, ⟨gl, gh, gs⟩, ga, g0, fun v hv => ?_, .newFrom Rs e4, ?_, ⟨?_, hh, ?_⟩, ?_⟩
  · rw [W4.hasCount_iff hv, W4.getD_zero_of_empty g0]
  · rw [← e3, ← addCorrectLoop_eq, correctSeq_eq, Ws.recItems_classes C]
  · exact E.cfg.low.trans gl
  · exact E.cfg.sig.trans gs
  · exact E.cfg.auto.trans ga

theorem correctedAll_zero (vs : List IterValue) :
    correctedAll 0 vs = vs.map fun v => (v.valueIteratedTo, v.countAtValue) := by
  induction vs with
  | nil => rfl
  | cons v vs ih =>
    unfold correctedAll at *
    rw [List.flatMap_cons, ih]; rfl

/-- C23 (3): with interval 0 `clone_correct` reproduces every count. -/
theorem C23_clone_correct_zero {s : Hist T} (Rs : Reachable fp T s) :
    ∃ h', Hist.cloneCorrect fp s 0 = .ok h' ∧ (∀ v a, v ≤ U64MAX → (HasCount h' v a ↔ HasCount s v a)) ∧
      h'.len = min s.counts.sum U64MAX := by
  have Ws := Rs.wf
  obtain ⟨c, h', e1, Wc, e2, e3, W', E, hlen, hh⟩ := Ws.cloneCorrect_spec 0
  obtain ⟨g, e4, W4, g0, -, -, ga, gl, gh, gs, gum, gmag, -, glen⟩ := Ws.newFrom_eq (T := T)
  rw [e4] at e1; injection e1 with e1; subst e1
  have hcs := Ws.recItems_classes Ws.classes
  rw [correctedAll_zero, hcs] at E
  have hl : ∀ v, g.lidx v = s.lidx v := fun v => by unfold Hist.lidx; rw [gum, gmag]
  have hhits : ∀ j, g.hits (Cls.nonempty ((List.range s.counts.length).map s.lcls)) j = s.counts.getD j 0 := by
    intro j
    rw [← moved_same (h := g) gum gmag]
    unfold Hist.hits moved Cls.nonempty
    generalize hn : List.range s.counts.length = is
    have hmem : ∀ i ∈ is, i < s.counts.length := by intro i hi; rw [← hn] at hi; exact List.mem_range.mp hi
    clear hn
    induction is with
    | nil => rfl
    | cons i is ih =>
      have hi := hmem i (by simp)
      have hidx : g.lidx (s.lhi (s.lval i)) = g.lidx (s.lval i) := by
        rw [hl, hl, lidx_lhi (Ws.lval_le' hi)]
      simp only [List.map_cons, List.sum_cons, List.filter_cons]
      rw [← ih (fun k hk => hmem k (by simp [hk]))]
      by_cases h0 : s.counts.getD i 0 = 0
      · rw [if_neg (by simpa [Hist.lcls] using h0), h0]
        simp
      · rw [if_pos (by simpa [Hist.lcls] using h0), List.map_cons, List.map_cons, List.sum_cons]
        simp only [Hist.lcls, hidx]
  refine ⟨h', e2, fun v a hv => ?_, ?_⟩
  · have hli : h'.lidx v = s.lidx v := (E.cfg.lidx v).trans (hl v)
    rw [W'.hasCount_iff hv, Ws.hasCount_iff hv, E.counts, W4.getD_zero_of_empty g0, hhits, hli]
    have := Ws.getD_le (s.lidx v)
    constructor <;> intro <;> omega
  · unfold Hist.len
    rw [E.total, g0]
    congr 1
    rw [Nat.zero_add, ← sum_range_getD s.counts]
    unfold Cls.nonempty
    generalize List.range s.counts.length = is
    induction is with
    | nil => rfl
    | cons i is ih =>
      simp only [List.map_cons, List.sum_cons, List.filter_cons]
      rw [← ih]
      by_cases h0 : s.counts.getD i 0 = 0
      · rw [if_neg (by simpa [Hist.lcls] using h0), h0, Nat.zero_add]
      · rw [if_pos (by simpa [Hist.lcls] using h0), List.map_cons, List.map_cons, List.sum_cons]
        rfl

example : ∃ h', demo4.addCorrect demo3 4 = .ok (h', .ok ()) ∧ h'.counts = [1, 0, 60, 210, 255]
    ∧ h'.len = 67 + 1 + 3 + 3 * 200 := okThen (by decide +kernel)
example : (Hist.cloneCorrect Fp.ideal demo3 0).toOption.map (·.counts) = some [1, 0, 0, 3, 200] := by decide +kernel

end Hdr
