import Mathlib.Data.Nat.Log
import Verif.Proofs.Bridge
import Verif.Spec.Demo

/-!
# C01–C08: construction, coverage, precision, equivalence classes, storage
-/

namespace Hdr

variable {T : CounterTy} {fp : Fp}

/-! ## C01 -/

/-- The documented acceptance conditions, in the documented order. The "lowest-value magnitude" is what
the `log2` in use says, the "significant-figure magnitude" the least `m` with `2·10^sigfig ≤ 2^m`. -/
def firstViolation (fp : Fp) (low high sigfig : Nat) : Option CreationError :=
  if low = 0 then some .LowIsZero
  else if low > U64MAX / 2 then some .LowExceedsMax
  else if high < 2 * low then some .HighLessThanTwiceLow
  else if sigfig > 5 then some .SigFigExceedsMax
  else if fp.log2Floor low + Nat.clog 2 (2 * 10 ^ sigfig) > 63 then some .CannotRepresentSigFigBeyondLow
  else none

theorem scm_clog {s : Nat} (hs : s ≤ 5) : Hist.subBucketCountMag s = Nat.clog 2 (2 * 10 ^ s) := by
  have key : ∀ m n : Nat, 1 < n → 2 ^ m < n → n ≤ 2 ^ (m + 1) → Nat.clog 2 n = m + 1 := by
    intro m n h0 h1 h2
    apply le_antisymm
    · exact Nat.clog_le_of_le_pow h2
    · by_contra hc
      have hle : Nat.clog 2 n ≤ m := by omega
      have : n ≤ 2 ^ Nat.clog 2 n := Nat.le_pow_clog (by norm_num) n
      have := Nat.pow_le_pow_right (n := 2) (by norm_num) hle
      omega
  have : s = 0 ∨ s = 1 ∨ s = 2 ∨ s = 3 ∨ s = 4 ∨ s = 5 := by omega
  rcases this with rfl | rfl | rfl | rfl | rfl | rfl
  · rw [key 0 _ (by norm_num) (by norm_num) (by norm_num)]; decide
  · rw [key 4 _ (by norm_num) (by norm_num) (by norm_num)]; decide
  · rw [key 7 _ (by norm_num) (by norm_num) (by norm_num)]; decide
  · rw [key 10 _ (by norm_num) (by norm_num) (by norm_num)]; decide
  · rw [key 14 _ (by norm_num) (by norm_num) (by norm_num)]; decide
  · rw [key 17 _ (by norm_num) (by norm_num) (by norm_num)]; decide

/-- C01: `new_with_bounds` never panics; it succeeds exactly when no documented condition is violated, and
otherwise returns the error of the first violated one. -/
theorem C01_constructor (fp : Fp) (T : CounterTy) {low high sigfig : Nat} (hh : high ≤ U64MAX) :
    ∃ r, Hist.newWithBounds fp T low high sigfig = .ok r ∧
      match firstViolation fp low high sigfig with
      | some e => r = .error e
      | none => ∃ h, r = .ok h := by
  rw [newWithBounds_eq fp T hh]
  refine ⟨_, rfl, ?_⟩
  unfold firstViolation
  by_cases c1 : low < 1
  · rw [if_pos c1, if_pos (by omega)]
  rw [if_neg c1, if_neg (by omega : ¬ low = 0)]
  by_cases c2 : U64MAX / 2 < low
  · rw [if_pos c2, if_pos c2]
  rw [if_neg c2, if_neg c2]
  by_cases c3 : high < 2 * low
  · rw [if_pos c3, if_pos c3]
  rw [if_neg c3, if_neg c3]
  by_cases c4 : 5 < sigfig
  · rw [if_pos c4, if_pos c4]
  rw [if_neg c4, if_neg c4, ← scm_clog (by omega)]
  by_cases c5 : 63 < fp.log2Floor low + Hist.subBucketCountMag sigfig
  · rw [if_pos c5, if_pos c5]
  rw [if_neg c5, if_neg c5]
  exact ⟨_, rfl⟩

/-- with `low = 1` every precision up to 5 can be represented -/
theorem firstViolation_one (fp : Fp) {high sigfig : Nat} (hh : 2 ≤ high) (hs : sigfig ≤ 5) :
    firstViolation fp 1 high sigfig = none := by
  have h0 : fp.log2Floor 1 = 0 := fp.exactSmall 1 (by norm_num) (by norm_num)
  have h1 : Hist.subBucketCountMag sigfig ≤ 63 := by
    have : sigfig = 0 ∨ sigfig = 1 ∨ sigfig = 2 ∨ sigfig = 3 ∨ sigfig = 4 ∨ sigfig = 5 := by omega
    rcases this with rfl | rfl | rfl | rfl | rfl | rfl <;> decide
  unfold firstViolation
  rw [if_neg (by decide), if_neg (by decide), if_neg (by omega), if_neg (by omega), h0, ← scm_clog hs, if_neg (by omega)]

/-- C01: `new(sigfig)` succeeds exactly if `sigfig` is at most 5. -/
theorem C01_new (fp : Fp) (T : CounterTy) (sigfig : Nat) :
    (sigfig ≤ 5 → ∃ h, Hist.new fp T sigfig = .ok (.ok h)) ∧
      (5 < sigfig → Hist.new fp T sigfig = .ok (.error .SigFigExceedsMax)) := by
  obtain ⟨r, e, hr⟩ := C01_constructor fp T (low := 1) (high := 2) (sigfig := sigfig) (by decide)
  constructor
  · intro hs
    rw [firstViolation_one fp (le_refl 2) hs] at hr
    obtain ⟨h, rfl⟩ := hr
    exact ⟨{ h with autoResize := true }, by unfold Hist.new; rw [e]; rfl⟩
  · intro hs
    have : firstViolation fp 1 2 sigfig = some .SigFigExceedsMax := by
      unfold firstViolation
      rw [if_neg (by decide), if_neg (by decide), if_neg (by decide), if_pos hs]
    rw [this] at hr
    simp only at hr
    subst hr
    unfold Hist.new
    rw [e]
    rfl

/-- C01: `new_with_max(high, sigfig)` succeeds exactly if `high` is at least 2 and `sigfig` at most 5; of the two errors
the one about `high` comes first. -/
theorem C01_new_with_max (fp : Fp) (T : CounterTy) {high : Nat} (hh : high ≤ U64MAX) (sigfig : Nat) :
    (2 ≤ high → sigfig ≤ 5 → ∃ h, Hist.newWithMax fp T high sigfig = .ok (.ok h)) ∧
      (high < 2 → Hist.newWithMax fp T high sigfig = .ok (.error .HighLessThanTwiceLow)) ∧
      (2 ≤ high → 5 < sigfig → Hist.newWithMax fp T high sigfig = .ok (.error .SigFigExceedsMax)) := by
  obtain ⟨r, e, hr⟩ := C01_constructor fp T (low := 1) (sigfig := sigfig) hh
  refine ⟨fun h2 hs => ?_, fun h2 => ?_, fun h2 hs => ?_⟩
  · rw [firstViolation_one fp h2 hs] at hr
    obtain ⟨h, rfl⟩ := hr
    exact ⟨h, e⟩
  · have : firstViolation fp 1 high sigfig = some .HighLessThanTwiceLow := by
      unfold firstViolation
      rw [if_neg (by decide), if_neg (by decide), if_pos (by omega)]
    rw [this] at hr
    simp only at hr
    subst hr
    exact e
  · have : firstViolation fp 1 high sigfig = some .SigFigExceedsMax := by
      unfold firstViolation
      rw [if_neg (by decide), if_neg (by decide), if_neg (by omega), if_pos hs]
    rw [this] at hr
    simp only at hr
    subst hr
    exact e

example : firstViolation Fp.ideal 1 2 5 = none := by
  unfold firstViolation
  rw [← scm_clog (by norm_num)]
  decide
example : firstViolation Fp.ideal (2 ^ 62) (2 ^ 63) 5 = some .CannotRepresentSigFigBeyondLow := by
  unfold firstViolation
  rw [← scm_clog (by norm_num)]
  decide

/-! ## C02 -/

/-- what a fresh histogram reports -/
structure IsFresh (h : Hist T) (low high sigfig : Nat) (auto : Bool) : Prop where
  low : h.low = low
  high : h.high = high
  sigfig : h.sigfig = sigfig
  auto : h.isAutoResize = auto
  len : h.len = 0
  empty : h.isEmpty = true
  count : ∀ v, v ≤ U64MAX → h.countAt v = .ok 0
  min : h.min = .ok 0
  max : h.max = .ok 0
  minNz : h.minNz = .ok U64MAX

theorem IsFresh.of_wf {h : Hist T} (W : WF fp h) (h0 : h.totalCount = 0) (hm : h.maxValue = 0)
    (hn : h.minNonZero = U64MAX) :
    IsFresh h h.lowestDiscernible h.highestTrackable h.sigDigits h.autoResize where
  low := rfl
  high := rfl
  sigfig := rfl
  auto := rfl
  len := h0
  empty := by simp [Hist.isEmpty, h0]
  count v hv := by rw [W.countAt_eq hv, W.getD_zero_of_empty h0]
  min := by rw [W.min_eq, if_pos (Or.inl h0)]
  max := by rw [W.max_eq]; simp [Hist.lmax, hm]
  minNz := by rw [W.minNz_eq]; simp [Hist.lminNz, hn]

theorem C02_fresh_bounds {low high sigfig : Nat} {h : Hist T} (hh : high ≤ U64MAX)
    (e : Hist.newWithBounds fp T low high sigfig = .ok (.ok h)) : IsFresh h low high sigfig false := by
  obtain ⟨W, rfl, -⟩ := newWithBounds_wf hh e
  exact IsFresh.of_wf W rfl rfl rfl

theorem C02_fresh_max {high sigfig : Nat} {h : Hist T} (hh : high ≤ U64MAX)
    (e : Hist.newWithMax fp T high sigfig = .ok (.ok h)) : IsFresh h 1 high sigfig false :=
  C02_fresh_bounds hh e

theorem C02_fresh_new {sigfig : Nat} {h : Hist T}
    (e : Hist.new fp T sigfig = .ok (.ok h)) : IsFresh h 1 2 sigfig true := by
  obtain ⟨W, rfl, -⟩ := new_wf e
  exact IsFresh.of_wf W rfl rfl rfl

/-- `new_from` of any histogram: empty, same configuration -/
theorem C02_fresh_from {F : CounterTy} {s : Hist F} (R : Reachable fp F s) :
    ∃ h : Hist T, Hist.newFrom fp T s = .ok h ∧ IsFresh h s.low s.high s.sigfig s.isAutoResize := by
  obtain ⟨h, e, W, h0, hm, hn, a1, a2, a3, a4, -⟩ := R.wf.newFrom_eq (T := T)
  refine ⟨h, e, ?_⟩
  have := IsFresh.of_wf W h0 hm hn
  rw [a1, a2, a3, a4] at this
  exact this

example : IsFresh demo 1 15 0 false := C02_fresh_bounds (by decide) demo_eq
example : ∃ h : Hist .u16, Hist.new Fp.ideal .u16 0 = .ok (.ok h) := ⟨_, rfl⟩

/-! ## C03 -/

/-- C03: the storage covers `[0, coverEnd)`, at least up to `high`; recording a value succeeds without
resizing exactly when it is covered (shown for any count, with auto-resize off), and then the number of
distinct values, `high()` and the covered range are unchanged. -/
theorem C03_range {h : Hist T} (R : Reachable fp T h) :
    (∀ v, v ≤ h.high → h.Covers v) ∧
    (∀ v c, v ≤ U64MAX → c ≤ T.max →
      (h.Covers v ↔ ∃ h', (h.auto false).recordN v c = .ok (h', .ok ()))) ∧
    (∀ v c h' r, v ≤ U64MAX → c ≤ T.max → h.Covers v → h.recordN v c = .ok (h', r) →
      r = .ok () ∧ h'.distinctValues = h.distinctValues ∧ h'.high = h.high ∧ h'.coverEnd = h.coverEnd) := by
  have W := R.wf
  refine ⟨fun v hv => ?_, fun v c hv hc => ?_, fun v c h' r hv hc hcov e => ?_⟩
  · rw [W.covers_iff]; exact W.cov_of_le hv
  · rw [W.covers_iff, (W.auto false).recordN_eq hv hc]
    have e1 : (h.auto false).lidx v = h.lidx v := rfl
    have e2 : (h.auto false).counts.length = h.counts.length := rfl
    have e3 : (h.auto false).autoResize = false := rfl
    rw [e1, e2, e3]
    constructor
    · intro hc; rw [if_pos (Or.inl hc)]; exact ⟨_, rfl⟩
    · rintro ⟨h', hh⟩
      by_contra hc
      rw [if_neg (by simp [hc])] at hh
      cases hh
  · rw [W.covers_iff] at hcov
    rw [W.recordN_eq hv hc, if_pos (Or.inl hcov)] at e
    cases e
    have : h.growTo v = h := by unfold Hist.growTo; rw [if_pos hcov]
    rw [this]
    refine ⟨rfl, ?_, rfl, rfl⟩
    simp [Hist.distinctValues, Hist.recorded]

example : demo3.Covers 15 ∧ ¬ demo3.Covers 16 := by decide

/-! ## C04 -/

/-- C04: class bounds and precision. The unit is the power of two that `low` gives, see `C04_unit`. -/
theorem C04_precision {h : Hist T} (R : Reachable fp T h) {v : Nat} (hv : v ≤ U64MAX) :
    ∃ lo w, h.lowestEquivalent v = .ok lo ∧ h.equivalentRange v = .ok w ∧ lo ≤ v ∧ v ≤ lo + w - 1 ∧
      (v < 2 * 10 ^ h.sigfig * 2 ^ fp.log2Floor h.low → w = 2 ^ fp.log2Floor h.low) ∧
      (2 * 10 ^ h.sigfig * 2 ^ fp.log2Floor h.low ≤ v → w * 10 ^ h.sigfig ≤ v) := by
  have hum : fp.log2Floor h.low = h.unitMag := R.wf.um.symm
  rw [hum]
  have W := R.wf
  refine ⟨_, _, lowestEquivalent_eq W.toLayoutOK hv, equivalentRange_eq W.toLayoutOK hv, Lay.lo_le, ?_, ?_, ?_⟩
  · have := @Lay.lt_lo_add h.unitMag h.subBucketHalfCountMag v
    unfold Hist.llo Hist.lwid; omega
  · have hsf : 2 * 10 ^ h.sigDigits ≤ 2 ^ (h.subBucketHalfCountMag + 1) := by
      rw [W.mag, scm_clog W.sig5]; exact Nat.le_pow_clog (by norm_num) _
    intro hlt
    have hlt2 : v < 2 ^ (h.subBucketHalfCountMag + 1) * 2 ^ h.unitMag :=
      lt_of_lt_of_le hlt (Nat.mul_le_mul_right _ hsf)
    unfold Hist.lwid Lay.wid Lay.bkt
    by_cases h0 : v = 0
    · subst h0; simp
    rw [← pow_add] at hlt2
    have := (Nat.log2_lt h0).mpr hlt2
    congr 1; omega
  · have hsf : 2 * 10 ^ h.sigDigits ≤ 2 ^ (h.subBucketHalfCountMag + 1) := by
      rw [W.mag, scm_clog W.sig5]; exact Nat.le_pow_clog (by norm_num) _
    have hsf' : 10 ^ h.sigDigits ≤ 2 ^ h.subBucketHalfCountMag := by rw [pow_succ] at hsf; omega
    intro hge
    by_cases hb : 0 < Lay.bkt h.unitMag h.subBucketHalfCountMag v
    · have h1 := @Lay.sub_ge h.unitMag h.subBucketHalfCountMag v hb
      calc h.lwid v * 10 ^ h.sigfig ≤ Lay.wid h.unitMag h.subBucketHalfCountMag v * 2 ^ h.subBucketHalfCountMag :=
            Nat.mul_le_mul_left _ hsf'
        _ ≤ Lay.wid h.unitMag h.subBucketHalfCountMag v * (v / Lay.wid h.unitMag h.subBucketHalfCountMag v) :=
            Nat.mul_le_mul_left _ h1
        _ ≤ v := Nat.mul_div_le _ _
    · have : h.lwid v = 2 ^ h.unitMag := by unfold Hist.lwid Lay.wid; congr 1; omega
      rw [this]
      calc 2 ^ h.unitMag * 10 ^ h.sigfig ≤ 2 * 10 ^ h.sigfig * 2 ^ h.unitMag := by
            rw [mul_comm]; exact Nat.mul_le_mul_right _ (by omega)
        _ ≤ v := hge

example : demo3.lowestEquivalent 13 = .ok 8 ∧ demo3.equivalentRange 13 = .ok 8 := by decide

/-- The unit of a histogram is the largest power of two not above `low()` (for `low()` below `2^45`, beyond which
`f64::log2` may round to the next integer). -/
theorem C04_unit {h : Hist T} (R : Reachable fp T h) (hl : h.low < 2 ^ 45) :
    2 ^ fp.log2Floor h.low ≤ h.low ∧ h.low < 2 * 2 ^ fp.log2Floor h.low := by
  have h1 : 1 ≤ h.low := R.wf.low1
  rw [fp.exactSmall _ h1 hl]
  have h0 : h.low ≠ 0 := by omega
  refine ⟨Nat.log2_self_le h0, ?_⟩
  have := Nat.lt_log2_self (n := h.low)
  rw [pow_succ] at this
  omega

/-! ## C05 -/

/-- C05 (1): `equivalent` never panics and is an equivalence relation on `u64`. -/
theorem C05_equivalence {h : Hist T} (R : Reachable fp T h) :
    (∀ a b, a ≤ U64MAX → b ≤ U64MAX → ∃ e, h.equivalent a b = .ok e) ∧
    (∀ a, a ≤ U64MAX → Equiv h a a) ∧
    (∀ a b, a ≤ U64MAX → b ≤ U64MAX → Equiv h a b → Equiv h b a) ∧
    (∀ a b c, a ≤ U64MAX → b ≤ U64MAX → c ≤ U64MAX → Equiv h a b → Equiv h b c → Equiv h a c) := by
  have W := R.wf
  refine ⟨fun a b ha hb => ⟨_, equivalent_eq W.toLayoutOK ha hb⟩, fun a ha => (W.equiv_iff ha ha).mpr rfl,
    fun a b ha hb h1 => (W.equiv_iff hb ha).mpr ((W.equiv_iff ha hb).mp h1).symm,
    fun a b c ha hb hc h1 h2 => (W.equiv_iff ha hc).mpr
      (((W.equiv_iff ha hb).mp h1).trans ((W.equiv_iff hb hc).mp h2))⟩

/-- C05 (2): the class of `v` is the interval of length `equivalent_range(v)` starting at
`lowest_equivalent(v)`; `highest_equivalent` is its last value and `next_non_equivalent` the first value
after it.  Only in the class ending at `u64::MAX` are the answers capped: there `next_non_equivalent` is
`u64::MAX`, and `highest_equivalent` is `u64::MAX - 1` for all values but `u64::MAX` itself. -/
theorem C05_classes {h : Hist T} (R : Reachable fp T h) {v : Nat} (hv : v ≤ U64MAX) :
    ∃ lo w hi nx, h.lowestEquivalent v = .ok lo ∧ h.equivalentRange v = .ok w
      ∧ h.highestEquivalent v = .ok hi ∧ h.nextNonEquivalent v = .ok nx
      ∧ lo + w ≤ U64MAX + 1
      ∧ (∀ x, x ≤ U64MAX → (Equiv h v x ↔ lo ≤ x ∧ x < lo + w))
      ∧ (lo + w ≤ U64MAX → hi = lo + w - 1 ∧ nx = lo + w)
      ∧ (lo + w = U64MAX + 1 → nx = U64MAX ∧ hi = if v = U64MAX then U64MAX else U64MAX - 1) := by
  have W := R.wf
  have L := W.toLayoutOK
  have hle : h.llo v + h.lwid v ≤ U64MAX + 1 := by
    have := Lay.lo_add_wid_le L.sum62 (U64MAX_lt.mp hv)
    norm_num at this
    have hU : U64MAX = 18446744073709551615 := rfl
    unfold Hist.llo Hist.lwid
    omega
  refine ⟨_, _, _, _, lowestEquivalent_eq L hv, equivalentRange_eq L hv, highestEquivalent_eq L hv,
    nextNonEquivalent_eq L hv, hle, fun x hx => ?_, fun hl => ⟨lhi_eq hl, ?_⟩, fun ht => ⟨?_, ?_⟩⟩
  · rw [W.equiv_iff hv hx, eq_comm]; exact Lay.idx_eq_iff
  · omega
  · omega
  · split
    · rename_i hvm; subst hvm; unfold Hist.lhi; simp
    · rename_i hvm; exact lhi_top (by rw [ht]; rfl) hvm

/-- C05 (3): `lowest_equivalent` is idempotent and monotone. -/
theorem C05_lowest {h : Hist T} (R : Reachable fp T h) {v w a b : Nat} (hw : w ≤ U64MAX)
    (hvw : v ≤ w) (ea : h.lowestEquivalent v = .ok a) (eb : h.lowestEquivalent w = .ok b) :
    a ≤ b ∧ h.lowestEquivalent a = .ok a := by
  have L := R.wf.toLayoutOK
  have hv : v ≤ U64MAX := le_trans hvw hw
  rw [lowestEquivalent_eq L hv] at ea
  rw [lowestEquivalent_eq L hw] at eb
  cases ea; cases eb
  refine ⟨Lay.lo_mono hvw, ?_⟩
  rw [lowestEquivalent_eq L (le_trans Lay.lo_le hv)]
  congr 1
  exact Lay.lo_lo

/-- C05 (4): below the top class, `next_non_equivalent(v)` is the smallest larger value not equivalent to `v`. -/
theorem C05_next {h : Hist T} (R : Reachable fp T h) {v nx : Nat} (hv : v ≤ U64MAX)
    (e : h.nextNonEquivalent v = .ok nx) (hnt : ¬ Equiv h v U64MAX) :
    v < nx ∧ nx ≤ U64MAX ∧ ¬ Equiv h v nx ∧ ∀ x, v ≤ x → x < nx → Equiv h v x := by
  obtain ⟨lo, w, hi, nx', e1, e2, e3, e4, e5, e6, e7, e8⟩ := C05_classes R hv
  rw [e4] at e; cases e
  have hself := (e6 v hv).mp ((C05_equivalence R).2.1 v hv)
  have hmax := (e6 U64MAX le_rfl).not.mp hnt
  have hlt : lo + w ≤ U64MAX := by
    by_contra hc
    exact hmax ⟨by omega, by omega⟩
  obtain ⟨-, rfl⟩ := e7 hlt
  refine ⟨hself.2, hlt, fun hc => ?_, fun x h1 h2 => (e6 x (by omega)).mpr ⟨by omega, h2⟩⟩
  have := (e6 _ hlt).mp hc
  omega

/-- C05 (5): equivalent values have the same count. -/
theorem C05_count {h : Hist T} (R : Reachable fp T h) {v w : Nat} (hv : v ≤ U64MAX) (hw : w ≤ U64MAX)
    (he : Equiv h v w) : ∃ n, h.countAt v = .ok n ∧ h.countAt w = .ok n := by
  have W := R.wf
  refine ⟨_, W.countAt_eq hv, ?_⟩
  rw [W.countAt_eq hw, (W.equiv_iff hv hw).mp he]

example : Equiv demo3 4 7 ∧ ¬ Equiv demo3 7 8 ∧ ¬ Equiv demo3 7 U64MAX
    ∧ demo3.nextNonEquivalent 5 = .ok 8 ∧ demo3.highestEquivalent 5 = .ok 7 := by decide

/-- The capping at the top (finding): `highest_equivalent` of a value equivalent to `u64::MAX` is not
`u64::MAX`. -/
theorem C05_top_capped : Equiv demo3 (2 ^ 63) U64MAX ∧ demo3.highestEquivalent (2 ^ 63) = .ok (U64MAX - 1)
    ∧ demo3.highestEquivalent U64MAX = .ok U64MAX := by decide

/-! ## C06 -/

/-- C06, whenever the `log2` in use does not round up past an integer -/
theorem C06_low_discernible_of_exact {low high sigfig v : Nat} {h : Hist T} (hh : high ≤ U64MAX)
    (e : Hist.newWithBounds fp T low high sigfig = .ok (.ok h)) (hlog : 2 ^ fp.log2Floor low ≤ low)
    (hv : low ≤ v) (hv' : v ≤ U64MAX) : h.equivalent 0 v = .ok false := by
  obtain ⟨W, rfl, -⟩ := newWithBounds_wf hh e
  rw [equivalent_eq W.toLayoutOK (by omega) hv']
  congr 1
  rw [beq_eq_false_iff_ne]
  intro hc
  have h1 := Lay.lo_eq_iff.mp hc
  rw [Lay.idx_zero] at h1
  have h2 := Lay.idx_eq_zero_iff.mp h1.symm
  have h3 : (Hist.fresh fp T low high sigfig).unitMag = fp.log2Floor low := rfl
  rw [h3] at h2
  omega

/-- C06 for every lowest discernible value below `2^45`. Missing: larger values, for which the claim depends on
how `f64::log2` rounds and is false for the correctly rounded one (`C06_refuted`). -/
theorem C06_low_discernible_partial {low high sigfig v : Nat} {h : Hist T} (hh : high ≤ U64MAX)
    (e : Hist.newWithBounds fp T low high sigfig = .ok (.ok h)) (hlow : low < 2 ^ 45)
    (hv : low ≤ v) (hv' : v ≤ U64MAX) : h.equivalent 0 v = .ok false := by
  have h1 := (newWithBounds_wf hh e).2.2.1
  refine C06_low_discernible_of_exact hh e ?_ hv hv'
  rw [fp.exactSmall low (by omega) hlow]
  exact Nat.log2_self_le (by omega)

example : ∃ h : Hist .u64, Hist.newWithBounds Fp.ideal .u64 4 200 0 = .ok (.ok h) ∧ h.equivalent 0 4 = .ok false :=
  ⟨demoU, demoU_eq, by decide⟩

/-- C06 fails at `low = 2^50 - 1` if `log2` rounds to 50, as the correctly rounded one does: the histogram is
accepted, but `low` is equivalent to 0. -/
theorem C06_refuted : ∃ h : Hist .u8, Hist.newWithBounds Fp.rounding .u8 (2 ^ 50 - 1) (2 ^ 51) 0 = .ok (.ok h)
    ∧ h.equivalent 0 (2 ^ 50 - 1) = .ok true :=
  ⟨_, rfl, by decide⟩

/-! ## C07 -/

/-- C07 -/
theorem C07_median {h : Hist T} (R : Reachable fp T h) {v : Nat} (hv : v ≤ U64MAX) :
    ∃ lo w hi m, h.lowestEquivalent v = .ok lo ∧ h.equivalentRange v = .ok w
      ∧ h.highestEquivalent v = .ok hi ∧ h.medianEquivalent v = .ok m
      ∧ m = lo + w / 2 ∧ lo ≤ m ∧ m ≤ hi := by
  have W := R.wf
  have L := W.toLayoutOK
  refine ⟨_, _, _, _, lowestEquivalent_eq L hv, equivalentRange_eq L hv, highestEquivalent_eq L hv,
    medianEquivalent_eq L hv, rfl, by omega, ?_⟩
  have hp : 0 < h.lwid v := Lay.wid_pos
  have hb := Lay.lo_add_wid_le L.sum62 (U64MAX_lt.mp hv)
  by_cases hne : h.llo v + h.lwid v ≤ U64MAX
  · rw [lhi_eq hne]; omega
  · have ht : h.llo v + h.lwid v = U64MAX + 1 := by
      norm_num at hb
      have hU : U64MAX = 18446744073709551615 := rfl
      unfold Hist.llo Hist.lwid at *
      omega
    by_cases hm : v = U64MAX
    · subst hm
      have : h.lhi U64MAX = U64MAX := by unfold Hist.lhi; simp
      rw [this]; omega
    · rw [lhi_top (by rw [ht]; rfl) hm]
      -- the top class is wide
      have h2 : h.llo v ≤ v := Lay.lo_le
      have hU : U64MAX = 18446744073709551615 := rfl
      have h3 : 4 ≤ h.lwid v := by
        by_contra hc
        have hv3 : 2 ^ 63 ≤ v := by omega
        have hl : 63 ≤ v.log2 := (Nat.le_log2 (by omega)).mpr hv3
        have h17 := L.mag17
        have : 2 ^ 2 ≤ h.lwid v := by
          unfold Hist.lwid Lay.wid
          refine Nat.pow_le_pow_right (by norm_num) ?_
          unfold Lay.bkt
          omega
        omega
      omega

example : demo3.medianEquivalent 13 = .ok 12 := by decide

/-! ## C08 -/

/-- C08 -/
theorem C08_storage {h : Hist T} (R : Reachable fp T h) :
    h.distinctValues = (h.buckets + 1) * 2 ^ (Nat.clog 2 (2 * 10 ^ h.sigfig) - 1)
    ∧ (∀ b, 1 ≤ b →
      (h.high < 2 ^ (fp.log2Floor h.low + (Nat.clog 2 (2 * 10 ^ h.sigfig) - 1) + b) ↔ h.buckets ≤ b))
    ∧ 1 ≤ h.buckets ∧ h.buckets ≤ 64 ∧ h.distinctValues < 2 ^ 23
    ∧ ∀ v, v ≤ U64MAX → ∃ i, h.indexFor v = .ok (some i) ∧ i < 2 ^ 23 := by
  have W := R.wf
  have L := W.toLayoutOK
  have hsum := bkt_sum L W.highmax
  have key : ∀ m k, m ≤ 17 → k + m ≤ 65 → k * 2 ^ m < 2 ^ 23 := by
    intro m k hm hk
    have : m = 0 ∨ m = 1 ∨ m = 2 ∨ m = 3 ∨ m = 4 ∨ m = 5 ∨ m = 6 ∨ m = 7 ∨ m = 8 ∨ m = 9 ∨ m = 10 ∨ m = 11
      ∨ m = 12 ∨ m = 13 ∨ m = 14 ∨ m = 15 ∨ m = 16 ∨ m = 17 := by omega
    rcases this with rfl | rfl | rfl | rfl | rfl | rfl | rfl | rfl | rfl | rfl | rfl | rfl | rfl | rfl | rfl | rfl
      | rfl | rfl <;> norm_num <;> omega
  have hlen : h.counts.length < 2 ^ 23 := by
    rw [W.len]
    refine key _ _ L.mag17 ?_
    rw [W.bc]; omega
  refine ⟨?_, fun b hb => ?_, ?_, ?_, hlen, fun v hv => ⟨_, indexFor_eq L hv, ?_⟩⟩
  · unfold Hist.distinctValues Hist.buckets Hist.sigfig
    rw [W.len, ← scm_clog W.sig5, ← W.mag]; rfl
  · have hum : fp.log2Floor h.low = h.unitMag := W.um.symm
    have hmg : Nat.clog 2 (2 * 10 ^ h.sigfig) - 1 = h.subBucketHalfCountMag := by
      unfold Hist.sigfig
      rw [← scm_clog W.sig5, ← W.mag]; rfl
    rw [hum, hmg]
    unfold Hist.high Hist.buckets
    rw [W.bc]
    unfold Hist.lbkt Lay.bkt
    by_cases h0 : h.highestTrackable = 0
    · have := W.highlow; have := W.low1; omega
    rw [← Nat.log2_lt h0]
    omega
  · unfold Hist.buckets; rw [W.bc]; omega
  · unfold Hist.buckets; rw [W.bc]; omega
  · refine lt_trans (lidx_lt_all L hv) ?_
    unfold Hist.lall Lay.allSlots
    refine key _ _ L.mag17 ?_
    have := L.sum62
    omega

example : demo3.buckets = 4 ∧ demo3.distinctValues = 5 := by decide

end Hdr
