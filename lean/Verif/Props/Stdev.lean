import Verif.Proofs.Stdev
import Verif.Props.Mean

/-!
# C64: the standard deviation
-/

namespace Hdr

variable {T : CounterTy} {fp : Fp}

/-- C64 (1): the standard deviation of a histogram without samples is 0. -/
theorem C64_empty (h : Hist T) (h0 : h.len = 0) : h.stdev = .ok (.fin 0) := by
  unfold Hist.stdev
  rw [if_pos (show h.totalCount = 0 from h0)]
  rfl

/-- C64 (2): whatever was recorded, the standard deviation is a finite number, and not negative. -/
theorem C64_total {h : Hist T} (R : Reachable fp T h) : ∃ s, h.stdev = .ok (.fin s) ∧ 0 ≤ s := by
  by_cases h0 : h.len = 0
  · exact ⟨0, C64_empty h h0, le_rfl⟩
  · obtain ⟨_, s, _, _, _, h1, h2, _⟩ := R.wf.stdev_near h0
    exact ⟨s, h1, h2⟩

theorem stdev_combine {s a c b : ℝ} (hs : |s - a| ≤ 1 / 2 ^ 28 * a) (h1 : a ≤ c + b / 2 ^ 27) (h2 : c ≤ a + b / 2 ^ 27)
    (h3 : c ≤ b) : |s - c| ≤ b / 2 ^ 26 := by
  rw [abs_le] at hs ⊢
  norm_num at *
  constructor <;> linarith

/-- C64 (3): the standard deviation differs from the exact population standard deviation of the class medians, weighted
with the counts, by at most `2 ^ -26` times the largest median of a class with samples (`b`).  The sum of the counts must
not exceed `len()`, which can only happen after more than `2 ^ 64` samples (see `C16_len_ge`). -/
theorem C64_stdev {h : Hist T} (R : Reachable fp T h) {cs : List Cls} (C : Classes h cs) {ms : List Nat}
    (hm : Medians h cs ms) (h0 : h.len ≠ 0) (hl : (cs.map (·.count)).sum ≤ h.len) {b : Nat} (hb : MediansLe b cs ms) :
    ∃ s, h.stdev = .ok (.fin s) ∧ |(s : ℝ) - exactStdev h cs ms| ≤ b / 2 ^ 26 ∧ exactStdev h cs ms ≤ b := by
  have W := R.wf
  rw [W.sum_classes C] at hl
  have hposq : (0 : ℚ) < h.totalCount := by exact_mod_cast Nat.pos_of_ne_zero h0
  have hposr : (0 : ℝ) < h.totalCount := by exact_mod_cast Nat.pos_of_ne_zero h0
  obtain ⟨x, s, -, n1, g, e, s0, n2⟩ := W.stdev_near h0
  have hμ := W.exactMean_eq C hm
  have hslot : ∀ i ∈ List.range h.counts.length, h.counts.getD i 0 ≠ 0 → h.lval i + h.lwid (h.lval i) / 2 ≤ b := by
    rw [W.classes_unique C] at hm hb
    exact W.mediansLe_slot _ WF.range_lt hm hb
  have hV : ((exactVariance h cs ms : ℚ) : ℝ) = wsq (fun i => (h.counts.getD i 0 : ℝ))
      (fun i => (((h.lval i + h.lwid (h.lval i) / 2 : ℕ) : ℚ) - exactMean h cs ms : ℚ)) (List.range h.counts.length)
        / h.totalCount := by
    unfold exactVariance
    generalize exactMean h cs ms = μ
    rw [W.classes_unique C] at hm ⊢
    push_cast
    rw [W.weightedSq_eq μ _ WF.range_lt hm]
    push_cast
    rfl
  have hu : 8 + h.meanUsed (List.range h.counts.length) ≤ 16777224 := by
    have h1 := meanUsed_le (h := h) (List.range h.counts.length)
    have h2 := W.len_le_all
    have h3 : h.lall < 2 ^ 24 := Lay.allSlots_lt W.mag17
    rw [List.length_range] at h1
    norm_num at h3
    omega
  have hμ0 : 0 ≤ exactMean h cs ms := by rw [hμ]; positivity
  have hμb : exactMean h cs ms ≤ b := by
    rw [hμ, div_le_iff₀ hposq]
    have h1 := meanSum_le (h := h) (b := b) (List.range h.counts.length) hslot
    rw [sum_range_getD] at h1
    have h2 := le_trans h1 (Nat.mul_le_mul_left b hl)
    exact_mod_cast h2
  have hxμ : |x - exactMean h cs ms| ≤ exactMean h cs ms / 2 ^ 28 := by
    rw [← hμ] at n1
    exact n1.abs hμ0 (by omega)
  generalize exactMean h cs ms = μ at *
  have hc : ∀ i, (0 : ℝ) ≤ h.counts.getD i 0 := fun i => by positivity
  have hsum : ((List.range h.counts.length).map fun i => (h.counts.getD i 0 : ℝ)).sum ≤ h.totalCount := by
    have h1 : ((List.range h.counts.length).map fun i => h.counts.getD i 0).sum ≤ h.totalCount := by
      rw [sum_range_getD]; exact hl
    have h2 : ((((List.range h.counts.length).map fun i => h.counts.getD i 0).sum : ℕ) : ℝ) ≤ h.totalCount := by
      exact_mod_cast h1
    rw [Nat.cast_list_sum, List.map_map] at h2
    exact h2
  have hdev : ∀ i ∈ List.range h.counts.length, (h.counts.getD i 0 : ℝ) ≠ 0 →
      |((devQ x (h.lval i + h.lwid (h.lval i) / 2) : ℚ) : ℝ)
        - ((((h.lval i + h.lwid (h.lval i) / 2 : ℕ) : ℚ) - μ : ℚ) : ℝ)| ≤ (b : ℝ) / 2 ^ 27 := by
    intro i hi hne
    have := devQ_near g (hslot i hi (by exact_mod_cast hne)) hμ0 hμb hxμ
    have h2 : ((|devQ x (h.lval i + h.lwid (h.lval i) / 2) - (((h.lval i + h.lwid (h.lval i) / 2 : ℕ) : ℚ) - μ)| : ℚ) : ℝ)
        ≤ ((b / 2 ^ 27 : ℚ) : ℝ) := by exact_mod_cast this
    push_cast at h2 ⊢
    exact h2
  have hb0 : (0 : ℝ) ≤ b := by positivity
  have r1 := rms_shift hc (div_nonneg hb0 (by positivity)) hposr _ hsum hdev
  have hdev' := fun i hi hne => (abs_sub_comm _ _).trans_le (hdev i hi hne)
  have r2 := rms_shift hc (div_nonneg hb0 (by positivity)) hposr _ hsum hdev'
  have hσ : exactStdev h cs ms ≤ b := by
    unfold exactStdev
    rw [hV, Real.sqrt_le_left hb0, div_le_iff₀ hposr]
    refine le_trans (wsq_le hc (b := b) _ ?_) (mul_le_mul_of_nonneg_left hsum (sq_nonneg _))
    intro i hi hne
    have h1 : (((h.lval i + h.lwid (h.lval i) / 2 : ℕ) : ℚ)) ≤ b := by
      exact_mod_cast hslot i hi (by exact_mod_cast hne)
    have h2 : (0 : ℚ) ≤ ((h.lval i + h.lwid (h.lval i) / 2 : ℕ) : ℚ) := by positivity
    have h3 : |((h.lval i + h.lwid (h.lval i) / 2 : ℕ) : ℚ) - μ| ≤ b := by
      rw [abs_le]; constructor <;> linarith
    exact_mod_cast h3
  refine ⟨s, e, ?_, hσ⟩
  have hq : ((8 + h.meanUsed (List.range h.counts.length) : ℕ) : ℚ) ≤ 16777224 := by exact_mod_cast hu
  obtain ⟨p1, p2⟩ := pow_bounds (n := 8 + h.meanUsed (List.range h.counts.length)) (by
    refine le_trans (mul_le_mul_of_nonneg_right hq eps_pos.le) ?_
    unfold eps; norm_num)
  have hv0 : 0 ≤ h.devSum x (List.range h.counts.length) / h.totalCount := div_nonneg (devSum_nonneg _) hposq.le
  have q1 := le_trans (mul_le_mul_of_nonneg_left p1 hv0) n2.1
  have q2 := le_trans n2.2 (mul_le_mul_of_nonneg_left p2 hv0)
  have hD : ((h.devSum x (List.range h.counts.length) / h.totalCount : ℚ) : ℝ)
      = wsq (fun i => (h.counts.getD i 0 : ℝ)) (fun i => (devQ x (h.lval i + h.lwid (h.lval i) / 2) : ℝ))
        (List.range h.counts.length) / h.totalCount := by
    push_cast
    rw [devSum_eq]
  generalize h.devSum x (List.range h.counts.length) / (h.totalCount : ℚ) = v at *
  have q1' : ((v * (1 - 1 / 2 ^ 28) : ℚ) : ℝ) ≤ ((s ^ 2 : ℚ) : ℝ) := Rat.cast_le.mpr q1
  have q2' : ((s ^ 2 : ℚ) : ℝ) ≤ ((v * (1 + 1 / 2 ^ 28) : ℚ) : ℝ) := Rat.cast_le.mpr q2
  push_cast at q1' q2'
  have hs := sqrt_rel (Rat.cast_nonneg.mpr s0) (Rat.cast_nonneg.mpr hv0) (by positivity) (by norm_num) q1' q2'
  rw [hD] at hs
  unfold exactStdev at hσ ⊢
  rw [hV] at hσ ⊢
  exact stdev_combine hs r1 r2 hσ

/-- an instance of (3): `demo3` holds 204 samples in classes with the medians 0, 6 and 12 -/
example : Classes demo3 demo3Classes ∧ Medians demo3 demo3Classes [0, 1, 3, 6, 12] ∧ demo3.len ≠ 0 ∧
    (demo3Classes.map (·.count)).sum ≤ demo3.len ∧ MediansLe 12 demo3Classes [0, 1, 3, 6, 12] ∧
    exactVariance demo3 demo3Classes [0, 1, 3, 6, 12] = 1403 / 1156 ∧
    demo3.stdev = .ok (.fin (4961462269272499 / 4503599627370496)) := by
  refine ⟨demo3_classes, ?_, by decide, by decide, ?_, ?_, by decide +kernel⟩
  · unfold Medians demo3Classes
    repeat' constructor
  · simp [MediansLe, demo3Classes]
  · unfold exactVariance exactMean; decide +kernel

theorem mediansLe_of {h : Hist T} {b : Nat} : ∀ {cs : List Cls} {ms : List Nat}, Medians h cs ms →
    (∀ c ∈ cs, c.count ≠ 0 → ∀ m, h.medianEquivalent c.lo = .ok m → m ≤ b) → MediansLe b cs ms
  | [], _, _, _ => trivial
  | _ :: _, _, .cons h1 h2, hb => ⟨fun hc => hb _ (by simp) hc _ h1, mediansLe_of h2 fun c hc => hb c (by simp [hc])⟩

/-- C64 (4): the standard deviation does not exceed `max()`, up to rounding (under the conditions of (3), and unless only
zeros are recorded with a unit above 1). -/
theorem C64_le_max_partial {h : Hist T} (R : Reachable fp T h) {cs : List Cls} (C : Classes h cs)
    (hl : (cs.map (·.count)).sum ≤ h.len) {hi : Nat} (hhi : h.max = .ok hi)
    (hz : hi ≠ 0 ∨ h.highestEquivalent 0 = .ok 0) :
    ∃ s, h.stdev = .ok (.fin s) ∧ s ≤ hi * (1 + 1 / 2 ^ 26) := by
  have W := R.wf
  have hz := hz.imp_right W.unit_one
  by_cases h0 : h.len = 0
  · exact ⟨0, C64_empty h h0, by positivity⟩
  obtain ⟨ms, hm⟩ := C52_medians R C
  rw [W.max_eq] at hhi
  injection hhi with hhi
  subst hhi
  have hb : MediansLe h.lmax cs ms := by
    refine mediansLe_of hm ?_
    intro c hc hne m em
    rw [W.classes_unique C] at hc
    obtain ⟨i, hi, rfl⟩ := List.mem_map.mp hc
    have hi := List.mem_range.mp hi
    rw [show (h.lcls i).lo = h.lval i from rfl, (W.median_top hi).2.1] at em
    injection em with em
    rw [← em]
    exact W.median_le_max hi hne hz
  obtain ⟨s, e, h1, h2⟩ := C64_stdev R C hm h0 hl hb
  refine ⟨s, e, ?_⟩
  have h3 : (s : ℝ) ≤ h.lmax * (1 + 1 / 2 ^ 26) := by
    rw [abs_le] at h1
    have := h1.2
    norm_num at this ⊢
    linarith
  have h4 : ((s : ℚ) : ℝ) ≤ ((h.lmax * (1 + 1 / 2 ^ 26) : ℚ) : ℝ) := by push_cast; exact h3
  exact Rat.cast_le.mp h4

theorem weightedSq_zero {h : Hist T} {lo m : Nat} : ∀ {cs : List Cls} {ms : List Nat}, Medians h cs ms →
    h.medianEquivalent lo = .ok m → (∀ c ∈ cs, c.count ≠ 0 → c.lo = lo) →
    weightedSum cs ms = m * (cs.map (·.count)).sum ∧ weightedSq m cs ms = 0 ∧ MediansLe m cs ms
  | [], _, .nil, _, _ => ⟨rfl, rfl, trivial⟩
  | c :: cs, m' :: ms, .cons h1 h2, hlo, hb => by
    obtain ⟨i1, i2, i3⟩ := weightedSq_zero (cs := cs) (ms := ms) h2 hlo fun c hc => hb c (by simp [hc])
    simp only [weightedSum, weightedSq, MediansLe, List.map_cons, List.sum_cons]
    rw [i1, i2]
    by_cases hc : c.count = 0
    · rw [hc]; exact ⟨by simp, by simp, fun h => absurd rfl h, i3⟩
    · have := hb c (by simp) hc
      rw [this, hlo] at h1
      injection h1 with h1
      subst h1
      exact ⟨by ring, by ring, fun _ => le_rfl, i3⟩

/-- C64 (5): when all samples are in one class, the standard deviation is 0 up to rounding. -/
theorem C64_one_class {h : Hist T} (R : Reachable fp T h) {cs : List Cls} (C : Classes h cs)
    (hl : h.len = (cs.map (·.count)).sum) {lo m : Nat} (hone : ∀ c ∈ cs, c.count ≠ 0 → c.lo = lo)
    (hm : h.medianEquivalent lo = .ok m) : ∃ s, h.stdev = .ok (.fin s) ∧ 0 ≤ s ∧ s ≤ m / 2 ^ 26 := by
  by_cases h0 : h.len = 0
  · exact ⟨0, C64_empty h h0, le_rfl, by positivity⟩
  obtain ⟨ms, hms⟩ := C52_medians R C
  obtain ⟨w1, w2, w3⟩ := weightedSq_zero hms hm hone
  obtain ⟨s, e, h1, h2⟩ := C64_stdev R C hms h0 hl.ge w3
  obtain ⟨s', e', h3⟩ := C64_total R
  rw [e] at e'
  injection e' with e'
  injection e' with e'
  subst e'
  have hlq : (h.len : ℚ) ≠ 0 := by exact_mod_cast h0
  have hμ : exactMean h cs ms = m := by
    unfold exactMean
    rw [w1, ← hl]
    push_cast
    field_simp
  have hσ : exactStdev h cs ms = 0 := by
    unfold exactStdev exactVariance
    rw [hμ, w2]
    simp
  rw [hσ, sub_zero] at h1
  refine ⟨s, e, h3, ?_⟩
  have h4 : ((s : ℚ) : ℝ) ≤ ((m / 2 ^ 26 : ℚ) : ℝ) := by
    push_cast
    exact le_trans (le_abs_self _) h1
  exact Rat.cast_le.mp h4

/-- three samples of the value 5 -/
def demo555 : Hist .u8 :=
  { demo with maxValue := 5, minNonZero := 5, totalCount := 3, counts := [0, 0, 0, 3, 0] }

def demo555Classes : List Cls := [⟨0, 0, 0⟩, ⟨1, 1, 0⟩, ⟨2, 3, 0⟩, ⟨4, 7, 3⟩, ⟨8, 15, 0⟩]

/-- an instance of (4) and (5) -/
example : demo.recordN 5 3 = .ok (demo555, .ok ()) ∧ Classes demo555 demo555Classes ∧
    demo555.len = (demo555Classes.map (·.count)).sum ∧ (∀ c ∈ demo555Classes, c.count ≠ 0 → c.lo = 4) ∧
    demo555.medianEquivalent 4 = .ok 6 ∧ demo555.max = .ok 7 ∧ demo555.stdev = .ok (.fin 0) :=
  ⟨by decide +kernel, ⟨by decide +kernel, by decide +kernel, by decide +kernel⟩, by decide, by decide, by decide +kernel,
    by decide +kernel, by decide +kernel⟩

/-- as `demoU`, with 8-bit counters -/
def demoU8 : Hist .u8 :=
  { autoResize := false, highestTrackable := 200, lowestDiscernible := 4, sigDigits := 0, bucketCount := 6
    subBucketCount := 2, subBucketHalfCount := 1, subBucketHalfCountMag := 0, subBucketMask := 4
    leadingZeroCountBase := 61, unitMag := 2, unitMagMask := 3, maxValue := 0, minNonZero := U64MAX
    totalCount := 0, counts := [0, 0, 0, 0, 0, 0, 0] }

/-- (4) fails when a counter has saturated and only zeros are recorded with a unit above 1: 300 zeros in a `u8` counter are
255, of median 2, so the mean is 1.7 and the deviation from it is about 0.28, while `max()` is 0. -/
theorem C64_refuted : Hist.newWithBounds Fp.ideal .u8 4 200 0 = .ok (.ok demoU8) ∧
    ∃ h s, recordSeq [(0, 200), (0, 100)] demoU8 = .ok (h, .ok ()) ∧ h.max = .ok 0 ∧ h.stdev = .ok (.fin s) ∧ 1 / 4 ≤ s :=
  ⟨by decide +kernel, { demoU8 with totalCount := 300, counts := [255, 0, 0, 0, 0, 0, 0] }, 4982536437886797 / 18014398509481984,
    by decide +kernel, by decide +kernel, by decide +kernel, by decide +kernel⟩

end Hdr
