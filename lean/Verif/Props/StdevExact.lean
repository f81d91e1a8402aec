import Verif.Props.Stdev
import Verif.Props.MeanExact
import Verif.Props.Cli

/-!
# C64: the standard deviation of every histogram

`C64_stdev` needs the counts not to add up to more than `len()`. Here they may: `κ` is a factor by which they do.
-/

namespace Hdr

open F64

variable {T : CounterTy} {fp : Fp}

theorem devQ_near' {x μ b : ℚ} {m : Nat} (hx : Grid x) (hm : (m : ℚ) ≤ b) (h0 : 0 ≤ μ) (hμ : μ ≤ b) (hxμ : |x - μ| ≤ μ / 2 ^ 28) :
    |devQ x m - ((m : ℚ) - μ)| ≤ b / 2 ^ 27 := by
  have hm0 : (0 : ℚ) ≤ m := by positivity
  have h1 := nat_near (n := m)
  rw [near_iff, pow_one, pow_one] at h1
  have he : eps = 1 / 2 ^ 53 := rfl
  rw [he] at h1
  have h2 := rndQ_err_abs ((rndQ_nat_grid m).sub hx)
  unfold devQ
  have hx0 : |rndQ (m : ℚ) - x| ≤ 2 * b := by
    rw [abs_le] at hxμ ⊢
    norm_num at h1 hxμ
    constructor <;> linarith [h1.1, h1.2, hxμ.1, hxμ.2]
  have h3 := le_trans h2 (div_le_div_of_nonneg_right hx0 (by positivity))
  generalize rndQ (rndQ (m : ℚ) - x) = w at *
  generalize rndQ (m : ℚ) = r at *
  rw [abs_le] at h3 hxμ ⊢
  clear hx
  generalize (m : ℚ) = m' at *
  norm_num at h1 hxμ h3 ⊢
  constructor <;> linarith [h1.1, h1.2, hxμ.1, hxμ.2, h3.1, h3.2]

theorem sqrt_scale {w n k : ℝ} (hn : 0 < n) (hk : 0 < k) : Real.sqrt (w / n) = Real.sqrt k * Real.sqrt (w / (k * n)) := by
  rw [← Real.sqrt_mul hk.le]
  congr 1
  field_simp

/-- C64 (3), without a condition: with counts that add up to at most `κ` times `len()` (`κ = 1` unless there were more than
`2 ^ 64` samples), the standard deviation differs from the root of the sum of the squared deviations over `len()` by at most
`2 ^ -26` times the bound `b κ √κ`, where `b` is the largest median of a class with samples. -/
theorem C64_stdev_all {h : Hist T} (R : Reachable fp T h) {cs : List Cls} (C : Classes h cs) {ms : List Nat}
    (hm : Medians h cs ms) (h0 : h.len ≠ 0) {κ : ℚ} (hκ : 1 ≤ κ) (hl : ((((cs.map (·.count)).sum : ℕ) : ℚ)) ≤ κ * h.len) {b : Nat}
    (hb : MediansLe b cs ms) :
    ∃ s, h.stdev = .ok (.fin s) ∧ |(s : ℝ) - exactStdev h cs ms| ≤ b * κ * Real.sqrt κ / 2 ^ 26 ∧
      exactStdev h cs ms ≤ b * κ * Real.sqrt κ := by
  have W := R.wf
  rw [W.sum_classes C] at hl
  have hposq : (0 : ℚ) < h.totalCount := by exact_mod_cast Nat.pos_of_ne_zero h0
  have hposr : (0 : ℝ) < h.totalCount := by exact_mod_cast Nat.pos_of_ne_zero h0
  have hκr : (1 : ℝ) ≤ κ := by exact_mod_cast hκ
  have hκ0 : (0 : ℝ) < κ := by linarith
  change (h.counts.sum : ℚ) ≤ κ * h.totalCount at hl
  obtain ⟨x, s, -, n1, g, e, s0, n2⟩ := W.stdev_near h0
  have hμ := W.exactMean_eq C hm
  have hslot : ∀ i ∈ List.range h.counts.length, h.counts.getD i 0 ≠ 0 → h.lval i + h.lwid (h.lval i) / 2 ≤ b := by
    rw [W.classes_unique C] at hm hb
    exact W.mediansLe_slot _ WF.range_lt hm hb
  have hV : ((exactVariance h cs ms : ℚ) : ℝ) = wsq (fun i => (h.counts.getD i 0 : ℝ))
      (fun i => (((h.lval i + h.lwid (h.lval i) / 2 : ℕ) : ℚ) - exactMean h cs ms : ℚ)) (List.range h.counts.length)
        / h.totalCount := by
    unfold exactVariance
    generalize exactMean h cs ms = μ
    rw [W.classes_unique C] at hm ⊢
    push_cast
    rw [W.weightedSq_eq μ _ WF.range_lt hm]
    push_cast
    rfl
  have hu : 8 + h.meanUsed (List.range h.counts.length) ≤ 16777224 := by
    have h1 := meanUsed_le (h := h) (List.range h.counts.length)
    have h2 := W.len_le_all
    have h3 : h.lall < 2 ^ 24 := Lay.allSlots_lt W.mag17
    rw [List.length_range] at h1
    norm_num at h3
    omega
  have hb0 : (0 : ℚ) ≤ b := by positivity
  have hbκ : (b : ℚ) ≤ b * κ := by nlinarith
  have hμ0 : 0 ≤ exactMean h cs ms := by rw [hμ]; positivity
  have hμb : exactMean h cs ms ≤ b * κ := by
    rw [hμ, div_le_iff₀ hposq]
    have h1 := meanSum_le (h := h) (b := b) (List.range h.counts.length) hslot
    rw [sum_range_getD] at h1
    have h2 : (h.meanSum (List.range h.counts.length) : ℚ) ≤ b * h.counts.sum := by exact_mod_cast h1
    refine le_trans h2 ?_
    rw [mul_assoc]
    exact mul_le_mul_of_nonneg_left hl hb0
  have hxμ : |x - exactMean h cs ms| ≤ exactMean h cs ms / 2 ^ 28 := by
    rw [← hμ] at n1
    exact n1.abs hμ0 (by omega)
  generalize exactMean h cs ms = μ at *
  have hc : ∀ i, (0 : ℝ) ≤ h.counts.getD i 0 := fun i => by positivity
  have hsum : ((List.range h.counts.length).map fun i => (h.counts.getD i 0 : ℝ)).sum ≤ κ * h.totalCount := by
    have h2 : ((((List.range h.counts.length).map fun i => h.counts.getD i 0).sum : ℕ) : ℝ) ≤ κ * h.totalCount := by
      rw [sum_range_getD]
      exact_mod_cast hl
    rw [Nat.cast_list_sum, List.map_map] at h2
    exact h2
  have hdev : ∀ i ∈ List.range h.counts.length, (h.counts.getD i 0 : ℝ) ≠ 0 →
      |((devQ x (h.lval i + h.lwid (h.lval i) / 2) : ℚ) : ℝ)
        - ((((h.lval i + h.lwid (h.lval i) / 2 : ℕ) : ℚ) - μ : ℚ) : ℝ)| ≤ (b * κ : ℝ) / 2 ^ 27 := by
    intro i hi hne
    have hmb : ((h.lval i + h.lwid (h.lval i) / 2 : ℕ) : ℚ) ≤ b := by exact_mod_cast hslot i hi (by exact_mod_cast hne)
    have := devQ_near' g (le_trans hmb hbκ) hμ0 hμb hxμ
    have h2 : ((|devQ x (h.lval i + h.lwid (h.lval i) / 2) - (((h.lval i + h.lwid (h.lval i) / 2 : ℕ) : ℚ) - μ)| : ℚ) : ℝ)
        ≤ ((b * κ / 2 ^ 27 : ℚ) : ℝ) := by exact_mod_cast this
    push_cast at h2 ⊢
    exact h2
  have hbr : (0 : ℝ) ≤ b * κ := by positivity
  have hposκ : (0 : ℝ) < κ * h.totalCount := mul_pos hκ0 hposr
  have r1 := rms_shift hc (div_nonneg hbr (by positivity)) hposκ _ hsum hdev
  have hdev' := fun i hi hne => (abs_sub_comm _ _).trans_le (hdev i hi hne)
  have r2 := rms_shift hc (div_nonneg hbr (by positivity)) hposκ _ hsum hdev'
  have hκs := Real.sqrt_nonneg (κ : ℝ)
  have hσ : exactStdev h cs ms ≤ b * κ * Real.sqrt κ := by
    unfold exactStdev
    rw [hV, sqrt_scale hposr hκ0, mul_comm]
    refine mul_le_mul_of_nonneg_right ?_ hκs
    rw [Real.sqrt_le_left hbr, div_le_iff₀ hposκ]
    refine le_trans (wsq_le hc (b := b * κ) _ ?_) (mul_le_mul_of_nonneg_left hsum (sq_nonneg _))
    intro i hi hne
    have h1 : (((h.lval i + h.lwid (h.lval i) / 2 : ℕ) : ℚ)) ≤ b := by
      exact_mod_cast hslot i hi (by exact_mod_cast hne)
    have h2 : (0 : ℚ) ≤ ((h.lval i + h.lwid (h.lval i) / 2 : ℕ) : ℚ) := by positivity
    have h3 : |((h.lval i + h.lwid (h.lval i) / 2 : ℕ) : ℚ) - μ| ≤ b * κ := by
      rw [abs_le]; constructor <;> linarith
    exact_mod_cast h3
  refine ⟨s, e, ?_, hσ⟩
  have hq : ((8 + h.meanUsed (List.range h.counts.length) : ℕ) : ℚ) ≤ 16777224 := by exact_mod_cast hu
  obtain ⟨p1, p2⟩ := pow_bounds (n := 8 + h.meanUsed (List.range h.counts.length)) (by
    refine le_trans (mul_le_mul_of_nonneg_right hq eps_pos.le) ?_
    unfold eps; norm_num)
  have hv0 : 0 ≤ h.devSum x (List.range h.counts.length) / h.totalCount := div_nonneg (devSum_nonneg _) hposq.le
  have q1 := le_trans (mul_le_mul_of_nonneg_left p1 hv0) n2.1
  have q2 := le_trans n2.2 (mul_le_mul_of_nonneg_left p2 hv0)
  have hD : ((h.devSum x (List.range h.counts.length) / h.totalCount : ℚ) : ℝ)
      = wsq (fun i => (h.counts.getD i 0 : ℝ)) (fun i => (devQ x (h.lval i + h.lwid (h.lval i) / 2) : ℝ))
        (List.range h.counts.length) / h.totalCount := by
    push_cast
    rw [devSum_eq]
  generalize h.devSum x (List.range h.counts.length) / (h.totalCount : ℚ) = v at *
  have q1' : ((v * (1 - 1 / 2 ^ 28) : ℚ) : ℝ) ≤ ((s ^ 2 : ℚ) : ℝ) := Rat.cast_le.mpr q1
  have q2' : ((s ^ 2 : ℚ) : ℝ) ≤ ((v * (1 + 1 / 2 ^ 28) : ℚ) : ℝ) := Rat.cast_le.mpr q2
  push_cast at q1' q2'
  have hs := sqrt_rel (Rat.cast_nonneg.mpr s0) (Rat.cast_nonneg.mpr hv0) (by positivity) (by norm_num) q1' q2'
  rw [hD] at hs
  unfold exactStdev at hσ ⊢
  rw [hV] at hσ ⊢
  rw [sqrt_scale hposr hκ0] at hs hσ ⊢
  have r1' := mul_le_mul_of_nonneg_left r1 hκs
  have r2' := mul_le_mul_of_nonneg_left r2 hκs
  refine stdev_combine hs ?_ ?_ hσ
  · refine le_trans r1' (le_of_eq ?_)
    ring
  · refine le_trans r2' (le_of_eq ?_)
    ring

/-- C64 (4), without a condition: the standard deviation does not exceed a bound `b` on the classes with samples by more than the
factor `κ √κ`, and rounding. `b` is not the `max()` the histogram shows if that is the 0 of a histogram with only zeros (see
`C64_refuted`). -/
theorem C64_le_all {h : Hist T} (R : Reachable fp T h) {cs : List Cls} (C : Classes h cs) {κ : ℚ} (hκ : 1 ≤ κ)
    (hl : ((((cs.map (·.count)).sum : ℕ) : ℚ)) ≤ κ * h.len) {b : Nat} (hb : ∀ c ∈ cs, c.count ≠ 0 → c.hi ≤ b) :
    ∃ s, h.stdev = .ok (.fin s) ∧ (s : ℝ) ≤ b * κ * Real.sqrt κ * (1 + 1 / 2 ^ 26) := by
  have hκr : (1 : ℝ) ≤ κ := by exact_mod_cast hκ
  by_cases h0 : h.len = 0
  · refine ⟨0, C64_empty h h0, ?_⟩
    have := Real.sqrt_nonneg (κ : ℝ)
    push_cast
    positivity
  obtain ⟨ms, hm⟩ := C52_medians R C
  have W := R.wf
  have hM : MediansLe b cs ms := by
    refine mediansLe_of hm ?_
    intro c hc hne m em
    have hh := hb c hc hne
    obtain ⟨i, hi, rfl⟩ := (W.mem_classes C).mp hc
    obtain ⟨-, h2, h3⟩ := W.median_top hi
    rw [show (h.lcls i).lo = h.lval i from rfl, h2] at em
    injection em with em
    change h.lhi (h.lval i) ≤ b at hh
    by_cases hU : h.lval i = U64MAX
    · have : h.lhi (h.lval i) = U64MAX := by unfold Hist.lhi; rw [if_pos hU]
      omega
    · have e1 : h.lhi (h.lval i + h.lwid (h.lval i) / 2) = h.lhi (h.lval i) :=
        lhi_eq_of_lidx (by rw [lidx_median]; exact (Lay.idx_val).symm) (W.median_ne hi) hU
      have := lhi_ge (h := h) h3
      omega
  obtain ⟨s, e, h1, h2⟩ := C64_stdev_all R C hm h0 hκ hl hM
  refine ⟨s, e, ?_⟩
  rw [abs_le] at h1
  linarith [h1.2]

/-- instance of (4): a histogram with more than `2 ^ 64` samples, all in classes up to 31 -/
example : ∃ s, Cli.demoOver.stdev = .ok (.fin s) ∧ (s : ℝ) ≤ (31 : ℕ) * ((2 : ℚ) : ℝ) * Real.sqrt ((2 : ℚ) : ℝ) * (1 + 1 / 2 ^ 26) := by
  have R : Reachable Fp.ideal .u64 Cli.demoOver := reachable_recordSeq demoU_reachable (by decide) Cli.C85_overflow.1
  exact C64_le_all R R.wf.contents (by norm_num) (by
    rw [show (Cli.demoOver.contents.map (·.count)).sum = 2 ^ 64 + 2 ^ 62 - 2 by decide +kernel, show Cli.demoOver.len = 2 ^ 64 - 1 by decide +kernel]
    norm_num) (by decide +kernel)

end Hdr
