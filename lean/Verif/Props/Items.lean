import Verif.Model.Items
import Verif.Props.Inverse
import Verif.Props.Ops

/-!
# C87: the percentile of an item
-/

namespace Hdr

variable {T : CounterTy} {fp : Fp} {P : Type}

namespace F64

/-- one rounding, as lower and upper bound -/
theorem rndQ_between {q : ℚ} (hq : 0 < q) (hn : 2 ^ (-1022 : ℤ) ≤ q) :
    q * (1 - 1 / 2 ^ 53) ≤ rndQ q ∧ rndQ q ≤ q * (1 + 1 / 2 ^ 53) := by
  have h := abs_le.mp (rndQ_err hq hn)
  have e : q * (1 / 2 ^ 53) = q / 2 ^ 53 := by ring
  constructor
  · rw [mul_sub, mul_one, e]; linarith [h.1]
  · rw [mul_add, mul_one, e]; linarith [h.2]

theorem tiny_le {q : ℚ} (h : 1 / 2 ^ 100 ≤ q) : (2 : ℚ) ^ (-1022 : ℤ) ≤ q := by
  refine le_trans ?_ h
  rw [zpow_neg, one_div]
  refine inv_anti₀ (by positivity) ?_
  have : (2 : ℚ) ^ (1022 : ℤ) = 2 ^ (1022 : ℕ) := zpow_natCast 2 1022
  rw [this]
  exact pow_le_pow_right₀ (by norm_num) (by norm_num)

/-- four roundings on the way from the two counts to the percentile -/
theorem share_percent {s n : ℕ} (hs : 0 < s) (hn : n ≤ U64MAX) (hsn : s ≤ n) :
    |rndQ (rndQ (rndQ s / rndQ n) * 100) - 100 * (s / n)| ≤ 100 * (s / n) / 2 ^ 50 := by
  have h2n : (n : ℚ) ≤ 2 ^ 64 := by
    have : (n : ℚ) ≤ (U64MAX : ℕ) := by exact_mod_cast hn
    rw [U64MAX_q] at this; linarith
  have hs1 : (1 : ℚ) ≤ s := by exact_mod_cast hs
  have hn1 : (1 : ℚ) ≤ n := by exact_mod_cast (by omega : 1 ≤ n)
  obtain ⟨a1, a2⟩ := rndQ_between (q := (s : ℚ)) (by linarith) (tiny_le (by norm_num; linarith))
  obtain ⟨b1, b2⟩ := rndQ_between (q := (n : ℚ)) (by linarith) (tiny_le (by norm_num; linarith))
  have b3 : 1 ≤ rndQ (n : ℚ) := one_le_rndQ hn1
  have a3 : 1 ≤ rndQ (s : ℚ) := one_le_rndQ hs1
  have b4 : rndQ (n : ℚ) ≤ 2 ^ 64 := rndQ_u64_le hn
  generalize rndQ (s : ℚ) = a at *
  generalize rndQ (n : ℚ) = b at *
  have hq : 1 / 2 ^ 64 ≤ a / b := by
    rw [div_le_div_iff₀ (by norm_num) (by linarith)]; linarith
  have hq0 : 0 < a / b := div_pos (by linarith) (by linarith)
  obtain ⟨c1, c2⟩ := rndQ_between hq0 (tiny_le (le_trans (by norm_num) hq))
  have hx : 1 / 2 ^ 65 ≤ rndQ (a / b) := by
    refine le_trans ?_ c1
    refine le_trans ?_ (mul_le_mul_of_nonneg_right hq (by norm_num))
    norm_num
  generalize rndQ (a / b) = x at *
  have hx0 : (0 : ℚ) < x := lt_of_lt_of_le (by norm_num) hx
  obtain ⟨d1, d2⟩ := rndQ_between (q := x * 100) (by linarith) (tiny_le (le_trans (by norm_num) (mul_le_mul_of_nonneg_right hx (by norm_num : (0 : ℚ) ≤ 100))))
  generalize rndQ (x * 100) = y at *
  -- the quotient of the counts
  have hn0 : (0 : ℚ) < n := by linarith
  have hb0 : (0 : ℚ) < b := by linarith
  have hs0 : (0 : ℚ) < s := by linarith
  have q1 : (s : ℚ) / n * ((1 - 1 / 2 ^ 53) / (1 + 1 / 2 ^ 53)) ≤ a / b := by
    rw [div_mul_div_comm]
    exact div_le_div₀ (by linarith) a1 hb0 b2
  have q2 : a / b ≤ (s : ℚ) / n * ((1 + 1 / 2 ^ 53) / (1 - 1 / 2 ^ 53)) := by
    rw [div_mul_div_comm]
    exact div_le_div₀ (mul_nonneg hs0.le (by norm_num)) a2 (mul_pos hn0 (by norm_num)) b1
  have hr : (0 : ℚ) < s / n := div_pos hs0 hn0
  generalize (s : ℚ) / n = r at *
  generalize a / b = q at *
  rw [abs_le]
  have k1 : (1 : ℚ) - 1 / 2 ^ 50 ≤ (1 - 1 / 2 ^ 53) / (1 + 1 / 2 ^ 53) * (1 - 1 / 2 ^ 53) * (1 - 1 / 2 ^ 53) := by norm_num
  have k2 : (1 + 1 / 2 ^ 53) / (1 - 1 / 2 ^ 53) * (1 + 1 / 2 ^ 53) * (1 + 1 / 2 ^ 53) ≤ (1 : ℚ) + 1 / 2 ^ 50 := by norm_num
  have f0 : (0 : ℚ) < 1 - 1 / 2 ^ 53 := by norm_num
  have g0 : (0 : ℚ) < 1 + 1 / 2 ^ 53 := by norm_num
  have e : 100 * r / 2 ^ 50 = 100 * r * (1 / 2 ^ 50) := by ring
  rw [e]
  generalize (1 : ℚ) - 1 / 2 ^ 53 = f at *
  generalize (1 : ℚ) + 1 / 2 ^ 53 = g at *
  generalize (1 : ℚ) / 2 ^ 50 = u at *
  constructor
  · have t1 : r * (f / g) * f ≤ x := (mul_le_mul_of_nonneg_right q1 f0.le).trans c1
    have t2 : r * (f / g) * f * 100 * f ≤ y := (mul_le_mul_of_nonneg_right (by linarith) f0.le).trans d1
    have t3 := mul_le_mul_of_nonneg_left k1 (by linarith : (0 : ℚ) ≤ 100 * r)
    have e : r * (f / g) * f * 100 * f = 100 * r * (f / g * f * f) := by ring
    rw [e] at t2
    linarith
  · have t1 : x ≤ r * (g / f) * g := c2.trans (mul_le_mul_of_nonneg_right q2 g0.le)
    have t2 : y ≤ r * (g / f) * g * 100 * g := d2.trans (mul_le_mul_of_nonneg_right (by linarith) g0.le)
    have t3 := mul_le_mul_of_nonneg_left k2 (by linarith : (0 : ℚ) ≤ 100 * r)
    have e : r * (g / f) * g * 100 * g = 100 * r * (g / f * g * g) := by ring
    rw [e] at t2
    linarith

theorem rndQ_hundred : rndQ 100 = 100 := by
  have := rndQ_nat (n := 100) (by norm_num)
  exact_mod_cast this

/-- below 1 by as little as binary64 allows is still below 100 percent -/
theorem percent_below : rndQ ((1 - 1 / 2 ^ 53) * 100) < 100 := by decide +kernel

theorem share_lt {s n : ℕ} (h0 : s < n) (hn : n ≤ 2 ^ 53) : rndQ (rndQ (rndQ s / rndQ n) * 100) < 100 := by
  rw [rndQ_nat (by omega), rndQ_nat hn]
  have h1 : (s : ℚ) / n ≤ 1 - 1 / 2 ^ 53 := by
    have hn0 : (0 : ℚ) < n := by exact_mod_cast (by omega : 0 < n)
    rw [div_le_iff₀ hn0, sub_mul, one_mul]
    have a : (s : ℚ) + 1 ≤ n := by exact_mod_cast h0
    have b : (n : ℚ) ≤ 2 ^ 53 := by exact_mod_cast hn
    have c : 1 / 2 ^ 53 * (n : ℚ) ≤ 1 := by rw [one_div_mul_eq_div, div_le_one (by norm_num)]; exact b
    linarith
  have h2 : rndQ ((s : ℚ) / n) ≤ 1 - 1 / 2 ^ 53 := by
    refine (rndQ_mono h1).trans (le_of_eq ?_)
    exact rndQ_exact (2 ^ 53 - 1) (-53) (by norm_num) (by norm_num) (by norm_num [zpow_neg])
  exact (rndQ_mono (mul_le_mul_of_nonneg_right h2 (by norm_num))).trans_lt percent_below

end F64

open F64 in
/-- the percentile of an item with the given quantile -/
theorem percentile_of {s n : ℕ} (h0 : 0 < n) (hn : n ≤ U64MAX) (hsn : s ≤ n) {v : IterValue}
    (hq : v.quantile = F64.div (F64.ofNat s) (F64.ofNat n)) :
    v.percentile = .fin (rndQ (rndQ (rndQ s / rndQ n) * 100)) ∧ rndQ (rndQ s / rndQ n) ≤ 1 ∧ 0 ≤ rndQ (rndQ s / rndQ n) := by
  have hn1 : (1 : ℚ) ≤ rndQ n := one_le_rndQ (by exact_mod_cast h0)
  have hs0 : (0 : ℚ) ≤ rndQ s := rndQ_nonneg (by positivity)
  have hle : rndQ (s : ℚ) ≤ rndQ n := rndQ_mono (by exact_mod_cast hsn)
  have d0 : 0 ≤ rndQ (s : ℚ) / rndQ n := div_nonneg hs0 (by linarith)
  have d1 : rndQ (s : ℚ) / rndQ n ≤ 1 := by rw [div_le_one (by linarith)]; exact hle
  have big : (100 : ℚ) ≤ 2 ^ (1023 : ℤ) := le_trans (by norm_num) pow64_le
  have x0 := rndQ_nonneg d0
  have x1 := rndQ_le_one d1
  refine ⟨?_, x1, x0⟩
  unfold IterValue.percentile
  rw [hq, ofNat_fin (hsn.trans hn), ofNat_fin hn]
  simp only [F64.div, if_neg (by linarith : rndQ (n : ℚ) ≠ 0)]
  rw [rnd_fin (by rw [abs_of_nonneg d0]; exact (by linarith : _ ≤ (100 : ℚ)).trans big)]
  simp only [F64.mul]
  exact rnd_fin (by rw [abs_of_nonneg (by linarith)]; exact (by linarith : _ ≤ (100 : ℚ)).trans big)

/-- C87: the percentile of an item of an iterator, any `PickyIterator` at all. With `s` the number of samples reported up to
the item and `n` the number of all samples, it is between 0 and 100 and within one part in `2 ^ 50` of `100 * s / n`; it is
100 once all samples have been reported. -/
theorem C87_percentile {h : Hist T} (hl : h.len = h.counts.sum) (h0 : 0 < h.len) (hU : h.len ≤ U64MAX) {pk : Picker P} {p : P}
    {s0 s s' : IterState P} {vs : List IterValue} {v : IterValue} (e0 : h.iterNew p = .ok s0) (E : Emits h pk s0 vs s)
    (e : h.iterNext pk s = .ok (s', some v)) :
    ∃ y : ℚ, v.percentile = .fin y ∧ 0 ≤ y ∧ y ≤ 100 ∧
      |y - 100 * (((vs ++ [v]).map (·.countSinceLastIteration)).sum / h.len)| ≤
        100 * (((vs ++ [v]).map (·.countSinceLastIteration)).sum / h.len) / 2 ^ 50 ∧
      (((vs ++ [v]).map (·.countSinceLastIteration)).sum = h.len → y = 100) := by
  obtain ⟨hq, hle⟩ := C58_running_sum_partial (by omega) e0 E e
  generalize ((vs ++ [v]).map (·.countSinceLastIteration)).sum = k at *
  rw [← hl] at hle
  obtain ⟨h1, x1, x0⟩ := percentile_of h0 hU hle hq
  have up : F64.rndQ (F64.rndQ (F64.rndQ k / F64.rndQ h.len) * 100) ≤ 100 := by
    refine (F64.rndQ_mono (by linarith)).trans F64.rndQ_hundred.le
  refine ⟨_, h1, F64.rndQ_nonneg (by linarith), up, ?_, ?_⟩
  · rcases Nat.eq_zero_or_pos k with rfl | hk
    · simp [F64.rndQ_zero]
    · exact F64.share_percent hk hU hle
  · rintro rfl
    have hn1 : (1 : ℚ) ≤ F64.rndQ h.len := F64.one_le_rndQ (by exact_mod_cast h0)
    rw [div_self (by linarith), F64.rndQ_one, one_mul, F64.rndQ_hundred]

/-- C87: up to `2 ^ 53` samples, 100 is reported only when all samples have been. -/
theorem C87_hundred {h : Hist T} (hl : h.len = h.counts.sum) (h0 : 0 < h.len) (hn : h.len ≤ 2 ^ 53) {pk : Picker P} {p : P}
    {s0 s s' : IterState P} {vs : List IterValue} {v : IterValue} (e0 : h.iterNew p = .ok s0) (E : Emits h pk s0 vs s)
    (e : h.iterNext pk s = .ok (s', some v)) :
    v.percentile = .fin 100 ↔ ((vs ++ [v]).map (·.countSinceLastIteration)).sum = h.len := by
  have hU : h.len ≤ U64MAX := by
    have : U64MAX = 18446744073709551615 := rfl
    omega
  constructor
  · intro h100
    obtain ⟨hq, hle⟩ := C58_running_sum_partial (by omega) e0 E e
    generalize ((vs ++ [v]).map (·.countSinceLastIteration)).sum = k at *
    rw [← hl] at hle
    obtain ⟨h1, -, -⟩ := percentile_of h0 hU hle hq
    rw [h100] at h1
    by_contra c
    have := F64.share_lt (s := k) (n := h.len) (by omega) hn
    rw [← F64.fin.inj h1] at this
    exact lt_irrefl _ this
  · intro hk
    obtain ⟨y, h1, -, -, -, h2⟩ := C87_percentile hl h0 hU e0 E e
    rw [h1, h2 hk]

/-- the items of `iter_recorded` on a histogram of 204 samples: after 1 and after 4 of them, less than 2 percent -/
example : demo3.len = demo3.counts.sum ∧ demo3.len = 204 ∧
    (demo3.iterRecorded 9).toOption.map (·.map fun v =>
      (v.countSinceLastIteration, F64.lt v.percentile (.fin 2), decide (v.percentile = .fin 100))) =
      some [(1, true, false), (3, true, false), (200, false, true)] := by
  decide +kernel

end Hdr
