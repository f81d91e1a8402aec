import Verif.Proofs.Stdev
import Verif.Spec.Float

/-!
# The arithmetic of the model is that of IEEE-754

Not a claim about the library: it shows that `F64.rnd`, with which every operation of the model ends, is correct rounding.
-/

namespace Hdr.F64

theorem rhe_nearest (x : ℚ) (z : ℤ) : |(rhe x : ℚ) - x| ≤ |(z : ℚ) - x| := by
  have h1 := rhe_err x
  by_cases h : z = rhe x
  · rw [h]
  · have h2 : (1 : ℤ) ≤ |z - rhe x| := Int.one_le_abs (sub_ne_zero.mpr h)
    have h3 : (1 : ℚ) ≤ |(z : ℚ) - rhe x| := by
      have : ((1 : ℤ) : ℚ) ≤ ((|z - rhe x| : ℤ) : ℚ) := by exact_mod_cast h2
      rw [Int.cast_abs] at this
      push_cast at this
      exact this
    have h4 : |(z : ℚ) - rhe x| ≤ |(z : ℚ) - x| + |(rhe x : ℚ) - x| := by
      have := abs_sub_le (z : ℚ) x (rhe x)
      rwa [abs_sub_comm x] at this
    linarith

theorem rhe_tie {x : ℚ} {z : ℤ} (h : |(z : ℚ) - x| = |(rhe x : ℚ) - x|) (hne : z ≠ rhe x) :
    |(z : ℚ) - rhe x| = 1 ∧ rhe x % 2 = 0 := by
  have f1 := Int.floor_le x
  have f2 := Int.lt_floor_add_one x
  rw [abs_eq_abs] at h
  have hz : (z : ℚ) - x = -((rhe x : ℚ) - x) := by
    rcases h with h | h
    · have : (z : ℚ) = rhe x := by linarith
      exact absurd (by exact_mod_cast this) hne
    · exact h
  have h2x : (2 : ℚ) * (x - ⌊x⌋) = ((z + rhe x - 2 * ⌊x⌋ : ℤ) : ℚ) := by push_cast; linarith
  have hcases : z + rhe x - 2 * ⌊x⌋ = 0 ∨ z + rhe x - 2 * ⌊x⌋ = 1 := by
    have a1 : (0 : ℚ) ≤ ((z + rhe x - 2 * ⌊x⌋ : ℤ) : ℚ) := by rw [← h2x]; linarith
    have a2 : ((z + rhe x - 2 * ⌊x⌋ : ℤ) : ℚ) < 2 := by rw [← h2x]; linarith
    have a1 : (0 : ℤ) ≤ z + rhe x - 2 * ⌊x⌋ := by exact_mod_cast a1
    have a2 : z + rhe x - 2 * ⌊x⌋ < 2 := by exact_mod_cast a2
    omega
  rcases hcases with h0 | h0
  · -- x is an integer
    exfalso
    rw [h0] at h2x
    have hx : x = (⌊x⌋ : ℤ) := by push_cast at h2x; linarith
    have := rhe_int ⌊x⌋
    rw [← hx] at this
    omega
  · rw [h0] at h2x
    have hx : x - ⌊x⌋ = 1 / 2 := by push_cast at h2x; linarith
    have e : rhe x = if ⌊x⌋ % 2 = 0 then ⌊x⌋ else ⌊x⌋ + 1 := by
      unfold rhe
      simp only
      rw [if_neg (by linarith), if_neg (by linarith)]
    have hd : z - rhe x = 1 ∨ z - rhe x = -1 := by
      rw [e] at h0 ⊢
      split at h0 <;> split <;> omega
    constructor
    · rcases hd with h | h
      · have : (z : ℚ) - rhe x = 1 := by exact_mod_cast h
        rw [this]; simp
      · have : (z : ℚ) - rhe x = -1 := by exact_mod_cast h
        rw [this]; simp
    · rw [e]; split <;> omega

theorem _root_.Hdr.Bits53.neg {x : ℚ} (h : Bits53 x) : Bits53 (-x) := by
  obtain ⟨k, e, h1, h2, rfl⟩ := h
  exact ⟨-k, e, by rwa [abs_neg], h2, by push_cast; ring⟩

/-- a multiple of a power of two that is not too large has 53 bits -/
theorem bits53_of_le {k e : ℤ} (hk : |k| ≤ 2 ^ 53) (he : -1074 ≤ e) : Bits53 (k * 2 ^ e) := by
  rcases lt_or_eq_of_le hk with h | h
  · exact ⟨k, e, h, he, rfl⟩
  · have hp : (2 : ℚ) ^ (e + 1) = 2 ^ e * 2 := by rw [zpow_add₀ (by norm_num)]; norm_num
    rcases abs_choice k with h' | h'
    · refine ⟨2 ^ 52, e + 1, by norm_num, by omega, ?_⟩
      rw [show k = 2 ^ 53 by omega, hp]; push_cast; ring
    · refine ⟨-2 ^ 52, e + 1, by norm_num, by omega, ?_⟩
      rw [show k = -2 ^ 53 by omega, hp]; push_cast; ring

theorem rndPos_bits {q : ℚ} (hq : 0 < q) : Bits53 (rndPos q) := by
  unfold rndPos
  have hu : -1074 ≤ ulpExp q := by unfold ulpExp; omega
  refine bits53_of_le ?_ hu
  have h1 : q / 2 ^ ulpExp q ≤ ((2 ^ 53 : ℤ) : ℚ) := by
    rw [div_le_iff₀ (two_zpow_pos _)]
    refine le_trans lt_log.le ?_
    have : (((2 ^ 53 : ℤ) : ℚ)) = 2 ^ (53 : ℤ) := by norm_num
    rw [this, ← zpow_add₀ (by norm_num)]
    refine zpow_le_zpow_right₀ (by norm_num) ?_
    unfold ulpExp; omega
  have h2 := rhe_mono h1
  rw [rhe_int] at h2
  rw [abs_of_nonneg (rhe_nonneg (div_nonneg hq.le (two_zpow_pos _).le))]
  exact h2

/-- a number with 53 bits that is not below the binade of `q` is a multiple of the last place of `q` -/
theorem bits53_mul {q y : ℚ} (hy : Bits53 y) (h : (2 : ℚ) ^ Int.log 2 q ≤ |y| ∨ ulpExp q = -1074) :
    ∃ z : ℤ, y = z * 2 ^ ulpExp q := by
  obtain ⟨k, e, hk, he, rfl⟩ := hy
  have hue : ulpExp q ≤ e := by
    rcases h with h | h
    · rw [abs_mul, abs_of_pos (two_zpow_pos e)] at h
      have h1 : |(k : ℚ)| < 2 ^ (53 : ℤ) := by
        rw [← Int.cast_abs]
        have : ((|k| : ℤ) : ℚ) < ((2 ^ 53 : ℤ) : ℚ) := by exact_mod_cast hk
        exact lt_of_lt_of_eq this (by norm_num)
      have h2 : (2 : ℚ) ^ Int.log 2 q < 2 ^ (53 + e) := by
        rw [zpow_add₀ (by norm_num)]
        exact lt_of_le_of_lt h (mul_lt_mul_of_pos_right h1 (two_zpow_pos e))
      have h3 := (zpow_lt_zpow_iff_right₀ (by norm_num : (1 : ℚ) < 2)).mp h2
      unfold ulpExp; omega
    · omega
  refine ⟨k * 2 ^ (e - ulpExp q).toNat, ?_⟩
  push_cast
  rw [mul_assoc, ← zpow_natCast (2 : ℚ), ← zpow_add₀ (by norm_num)]
  congr 2
  omega

theorem rndPos_nearest {q : ℚ} (hq : 0 < q) : NearestEven q (rndPos q) := by
  have hp := two_zpow_pos (ulpExp q)
  have scale : ∀ z : ℤ, |(z : ℚ) * 2 ^ ulpExp q - q| = |(z : ℚ) - q / 2 ^ ulpExp q| * 2 ^ ulpExp q := by
    intro z
    rw [← abs_of_pos hp, ← abs_mul, abs_of_pos hp, sub_mul, div_mul_cancel₀ q hp.ne']
  have onGrid : ∀ z : ℤ, |rndPos q - q| ≤ |(z : ℚ) * 2 ^ ulpExp q - q| := by
    intro z
    unfold rndPos
    rw [scale, scale]
    exact mul_le_mul_of_nonneg_right (rhe_nearest _ z) hp.le
  -- numbers below the binade are farther than its lower end
  have below : ∀ y, Bits53 y → ¬ (∃ z : ℤ, y = z * 2 ^ ulpExp q) → |rndPos q - q| < |y - q| := by
    intro y hy hn
    have h1 : ¬ ((2 : ℚ) ^ Int.log 2 q ≤ |y| ∨ ulpExp q = -1074) := fun h => hn (bits53_mul hy h)
    rw [not_or, not_le] at h1
    have hu : ulpExp q = Int.log 2 q - 52 := by have := h1.2; unfold ulpExp at this ⊢; omega
    have h2 := onGrid (2 ^ 52)
    have h3 : ((2 ^ 52 : ℤ) : ℚ) * 2 ^ ulpExp q = 2 ^ Int.log 2 q := by
      rw [hu, show ((2 ^ 52 : ℤ) : ℚ) = 2 ^ (52 : ℤ) by norm_num, ← zpow_add₀ (by norm_num)]
      congr 1; omega
    rw [h3] at h2
    have h4 := log_le hq
    have h5 := lt_of_le_of_lt (le_abs_self y) h1.1
    rw [abs_of_nonpos (by linarith : (2 : ℚ) ^ Int.log 2 q - q ≤ 0)] at h2
    rw [abs_of_nonpos (by linarith : y - q ≤ 0)]
    linarith
  refine ⟨rndPos_bits hq, ?_, ?_⟩
  · intro y hy
    by_cases hz : ∃ z : ℤ, y = z * 2 ^ ulpExp q
    · obtain ⟨z, rfl⟩ := hz
      exact onGrid z
    · exact (below y hy hz).le
  · intro y hy he hne
    by_cases hz : ∃ z : ℤ, y = z * 2 ^ ulpExp q
    · obtain ⟨z, rfl⟩ := hz
      have e1 : rndPos q = (rhe (q / 2 ^ ulpExp q) : ℚ) * 2 ^ ulpExp q := rfl
      rw [e1] at he hne ⊢
      rw [scale, scale] at he
      obtain ⟨t1, t2⟩ := rhe_tie (mul_right_cancel₀ hp.ne' he) (fun h => hne (by rw [h]))
      generalize rhe (q / 2 ^ ulpExp q) = r at *
      refine ⟨r / 2, ?_⟩
      rw [← sub_mul, abs_mul, t1, abs_of_pos hp, one_mul]
      have : r = 2 * (r / 2) := by omega
      have : (r : ℚ) = 2 * ((r / 2 : ℤ) : ℚ) := by exact_mod_cast this
      rw [← this]
    · exact absurd he (below y hy hz).ne'

/-- `rndQ` rounds to nearest, ties to even -/
theorem rndQ_nearest (q : ℚ) : NearestEven q (rndQ q) := by
  rcases lt_trichotomy q 0 with h | h | h
  · have hn := rndPos_nearest (q := -q) (by linarith)
    have e : rndQ q = - rndPos (-q) := by
      unfold rndQ; rw [if_neg h.ne, if_neg (by linarith)]
    rw [e]
    obtain ⟨a, b, c⟩ := hn
    have flip : ∀ y : ℚ, |-y - -q| = |y - q| := fun y => by rw [← neg_sub_neg, abs_sub_comm]; ring_nf
    have flip' : ∀ y : ℚ, |-y - q| = |y - -q| := fun y => by
      have := flip (-y); rw [neg_neg] at this; exact this.symm
    refine ⟨a.neg, ?_, ?_⟩
    · intro y hy
      rw [flip']
      have := b (-y) hy.neg
      rwa [flip] at this
    · intro y hy h1 h2
      rw [flip'] at h1
      obtain ⟨z, hz⟩ := c (-y) hy.neg (by rw [flip]; exact h1) (fun h' => h2 (by rw [← h', neg_neg]))
      refine ⟨-z, ?_⟩
      have : |y - -rndPos (-q)| = |-y - rndPos (-q)| := by rw [← abs_neg]; ring_nf
      rw [this]
      push_cast
      linarith
  · subst h
    rw [rndQ_zero]
    refine ⟨⟨0, 0, by norm_num, by norm_num, by simp⟩, ?_, ?_⟩
    · intro y _; rw [sub_zero, abs_zero]; exact abs_nonneg _
    · intro y _ h1 h2
      rw [sub_zero, sub_zero, abs_zero, abs_eq_zero] at h1
      exact absurd h1 h2
  · rw [rndQ_pos h]; exact rndPos_nearest h

/-- `rnd` is rounding of IEEE-754: to nearest with unbounded exponent, ties to even, and then overflow. -/
theorem rnd_ieee (q : ℚ) : ∃ r, NearestEven q r ∧
    ((r < 2 ^ 1024 ∧ -2 ^ 1024 < r ∧ rnd q = fin r) ∨ (2 ^ 1024 ≤ r ∧ rnd q = pinf) ∨ (r ≤ -2 ^ 1024 ∧ rnd q = ninf)) := by
  refine ⟨rndQ q, rndQ_nearest q, ?_⟩
  unfold rnd
  by_cases h1 : 2 ^ 1024 ≤ rndQ q
  · right; left; rw [if_pos h1]; exact ⟨h1, rfl⟩
  · rw [if_neg h1]
    by_cases h2 : rndQ q ≤ -2 ^ 1024
    · right; right; rw [if_pos h2]; exact ⟨h2, rfl⟩
    · left; rw [if_neg h2]; exact ⟨not_le.mp h1, not_le.mp h2, rfl⟩

/-- the result of rounding is determined by the specification -/
theorem nearestEven_unique {q r s : ℚ} (hr : NearestEven q r) (hs : NearestEven q s) : r = s := by
  by_contra hne
  have e : |s - q| = |r - q| := le_antisymm (hs.2.1 r hr.1) (hr.2.1 s hs.1)
  obtain ⟨a, ha⟩ := hr.2.2 s hs.1 e (Ne.symm hne)
  obtain ⟨b, hb⟩ := hs.2.2 r hr.1 e.symm hne
  rw [abs_sub_comm] at hb
  have hd : 0 < |s - r| := abs_pos.mpr (sub_ne_zero.mpr (Ne.symm hne))
  have h1 : s - r = ((2 * (b - a) : ℤ) : ℚ) * |s - r| := by
    push_cast
    calc s - r = 2 * b * |s - r| - 2 * a * |s - r| := by rw [← hb, ← ha]
      _ = _ := by ring
  have h2 : |s - r| = |((2 * (b - a) : ℤ) : ℚ)| * |s - r| := by
    nth_rw 1 [h1]
    rw [abs_mul, abs_abs]
  have h3 : |((2 * (b - a) : ℤ) : ℚ)| = 1 := by
    have := mul_right_cancel₀ hd.ne' (show 1 * |s - r| = |((2 * (b - a) : ℤ) : ℚ)| * |s - r| by rw [one_mul]; exact h2)
    exact this.symm
  rw [← Int.cast_abs] at h3
  have h4 : |2 * (b - a)| = 1 := by exact_mod_cast h3
  rcases abs_choice (2 * (b - a)) with h5 | h5 <;> rw [h5] at h4 <;> omega

/-! ### The square root -/

theorem sqrtInt_err {r : ℚ} (hr : 0 ≤ r) : |(sqrtInt r : ℝ) - Real.sqrt r| ≤ 1 / 2 := by
  have hfl : 0 ≤ ⌊r⌋ := Int.floor_nonneg.mpr hr
  have hfloor : ((⌊r⌋.toNat : ℕ) : ℚ) = ((⌊r⌋ : ℤ) : ℚ) := by
    have : ((⌊r⌋.toNat : ℕ) : ℤ) = ⌊r⌋ := Int.toNat_of_nonneg hfl
    exact_mod_cast congrArg (fun z : ℤ => (z : ℚ)) this
  unfold sqrtInt
  dsimp only
  generalize hn : Nat.sqrt ⌊r⌋.toNat = n
  have a1 : (n : ℚ) ^ 2 ≤ r := by
    have : n ^ 2 ≤ ⌊r⌋.toNat := by rw [← hn]; exact Nat.sqrt_le' _
    have : (n : ℚ) ^ 2 ≤ ((⌊r⌋.toNat : ℕ) : ℚ) := by exact_mod_cast this
    rw [hfloor] at this
    exact le_trans this (Int.floor_le r)
  have a2 : r < ((n : ℚ) + 1) ^ 2 := by
    have h1 : ⌊r⌋.toNat < (n + 1) ^ 2 := by rw [← hn]; exact Nat.lt_succ_sqrt' _
    have h2 : ⌊r⌋.toNat + 1 ≤ (n + 1) ^ 2 := h1
    have h3 : ((⌊r⌋.toNat : ℕ) : ℚ) + 1 ≤ ((n : ℚ) + 1) ^ 2 := by exact_mod_cast h2
    rw [hfloor] at h3
    exact lt_of_lt_of_le (Int.lt_floor_add_one r) h3
  have le : ∀ a : ℚ, 0 ≤ a → a ^ 2 ≤ r → (a : ℝ) ≤ Real.sqrt r := by
    intro a _ h
    refine Real.le_sqrt_of_sq_le ?_
    exact_mod_cast h
  have ge : ∀ a : ℚ, 0 ≤ a → r ≤ a ^ 2 → Real.sqrt r ≤ (a : ℝ) := by
    intro a h0 h
    rw [Real.sqrt_le_left (by exact_mod_cast h0)]
    exact_mod_cast h
  have hn0 : (0 : ℚ) ≤ n := by positivity
  have b1 := le n hn0 a1
  have b2 := ge (n + 1) (by positivity) a2.le
  have up : (n + 1 / 2 : ℚ) ^ 2 ≤ r → |((n + 1 : ℕ) : ℝ) - Real.sqrt r| ≤ 1 / 2 := by
    intro h
    have b3 := le (n + 1 / 2) (by positivity) h
    push_cast at *
    rw [abs_le]
    constructor <;> linarith
  split
  · rename_i h; exact up h.le
  · rename_i h
    split
    · rename_i h'; exact up h'.1.ge
    · have b3 := ge (n + 1 / 2) (by positivity) (not_lt.mp h)
      push_cast at *
      rw [abs_le]
      constructor <;> linarith

/-- `sqrt` of a positive number gives the number with 53 bits nearest to the real root -/
theorem sqrt_nearest {q : ℚ} (hq : 0 < q) (hmin : 2 ^ (-1074 : ℤ) ≤ q) :
    sqrt (fin q) = fin (sqrtPos q) ∧ Bits53 (sqrtPos q) ∧
      ∀ y, Bits53 y → |(sqrtPos q : ℝ) - Real.sqrt q| ≤ |(y : ℝ) - Real.sqrt q| := by
  refine ⟨by simp only [sqrt]; rw [if_neg (not_lt.mpr hq.le), if_neg hq.ne'], ?_⟩
  have hl1 := log_le hq
  have hl2 : q < (2 : ℚ) ^ (Int.log 2 q + 1) := lt_log
  have hlog : -1074 ≤ Int.log 2 q := by
    by_contra hc
    have : (2 : ℚ) ^ (Int.log 2 q + 1) ≤ 2 ^ (-1074 : ℤ) := zpow_le_zpow_right₀ (by norm_num) (by omega)
    linarith
  unfold sqrtPos
  generalize hE : sqrtExp q = e
  unfold sqrtExp at hE
  have hpe : (0 : ℚ) < 2 ^ e := two_zpow_pos e
  have hpr : (0 : ℝ) < 2 ^ e := zpow_pos (by norm_num) e
  have h4 : (4 : ℚ) ^ e = 2 ^ e * 2 ^ e := by rw [← mul_zpow]; norm_num
  have h4p : (0 : ℚ) < 4 ^ e := zpow_pos (by norm_num) e
  have hr0 : 0 ≤ q / 4 ^ e := div_nonneg hq.le h4p.le
  have hlo : 2 ^ 104 ≤ q / 4 ^ e := by
    rw [le_div_iff₀ h4p, h4, ← zpow_add₀ (by norm_num), ← zpow_natCast (2 : ℚ) 104, ← zpow_add₀ (by norm_num)]
    refine le_trans (zpow_le_zpow_right₀ (by norm_num) ?_) hl1
    norm_num
    omega
  have hhi : q / 4 ^ e ≤ 2 ^ 106 := by
    rw [div_le_iff₀ h4p, h4, ← zpow_add₀ (by norm_num), ← zpow_natCast (2 : ℚ) 106, ← zpow_add₀ (by norm_num)]
    refine le_trans hl2.le (zpow_le_zpow_right₀ (by norm_num) ?_)
    norm_num
    omega
  have herr := sqrtInt_err hr0
  have hroot : Real.sqrt q = Real.sqrt ((q / 4 ^ e : ℚ) : ℝ) * 2 ^ e := by
    have e1 : ((q : ℚ) : ℝ) = ((q / 4 ^ e : ℚ) : ℝ) * (2 ^ e * 2 ^ e) := by
      have : q = q / 4 ^ e * (2 ^ e * 2 ^ e) := by rw [← h4, div_mul_cancel₀ q h4p.ne']
      nth_rw 1 [this]
      push_cast
      rfl
    rw [e1, Real.sqrt_mul (by exact_mod_cast hr0), Real.sqrt_mul_self hpr.le]
  have hw1 : (2 : ℝ) ^ 52 ≤ Real.sqrt ((q / 4 ^ e : ℚ) : ℝ) := by
    refine Real.le_sqrt_of_sq_le ?_
    have : (((2 : ℚ) ^ 104 : ℚ) : ℝ) ≤ ((q / 4 ^ e : ℚ) : ℝ) := Rat.cast_le.mpr hlo
    refine le_trans ?_ this
    norm_num
  have hw2 : Real.sqrt ((q / 4 ^ e : ℚ) : ℝ) ≤ 2 ^ 53 := by
    rw [Real.sqrt_le_left (by positivity)]
    have : ((q / 4 ^ e : ℚ) : ℝ) ≤ (((2 : ℚ) ^ 106 : ℚ) : ℝ) := Rat.cast_le.mpr hhi
    refine le_trans this ?_
    norm_num
  rw [hroot]
  generalize Real.sqrt ((q / 4 ^ e : ℚ) : ℝ) = w at *
  generalize sqrtInt (q / 4 ^ e) = n at *
  have hn : n ≤ 2 ^ 53 := by
    rw [abs_le] at herr
    have h1 : (n : ℝ) < ((2 ^ 53 + 1 : ℕ) : ℝ) := by push_cast; linarith [herr.2]
    have h2 : n < 2 ^ 53 + 1 := by exact_mod_cast h1
    omega
  have hnearest : ∀ z : ℤ, |(n : ℝ) - w| ≤ |(z : ℝ) - w| := by
    intro z
    by_cases h : z = n
    · rw [h]; simp
    · have h2 : (1 : ℤ) ≤ |z - n| := Int.one_le_abs (sub_ne_zero.mpr h)
      have h3 : (1 : ℝ) ≤ |(z : ℝ) - n| := by
        have : ((1 : ℤ) : ℝ) ≤ ((|z - n| : ℤ) : ℝ) := by exact_mod_cast h2
        rw [Int.cast_abs] at this
        push_cast at this
        exact this
      have h4 : |(z : ℝ) - n| ≤ |(z : ℝ) - w| + |(n : ℝ) - w| := by
        have := abs_sub_le (z : ℝ) w n
        rwa [abs_sub_comm w] at this
      linarith
  have he : -1074 ≤ e := by omega
  constructor
  · have := bits53_of_le (k := n) (e := e) (by rw [abs_of_nonneg (by positivity)]; exact_mod_cast hn) he
    exact_mod_cast this
  · intro y hy
    push_cast
    have scale : ∀ a : ℝ, |a * 2 ^ e - w * 2 ^ e| = |a - w| * 2 ^ e := fun a => by
      rw [← sub_mul, abs_mul, abs_of_pos hpr]
    rw [scale]
    by_cases hb : (2 : ℚ) ^ (e + 52) ≤ |y|
    · obtain ⟨k, f, hk, hf, rfl⟩ := hy
      have hef : e ≤ f := by
        rw [abs_mul, abs_of_pos (two_zpow_pos f)] at hb
        have h1 : |(k : ℚ)| < 2 ^ (53 : ℤ) := by
          rw [← Int.cast_abs]
          have : ((|k| : ℤ) : ℚ) < ((2 ^ 53 : ℤ) : ℚ) := by exact_mod_cast hk
          exact lt_of_lt_of_eq this (by norm_num)
        have h2 : (2 : ℚ) ^ (e + 52) < 2 ^ (53 + f) := by
          rw [zpow_add₀ (by norm_num) 53 f]
          exact lt_of_le_of_lt hb (mul_lt_mul_of_pos_right h1 (two_zpow_pos f))
        have h3 := (zpow_lt_zpow_iff_right₀ (by norm_num : (1 : ℚ) < 2)).mp h2
        omega
      have hz : (((k : ℚ) * 2 ^ f : ℚ) : ℝ) = ((k * 2 ^ (f - e).toNat : ℤ) : ℝ) * 2 ^ e := by
        push_cast
        rw [mul_assoc, ← zpow_natCast (2 : ℝ), ← zpow_add₀ (by norm_num)]
        congr 2
        omega
      rw [hz, scale]
      exact mul_le_mul_of_nonneg_right (hnearest _) hpr.le
    · have h1 := hnearest (2 ^ 52)
      have h2 : (y : ℝ) < 2 ^ 52 * 2 ^ e := by
        have := lt_of_le_of_lt (le_abs_self y) (not_le.mp hb)
        have h3 : ((y : ℚ) : ℝ) < (((2 : ℚ) ^ (e + 52) : ℚ) : ℝ) := Rat.cast_lt.mpr this
        refine lt_of_lt_of_eq h3 ?_
        push_cast
        rw [zpow_add₀ (by norm_num), mul_comm]
        norm_num
      have h3 : (2 : ℝ) ^ 52 * 2 ^ e ≤ w * 2 ^ e := mul_le_mul_of_nonneg_right hw1 hpr.le
      have h4 := mul_le_mul_of_nonneg_right h1 hpr.le
      rw [← scale ((2 ^ 52 : ℤ) : ℝ)] at h4
      rw [show ((2 ^ 52 : ℤ) : ℝ) = 2 ^ 52 by norm_num] at h4
      rw [abs_of_nonpos (by linarith : (2 : ℝ) ^ 52 * 2 ^ e - w * 2 ^ e ≤ 0)] at h4
      rw [abs_of_nonpos (by linarith : (y : ℝ) - w * 2 ^ e ≤ 0)]
      linarith

/-- an instance: a sum that must be rounded up, and an irrational root -/
example : add (fin (2 ^ 53)) (fin 3) = fin (2 ^ 53 + 4) ∧ sqrt (fin 2) = fin (6369051672525773 / 4503599627370496) := by
  decide +kernel

end Hdr.F64
