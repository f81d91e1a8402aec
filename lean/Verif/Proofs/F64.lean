import Verif.Model.F64
import Mathlib.Tactic.Linarith
import Mathlib.Tactic.NormNum
import Mathlib.Tactic.Positivity
import Mathlib.Tactic.Ring
import Mathlib.Tactic.FieldSimp
import Mathlib.Algebra.Order.Floor.Semiring

/-!
# Facts about rounding
-/

namespace Hdr.F64

theorem rhe_cases (x : ℚ) : (rhe x = ⌊x⌋ ∧ x - ⌊x⌋ ≤ 1 / 2) ∨ (rhe x = ⌊x⌋ + 1 ∧ 1 / 2 ≤ x - ⌊x⌋) := by
  unfold rhe
  simp only
  split
  · left; exact ⟨rfl, by linarith⟩
  · rename_i h1
    split
    · right; rename_i h2; exact ⟨rfl, by linarith⟩
    · rename_i h2
      split
      · left; exact ⟨rfl, by linarith⟩
      · right; exact ⟨rfl, by linarith⟩

theorem rhe_int (z : ℤ) : rhe (z : ℚ) = z := by
  unfold rhe; simp

theorem rhe_err (x : ℚ) : |(rhe x : ℚ) - x| ≤ 1 / 2 := by
  have h1 := Int.floor_le x
  have h2 := Int.lt_floor_add_one x
  rw [abs_le]
  rcases rhe_cases x with ⟨h, h3⟩ | ⟨h, h3⟩ <;> rw [h] <;> push_cast <;> constructor <;> linarith

theorem rhe_mono {x y : ℚ} (h : x ≤ y) : rhe x ≤ rhe y := by
  have hf := Int.floor_le_floor h
  rcases eq_or_lt_of_le hf with heq | hlt
  · unfold rhe
    simp only
    rw [heq]
    split_ifs <;> first | omega | (exfalso; linarith)
  · have h1 : rhe x ≤ ⌊x⌋ + 1 := by rcases rhe_cases x with h | h <;> omega
    have h2 : ⌊y⌋ ≤ rhe y := by rcases rhe_cases y with h | h <;> omega
    omega

theorem rhe_nonneg {x : ℚ} (h : 0 ≤ x) : 0 ≤ rhe x := by
  have := rhe_mono h
  have e : rhe (0 : ℚ) = 0 := by have := rhe_int 0; simpa using this
  omega

theorem two_zpow_pos (e : ℤ) : (0 : ℚ) < 2 ^ e := zpow_pos (by norm_num) e

theorem ulpExp_mono {p q : ℚ} (hp : 0 < p) (h : p ≤ q) : ulpExp p ≤ ulpExp q := by
  unfold ulpExp
  have := Int.log_mono_right (b := 2) hp h
  omega

/-- a number that is an integer multiple of its own last place is not changed -/
theorem rndPos_of_mul {q : ℚ} (k : ℤ) (h : q = k * 2 ^ ulpExp q) : rndPos q = q := by
  have h1 : q / 2 ^ ulpExp q = k := by
    rw [div_eq_iff (two_zpow_pos _).ne']; exact h
  unfold rndPos
  rw [h1, rhe_int]; exact h.symm

/-- values with at most 53 significant bits are not changed -/
theorem rndPos_exact {q : ℚ} (hq : 0 < q) (k : ℤ) (e : ℤ) (he : -1074 ≤ e) (hk : k ≤ 2 ^ 53)
    (h : q = k * 2 ^ e) : rndPos q = q := by
  have hk0 : 0 < k := by
    rw [h] at hq
    have := pos_of_mul_pos_left hq (two_zpow_pos e).le
    exact_mod_cast this
  by_cases hk1 : k = 2 ^ 53
  · -- the upper end: q = 2^(e+53)
    have hq2 : q = ((2 : ℕ) : ℚ) ^ (e + 53) := by
      rw [h, hk1, zpow_add₀ (by norm_num)]; push_cast; ring
    have hlog : Int.log 2 q = e + 53 := by rw [hq2]; exact Int.log_zpow (by norm_num) _
    have hu : ulpExp q = e + 1 := by unfold ulpExp; omega
    refine rndPos_of_mul (2 ^ 52) ?_
    rw [hu, h, hk1, zpow_add₀ (by norm_num)]; push_cast; ring
  · have hlt : q < ((2 : ℕ) : ℚ) ^ (e + 53) := by
      rw [h, zpow_add₀ (by norm_num), mul_comm]
      have h1 : (k : ℚ) < 2 ^ 53 := by
        have : k < 2 ^ 53 := by omega
        exact_mod_cast this
      have := two_zpow_pos e
      push_cast
      calc (2 : ℚ) ^ e * k < 2 ^ e * 2 ^ 53 := by
            exact mul_lt_mul_of_pos_left h1 this
        _ = 2 ^ e * 2 ^ (53 : ℤ) := by norm_num
    have hlog := (Int.lt_zpow_iff_log_lt (b := 2) (by norm_num) hq).mp hlt
    have hu : ulpExp q ≤ e := by unfold ulpExp; omega
    refine rndPos_of_mul (k * 2 ^ (e - ulpExp q).toNat) ?_
    have h2 : (2 : ℚ) ^ e = 2 ^ (e - ulpExp q).toNat * 2 ^ ulpExp q := by
      rw [← zpow_natCast, ← zpow_add₀ (by norm_num)]
      congr 1
      omega
    nth_rewrite 1 [h]
    rw [h2]; push_cast; ring

theorem log_le {q : ℚ} (hq : 0 < q) : (2 : ℚ) ^ Int.log 2 q ≤ q := by
  have := Int.zpow_log_le_self (b := 2) (by norm_num) hq
  exact_mod_cast this

theorem lt_log {q : ℚ} : q < (2 : ℚ) ^ (Int.log 2 q + 1) := by
  have := Int.lt_zpow_succ_log_self (b := 2) (by norm_num) q
  exact_mod_cast this

/-- rounding stays within the binade: upper end -/
theorem rndPos_le_pow {q : ℚ} (hq : 0 < q) {e : ℤ} (he : -1022 ≤ e) (h : q ≤ 2 ^ e) :
    rndPos q ≤ 2 ^ e := by
  have hlog : Int.log 2 q ≤ e := by
    have := Int.log_mono_right (b := 2) hq h
    have e2 : Int.log 2 ((2 : ℚ) ^ e) = e := by
      have := Int.log_zpow (R := ℚ) (b := 2) (by norm_num) e
      exact_mod_cast this
    omega
  have hu : ulpExp q ≤ e := by unfold ulpExp; omega
  have h1 : q / 2 ^ ulpExp q ≤ ((2 ^ (e - ulpExp q).toNat : ℤ) : ℚ) := by
    rw [div_le_iff₀ (two_zpow_pos _)]
    refine h.trans_eq ?_
    push_cast
    rw [← zpow_natCast, ← zpow_add₀ (by norm_num)]
    congr 1
    omega
  have h2 := rhe_mono h1
  rw [rhe_int] at h2
  unfold rndPos
  have h3 : ((rhe (q / 2 ^ ulpExp q) : ℤ) : ℚ) ≤ ((2 ^ (e - ulpExp q).toNat : ℤ) : ℚ) := by
    exact_mod_cast h2
  refine (mul_le_mul_of_nonneg_right h3 (two_zpow_pos _).le).trans_eq ?_
  push_cast
  rw [← zpow_natCast, ← zpow_add₀ (by norm_num)]
  congr 1
  omega

/-- rounding stays within the binade: lower end -/
theorem pow_le_rndPos {q : ℚ} (hq : 0 < q) (h : -1074 ≤ Int.log 2 q) :
    2 ^ Int.log 2 q ≤ rndPos q := by
  by_cases hu : ulpExp q ≤ Int.log 2 q
  · have h1 : ((2 ^ (Int.log 2 q - ulpExp q).toNat : ℤ) : ℚ) ≤ q / 2 ^ ulpExp q := by
      rw [le_div_iff₀ (two_zpow_pos _)]
      refine le_trans (le_of_eq ?_) (log_le hq)
      push_cast
      rw [← zpow_natCast, ← zpow_add₀ (by norm_num)]
      congr 1
      omega
    have h2 := rhe_mono h1
    rw [rhe_int] at h2
    have h3 : ((2 ^ (Int.log 2 q - ulpExp q).toNat : ℤ) : ℚ) ≤ ((rhe (q / 2 ^ ulpExp q) : ℤ) : ℚ) := by
      exact_mod_cast h2
    unfold rndPos
    refine le_trans (le_of_eq ?_) (mul_le_mul_of_nonneg_right h3 (two_zpow_pos _).le)
    push_cast
    rw [← zpow_natCast, ← zpow_add₀ (by norm_num)]
    congr 1
    omega
  · unfold ulpExp at hu; omega

theorem rndPos_nonneg {q : ℚ} (hq : 0 ≤ q) : 0 ≤ rndPos q := by
  unfold rndPos
  have : 0 ≤ q / 2 ^ ulpExp q := div_nonneg hq (two_zpow_pos _).le
  have := rhe_nonneg this
  have h2 : (0 : ℚ) ≤ (rhe (q / 2 ^ ulpExp q) : ℤ) := by exact_mod_cast this
  exact mul_nonneg h2 (two_zpow_pos _).le

theorem rndPos_mono {p q : ℚ} (hp : 0 < p) (h : p ≤ q) : rndPos p ≤ rndPos q := by
  have hq : 0 < q := lt_of_lt_of_le hp h
  rcases eq_or_lt_of_le (ulpExp_mono hp h) with he | he
  · unfold rndPos
    rw [he]
    have h1 : p / 2 ^ ulpExp q ≤ q / 2 ^ ulpExp q :=
      div_le_div_of_nonneg_right h (two_zpow_pos _).le
    have h2 : ((rhe (p / 2 ^ ulpExp q) : ℤ) : ℚ) ≤ ((rhe (q / 2 ^ ulpExp q) : ℤ) : ℚ) := by
      exact_mod_cast rhe_mono h1
    exact mul_le_mul_of_nonneg_right h2 (two_zpow_pos _).le
  · -- q is in a higher binade
    have hlq : Int.log 2 p < Int.log 2 q := by unfold ulpExp at he; omega
    have hnorm : -1022 ≤ Int.log 2 q := by unfold ulpExp at he; omega
    have h1 : p ≤ 2 ^ Int.log 2 q := by
      refine le_trans (le_of_lt lt_log) ?_
      exact zpow_le_zpow_right₀ (by norm_num) (by omega)
    exact le_trans (rndPos_le_pow hp hnorm h1) (pow_le_rndPos hq (by omega))

/-- relative error in the normal range -/
theorem rndPos_err {q : ℚ} (hq : 0 < q) (hn : -1022 ≤ Int.log 2 q) :
    |rndPos q - q| ≤ q / 2 ^ 53 := by
  have hu : ulpExp q = Int.log 2 q - 52 := by unfold ulpExp; omega
  have h1 := rhe_err (q / 2 ^ ulpExp q)
  have hp := two_zpow_pos (ulpExp q)
  have h2 : rndPos q - q = ((rhe (q / 2 ^ ulpExp q) : ℚ) - q / 2 ^ ulpExp q) * 2 ^ ulpExp q := by
    unfold rndPos; field_simp
  rw [h2, abs_mul, abs_of_pos hp]
  refine (mul_le_mul_of_nonneg_right h1 hp.le).trans ?_
  rw [hu, sub_eq_add_neg, zpow_add₀ (by norm_num)]
  have := log_le hq
  have e : (2 : ℚ) ^ (-52 : ℤ) = 1 / 2 ^ 52 := by norm_num [zpow_neg]
  rw [e, le_div_iff₀ (by positivity)]
  calc 1 / 2 * ((2 : ℚ) ^ Int.log 2 q * (1 / 2 ^ 52)) * 2 ^ 53 = 2 ^ Int.log 2 q := by ring
    _ ≤ q := this

/-! ### signed rounding -/

theorem rndQ_zero : rndQ 0 = 0 := by unfold rndQ; simp

theorem rndQ_pos {q : ℚ} (h : 0 < q) : rndQ q = rndPos q := by
  unfold rndQ; rw [if_neg h.ne', if_pos h]

theorem rndQ_neg (q : ℚ) : rndQ (-q) = - rndQ q := by
  unfold rndQ
  rcases lt_trichotomy q 0 with h | h | h
  · rw [if_neg (by linarith), if_pos (by linarith), if_neg h.ne, if_neg (by linarith)]; simp
  · subst h; simp
  · rw [if_neg (by linarith), if_neg (by linarith), if_neg h.ne', if_pos h]; simp

theorem rndQ_nonneg {q : ℚ} (h : 0 ≤ q) : 0 ≤ rndQ q := by
  rcases eq_or_lt_of_le h with h | h
  · rw [← h, rndQ_zero]
  · rw [rndQ_pos h]; exact rndPos_nonneg h.le

theorem rndQ_nonpos {q : ℚ} (h : q ≤ 0) : rndQ q ≤ 0 := by
  have := rndQ_nonneg (q := -q) (by linarith)
  rw [rndQ_neg] at this; linarith

theorem rndQ_mono {p q : ℚ} (h : p ≤ q) : rndQ p ≤ rndQ q := by
  rcases le_or_gt p 0 with hp | hp
  · rcases le_or_gt 0 q with hq | hq
    · exact le_trans (rndQ_nonpos hp) (rndQ_nonneg hq)
    · have := rndPos_mono (p := -q) (q := -p) (by linarith) (by linarith)
      rw [← rndQ_pos (by linarith), ← rndQ_pos (by linarith), rndQ_neg, rndQ_neg] at this
      linarith
  · rw [rndQ_pos hp, rndQ_pos (by linarith)]; exact rndPos_mono hp h

theorem rndQ_exact {q : ℚ} (k e : ℤ) (he : -1074 ≤ e) (hk : |k| ≤ 2 ^ 53) (h : q = k * 2 ^ e) :
    rndQ q = q := by
  rw [abs_le] at hk
  rcases lt_trichotomy q 0 with hq | hq | hq
  · have h1 := rndPos_exact (q := -q) (by linarith) (-k) e he (by omega) (by rw [h]; push_cast; ring)
    rw [← rndQ_pos (by linarith), rndQ_neg] at h1
    linarith
  · rw [hq, rndQ_zero]
  · rw [rndQ_pos hq]; exact rndPos_exact hq k e he (by omega) h

theorem rndQ_int {n : ℤ} (h : |n| ≤ 2 ^ 53) : rndQ n = n :=
  rndQ_exact n 0 (by norm_num) h (by simp)

theorem rndQ_nat {n : ℕ} (h : n ≤ 2 ^ 53) : rndQ n = n := by
  have := rndQ_int (n := n) (by rw [abs_of_nonneg (by positivity)]; exact_mod_cast h)
  exact_mod_cast this

theorem rndQ_one : rndQ 1 = 1 := by have := rndQ_nat (n := 1) (by norm_num); exact_mod_cast this

theorem rndQ_le_pow {q : ℚ} {e : ℤ} (he : -1022 ≤ e) (h : q ≤ 2 ^ e) : rndQ q ≤ 2 ^ e := by
  rcases le_or_gt q 0 with hq | hq
  · exact le_trans (rndQ_nonpos hq) (two_zpow_pos e).le
  · rw [rndQ_pos hq]; exact rndPos_le_pow hq he h

theorem rndQ_err {q : ℚ} (hq : 0 < q) (hn : 2 ^ (-1022 : ℤ) ≤ q) : |rndQ q - q| ≤ q / 2 ^ 53 := by
  rw [rndQ_pos hq]
  refine rndPos_err hq ?_
  have := Int.log_mono_right (b := 2) (two_zpow_pos (-1022)) hn
  have e2 : Int.log 2 ((2 : ℚ) ^ (-1022 : ℤ)) = -1022 := by
    have := Int.log_zpow (R := ℚ) (b := 2) (by norm_num) (-1022)
    exact_mod_cast this
  omega

/-- a value whose magnitude is at most a small power of two rounds to a finite number -/
theorem rnd_fin {q : ℚ} (h : |q| ≤ 2 ^ (1023 : ℤ)) : rnd q = fin (rndQ q) := by
  rw [abs_le] at h
  have h1 : rndQ q ≤ 2 ^ (1023 : ℤ) := rndQ_le_pow (by norm_num) h.2
  have h2 : -rndQ q ≤ 2 ^ (1023 : ℤ) := by
    rw [← rndQ_neg]; exact rndQ_le_pow (by norm_num) (by linarith)
  have h3 : (2 : ℚ) ^ (1023 : ℤ) < 2 ^ 1024 := by
    rw [← zpow_natCast (2 : ℚ) 1024]
    exact zpow_lt_zpow_right₀ (by norm_num) (by norm_num)
  unfold rnd
  generalize (2 : ℚ) ^ (1023 : ℤ) = a at *
  generalize (2 : ℚ) ^ 1024 = b at *
  rw [if_neg (by linarith), if_neg (by linarith)]

theorem pow64_le : (2 : ℚ) ^ 64 ≤ 2 ^ (1023 : ℤ) := by
  rw [← zpow_natCast (2 : ℚ) 64]
  exact zpow_le_zpow_right₀ (by norm_num) (by norm_num)

theorem pow128_le : (2 : ℚ) ^ 128 ≤ 2 ^ (1023 : ℤ) := by
  rw [← zpow_natCast (2 : ℚ) 128]
  exact zpow_le_zpow_right₀ (by norm_num) (by norm_num)

theorem U64MAX_q : ((U64MAX : ℕ) : ℚ) = 2 ^ 64 - 1 := by
  have : U64MAX = 2 ^ 64 - 1 := by decide
  rw [this]; norm_num

theorem ofNat_fin {n : ℕ} (h : n ≤ U64MAX) : ofNat n = fin (rndQ n) := by
  refine rnd_fin ?_
  have h1 : (n : ℚ) ≤ 2 ^ 64 := by
    have : (n : ℚ) ≤ (U64MAX : ℕ) := by exact_mod_cast h
    rw [U64MAX_q] at this; linarith
  rw [abs_of_nonneg (by positivity)]
  exact le_trans h1 pow64_le

theorem rndQ_u64_le {n : ℕ} (h : n ≤ U64MAX) : rndQ n ≤ 2 ^ 64 := by
  have h1 : (n : ℚ) ≤ 2 ^ (64 : ℤ) := by
    have : (n : ℚ) ≤ (U64MAX : ℕ) := by exact_mod_cast h
    rw [U64MAX_q] at this
    have : (2 : ℚ) ^ (64 : ℤ) = 2 ^ 64 := by norm_cast
    linarith
  have := rndQ_le_pow (by norm_num) h1
  exact_mod_cast this

/-- positive integers stay at least one -/
theorem one_le_rndQ {q : ℚ} (h : 1 ≤ q) : 1 ≤ rndQ q := by
  have := rndQ_mono h; rwa [rndQ_one] at this

theorem rndQ_le_one {q : ℚ} (h : q ≤ 1) : rndQ q ≤ 1 := by
  have := rndQ_mono h; rwa [rndQ_one] at this

end Hdr.F64
