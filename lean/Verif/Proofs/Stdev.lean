import Verif.Proofs.Mean
import Verif.Model.Stdev
import Verif.Spec.Stdev

/-!
# Rounding error of the standard deviation
-/

namespace Hdr

open F64

variable {T : CounterTy} {fp : Fp}

/-! ### The square root -/

/-- the bounds that make an integer the nearest one to a square root -/
theorem near_sqrt {n r : ℚ} (hn : 2 ^ 52 ≤ n) (hr : 2 ^ 104 ≤ r) (h1 : (n - 1 / 2) ^ 2 ≤ r) (h2 : r ≤ (n + 1 / 2) ^ 2)
    (hi : n ≤ 2 ^ 52 ∨ 2 ^ 52 + 1 ≤ n) : Near 2 (n ^ 2) r := by
  rw [near_iff]
  have he : eps = 1 / 2 ^ 53 := rfl
  constructor
  · have h3 : (n + 1 / 2) * (1 - eps) ≤ n := by
      have : (n + 1 / 2) * (1 - eps) = n - ((n + 1 / 2) * eps - 1 / 2) := by ring
      rw [this]
      have : 1 / 2 ≤ (n + 1 / 2) * eps := by
        calc (1 : ℚ) / 2 = 2 ^ 52 * eps := by rw [he]; norm_num
          _ ≤ (n + 1 / 2) * eps := mul_le_mul_of_nonneg_right (by linarith) eps_pos.le
      linarith
    have h0 : 0 ≤ (n + 1 / 2) * (1 - eps) := mul_nonneg (by linarith) (by have := eps_lt; linarith)
    calc r * (1 - eps) ^ 2 ≤ (n + 1 / 2) ^ 2 * (1 - eps) ^ 2 := mul_le_mul_of_nonneg_right h2 (by positivity)
      _ = ((n + 1 / 2) * (1 - eps)) ^ 2 := by ring
      _ ≤ n ^ 2 := pow_le_pow_left₀ h0 h3 2
  · rcases hi with hi | hi
    · have : n = 2 ^ 52 := le_antisymm hi hn
      rw [this]
      calc ((2 : ℚ) ^ 52) ^ 2 = 2 ^ 104 * 1 := by norm_num
        _ ≤ r * 1 := by linarith
        _ ≤ r * (1 + eps) ^ 2 := mul_le_mul_of_nonneg_left (one_le_pow₀ (by have := eps_pos; linarith))
            (le_trans (by norm_num) hr)
    · have h3 : n ≤ (n - 1 / 2) * (1 + eps) := by
        have : (n - 1 / 2) * (1 + eps) = n + ((n - 1 / 2) * eps - 1 / 2) := by ring
        rw [this]
        have : 1 / 2 ≤ (n - 1 / 2) * eps := by
          calc (1 : ℚ) / 2 = 2 ^ 52 * eps := by rw [he]; norm_num
            _ ≤ (n - 1 / 2) * eps := mul_le_mul_of_nonneg_right (by linarith) eps_pos.le
        linarith
      calc n ^ 2 ≤ ((n - 1 / 2) * (1 + eps)) ^ 2 := pow_le_pow_left₀ (by linarith) h3 2
        _ = (n - 1 / 2) ^ 2 * (1 + eps) ^ 2 := by ring
        _ ≤ r * (1 + eps) ^ 2 := mul_le_mul_of_nonneg_right h1 (by positivity)

theorem sqrtInt_near {r : ℚ} (hr : 2 ^ 104 ≤ r) : Near 2 ((sqrtInt r : ℚ) ^ 2) r := by
  unfold sqrtInt
  dsimp only
  generalize hn : Nat.sqrt ⌊r⌋.toNat = n
  have hr0 : (0 : ℚ) ≤ r := le_trans (by norm_num) hr
  have hfl : 0 ≤ ⌊r⌋ := Int.floor_nonneg.mpr hr0
  have hfloor : ((⌊r⌋.toNat : ℕ) : ℚ) = ((⌊r⌋ : ℤ) : ℚ) := by
    have : ((⌊r⌋.toNat : ℕ) : ℤ) = ⌊r⌋ := Int.toNat_of_nonneg hfl
    exact_mod_cast congrArg (fun z : ℤ => (z : ℚ)) this
  have a1 : (n : ℚ) ^ 2 ≤ r := by
    have : n ^ 2 ≤ ⌊r⌋.toNat := by rw [← hn]; exact Nat.sqrt_le' _
    have : (n : ℚ) ^ 2 ≤ ((⌊r⌋.toNat : ℕ) : ℚ) := by exact_mod_cast this
    rw [hfloor] at this
    exact le_trans this (Int.floor_le r)
  have a2 : r < ((n : ℚ) + 1) ^ 2 := by
    have h1 : ⌊r⌋.toNat < (n + 1) ^ 2 := by rw [← hn]; exact Nat.lt_succ_sqrt' _
    have h2 : ⌊r⌋.toNat + 1 ≤ (n + 1) ^ 2 := h1
    have h3 : ((⌊r⌋.toNat : ℕ) : ℚ) + 1 ≤ ((n : ℚ) + 1) ^ 2 := by exact_mod_cast h2
    rw [hfloor] at h3
    exact lt_of_lt_of_le (Int.lt_floor_add_one r) h3
  have a3 : 2 ^ 52 ≤ n := by
    have : (2 : ℚ) ^ 52 < n + 1 := by
      refine lt_of_pow_lt_pow_left₀ 2 (by positivity) ?_
      refine lt_of_le_of_lt ?_ a2
      refine le_trans ?_ hr
      norm_num
    have : 2 ^ 52 < n + 1 := by exact_mod_cast this
    omega
  have a3q : (2 : ℚ) ^ 52 ≤ n := by exact_mod_cast a3
  have hnn : (0 : ℚ) ≤ n := by positivity
  have up : (n + 1 / 2 : ℚ) ^ 2 ≤ r → Near 2 (((n + 1 : ℕ) : ℚ) ^ 2) r := by
    intro a4
    push_cast
    refine near_sqrt (by linarith) hr ?_ ?_ (Or.inr (by linarith))
    · rw [show (n : ℚ) + 1 - 1 / 2 = n + 1 / 2 by ring]; exact a4
    · exact le_trans a2.le (pow_le_pow_left₀ (by linarith) (by linarith) 2)
  split
  · rename_i h; exact up h.le
  · rename_i h
    split
    · rename_i h'; exact up h'.1.ge
    · refine near_sqrt a3q hr ?_ (not_lt.mp h) ?_
      · exact le_trans (pow_le_pow_left₀ (by linarith) (by linarith) 2) a1
      · rcases Nat.eq_or_lt_of_le a3 with h | h
        · left; rw [← h]; norm_num
        · right
          have : 2 ^ 52 + 1 ≤ n := h
          exact_mod_cast this

theorem sqrtPos_near {q : ℚ} (hq : 0 < q) : 0 ≤ sqrtPos q ∧ Near 2 (sqrtPos q ^ 2) q := by
  have hlog := log_le hq
  unfold sqrtPos sqrtExp
  generalize hE : Int.log 2 q / 2 - 52 = e
  have hpe : (0 : ℚ) < 2 ^ e := two_zpow_pos e
  have h4 : (4 : ℚ) ^ e = 2 ^ e * 2 ^ e := by rw [← mul_zpow]; norm_num
  have h4p : (0 : ℚ) < 4 ^ e := zpow_pos (by norm_num) e
  have hr : 2 ^ 104 ≤ q / 4 ^ e := by
    rw [le_div_iff₀ h4p, h4, ← zpow_add₀ (by norm_num), ← zpow_natCast (2 : ℚ) 104, ← zpow_add₀ (by norm_num)]
    refine le_trans ?_ hlog
    refine zpow_le_zpow_right₀ (by norm_num) ?_
    have := Int.mul_ediv_self_le (x := Int.log 2 q) (k := 2) (by norm_num)
    norm_num
    omega
  have h2 := sqrtInt_near hr
  generalize sqrtInt (q / 4 ^ e) = n at *
  have h1 : (0 : ℚ) ≤ n := by positivity
  generalize (n : ℚ) = k at *
  refine ⟨mul_nonneg h1 hpe.le, ?_⟩
  rw [near_iff] at h2 ⊢
  have e1 : (k * 2 ^ e) ^ 2 = k ^ 2 * 4 ^ e := by rw [h4]; ring
  have e2 : q = q / 4 ^ e * 4 ^ e := (div_mul_cancel₀ q h4p.ne').symm
  rw [e1]
  constructor
  · calc q * (1 - eps) ^ 2 = q / 4 ^ e * (1 - eps) ^ 2 * 4 ^ e := by nth_rw 1 [e2]; ring
      _ ≤ k ^ 2 * 4 ^ e := mul_le_mul_of_nonneg_right h2.1 h4p.le
  · calc k ^ 2 * 4 ^ e ≤ q / 4 ^ e * (1 + eps) ^ 2 * 4 ^ e := mul_le_mul_of_nonneg_right h2.2 h4p.le
      _ = q * (1 + eps) ^ 2 := by nth_rw 2 [e2]; ring

theorem Near.trans {m n : Nat} {x y z : ℚ} (h : Near m x y) (h' : Near n y z) : Near (m + n) x z := by
  rw [near_iff] at h h' ⊢
  have e1 := eps_pos
  have e2 := eps_lt
  constructor
  · calc z * (1 - eps) ^ (m + n) = z * (1 - eps) ^ n * (1 - eps) ^ m := by ring
      _ ≤ y * (1 - eps) ^ m := mul_le_mul_of_nonneg_right h'.1 (pow_nonneg (by linarith) _)
      _ ≤ x := h.1
  · calc x ≤ y * (1 + eps) ^ m := h.2
      _ ≤ z * (1 + eps) ^ n * (1 + eps) ^ m := mul_le_mul_of_nonneg_right h'.2 (pow_nonneg (by linarith) _)
      _ = z * (1 + eps) ^ (m + n) := by ring

/-! ### No underflow: everything is a multiple of a common small number -/

/-- multiples of `2 ^ -118` -/
def Grid (x : ℚ) : Prop := ∃ z : ℤ, x = z * 2 ^ (-118 : ℤ)

theorem Grid.zero : Grid 0 := ⟨0, by simp⟩

theorem Grid.sub {x y : ℚ} (hx : Grid x) (hy : Grid y) : Grid (x - y) := by
  obtain ⟨a, rfl⟩ := hx
  obtain ⟨b, rfl⟩ := hy
  exact ⟨a - b, by push_cast; ring⟩

theorem Grid.large {x : ℚ} (hx : Grid x) (h0 : x ≠ 0) : 2 ^ (-118 : ℤ) ≤ |x| := by
  obtain ⟨a, rfl⟩ := hx
  have ha : a ≠ 0 := by rintro rfl; exact h0 (by simp)
  rw [abs_mul, abs_of_pos (two_zpow_pos (-118))]
  have h1 : (1 : ℤ) ≤ |a| := Int.one_le_abs ha
  have h2 : (1 : ℚ) ≤ |(a : ℚ)| := by
    rw [← Int.cast_abs]; exact_mod_cast h1
  calc (2 : ℚ) ^ (-118 : ℤ) = 1 * 2 ^ (-118 : ℤ) := (one_mul _).symm
    _ ≤ _ := mul_le_mul_of_nonneg_right h2 (two_zpow_pos _).le

theorem rndQ_grid {q : ℚ} (h : q = 0 ∨ 2 ^ (-66 : ℤ) ≤ q) : Grid (rndQ q) := by
  rcases h with rfl | h
  · rw [rndQ_zero]; exact Grid.zero
  · have hq : 0 < q := lt_of_lt_of_le (two_zpow_pos _) h
    rw [rndQ_pos hq]
    unfold rndPos
    have hl : -66 ≤ Int.log 2 q := by
      by_contra hc
      have h1 : q < (2 : ℚ) ^ (Int.log 2 q + 1) := lt_log
      have h2 : (2 : ℚ) ^ (Int.log 2 q + 1) ≤ 2 ^ (-66 : ℤ) := zpow_le_zpow_right₀ (by norm_num) (by omega)
      linarith
    have hu : -118 ≤ ulpExp q := by unfold ulpExp; omega
    generalize rhe _ = z
    generalize ulpExp q = u at *
    refine ⟨z * 2 ^ (u + 118).toNat, ?_⟩
    push_cast
    rw [mul_assoc, ← zpow_natCast (2 : ℚ), Int.toNat_of_nonneg (by omega), ← zpow_add₀ (by norm_num)]
    congr 2
    omega

theorem rndQ_nat_grid (n : Nat) : Grid (rndQ n) := by
  refine rndQ_grid ?_
  rcases Nat.eq_zero_or_pos n with rfl | h
  · left; simp
  · right
    have : (1 : ℚ) ≤ n := by exact_mod_cast h
    refine le_trans ?_ this
    rw [show (1 : ℚ) = 2 ^ (0 : ℤ) by simp]
    exact zpow_le_zpow_right₀ (by norm_num) (by norm_num)

/-! ### The mean, again -/

theorem meanTerm_small {m c n : Nat} (hn : 0 < n) (hnU : n ≤ U64MAX) :
    meanTerm m c n = 0 ∨ 2 ^ (-65 : ℤ) ≤ meanTerm m c n := by
  have ht := meanTerm_near (m := m) (c := c) hn hnU
  have hnq : (0 : ℚ) < n := by exact_mod_cast hn
  have hy' : (0 : ℚ) ≤ ((m * c : ℕ) : ℚ) / n := by positivity
  have ht0 := ht.nonneg hy'
  rcases Nat.eq_zero_or_pos (m * c) with h0 | h0
  · left
    have := ht.2
    rw [h0, Nat.cast_zero, zero_div, zero_mul] at this
    linarith
  · right
    refine le_trans ?_ ht.1
    have h64 : (n : ℚ) ≤ 2 ^ 64 := by
      have : n ≤ 2 ^ 64 := le_trans hnU (by decide)
      exact_mod_cast this
    have a1 : (1 : ℚ) / 2 ^ 64 ≤ ((m * c : ℕ) : ℚ) / n := by
      have : (1 : ℚ) ≤ ((m * c : ℕ) : ℚ) := by exact_mod_cast h0
      rw [div_le_div_iff₀ (by positivity) hnq]
      nlinarith
    have a2 : (1 : ℚ) / 2 ≤ (1 - 1 / 2 ^ 53) ^ 6 := by norm_num
    calc (2 : ℚ) ^ (-65 : ℤ) = 1 / 2 ^ 65 := pow_n_z 65
      _ = 1 / 2 ^ 64 * (1 / 2) := by norm_num
      _ ≤ _ := mul_le_mul a1 a2 (by norm_num) hy'

theorem WF.meanFold_grid {h : Hist T} (W : WF fp h) (hne : h.totalCount ≠ 0) (is : List Nat) :
    ∀ (k : Nat) (x : ℚ), (∀ i ∈ is, i < h.counts.length) → k + is.length < 2 ^ 53 → 0 ≤ x → x ≤ k * 2 ^ 128 →
      (x = 0 ∨ 2 ^ (-65 : ℤ) ≤ x) → Grid x →
      Grid (h.meanFold is x) ∧ 0 ≤ h.meanFold is x ∧ h.meanFold is x ≤ (k + is.length : ℕ) * 2 ^ 128 := by
  induction is with
  | nil => intro k x _ _ h0 hk _ hg; exact ⟨hg, h0, hk⟩
  | cons i is ih =>
    intro k x hi hlen h0 hk hs hg
    unfold Hist.meanFold
    have hi' : ∀ j ∈ is, j < h.counts.length := fun j hj => hi j (by simp [hj])
    rw [List.length_cons] at hlen ⊢
    have hpos := Nat.pos_of_ne_zero hne
    split
    · have hiL := hi i (by simp)
      obtain ⟨-, -, m3⟩ := W.median_top hiL
      have hcU : h.counts.getD i 0 ≤ U64MAX := le_trans (W.getD_le i) (T_max_le T)
      obtain ⟨b1, b2⟩ := meanTerm_bounds m3 hcU hpos
      have b3 := meanTerm_small (m := h.lval i + h.lwid (h.lval i) / 2) (c := h.counts.getD i 0) hpos W.tot
      have hsum := rndQ_add_bound hk b2 (by omega)
      generalize meanTerm _ _ _ = t at *
      have hxs : x + t = 0 ∨ 2 ^ (-65 : ℤ) ≤ x + t := by
        rcases hs with h1 | h1
        · rw [h1, zero_add]; exact b3
        · right; linarith
      have := ih (k + 1) (rndQ (x + t)) hi' (by omega) (rndQ_nonneg (by linarith)) hsum (by
        rcases hxs with h1 | h1
        · left; rw [h1, rndQ_zero]
        · right
          have := rndQ_mono h1
          rwa [rndQ_pow2 (by norm_num)] at this) (rndQ_grid (by
        rcases hxs with h1 | h1
        · exact Or.inl h1
        · right
          exact le_trans (zpow_le_zpow_right₀ (by norm_num) (by norm_num)) h1))
      rwa [show k + 1 + is.length = k + (is.length + 1) by omega] at this
    · have := ih k x hi' (by omega) h0 hk hs hg
      refine ⟨this.1, this.2.1, le_trans this.2.2 ?_⟩
      refine mul_le_mul_of_nonneg_right ?_ (by positivity)
      have : k + is.length ≤ k + (is.length + 1) := by omega
      exact_mod_cast this

/-! ### One deviation -/

/-- the computed distance of a median from the mean -/
def devQ (x : ℚ) (m : Nat) : ℚ := rndQ (rndQ m - x)

/-- the term a class contributes -/
def devTerm (x : ℚ) (m c : Nat) : ℚ := rndQ (rndQ (devQ x m * devQ x m) * rndQ c)

theorem rndQ_abs (q : ℚ) : |rndQ q| = rndQ |q| := by
  rcases le_total 0 q with h | h
  · rw [abs_of_nonneg h, abs_of_nonneg (rndQ_nonneg h)]
  · rw [abs_of_nonpos h, abs_of_nonpos (rndQ_nonpos h), rndQ_neg]

theorem devQ_sq_small {x : ℚ} (hx : Grid x) (m : Nat) : devQ x m * devQ x m = 0 ∨ 1 / 2 ^ 236 ≤ devQ x m * devQ x m := by
  have hg := (rndQ_nat_grid m).sub hx
  unfold devQ
  rcases eq_or_ne (rndQ m - x) 0 with h | h
  · left; rw [h, rndQ_zero]; ring
  · right
    have h1 := rndQ_mono (hg.large h)
    rw [rndQ_pow2 (by norm_num), ← rndQ_abs] at h1
    rw [← abs_mul_abs_self (rndQ (rndQ m - x))]
    have h2 : (2 : ℚ) ^ (-118 : ℤ) = 1 / 2 ^ 118 := pow_n_z 118
    rw [h2] at h1
    calc (1 : ℚ) / 2 ^ 236 = 1 / 2 ^ 118 * (1 / 2 ^ 118) := by norm_num
      _ ≤ _ := mul_le_mul h1 h1 (by positivity) (abs_nonneg _)

theorem devQ_le {x : ℚ} (h0 : 0 ≤ x) (hx : x ≤ 2 ^ 152) {m : Nat} (hm : m ≤ U64MAX) : |rndQ m - x| ≤ 2 ^ 153 := by
  have h1 := rndQ_u64_le hm
  have h2 : 0 ≤ rndQ (m : ℚ) := rndQ_nonneg (by positivity)
  rw [abs_le]
  constructor <;> norm_num at * <;> linarith

theorem devQ_sq_le {x : ℚ} (h0 : 0 ≤ x) (hx : x ≤ 2 ^ 152) {m : Nat} (hm : m ≤ U64MAX) :
    devQ x m * devQ x m ≤ 2 ^ 306 := by
  have h1 := devQ_le h0 hx hm
  have h2 : |devQ x m| ≤ 2 ^ 153 := by
    unfold devQ
    rw [rndQ_abs]
    exact rndQ_le_npow h1
  rw [← abs_mul_abs_self]
  calc |devQ x m| * |devQ x m| ≤ 2 ^ 153 * 2 ^ 153 := mul_le_mul h2 h2 (abs_nonneg _) (by positivity)
    _ = 2 ^ 306 := by rw [← pow_add]

theorem npow_le {k : ℕ} (hk : k ≤ 1023) : (2 : ℚ) ^ k ≤ 2 ^ (1023 : ℤ) := by
  rw [← zpow_natCast (2 : ℚ)]
  exact zpow_le_zpow_right₀ (by norm_num) (by omega)

theorem devTerm_bounds {x : ℚ} (h0 : 0 ≤ x) (hx : x ≤ 2 ^ 152) {m c : Nat} (hm : m ≤ U64MAX) (hc : c ≤ U64MAX) :
    0 ≤ rndQ (devQ x m * devQ x m) * rndQ c ∧ rndQ (devQ x m * devQ x m) * rndQ c ≤ 2 ^ 370 := by
  have h1 := rndQ_le_npow (devQ_sq_le h0 hx hm)
  have h2 := rndQ_u64_le hc
  have h3 : 0 ≤ rndQ (c : ℚ) := rndQ_nonneg (by positivity)
  have h4 : 0 ≤ rndQ (devQ x m * devQ x m) := rndQ_nonneg (mul_self_nonneg _)
  refine ⟨mul_nonneg h4 h3, ?_⟩
  calc rndQ (devQ x m * devQ x m) * rndQ c ≤ 2 ^ 306 * 2 ^ 64 := mul_le_mul h1 h2 h3 (by positivity)
    _ = 2 ^ 370 := by rw [← pow_add]

theorem devTerm_eq {x : ℚ} (h0 : 0 ≤ x) (hx : x ≤ 2 ^ 152) {m c : Nat} (hm : m ≤ U64MAX) (hc : c ≤ U64MAX) :
    F64.mul (F64.mul (F64.sub (F64.ofNat m) (.fin x)) (F64.sub (F64.ofNat m) (.fin x))) (F64.ofNat c)
      = .fin (devTerm x m c) := by
  have e1 : F64.sub (F64.ofNat m) (.fin x) = .fin (devQ x m) := by
    rw [ofNat_fin hm]
    simp only [F64.sub, F64.neg, F64.add]
    rw [← sub_eq_add_neg]
    exact rnd_fin (le_trans (devQ_le h0 hx hm) (npow_le (by norm_num)))
  rw [e1]
  have e2 : F64.mul (.fin (devQ x m)) (.fin (devQ x m)) = .fin (rndQ (devQ x m * devQ x m)) := by
    simp only [F64.mul]
    refine rnd_fin ?_
    rw [abs_of_nonneg (mul_self_nonneg _)]
    exact le_trans (devQ_sq_le h0 hx hm) (npow_le (by norm_num))
  rw [e2, ofNat_fin hc]
  simp only [F64.mul]
  obtain ⟨b1, b2⟩ := devTerm_bounds h0 hx hm hc
  refine rnd_fin ?_
  rw [abs_of_nonneg b1]
  exact le_trans b2 (npow_le (by norm_num))

theorem devTerm_near {x : ℚ} (hx : Grid x) (m c : Nat) :
    Near 3 (devTerm x m c) (c * (devQ x m * devQ x m)) ∧ (devTerm x m c = 0 ∨ 1 / 2 ^ 236 ≤ devTerm x m c) := by
  unfold devTerm
  have hs := devQ_sq_small hx m
  have h0 : 0 ≤ devQ x m * devQ x m := mul_self_nonneg _
  generalize devQ x m * devQ x m = d at *
  have hd : rndQ d = 0 ∨ 1 / 2 ^ 236 ≤ rndQ d := by
    rcases hs with h | h
    · left; rw [h, rndQ_zero]
    · right
      have := rndQ_mono h
      rwa [← pow_n_z, rndQ_pow2 (by norm_num), pow_n_z] at this
  have h1 : Near 1 (rndQ d) d := by
    have := (Near.refl d).rnd h0 (by
      rcases hs with h | h
      · exact Or.inl h
      · exact Or.inr (le_trans (zpow_small (by norm_num)) h))
    simpa using this
  have h2 : Near 2 (rndQ d * rndQ c) (d * c) := h1.mul nat_near h0 (by positivity)
  have hc : rndQ (c : ℚ) = 0 ∨ 1 ≤ rndQ (c : ℚ) := by
    rcases Nat.eq_zero_or_pos c with rfl | h
    · exact Or.inl (by simp [rndQ_zero])
    · exact Or.inr (one_le_rndQ (by exact_mod_cast h))
  have hp : rndQ d * rndQ c = 0 ∨ 1 / 2 ^ 236 ≤ rndQ d * rndQ c := by
    rcases hd with h | h
    · left; rw [h]; ring
    · rcases hc with h' | h'
      · left; rw [h']; ring
      · right
        calc (1 : ℚ) / 2 ^ 236 = 1 / 2 ^ 236 * 1 := (mul_one _).symm
          _ ≤ rndQ d * rndQ c := mul_le_mul h h' (by norm_num) (le_trans (by positivity) h)
  constructor
  · rw [mul_comm (c : ℚ)]
    exact h2.rnd (by positivity) (by
      rcases hp with h | h
      · exact Or.inl h
      · exact Or.inr (le_trans (zpow_small (by norm_num)) h))
  · rcases hp with h | h
    · left; rw [h, rndQ_zero]
    · right
      have := rndQ_mono h
      rwa [← pow_n_z, rndQ_pow2 (by norm_num), pow_n_z] at this

/-! ### The sum of the squares -/

/-- the fold of `stdev` over the slots `is`, from the total `t` -/
def Hist.devFold (h : Hist T) (x : ℚ) : List Nat → ℚ → ℚ
  | [], t => t
  | i :: is, t =>
    if h.counts.getD i 0 ≠ 0 then
      devFold h x is (rndQ (t + devTerm x (h.lval i + h.lwid (h.lval i) / 2) (h.counts.getD i 0)))
    else devFold h x is t

/-- its exact counterpart -/
def Hist.devSum (h : Hist T) (x : ℚ) : List Nat → ℚ
  | [] => 0
  | i :: is => h.counts.getD i 0 * (devQ x (h.lval i + h.lwid (h.lval i) / 2) * devQ x (h.lval i + h.lwid (h.lval i) / 2))
      + devSum h x is

theorem devSum_nonneg {h : Hist T} {x : ℚ} (is : List Nat) : 0 ≤ h.devSum x is := by
  induction is with
  | nil => exact le_rfl
  | cons i is ih =>
    unfold Hist.devSum
    have : (0 : ℚ) ≤ h.counts.getD i 0 := by positivity
    exact add_nonneg (mul_nonneg this (mul_self_nonneg _)) ih

theorem rndQ_add_bound' {x y : ℚ} {k : ℕ} (hx : x ≤ k * 2 ^ 370) (hy : y ≤ 2 ^ 370)
    (hk : k < 2 ^ 53) : rndQ (x + y) ≤ (k + 1 : ℕ) * 2 ^ 370 := by
  have e : rndQ ((k + 1 : ℕ) * 2 ^ 370 : ℚ) = (k + 1 : ℕ) * 2 ^ 370 := by
    refine rndQ_exact ((k + 1 : ℕ) : ℤ) 370 (by norm_num) ?_ (by norm_num)
    rw [abs_of_nonneg (by positivity)]
    exact_mod_cast hk
  rw [← e]
  refine rndQ_mono ?_
  push_cast
  generalize (2 : ℚ) ^ 370 = w at *
  linarith

theorem WF.stdevLoop_eq {h : Hist T} (W : WF fp h) {x : ℚ} (hx0 : 0 ≤ x) (hxb : x ≤ 2 ^ 152) (cs : List Nat) :
    ∀ (i tot k : Nat) (t : ℚ), h.counts.drop i = cs → 0 ≤ t → t ≤ k * 2 ^ 370 → k + cs.length < 2 ^ 53 →
      h.stdevLoop (.fin x) (h.recItems cs i tot) (.fin t) = .ok (.fin (h.devFold x (List.range' i cs.length) t)) ∧
        0 ≤ h.devFold x (List.range' i cs.length) t ∧ h.devFold x (List.range' i cs.length) t ≤ (k + cs.length : ℕ) * 2 ^ 370 := by
  induction cs with
  | nil => intro i tot k x _ h0 hx _; exact ⟨rfl, h0, hx⟩
  | cons c cs ih =>
    intro i tot k t hd h0 ht hk
    obtain ⟨hi, hc, hd'⟩ := getD_of_drop hd
    rw [List.length_cons, List.range'_succ]
    unfold Hist.recItems Hist.devFold
    rw [hc]
    simp only [List.length_cons] at hk
    by_cases hz : c ≠ 0
    · rw [if_pos hz, if_pos hz]
      unfold Hist.stdevLoop
      obtain ⟨m1, -, m3⟩ := W.median_top hi
      have hcU : c ≤ U64MAX := by rw [← hc]; exact le_trans (W.getD_le i) (T_max_le T)
      have hsat : Hdr.satAdd 0 c = c := by unfold Hdr.satAdd; omega
      rw [show (h.slotValue i (Hdr.satAdd tot c) (Hdr.satAdd 0 c)).valueIteratedTo = h.lhi (h.lval i) from rfl, m1,
        M.ok_bind, show (h.slotValue i (Hdr.satAdd tot c) (Hdr.satAdd 0 c)).countSinceLastIteration = c from hsat]
      dsimp only
      rw [devTerm_eq hx0 hxb m3 hcU]
      obtain ⟨b1, b2⟩ := devTerm_bounds hx0 hxb m3 hcU
      have b1' := rndQ_nonneg b1
      have b2' := rndQ_le_npow b2
      change 0 ≤ devTerm _ _ _ at b1'
      change devTerm _ _ _ ≤ _ at b2'
      generalize devTerm x (h.lval i + h.lwid (h.lval i) / 2) c = g at *
      have hsum := rndQ_add_bound' ht b2' (by omega)
      have e : F64.add (.fin t) (.fin g) = .fin (rndQ (t + g)) := by
        simp only [F64.add]
        refine rnd_fin ?_
        rw [abs_of_nonneg (by linarith)]
        have hk53 : (k : ℚ) + 1 ≤ 2 ^ 53 := by
          have : k + 1 ≤ 2 ^ 53 := by omega
          exact_mod_cast this
        have : t + g ≤ 2 ^ 53 * 2 ^ 370 := by
          refine le_trans (show _ ≤ ((k : ℚ) + 1) * 2 ^ 370 by rw [add_mul, one_mul]; exact add_le_add ht b2') ?_
          exact mul_le_mul_of_nonneg_right hk53 (by positivity)
        refine le_trans this ?_
        rw [← pow_add]
        exact npow_le (by norm_num)
      rw [e]
      have := ih (i + 1) (Hdr.satAdd tot c) (k + 1) _ hd' (rndQ_nonneg (by linarith)) hsum (by omega)
      rwa [show k + 1 + cs.length = k + (cs.length + 1) by omega] at this
    · rw [if_neg hz, if_neg hz]
      have := ih (i + 1) (Hdr.satAdd tot c) k t hd' h0 ht (by omega)
      refine ⟨this.1, this.2.1, le_trans this.2.2 ?_⟩
      refine mul_le_mul_of_nonneg_right ?_ (by positivity)
      have : k + cs.length ≤ k + (cs.length + 1) := by omega
      exact_mod_cast this

theorem devFold_near {h : Hist T} {x : ℚ} (hx : Grid x) (is : List Nat) :
    ∀ (k : Nat) (t y : ℚ), 0 ≤ y → Near k t y → 3 ≤ k → (t = 0 ∨ 1 / 2 ^ 236 ≤ t) →
      Near (k + h.meanUsed is) (h.devFold x is t) (y + h.devSum x is) ∧
        (h.devFold x is t = 0 ∨ 1 / 2 ^ 236 ≤ h.devFold x is t) := by
  induction is with
  | nil => intro k t y hy hn _ ht; exact ⟨by simpa [Hist.meanUsed, Hist.devFold, Hist.devSum] using hn, ht⟩
  | cons i is ih =>
    intro k t y hy hn hk ht
    unfold Hist.meanUsed Hist.devFold Hist.devSum
    by_cases hz : h.counts.getD i 0 ≠ 0
    · rw [if_pos hz, if_pos hz]
      obtain ⟨g1, g2⟩ := devTerm_near hx (h.lval i + h.lwid (h.lval i) / 2) (h.counts.getD i 0)
      have hc0 : (0 : ℚ) ≤ h.counts.getD i 0 := by positivity
      have hy' := mul_nonneg hc0 (mul_self_nonneg (devQ x (h.lval i + h.lwid (h.lval i) / 2)))
      generalize (h.counts.getD i 0 : ℚ) * (devQ x (h.lval i + h.lwid (h.lval i) / 2) * devQ x (h.lval i + h.lwid (h.lval i) / 2)) = e at *
      generalize devTerm _ _ _ = g at *
      have hsum := hn.add (g1.mono hy' hk)
      have g0 := g1.nonneg hy'
      have t0 := hn.nonneg hy
      have hxs : t + g = 0 ∨ 1 / 2 ^ 236 ≤ t + g := by
        rcases ht with h1 | h1
        · rw [h1, zero_add]; exact g2
        · right; linarith
      have hr := hsum.rnd (by linarith) (by
        rcases hxs with h1 | h1
        · exact Or.inl h1
        · exact Or.inr (le_trans (zpow_small (by norm_num)) h1))
      have := ih (k + 1) _ _ (by linarith) hr (by omega) (by
        rcases hxs with h1 | h1
        · left; rw [h1, rndQ_zero]
        · right
          have := rndQ_mono h1
          rwa [← pow_n_z, rndQ_pow2 (by norm_num), pow_n_z] at this)
      rw [show k + (1 + h.meanUsed is) = k + 1 + h.meanUsed is by omega, ← add_assoc]
      exact this
    · rw [if_neg hz, if_neg hz]
      have hz : h.counts.getD i 0 = 0 := not_not.mp hz
      rw [hz, Nat.cast_zero, zero_mul, zero_add, zero_add]
      exact ih k t y hy hn hk ht

/-- the computed standard deviation, against the exact root mean square of the computed deviations -/
theorem WF.stdev_near {h : Hist T} (W : WF fp h) (hne : h.totalCount ≠ 0) :
    ∃ x s, h.mean = .ok (.fin x) ∧ Near (6 + h.meanUsed (List.range h.counts.length)) x
        ((h.meanSum (List.range h.counts.length) : ℚ) / h.totalCount) ∧ Grid x ∧
      h.stdev = .ok (.fin s) ∧ 0 ≤ s ∧
      Near (8 + h.meanUsed (List.range h.counts.length)) (s ^ 2)
        (h.devSum x (List.range h.counts.length) / h.totalCount) := by
  obtain ⟨x, e, hn⟩ := W.mean_near hne
  have hl : h.counts.length < 2 ^ 24 := by
    have h1 := W.len_le_all
    have h2 : h.lall < 2 ^ 24 := Lay.allSlots_lt W.mag17
    omega
  have hpos := Nat.pos_of_ne_zero hne
  have hposq : (0 : ℚ) < h.totalCount := by exact_mod_cast hpos
  have hfuel : h.iterRecorded h.recordedFuel = .ok (h.recItems h.counts 0 0) :=
    W.iterRecorded_eq (by unfold Hist.recordedFuel Hist.distinctValues; omega)
  have ex : x = h.meanFold (List.range h.counts.length) 0 := by
    have : h.mean = .ok (.fin (h.meanFold (List.range h.counts.length) 0)) := by
      unfold Hist.mean
      rw [if_neg hne, hfuel, M.ok_bind, List.range_eq_range']
      exact W.meanLoop_eq hne h.counts 0 0 0 0 (by simp) le_rfl (by simp) (by omega)
    rw [e] at this
    injection this with this
    injection this
  obtain ⟨g1, g2, g3⟩ := W.meanFold_grid hne (List.range h.counts.length) 0 0
    (fun i hi => List.mem_range.mp hi) (by rw [List.length_range]; omega) le_rfl (by simp) (Or.inl rfl) Grid.zero
  rw [← ex] at g1 g2 g3
  have g3 : x ≤ 2 ^ 152 := by
    refine le_trans g3 ?_
    rw [Nat.zero_add, List.length_range]
    have : (h.counts.length : ℚ) ≤ 2 ^ 24 := by exact_mod_cast hl.le
    calc (h.counts.length : ℚ) * 2 ^ 128 ≤ 2 ^ 24 * 2 ^ 128 := mul_le_mul_of_nonneg_right this (by positivity)
      _ = 2 ^ 152 := by norm_num
  obtain ⟨l1, l2, l3⟩ := W.stdevLoop_eq g2 g3 h.counts 0 0 0 0 (by simp) le_rfl (by simp) (by omega)
  rw [← List.range_eq_range'] at l1 l2 l3
  obtain ⟨n1, n2⟩ := devFold_near (h := h) g1 (List.range h.counts.length) 3 0 0 le_rfl
    ((Near.refl 0).mono le_rfl (by norm_num)) le_rfl (Or.inl rfl)
  rw [zero_add] at n1
  suffices H : ∃ s, h.stdev = .ok (.fin s) ∧ 0 ≤ s ∧
      Near (8 + h.meanUsed (List.range h.counts.length)) (s ^ 2)
        (h.devSum x (List.range h.counts.length) / h.totalCount) by
    obtain ⟨s, hs⟩ := H
    exact ⟨x, s, e, hn, g1, hs⟩
  have hS := devSum_nonneg (h := h) (x := x) (List.range h.counts.length)
  generalize h.devFold x (List.range h.counts.length) 0 = t at *
  generalize h.devSum x (List.range h.counts.length) = S at *
  generalize h.meanUsed (List.range h.counts.length) = u at *
  have hr1 : (1 : ℚ) ≤ rndQ h.totalCount := one_le_rndQ (by exact_mod_cast hpos)
  have hr64 := rndQ_u64_le W.tot
  have hv : h.variance = .ok (.fin (rndQ (t / rndQ h.totalCount))) := by
    unfold Hist.variance
    rw [if_neg hne, e, M.ok_bind, hfuel, M.ok_bind, l1, M.ok_bind, ofNat_fin W.tot]
    simp only [F64.div]
    rw [if_neg (by linarith), rnd_fin]
    · rfl
    · rw [abs_of_nonneg (div_nonneg l2 (by linarith))]
      refine le_trans (div_le_self l2 hr1) (le_trans l3 ?_)
      have : ((0 + h.counts.length : ℕ) : ℚ) ≤ 2 ^ 24 := by rw [Nat.zero_add]; exact_mod_cast hl.le
      refine le_trans (mul_le_mul_of_nonneg_right this (by positivity)) ?_
      rw [← pow_add]
      exact npow_le (by norm_num)
  have hd : Near (3 + u + 2) (t / rndQ h.totalCount) (S / h.totalCount) := n1.div nat_near hS hposq
  have hts : t / rndQ h.totalCount = 0 ∨ 1 / 2 ^ 300 ≤ t / rndQ h.totalCount := by
    rcases n2 with h1 | h1
    · left; rw [h1, zero_div]
    · right
      rw [div_le_div_iff₀ (by positivity) (by linarith)]
      calc 1 * rndQ h.totalCount ≤ 2 ^ 64 := by rw [one_mul]; exact hr64
        _ = 1 / 2 ^ 236 * (2 ^ 236 * 2 ^ 64) := by norm_num
        _ = 1 / 2 ^ 236 * 2 ^ 300 := by rw [← pow_add]
        _ ≤ t * 2 ^ 300 := mul_le_mul_of_nonneg_right h1 (by positivity)
  have hvr : Near (6 + u) (rndQ (t / rndQ h.totalCount)) (S / h.totalCount) := by
    have := hd.rnd (by positivity) (by
      rcases hts with h1 | h1
      · exact Or.inl h1
      · exact Or.inr (le_trans (zpow_small (by norm_num)) h1))
    rwa [show 3 + u + 2 + 1 = 6 + u by omega] at this
  have hv0 := hvr.nonneg (by positivity)
  generalize rndQ (t / rndQ h.totalCount) = v at *
  have hst : h.stdev = .ok (F64.sqrt (.fin v)) := by
    unfold Hist.stdev
    rw [if_neg hne, hv, M.ok_bind]
    rfl
  simp only [F64.sqrt] at hst
  rw [if_neg (not_lt.mpr hv0)] at hst
  by_cases hz : v = 0
  · rw [if_pos hz] at hst
    refine ⟨0, hst, le_rfl, ?_⟩
    rw [hz] at hvr
    rw [show (0 : ℚ) ^ 2 = 0 by norm_num]
    exact hvr.mono (by positivity) (by omega)
  · rw [if_neg hz] at hst
    have hvp : 0 < v := lt_of_le_of_ne hv0 (Ne.symm hz)
    obtain ⟨s1, s2⟩ := sqrtPos_near hvp
    refine ⟨sqrtPos v, hst, s1, ?_⟩
    have := s2.trans hvr
    rwa [show 2 + (6 + u) = 8 + u by omega] at this

/-! ### From the computed deviations to the exact ones -/

/-- a weighted sum of squares -/
noncomputable def wsq (c a : Nat → ℝ) : List Nat → ℝ
  | [] => 0
  | i :: is => c i * a i ^ 2 + wsq c a is

theorem wsq_nonneg {c a : Nat → ℝ} (hc : ∀ i, 0 ≤ c i) (is : List Nat) : 0 ≤ wsq c a is := by
  induction is with
  | nil => exact le_rfl
  | cons i is ih => exact add_nonneg (mul_nonneg (hc i) (sq_nonneg _)) ih

theorem wsq_le {c a : Nat → ℝ} (hc : ∀ i, 0 ≤ c i) {b : ℝ} (is : List Nat)
    (h : ∀ i ∈ is, c i ≠ 0 → |a i| ≤ b) : wsq c a is ≤ b ^ 2 * (is.map c).sum := by
  induction is with
  | nil => simp [wsq]
  | cons i is ih =>
    rw [List.map_cons, List.sum_cons, mul_add]
    refine add_le_add ?_ (ih fun j hj => h j (by simp [hj]))
    by_cases hz : c i = 0
    · rw [hz]; simp
    · rw [mul_comm]
      refine mul_le_mul_of_nonneg_right ?_ (hc i)
      rw [← sq_abs]
      exact pow_le_pow_left₀ (abs_nonneg _) (h i (by simp) hz) 2

theorem wsq_shift {c a b : Nat → ℝ} (hc : ∀ i, 0 ≤ c i) {e σ : ℝ} (he : 0 ≤ e) (hσ : 0 < σ) (is : List Nat)
    (h : ∀ i ∈ is, c i ≠ 0 → |b i - a i| ≤ e) :
    wsq c b is ≤ wsq c a is + e * (wsq c a is / σ + σ * (is.map c).sum) + e ^ 2 * (is.map c).sum := by
  induction is with
  | nil => simp [wsq]
  | cons i is ih =>
    have ih := ih fun j hj => h j (by simp [hj])
    unfold wsq
    rw [List.map_cons, List.sum_cons]
    have key : c i * b i ^ 2 ≤ c i * a i ^ 2 + e * (c i * a i ^ 2 / σ + σ * c i) + e ^ 2 * c i := by
      by_cases hz : c i = 0
      · rw [hz]; simp
      · have h1 := h i (by simp) hz
        have h2 : b i ^ 2 ≤ (|a i| + e) ^ 2 := by
          rw [← sq_abs (b i)]
          refine pow_le_pow_left₀ (abs_nonneg _) ?_ 2
          calc |b i| = |a i + (b i - a i)| := by ring_nf
            _ ≤ |a i| + |b i - a i| := abs_add_le _ _
            _ ≤ |a i| + e := by linarith
        have h3 : 2 * |a i| ≤ a i ^ 2 / σ + σ := by
          rw [← sub_nonneg]
          have : a i ^ 2 / σ + σ - 2 * |a i| = (|a i| - σ) ^ 2 / σ := by
            rw [← sq_abs (a i)]
            field_simp
            ring
          rw [this]
          exact div_nonneg (sq_nonneg _) hσ.le
        have h4 : b i ^ 2 ≤ a i ^ 2 + e * (a i ^ 2 / σ + σ) + e ^ 2 := by
          refine le_trans h2 ?_
          have : (|a i| + e) ^ 2 = a i ^ 2 + e * (2 * |a i|) + e ^ 2 := by rw [← sq_abs (a i)]; ring
          rw [this]
          have := mul_le_mul_of_nonneg_left h3 he
          linarith
        calc c i * b i ^ 2 ≤ c i * (a i ^ 2 + e * (a i ^ 2 / σ + σ) + e ^ 2) := mul_le_mul_of_nonneg_left h4 (hc i)
          _ = _ := by ring
    calc c i * b i ^ 2 + wsq c b is
        ≤ (c i * a i ^ 2 + e * (c i * a i ^ 2 / σ + σ * c i) + e ^ 2 * c i)
          + (wsq c a is + e * (wsq c a is / σ + σ * (is.map c).sum) + e ^ 2 * (is.map c).sum) := add_le_add key ih
      _ = _ := by ring

/-- shifting every number by at most `e` shifts the root mean square by at most `e` -/
theorem rms_shift {c a b : Nat → ℝ} (hc : ∀ i, 0 ≤ c i) {e n : ℝ} (he : 0 ≤ e) (hn : 0 < n) (is : List Nat)
    (hs : (is.map c).sum ≤ n) (h : ∀ i ∈ is, c i ≠ 0 → |b i - a i| ≤ e) :
    Real.sqrt (wsq c b is / n) ≤ Real.sqrt (wsq c a is / n) + e := by
  refine le_of_forall_pos_le_add fun d hd => ?_
  have hA := wsq_nonneg (a := a) hc is
  have hσ0 := Real.sqrt_nonneg (wsq c a is / n)
  have hsq : Real.sqrt (wsq c a is / n) ^ 2 = wsq c a is / n := Real.sq_sqrt (div_nonneg hA hn.le)
  generalize Real.sqrt (wsq c a is / n) = σ at *
  have hSA : wsq c a is = n * σ ^ 2 := by rw [hsq]; field_simp
  have hτ : 0 < σ + d := by linarith
  have h1 := wsq_shift hc he hτ is h
  rw [Real.sqrt_le_left (by linarith), div_le_iff₀ hn]
  have h2 : wsq c a is ≤ n * (σ + d) ^ 2 := by
    rw [hSA]
    exact mul_le_mul_of_nonneg_left (pow_le_pow_left₀ hσ0 (by linarith) 2) hn.le
  have h3 : wsq c a is / (σ + d) ≤ n * (σ + d) := by
    rw [div_le_iff₀ hτ]
    calc wsq c a is ≤ n * (σ + d) ^ 2 := h2
      _ = n * (σ + d) * (σ + d) := by ring
  have h4 : (σ + d) * (is.map c).sum ≤ (σ + d) * n := mul_le_mul_of_nonneg_left hs hτ.le
  have h5 : e ^ 2 * (is.map c).sum ≤ e ^ 2 * n := mul_le_mul_of_nonneg_left hs (sq_nonneg e)
  have h6 := mul_le_mul_of_nonneg_left (add_le_add h3 h4) he
  calc wsq c b is ≤ _ := h1
    _ ≤ n * (σ + d) ^ 2 + e * (n * (σ + d) + (σ + d) * n) + e ^ 2 * n := by linarith
    _ = (σ + e + d) ^ 2 * n := by ring

/-- relative error of squares to relative error -/
theorem sqrt_rel {s v : ℝ} (hs : 0 ≤ s) (hv : 0 ≤ v) {d : ℝ} (hd : 0 ≤ d) (hd1 : d ≤ 1) (h1 : v * (1 - d) ≤ s ^ 2)
    (h2 : s ^ 2 ≤ v * (1 + d)) : |s - Real.sqrt v| ≤ d * Real.sqrt v := by
  have hw := Real.sqrt_nonneg v
  have hsq := Real.sq_sqrt hv
  generalize Real.sqrt v = w at *
  rw [← hsq] at h1 h2
  have hdd : d * d ≤ d := by nlinarith
  have a1 : s ≤ w * (1 + d) := by
    rw [← pow_le_pow_iff_left₀ hs (by positivity) two_ne_zero]
    refine le_trans h2 ?_
    rw [mul_pow]
    refine mul_le_mul_of_nonneg_left ?_ (sq_nonneg w)
    nlinarith
  have a2 : w * (1 - d) ≤ s := by
    rw [← pow_le_pow_iff_left₀ (mul_nonneg hw (by linarith)) hs two_ne_zero]
    refine le_trans ?_ h1
    rw [mul_pow]
    refine mul_le_mul_of_nonneg_left ?_ (sq_nonneg w)
    nlinarith
  rw [abs_le]
  constructor <;> nlinarith

theorem rndQ_err_abs {y : ℚ} (h : Grid y) : |rndQ y - y| ≤ |y| / 2 ^ 53 := by
  rcases eq_or_ne y 0 with rfl | h0
  · rw [rndQ_zero]; simp
  · have h1 := h.large h0
    have hp : 0 < |y| := abs_pos.mpr h0
    have h2 := rndQ_err hp (le_trans (zpow_le_zpow_right₀ (by norm_num) (by norm_num)) h1)
    rcases le_total 0 y with hy | hy
    · rwa [abs_of_nonneg hy] at h2 ⊢
    · rw [abs_of_nonpos hy] at h2 ⊢
      rw [rndQ_neg, neg_sub_neg, abs_sub_comm] at h2
      exact h2

theorem devQ_near {x μ : ℚ} {m b : Nat} (hx : Grid x) (hm : m ≤ b) (h0 : 0 ≤ μ) (hμ : μ ≤ b) (hxμ : |x - μ| ≤ μ / 2 ^ 28) :
    |devQ x m - ((m : ℚ) - μ)| ≤ b / 2 ^ 27 := by
  have hmb : (m : ℚ) ≤ b := by exact_mod_cast hm
  have hm0 : (0 : ℚ) ≤ m := by positivity
  have h1 := nat_near (n := m)
  rw [near_iff, pow_one, pow_one] at h1
  have he : eps = 1 / 2 ^ 53 := rfl
  rw [he] at h1
  have h2 := rndQ_err_abs ((rndQ_nat_grid m).sub hx)
  unfold devQ
  have hx0 : |rndQ (m : ℚ) - x| ≤ 2 * b := by
    rw [abs_le] at hxμ ⊢
    norm_num at h1 hxμ
    constructor <;> linarith [h1.1, h1.2, hxμ.1, hxμ.2]
  have h3 := le_trans h2 (div_le_div_of_nonneg_right hx0 (by positivity))
  generalize rndQ (rndQ (m : ℚ) - x) = w at *
  generalize rndQ (m : ℚ) = r at *
  rw [abs_le] at h3 hxμ ⊢
  clear hm hx
  generalize (m : ℚ) = m' at *
  generalize (b : ℚ) = b' at *
  norm_num at h1 hxμ h3 ⊢
  constructor <;> linarith [h1.1, h1.2, hxμ.1, hxμ.2, h3.1, h3.2]

/-! ### In terms of classes -/

theorem WF.weightedSq_eq {h : Hist T} (W : WF fp h) (μ : ℚ) (is : List Nat) : ∀ {ms : List Nat},
    (∀ i ∈ is, i < h.counts.length) → Medians h (is.map h.lcls) ms →
    ((weightedSq μ (is.map h.lcls) ms : ℚ) : ℝ) = wsq (fun i => (h.counts.getD i 0 : ℝ))
      (fun i => (((h.lval i + h.lwid (h.lval i) / 2 : ℕ) : ℚ) - μ : ℚ)) is := by
  induction is with
  | nil => intro ms _ hm; cases hm; simp [weightedSq, wsq]
  | cons i is ih =>
    intro ms hi hm
    cases hm with
    | cons h1 h2 =>
      have hlt := hi i (by simp)
      rw [show (h.lcls i).lo = h.lval i from rfl, (W.median_top hlt).2.1] at h1
      injection h1 with h1
      simp only [List.map_cons, weightedSq, wsq]
      rw [← ih (fun j hj => hi j (by simp [hj])) h2, ← h1, show (h.lcls i).count = h.counts.getD i 0 from rfl]
      push_cast
      rfl

theorem devSum_eq {h : Hist T} (x : ℚ) (is : List Nat) :
    ((h.devSum x is : ℚ) : ℝ) = wsq (fun i => (h.counts.getD i 0 : ℝ))
      (fun i => (devQ x (h.lval i + h.lwid (h.lval i) / 2) : ℝ)) is := by
  induction is with
  | nil => simp [Hist.devSum, wsq]
  | cons i is ih =>
    unfold Hist.devSum wsq
    rw [← ih]
    push_cast
    ring

theorem WF.mediansLe_slot {h : Hist T} (W : WF fp h) {b : Nat} (is : List Nat) : ∀ {ms : List Nat},
    (∀ i ∈ is, i < h.counts.length) → Medians h (is.map h.lcls) ms → MediansLe b (is.map h.lcls) ms →
    ∀ i ∈ is, h.counts.getD i 0 ≠ 0 → h.lval i + h.lwid (h.lval i) / 2 ≤ b := by
  induction is with
  | nil => intro ms _ _ _ i hi; simp at hi
  | cons j is ih =>
    intro ms hi hm hb
    cases hm with
    | cons h1 h2 =>
      have hlt := hi j (by simp)
      rw [show (h.lcls j).lo = h.lval j from rfl, (W.median_top hlt).2.1] at h1
      injection h1 with h1
      simp only [List.map_cons, MediansLe] at hb
      intro i hmem hc
      rcases List.mem_cons.mp hmem with rfl | hmem
      · rw [h1]; exact hb.1 hc
      · exact ih (fun j hj => hi j (by simp [hj])) h2 hb.2 i hmem hc

end Hdr
