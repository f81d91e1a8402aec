import Verif.Proofs.QuantileIter
import Verif.Spec.Mean
import Mathlib.Tactic.GCongr
import Mathlib.Algebra.Order.Ring.Pow

/-!
# Rounding error of the mean
-/

namespace Hdr

open F64

variable {T : CounterTy} {fp : Fp}

/-! ### Relative error -/

/-- the rounding unit -/
def eps : ℚ := 1 / 2 ^ 53

theorem eps_pos : 0 < eps := by unfold eps; positivity
theorem eps_lt : eps < 1 / 4 := by unfold eps; norm_num

theorem near_iff {n : Nat} {x y : ℚ} : Near n x y ↔ y * (1 - eps) ^ n ≤ x ∧ x ≤ y * (1 + eps) ^ n := Iff.rfl

theorem Near.refl (y : ℚ) : Near 0 y y := by constructor <;> simp

theorem Near.nonneg {n : Nat} {x y : ℚ} (h : Near n x y) (hy : 0 ≤ y) : 0 ≤ x := by
  have := eps_lt
  exact le_trans (mul_nonneg hy (pow_nonneg (by unfold eps at this; linarith) _)) h.1

theorem Near.mono {m n : Nat} {x y : ℚ} (h : Near m x y) (hy : 0 ≤ y) (hmn : m ≤ n) : Near n x y := by
  rw [near_iff] at h ⊢
  have e1 := eps_pos
  have e2 := eps_lt
  constructor
  · refine le_trans (mul_le_mul_of_nonneg_left ?_ hy) h.1
    exact pow_le_pow_of_le_one (by linarith) (by linarith) hmn
  · refine le_trans h.2 (mul_le_mul_of_nonneg_left ?_ hy)
    exact pow_le_pow_right₀ (by linarith) hmn

theorem Near.mul {m n : Nat} {x y x' y' : ℚ} (h : Near m x y) (h' : Near n x' y') (hy : 0 ≤ y) (hy' : 0 ≤ y') :
    Near (m + n) (x * x') (y * y') := by
  have hx := h.nonneg hy
  have hx' := h'.nonneg hy'
  rw [near_iff] at h h' ⊢
  have e1 := eps_pos
  have e2 := eps_lt
  have p1 : 0 ≤ (1 - eps) ^ m := pow_nonneg (by linarith) _
  have p2 : 0 ≤ (1 - eps) ^ n := pow_nonneg (by linarith) _
  have p3 : 0 ≤ (1 + eps) ^ m := pow_nonneg (by linarith) _
  rw [pow_add, pow_add]
  constructor
  · calc y * y' * ((1 - eps) ^ m * (1 - eps) ^ n) = (y * (1 - eps) ^ m) * (y' * (1 - eps) ^ n) := by ring
      _ ≤ x * x' := mul_le_mul h.1 h'.1 (mul_nonneg hy' p2) hx
  · calc x * x' ≤ (y * (1 + eps) ^ m) * (y' * (1 + eps) ^ n) := mul_le_mul h.2 h'.2 hx' (mul_nonneg hy p3)
      _ = _ := by ring

theorem Near.add {n : Nat} {x y x' y' : ℚ} (h : Near n x y) (h' : Near n x' y') : Near n (x + x') (y + y') := by
  rw [near_iff] at h h' ⊢
  constructor <;> rw [add_mul] <;> linarith [h.1, h.2, h'.1, h'.2]

/-- division costs two roundings of the divisor -/
theorem Near.div {m : Nat} {x y x' y' : ℚ} (h : Near m x y) (h' : Near 1 x' y') (hy : 0 ≤ y) (hy' : 0 < y') :
    Near (m + 2) (x / x') (y / y') := by
  have hx := h.nonneg hy
  rw [near_iff] at h h' ⊢
  have e1 := eps_pos
  have e2 := eps_lt
  rw [pow_one, pow_one] at h'
  have hx' : 0 < x' := lt_of_lt_of_le (mul_pos hy' (by linarith)) h'.1
  have p1 : 0 ≤ (1 - eps) ^ m := pow_nonneg (by linarith) _
  have p3 : 0 ≤ (1 + eps) ^ m := pow_nonneg (by linarith) _
  rw [pow_add, pow_add]
  constructor
  · rw [le_div_iff₀ hx', div_mul_eq_mul_div, div_mul_eq_mul_div, div_le_iff₀ hy']
    have a1 : (1 - eps) ^ 2 * x' ≤ y' := by
      have : (1 - eps) ^ 2 * (1 + eps) ≤ 1 := by
        have e : (1 - eps) ^ 2 * (1 + eps) = 1 - eps * (1 + eps - eps * eps) := by ring
        rw [e]
        have h1 : eps * eps ≤ eps * (1 / 4) := mul_le_mul_of_nonneg_left e2.le e1.le
        have := mul_nonneg e1.le (show 0 ≤ 1 + eps - eps * eps by linarith)
        linarith
      calc (1 - eps) ^ 2 * x' ≤ (1 - eps) ^ 2 * (y' * (1 + eps)) := mul_le_mul_of_nonneg_left h'.2 (by positivity)
        _ = y' * ((1 - eps) ^ 2 * (1 + eps)) := by ring
        _ ≤ y' * 1 := mul_le_mul_of_nonneg_left this hy'.le
        _ = y' := mul_one _
    calc y * ((1 - eps) ^ m * (1 - eps) ^ 2) * x' = (y * (1 - eps) ^ m) * ((1 - eps) ^ 2 * x') := by ring
      _ ≤ x * y' := mul_le_mul h.1 a1 (by positivity) hx
  · rw [div_le_iff₀ hx', div_mul_eq_mul_div, div_mul_eq_mul_div, le_div_iff₀ hy']
    have a1 : y' ≤ (1 + eps) ^ 2 * x' := by
      have : 1 ≤ (1 + eps) ^ 2 * (1 - eps) := by
        have e : (1 + eps) ^ 2 * (1 - eps) = 1 + eps * (1 - eps - eps * eps) := by ring
        rw [e]
        have h1 : eps * eps ≤ eps * (1 / 4) := mul_le_mul_of_nonneg_left e2.le e1.le
        have := mul_nonneg e1.le (show 0 ≤ 1 - eps - eps * eps by linarith)
        linarith
      calc y' = y' * 1 := (mul_one _).symm
        _ ≤ y' * ((1 + eps) ^ 2 * (1 - eps)) := mul_le_mul_of_nonneg_left this hy'.le
        _ = (1 + eps) ^ 2 * (y' * (1 - eps)) := by ring
        _ ≤ (1 + eps) ^ 2 * x' := mul_le_mul_of_nonneg_left h'.1 (by positivity)
    calc x * y' ≤ (y * (1 + eps) ^ m) * ((1 + eps) ^ 2 * x') := mul_le_mul h.2 a1 hy'.le (mul_nonneg hy p3)
      _ = _ := by ring

theorem Near.rnd {n : Nat} {x y : ℚ} (h : Near n x y) (hy : 0 ≤ y) (hx : x = 0 ∨ 2 ^ (-1022 : ℤ) ≤ x) :
    Near (n + 1) (rndQ x) y := by
  rcases hx with rfl | hx
  · rw [rndQ_zero]
    exact h.mono hy (by omega)
  · have hpos : 0 < x := lt_of_lt_of_le (two_zpow_pos _) hx
    have he := rndQ_err hpos hx
    rw [abs_le] at he
    rw [near_iff] at h ⊢
    have e1 := eps_pos
    have e2 := eps_lt
    have hd : x / 2 ^ 53 = x * eps := by unfold eps; ring
    rw [hd] at he
    constructor
    · calc y * (1 - eps) ^ (n + 1) = (y * (1 - eps) ^ n) * (1 - eps) := by ring
        _ ≤ x * (1 - eps) := mul_le_mul_of_nonneg_right h.1 (by linarith)
        _ ≤ rndQ x := by linarith [he.1]
    · calc rndQ x ≤ x * (1 + eps) := by linarith [he.2]
        _ ≤ (y * (1 + eps) ^ n) * (1 + eps) := mul_le_mul_of_nonneg_right h.2 (by linarith)
        _ = _ := by ring

/-! ### One term -/

theorem zpow_small {k : ℕ} (hk : k ≤ 1022) : (2 : ℚ) ^ (-1022 : ℤ) ≤ 1 / 2 ^ k := by
  rw [← pow_n_z]
  exact zpow_le_zpow_right₀ (by norm_num) (by omega)

theorem nat_near {n : ℕ} : Near 1 (rndQ n) n := by
  have := (Near.refl (n : ℚ)).rnd (by positivity) (by
    rcases Nat.eq_zero_or_pos n with rfl | h
    · exact Or.inl (by simp)
    · right
      refine le_trans (zpow_small (k := 0) (by norm_num)) ?_
      have : (1 : ℚ) ≤ n := by exact_mod_cast h
      simpa using this)
  simpa using this

/-- the term a class contributes to the mean -/
def meanTerm (m c n : Nat) : ℚ := rndQ (rndQ (rndQ m * rndQ c) / rndQ n)

theorem meanTerm_near {m c n : Nat} (hn : 0 < n) (hnU : n ≤ U64MAX) : Near 6 (meanTerm m c n) ((m * c : ℕ) / n) := by
  unfold meanTerm
  have hnq : (0 : ℚ) < n := by exact_mod_cast hn
  have h1 : Near 2 (rndQ m * rndQ c) ((m : ℚ) * c) := nat_near.mul nat_near (by positivity) (by positivity)
  have hr : ∀ k : ℕ, rndQ k = 0 ∨ 1 ≤ rndQ (k : ℚ) := by
    intro k
    rcases Nat.eq_zero_or_pos k with rfl | h
    · exact Or.inl (by simp [rndQ_zero])
    · exact Or.inr (one_le_rndQ (by exact_mod_cast h))
  have hprod : rndQ m * rndQ c = 0 ∨ 1 ≤ rndQ (m : ℚ) * rndQ c := by
    rcases hr m with h | h
    · left; rw [h]; ring
    · rcases hr c with h' | h'
      · left; rw [h']; ring
      · right; nlinarith
  have h2 : Near 3 (rndQ (rndQ m * rndQ c)) ((m : ℚ) * c) := h1.rnd (by positivity) (by
    rcases hprod with h | h
    · exact Or.inl h
    · right
      exact le_trans (zpow_small (k := 0) (by norm_num)) (by simpa using h))
  have h3 : Near 5 (rndQ (rndQ m * rndQ c) / rndQ n) ((m : ℚ) * c / n) := h2.div nat_near (by positivity) hnq
  have h4 := h3.rnd (by positivity) (by
    have hd : rndQ (rndQ m * rndQ c) = 0 ∨ 1 ≤ rndQ (rndQ m * rndQ c) := by
      rcases hprod with h | h
      · left; rw [h, rndQ_zero]
      · right; exact one_le_rndQ h
    rcases hd with h | h
    · left; rw [h]; simp
    · right
      have h64 := rndQ_u64_le hnU
      have hpos : 0 < rndQ (n : ℚ) := lt_of_lt_of_le one_pos (one_le_rndQ (by exact_mod_cast hn))
      refine le_trans (zpow_small (k := 64) (by norm_num)) ?_
      rw [div_le_div_iff₀ (by positivity) hpos]
      nlinarith [show (0 : ℚ) < 2 ^ 64 by positivity])
  push_cast
  exact h4

theorem rndQ_le_npow {x : ℚ} {k : ℕ} (h : x ≤ 2 ^ k) : rndQ x ≤ 2 ^ k := by
  have := rndQ_mono h
  rwa [rndQ_npow2] at this

theorem meanTerm_bounds {m c n : Nat} (hm : m ≤ U64MAX) (hc : c ≤ U64MAX) (hn : 0 < n) :
    0 ≤ meanTerm m c n ∧ meanTerm m c n ≤ 2 ^ 128 := by
  have h1 : (1 : ℚ) ≤ rndQ n := one_le_rndQ (by exact_mod_cast hn)
  have h2 := rndQ_u64_le hm
  have h3 := rndQ_u64_le hc
  have h4 : 0 ≤ rndQ (m : ℚ) := rndQ_nonneg (by positivity)
  have h5 : 0 ≤ rndQ (c : ℚ) := rndQ_nonneg (by positivity)
  have h6 : rndQ (m : ℚ) * rndQ c ≤ 2 ^ 128 := by
    calc rndQ (m : ℚ) * rndQ c ≤ 2 ^ 64 * 2 ^ 64 := mul_le_mul h2 h3 h5 (by positivity)
      _ = 2 ^ 128 := by norm_num
  have h7 : 0 ≤ rndQ (rndQ m * rndQ c) := rndQ_nonneg (mul_nonneg h4 h5)
  have h8 := rndQ_le_npow h6
  unfold meanTerm
  refine ⟨rndQ_nonneg (div_nonneg h7 (by linarith)), rndQ_le_npow ?_⟩
  rw [div_le_iff₀ (by linarith)]
  calc rndQ (rndQ m * rndQ c) ≤ 2 ^ 128 := h8
    _ = 2 ^ 128 * 1 := (mul_one _).symm
    _ ≤ 2 ^ 128 * rndQ n := mul_le_mul_of_nonneg_left h1 (by positivity)

theorem meanTerm_eq {m c n : Nat} (hm : m ≤ U64MAX) (hc : c ≤ U64MAX) (hn : 0 < n) (hnU : n ≤ U64MAX) :
    F64.div (F64.mul (F64.ofNat m) (F64.ofNat c)) (F64.ofNat n) = .fin (meanTerm m c n) := by
  have h1 : (1 : ℚ) ≤ rndQ n := one_le_rndQ (by exact_mod_cast hn)
  have h2 := rndQ_u64_le hm
  have h3 := rndQ_u64_le hc
  have h4 : 0 ≤ rndQ (m : ℚ) := rndQ_nonneg (by positivity)
  have h5 : 0 ≤ rndQ (c : ℚ) := rndQ_nonneg (by positivity)
  have h6 : rndQ (m : ℚ) * rndQ c ≤ 2 ^ 128 := by
    calc rndQ (m : ℚ) * rndQ c ≤ 2 ^ 64 * 2 ^ 64 := mul_le_mul h2 h3 h5 (by positivity)
      _ = 2 ^ 128 := by norm_num
  have h7 : 0 ≤ rndQ (rndQ m * rndQ c) := rndQ_nonneg (mul_nonneg h4 h5)
  have h8 := rndQ_le_npow h6
  rw [ofNat_fin hm, ofNat_fin hc, ofNat_fin hnU]
  have e1 : F64.mul (.fin (rndQ m)) (.fin (rndQ c)) = .fin (rndQ (rndQ m * rndQ c)) := by
    simp only [F64.mul]
    refine rnd_fin ?_
    rw [abs_of_nonneg (mul_nonneg h4 h5)]
    exact le_trans h6 pow128_le
  rw [e1]
  simp only [F64.div]
  rw [if_neg (by linarith)]
  refine rnd_fin ?_
  rw [abs_of_nonneg (div_nonneg h7 (by linarith))]
  refine le_trans ?_ pow128_le
  rw [div_le_iff₀ (by linarith)]
  calc rndQ (rndQ m * rndQ c) ≤ 2 ^ 128 := h8
    _ = 2 ^ 128 * 1 := (mul_one _).symm
    _ ≤ 2 ^ 128 * rndQ n := mul_le_mul_of_nonneg_left h1 (by positivity)

/-! ### The sum -/

/-- `mean` over the slots `is`, from the total `x` -/
def Hist.meanFold (h : Hist T) : List Nat → ℚ → ℚ
  | [], x => x
  | i :: is, x =>
    if h.counts.getD i 0 ≠ 0 then
      meanFold h is (rndQ (x + meanTerm (h.lval i + h.lwid (h.lval i) / 2) (h.counts.getD i 0) h.totalCount))
    else meanFold h is x

theorem rndQ_add_bound {x y : ℚ} {k : ℕ} (hx : x ≤ k * 2 ^ 128) (hy : y ≤ 2 ^ 128) 
    (hk : k < 2 ^ 53) : rndQ (x + y) ≤ (k + 1 : ℕ) * 2 ^ 128 := by
  have e : rndQ ((k + 1 : ℕ) * 2 ^ 128 : ℚ) = (k + 1 : ℕ) * 2 ^ 128 := by
    refine rndQ_exact ((k + 1 : ℕ) : ℤ) 128 (by norm_num) ?_ (by norm_num)
    rw [abs_of_nonneg (by positivity)]
    exact_mod_cast hk
  rw [← e]
  refine rndQ_mono ?_
  push_cast
  linarith

theorem WF.median_top {h : Hist T} (W : WF fp h) {i : Nat} (hi : i < h.counts.length) :
    h.medianEquivalent (h.lhi (h.lval i)) = .ok (h.lval i + h.lwid (h.lval i) / 2) ∧
      h.medianEquivalent (h.lval i) = .ok (h.lval i + h.lwid (h.lval i) / 2) ∧
      h.lval i + h.lwid (h.lval i) / 2 ≤ U64MAX := by
  have hv := W.lval_le hi
  have e1 : h.llo (h.lval i) = h.lval i := by
    have : h.lidx (h.lval i) = i := Lay.idx_val
    have e : h.llo (h.lval i) = h.lval (h.lidx (h.lval i)) := Lay.val_idx.symm
    rw [e, this]
  have hidx := lidx_lhi (h := h) hv
  have e2 : h.llo (h.lhi (h.lval i)) = h.llo (h.lval i) := Lay.lo_eq_iff.mpr hidx
  have e3 : h.lwid (h.lhi (h.lval i)) = h.lwid (h.lval i) := Lay.wid_eq_of_idx hidx
  refine ⟨?_, ?_, ?_⟩
  · rw [medianEquivalent_eq W.toLayoutOK lhi_le, e2, e3, e1]
  · rw [medianEquivalent_eq W.toLayoutOK hv, e1]
  · have h1 : h.llo (h.lval i) + h.lwid (h.lval i) ≤ 2 ^ 64 := Lay.lo_add_wid_le W.sum62 (U64MAX_lt.mp hv)
    have h2 : 0 < h.lwid (h.lval i) := Lay.wid_pos
    rw [e1] at h1
    rw [U64MAX_lt]; omega

theorem WF.meanLoop_eq {h : Hist T} (W : WF fp h) (hne : h.totalCount ≠ 0) (cs : List Nat) :
    ∀ (i tot k : Nat) (x : ℚ), h.counts.drop i = cs → 0 ≤ x → x ≤ k * 2 ^ 128 → k + cs.length < 2 ^ 53 →
      h.meanLoop (h.recItems cs i tot) (.fin x) = .ok (.fin (h.meanFold (List.range' i cs.length) x)) := by
  induction cs with
  | nil => intro i tot k x _ _ _ _; rfl
  | cons c cs ih =>
    intro i tot k x hd h0 hx hk
    obtain ⟨hi, hc, hd'⟩ := getD_of_drop hd
    rw [List.length_cons, List.range'_succ]
    unfold Hist.recItems Hist.meanFold
    rw [hc]
    simp only [List.length_cons] at hk
    by_cases hz : c ≠ 0
    · rw [if_pos hz, if_pos hz]
      unfold Hist.meanLoop
      obtain ⟨m1, -, m3⟩ := W.median_top hi
      have hcU : c ≤ U64MAX := by rw [← hc]; exact le_trans (W.getD_le i) (T_max_le T)
      rw [show (h.slotValue i (Hdr.satAdd tot c) (Hdr.satAdd 0 c)).valueIteratedTo = h.lhi (h.lval i) from rfl, m1,
        M.ok_bind, show (h.slotValue i (Hdr.satAdd tot c) (Hdr.satAdd 0 c)).countAtValue = c from hc]
      rw [meanTerm_eq m3 hcU (Nat.pos_of_ne_zero hne) W.tot]
      obtain ⟨b1, b2⟩ := meanTerm_bounds m3 hcU (Nat.pos_of_ne_zero hne)
      have hsum := rndQ_add_bound hx b2 (by omega)
      have e : F64.add (.fin x) (.fin (meanTerm (h.lval i + h.lwid (h.lval i) / 2) c h.totalCount))
          = .fin (rndQ (x + meanTerm (h.lval i + h.lwid (h.lval i) / 2) c h.totalCount)) := by
        simp only [F64.add]
        refine rnd_fin ?_
        rw [abs_of_nonneg (by linarith)]
        have hk53 : (k : ℚ) + 1 ≤ 2 ^ 53 := by
          have : k + 1 ≤ 2 ^ 53 := by omega
          exact_mod_cast this
        have : x + meanTerm (h.lval i + h.lwid (h.lval i) / 2) c h.totalCount ≤ 2 ^ 53 * 2 ^ 128 := by
          refine le_trans (show _ ≤ ((k : ℚ) + 1) * 2 ^ 128 by linarith) ?_
          exact mul_le_mul_of_nonneg_right hk53 (by positivity)
        refine le_trans this ?_
        rw [← pow_add, ← zpow_natCast (2 : ℚ)]
        exact zpow_le_zpow_right₀ (by norm_num) (by norm_num)
      rw [e]
      exact ih (i + 1) _ (k + 1) _ hd' (rndQ_nonneg (by linarith)) hsum (by omega)
    · rw [if_neg hz, if_neg hz]
      exact ih (i + 1) _ k x hd' h0 hx (by omega)

/-- exact counterparts -/
def Hist.meanSum (h : Hist T) : List Nat → Nat
  | [] => 0
  | i :: is => (h.lval i + h.lwid (h.lval i) / 2) * h.counts.getD i 0 + meanSum h is

def Hist.meanUsed (h : Hist T) : List Nat → Nat
  | [] => 0
  | i :: is => (if h.counts.getD i 0 ≠ 0 then 1 else 0) + meanUsed h is

theorem meanFold_near {h : Hist T} (hne : h.totalCount ≠ 0) (hU : h.totalCount ≤ U64MAX) (is : List Nat) :
    ∀ (k : Nat) (x : ℚ) (y : ℚ), 0 ≤ y → Near k x y → 6 ≤ k → (x = 0 ∨ 2 ^ (-1022 : ℤ) ≤ x) →
      Near (k + h.meanUsed is) (h.meanFold is x) (y + (h.meanSum is : ℚ) / h.totalCount) := by
  have hnq : (0 : ℚ) < h.totalCount := by exact_mod_cast Nat.pos_of_ne_zero hne
  induction is with
  | nil => intro k x y hy hn _ _; simpa [Hist.meanUsed, Hist.meanFold, Hist.meanSum] using hn
  | cons i is ih =>
    intro k x y hy hn hk hx
    unfold Hist.meanUsed Hist.meanFold Hist.meanSum
    by_cases hz : h.counts.getD i 0 ≠ 0
    · rw [if_pos hz, if_pos hz]
      have ht := meanTerm_near (m := h.lval i + h.lwid (h.lval i) / 2) (c := h.counts.getD i 0)
        (Nat.pos_of_ne_zero hne) hU
      have hy' : (0 : ℚ) ≤ (((h.lval i + h.lwid (h.lval i) / 2) * h.counts.getD i 0 : ℕ) : ℚ) / h.totalCount := by
        positivity
      have hsum := hn.add (ht.mono hy' hk)
      have hx0 := hn.nonneg hy
      have ht0 := ht.nonneg hy'
      have htb : meanTerm (h.lval i + h.lwid (h.lval i) / 2) (h.counts.getD i 0) h.totalCount = 0 ∨
          2 ^ (-1022 : ℤ) ≤ meanTerm (h.lval i + h.lwid (h.lval i) / 2) (h.counts.getD i 0) h.totalCount := by
        rcases Nat.eq_zero_or_pos ((h.lval i + h.lwid (h.lval i) / 2) * h.counts.getD i 0) with h0 | h0
        · left
          have := ht.2
          rw [h0] at this
          rw [Nat.cast_zero, zero_div, zero_mul] at this
          linarith
        · right
          refine le_trans ?_ ht.1
          have h64 : (h.totalCount : ℚ) ≤ 2 ^ 64 := by
            have : h.totalCount ≤ 2 ^ 64 := le_trans hU (by decide)
            exact_mod_cast this
          have a1 : (1 : ℚ) / 2 ^ 64 ≤ (((h.lval i + h.lwid (h.lval i) / 2) * h.counts.getD i 0 : ℕ) : ℚ) / h.totalCount := by
            have : (1 : ℚ) ≤ (((h.lval i + h.lwid (h.lval i) / 2) * h.counts.getD i 0 : ℕ) : ℚ) := by exact_mod_cast h0
            rw [div_le_div_iff₀ (by positivity) hnq]
            nlinarith
          have a2 : (1 : ℚ) / 2 ≤ (1 - 1 / 2 ^ 53) ^ 6 := by norm_num
          calc (2 : ℚ) ^ (-1022 : ℤ) ≤ 1 / 2 ^ 65 := zpow_small (by norm_num)
            _ = 1 / 2 ^ 64 * (1 / 2) := by norm_num
            _ ≤ _ := mul_le_mul a1 a2 (by norm_num) hy'
      have hxs : x + meanTerm (h.lval i + h.lwid (h.lval i) / 2) (h.counts.getD i 0) h.totalCount = 0 ∨
          2 ^ (-1022 : ℤ) ≤ x + meanTerm (h.lval i + h.lwid (h.lval i) / 2) (h.counts.getD i 0) h.totalCount := by
        rcases hx with h1 | h1
        · rw [h1, zero_add]; exact htb
        · right; exact le_trans h1 (by linarith)
      have hr := hsum.rnd (by linarith) hxs
      have := ih (k + 1) _ _ (by linarith) hr (by omega) (by
        rcases hxs with h1 | h1
        · left; rw [h1, rndQ_zero]
        · right
          have := rndQ_mono h1
          rwa [rndQ_pow2 (by norm_num)] at this)
      rw [show k + (1 + h.meanUsed is) = k + 1 + h.meanUsed is by omega]
      have e : y + (((h.lval i + h.lwid (h.lval i) / 2) * h.counts.getD i 0 + h.meanSum is : ℕ) : ℚ) / h.totalCount
          = y + (((h.lval i + h.lwid (h.lval i) / 2) * h.counts.getD i 0 : ℕ) : ℚ) / h.totalCount
            + (h.meanSum is : ℚ) / h.totalCount := by
        push_cast; ring
      rw [e]
      exact this
    · rw [if_neg hz, if_neg hz]
      have hz : h.counts.getD i 0 = 0 := not_not.mp hz
      rw [hz, Nat.mul_zero, Nat.zero_add, Nat.zero_add]
      exact ih k x y hy hn hk hx

theorem WF.mean_near {h : Hist T} (W : WF fp h) (hne : h.totalCount ≠ 0) :
    ∃ x, h.mean = .ok (.fin x) ∧ Near (6 + h.meanUsed (List.range h.counts.length)) x
      ((h.meanSum (List.range h.counts.length) : ℚ) / h.totalCount) := by
  refine ⟨h.meanFold (List.range h.counts.length) 0, ?_, ?_⟩
  · unfold Hist.mean
    rw [if_neg hne, W.iterRecorded_eq (by unfold Hist.recordedFuel Hist.distinctValues; omega), M.ok_bind]
    have hl : h.counts.length < 2 ^ 53 := by
      have h1 := W.len_le_all
      have h2 : h.lall < 2 ^ 24 := Lay.allSlots_lt W.mag17
      omega
    rw [List.range_eq_range']
    exact W.meanLoop_eq hne h.counts 0 0 0 0 (by simp) le_rfl (by simp) (by omega)
  · have := meanFold_near hne W.tot (List.range h.counts.length) 6 0 0 le_rfl
      ((Near.refl 0).mono le_rfl (by norm_num)) le_rfl (Or.inl rfl)
    simpa using this

/-! ### In terms of classes -/

theorem WF.weightedSum_eq {h : Hist T} (W : WF fp h) (is : List Nat) : ∀ {ms : List Nat}, (∀ i ∈ is, i < h.counts.length) →
    Medians h (is.map h.lcls) ms → weightedSum (is.map h.lcls) ms = h.meanSum is := by
  induction is with
  | nil => intro ms _ hm; cases hm; rfl
  | cons i is ih =>
    intro ms hi hm
    cases hm with
    | cons h1 h2 =>
      have hlt := hi i (by simp)
      rw [show (h.lcls i).lo = h.lval i from rfl, (W.median_top hlt).2.1] at h1
      injection h1 with h1
      simp only [List.map_cons, weightedSum, Hist.meanSum]
      rw [ih (fun j hj => hi j (by simp [hj])) h2, ← h1]
      rfl

theorem used_eq {h : Hist T} (is : List Nat) : Cls.used (is.map h.lcls) = h.meanUsed is := by
  induction is with
  | nil => rfl
  | cons i is ih =>
    unfold Cls.used at ih ⊢
    simp only [List.map_cons, List.filter_cons, Hist.meanUsed]
    rw [← ih, show (h.lcls i).count = h.counts.getD i 0 from rfl]
    split
    · rename_i hc; rw [if_pos (by simpa using hc), List.length_cons]; omega
    · rename_i hc; rw [if_neg (by simpa using hc)]; omega

theorem meanUsed_le {h : Hist T} (is : List Nat) : h.meanUsed is ≤ is.length := by
  induction is with
  | nil => exact le_rfl
  | cons i is ih => unfold Hist.meanUsed; rw [List.length_cons]; split <;> omega

theorem pow_bounds {n : Nat} (hn : (n : ℚ) * eps ≤ 1 / 2 ^ 29 + 1 / 2 ^ 50) :
    1 - 1 / 2 ^ 28 ≤ (1 - eps) ^ n ∧ (1 + eps) ^ n ≤ 1 + 1 / 2 ^ 28 := by
  have e1 := eps_pos
  have e2 := eps_lt
  have b1 : 1 - 1 / 2 ^ 29 - 1 / 2 ^ 50 ≤ (1 - eps) ^ n := by
    have := one_add_mul_le_pow (a := -eps) (by linarith) n
    rw [← sub_eq_add_neg] at this
    linarith
  have h1 : (1 + eps) ^ n * (1 - eps) ^ n ≤ 1 := by
    rw [← mul_pow]
    refine pow_le_one₀ ?_ ?_
    · exact mul_nonneg (by linarith) (by linarith)
    · have : (1 + eps) * (1 - eps) = 1 - eps * eps := by ring
      rw [this]
      have := mul_pos e1 e1
      linarith
  have h2 : 0 ≤ (1 + eps) ^ n := pow_nonneg (by linarith) _
  have h3 := le_trans (mul_le_mul_of_nonneg_left b1 h2) h1
  constructor
  · refine le_trans ?_ b1
    norm_num
  · norm_num at h3 ⊢
    linarith

/-- many roundings, as a plain relative error -/
theorem Near.abs {n : Nat} {x y : ℚ} (h : Near n x y) (hy : 0 ≤ y) (hn : n ≤ 16777222) : |x - y| ≤ y / 2 ^ 28 := by
  rw [near_iff] at h
  have hq : (n : ℚ) ≤ 16777222 := by exact_mod_cast hn
  obtain ⟨b1, b2⟩ := pow_bounds (n := n) (by
    refine le_trans (mul_le_mul_of_nonneg_right hq eps_pos.le) ?_
    unfold eps; norm_num)
  have c1 := le_trans (mul_le_mul_of_nonneg_left b1 hy) h.1
  have c2 := le_trans h.2 (mul_le_mul_of_nonneg_left b2 hy)
  rw [abs_le]
  constructor
  · norm_num at c1 ⊢
    linarith
  · norm_num at c2 ⊢
    linarith

/-! ### Range -/

theorem WF.wid_top {h : Hist T} (W : WF fp h) {v : Nat} (hv : 2 ^ 63 ≤ v) : 4 ≤ h.lwid v := by
  have h1 : v / h.lwid v < 2 ^ (h.subBucketHalfCountMag + 1) := Lay.sub_lt
  have hp : 0 < h.lwid v := Lay.wid_pos
  rw [Nat.div_lt_iff_lt_mul hp] at h1
  have h2 : 2 ^ (h.subBucketHalfCountMag + 1) ≤ 2 ^ 18 := Nat.pow_le_pow_right (by norm_num) (by have := W.mag17; omega)
  have h3 := Nat.mul_le_mul_right (h.lwid v) h2
  norm_num at *
  omega

theorem WF.median_ne {h : Hist T} (W : WF fp h) {i : Nat} (hi : i < h.counts.length) :
    h.lval i + h.lwid (h.lval i) / 2 ≠ U64MAX := by
  have hv := W.lval_le hi
  have e1 : h.llo (h.lval i) = h.lval i := by
    have : h.lidx (h.lval i) = i := Lay.idx_val
    have e : h.llo (h.lval i) = h.lval (h.lidx (h.lval i)) := Lay.val_idx.symm
    rw [e, this]
  have h1 : h.llo (h.lval i) + h.lwid (h.lval i) ≤ 2 ^ 64 := Lay.lo_add_wid_le W.sum62 (U64MAX_lt.mp hv)
  have h2 : 0 < h.lwid (h.lval i) := Lay.wid_pos
  have hU : U64MAX = 18446744073709551615 := rfl
  rw [e1] at h1
  by_cases hb : 2 ^ 63 ≤ h.lval i
  · have := W.wid_top hb
    norm_num at *
    omega
  · intro he
    norm_num at *
    omega

theorem lidx_median {h : Hist T} {i : Nat} : h.lidx (h.lval i + h.lwid (h.lval i) / 2) = i := by
  have e0 : h.lidx (h.lval i) = i := Lay.idx_val
  have e1 : h.llo (h.lval i) = h.lval i := by
    have e : h.llo (h.lval i) = h.lval (h.lidx (h.lval i)) := Lay.val_idx.symm
    rw [e, e0]
  have hp : 0 < h.lwid (h.lval i) := Lay.wid_pos
  refine Eq.trans (Lay.idx_eq_iff.mpr ?_) e0
  constructor
  · change h.llo _ ≤ _
    rw [e1]; omega
  · change _ < h.llo _ + h.lwid _
    rw [e1]; omega

theorem WF.median_le_max {h : Hist T} (W : WF fp h) {i : Nat} (hi : i < h.counts.length) (hc : h.counts.getD i 0 ≠ 0)
    (hz : h.lmax ≠ 0 ∨ h.unitMag = 0) : h.lval i + h.lwid (h.lval i) / 2 ≤ h.lmax := by
  have h1 := W.trackMax i hc
  unfold Hist.lmax at hz ⊢
  split
  · rename_i hm
    rw [if_pos hm] at hz
    have hz : h.unitMag = 0 := by simpa using hz
    rw [hm, show h.lidx 0 = 0 from Lay.idx_zero] at h1
    obtain rfl : i = 0 := by omega
    have : h.lval 0 = 0 := Lay.val_zero
    rw [this]
    unfold Hist.lwid Lay.wid Lay.bkt
    rw [hz]
    simp
  · rcases Nat.lt_or_ge i (h.lidx h.maxValue) with hlt | hge
    · have h2 : h.lval i + h.lwid (h.lval i) ≤ h.lval (h.lidx h.maxValue) := by
        have := Lay.val_succ (um := h.unitMag) (m := h.subBucketHalfCountMag) (i := i)
        have h3 : h.lval (i + 1) ≤ h.lval (h.lidx h.maxValue) := Lay.val_le_val hlt
        change h.lval (i + 1) = h.lval i + h.lwid (h.lval i) at this
        omega
      have h3 : h.llo h.maxValue = h.lval (h.lidx h.maxValue) := Lay.val_idx.symm
      have h4 : h.llo h.maxValue ≤ h.maxValue := Lay.lo_le
      have := lhi_ge (h := h) W.maxle
      omega
    · have hii : h.lidx h.maxValue = i := by omega
      by_cases hm : h.maxValue = U64MAX
      · rw [hm, show h.lhi U64MAX = U64MAX by unfold Hist.lhi; rw [if_pos rfl]]
        exact (W.median_top hi).2.2
      · have e : h.lhi (h.lval i + h.lwid (h.lval i) / 2) = h.lhi h.maxValue :=
          lhi_eq_of_lidx (by rw [lidx_median, hii]) (W.median_ne hi) hm
        rw [← e]
        exact lhi_ge (W.median_top hi).2.2

theorem WF.min_le_median {h : Hist T} (W : WF fp h) {i : Nat} (hc : h.counts.getD i 0 ≠ 0)
    (h0 : h.counts.getD 0 0 = 0) (hU : h.lminNz ≠ U64MAX) : h.lminNz ≤ h.lval i + h.lwid (h.lval i) / 2 := by
  have hi0 : i ≠ 0 := by rintro rfl; exact hc h0
  have h1 := W.trackMin i hi0 hc
  unfold Hist.lminNz at hU ⊢
  split
  · rename_i h; rw [if_pos h] at hU; exact absurd rfl hU
  · have : h.llo h.minNonZero = h.lval (h.lidx h.minNonZero) := Lay.val_idx.symm
    rw [this]
    have := Lay.val_le_val (m := h.subBucketHalfCountMag) (um := h.unitMag) h1
    exact le_trans this (Nat.le_add_right _ _)

theorem meanSum_le {h : Hist T} {b : Nat} (is : List Nat)
    (hb : ∀ i ∈ is, h.counts.getD i 0 ≠ 0 → h.lval i + h.lwid (h.lval i) / 2 ≤ b) :
    h.meanSum is ≤ b * (is.map fun i => h.counts.getD i 0).sum := by
  induction is with
  | nil => simp [Hist.meanSum]
  | cons i is ih =>
    unfold Hist.meanSum
    rw [List.map_cons, List.sum_cons, Nat.mul_add]
    refine Nat.add_le_add ?_ (ih fun j hj => hb j (by simp [hj]))
    by_cases hc : h.counts.getD i 0 = 0
    · rw [hc]; simp
    · exact Nat.mul_le_mul_right _ (hb i (by simp) hc)

theorem le_meanSum {h : Hist T} {b : Nat} (is : List Nat)
    (hb : ∀ i ∈ is, h.counts.getD i 0 ≠ 0 → b ≤ h.lval i + h.lwid (h.lval i) / 2) :
    b * (is.map fun i => h.counts.getD i 0).sum ≤ h.meanSum is := by
  induction is with
  | nil => simp [Hist.meanSum]
  | cons i is ih =>
    unfold Hist.meanSum
    rw [List.map_cons, List.sum_cons, Nat.mul_add]
    refine Nat.add_le_add ?_ (ih fun j hj => hb j (by simp [hj]))
    by_cases hc : h.counts.getD i 0 = 0
    · rw [hc]; simp
    · exact Nat.mul_le_mul_right _ (hb i (by simp) hc)

end Hdr
