import Verif.Props.Quantile

/-!
# C55: `value_at_quantile` and `quantile_below` are inverse to each other, up to rounding; the percentile forms
-/

namespace Hdr

variable {T : CounterTy} {fp : Fp}

namespace F64

/-- rounding a number in (0, 1] moves it by at most 2^-54 -/
theorem rndQ_err_unit {q : ℚ} (h0 : 0 < q) (h1 : q < 1) : |rndQ q - q| ≤ 1 / 2 ^ 54 := by
  rw [rndQ_pos h0]
  have hlog : Int.log 2 q ≤ -1 := by
    have h2 := log_le h0
    by_contra hc
    have h3 : (2 : ℚ) ^ (0 : ℤ) ≤ 2 ^ Int.log 2 q := zpow_le_zpow_right₀ (by norm_num) (by omega)
    rw [zpow_zero] at h3
    linarith
  have hu : ulpExp q ≤ -53 := by unfold ulpExp; omega
  have hp := two_zpow_pos (ulpExp q)
  have h2 := rhe_err (q / 2 ^ ulpExp q)
  have h3 : rndPos q - q = ((rhe (q / 2 ^ ulpExp q) : ℚ) - q / 2 ^ ulpExp q) * 2 ^ ulpExp q := by
    unfold rndPos; field_simp
  rw [h3, abs_mul, abs_of_pos hp]
  have h4 : (2 : ℚ) ^ ulpExp q ≤ 2 ^ (-53 : ℤ) := zpow_le_zpow_right₀ (by norm_num) hu
  have h5 : (2 : ℚ) ^ (-53 : ℤ) = 1 / 2 ^ 53 := by rw [zpow_neg]; norm_num
  calc _ ≤ 1 / 2 * (2 : ℚ) ^ (-53 : ℤ) := mul_le_mul h2 h4 hp.le (by norm_num)
    _ = _ := by rw [h5]; norm_num

/-- a half-integer up to 2^52 is not changed -/
theorem rndQ_half {k : ℤ} (h : |k| ≤ 2 ^ 53) : rndQ ((k : ℚ) / 2) = (k : ℚ) / 2 :=
  rndQ_exact k (-1) (by norm_num) h (by rw [zpow_neg]; norm_num; ring)

/-- numbers within less than half of an integer between 2^52 and 2^53 are rounded to it -/
theorem rndQ_near {x : ℚ} {c : ℤ} (hc : 2 ^ 52 < c) (hc2 : c < 2 ^ 53) (h : |x - c| < 1 / 2) : rndQ x = c := by
  rw [abs_lt] at h
  have hcq : ((2 : ℚ) ^ 52) + 1 ≤ c := by exact_mod_cast hc
  have hcq2 : (c : ℚ) + 1 ≤ 2 ^ 53 := by exact_mod_cast hc2
  have hx : 0 < x := by norm_num at hcq; linarith
  have hl : Int.log 2 x = 52 := by
    have h1 : (52 : ℤ) ≤ Int.log 2 x := by
      rw [← Int.zpow_le_iff_le_log (by norm_num) hx]
      norm_num at hcq ⊢; linarith
    have h2 : Int.log 2 x < 53 := by
      rw [← Int.lt_zpow_iff_log_lt (by norm_num) hx]
      norm_num at hcq2 ⊢; linarith
    omega
  have hu : ulpExp x = 0 := by unfold ulpExp; omega
  rw [rndQ_pos hx]
  unfold rndPos
  rw [hu, zpow_zero, div_one, mul_one]
  have h3 := rhe_err x
  rw [abs_le] at h3
  have h4 : (rhe x : ℚ) < c + 1 := by linarith
  have h5 : (c : ℚ) - 1 < rhe x := by linarith
  have h6 : rhe x < c + 1 := by exact_mod_cast h4
  have h7 : c - 1 < rhe x := by exact_mod_cast h5
  have : rhe x = c := by omega
  rw [this]

/-- multiplying the rounded quotient back by the divisor gives the dividend up to a half -/
theorem rndQ_back {c n : ℕ} (h0 : 0 < c) (hcn : c ≤ n) (hn : n ≤ 2 ^ 53) :
    (c : ℚ) - 1 / 2 ≤ rndQ (rndQ ((c : ℚ) / n) * n) ∧ rndQ (rndQ ((c : ℚ) / n) * n) ≤ (c : ℚ) + 1 / 2 := by
  have hc0 : (0 : ℚ) < c := by exact_mod_cast h0
  have hn0 : (0 : ℚ) < n := by exact_mod_cast lt_of_lt_of_le h0 hcn
  rcases Nat.eq_or_lt_of_le hcn with rfl | hlt
  · rw [div_self hn0.ne', rndQ_one, one_mul, rndQ_nat hn]
    constructor <;> linarith
  have hq0 : (0 : ℚ) < (c : ℚ) / n := by positivity
  have hq1 : (c : ℚ) / n < 1 := by rw [div_lt_one hn0]; exact_mod_cast hlt
  rcases Nat.lt_or_ge (2 ^ 52) c with hbig | hsmall
  · -- the error is below a half, and the quotient of 2^53 is exact
    have hx : |rndQ ((c : ℚ) / n) * n - c| < 1 / 2 := by
      rcases Nat.eq_or_lt_of_le hn with rfl | hn'
      · have : rndQ ((c : ℚ) / ((2 ^ 53 : ℕ) : ℚ)) = (c : ℚ) / ((2 ^ 53 : ℕ) : ℚ) := by
          refine rndQ_exact c (-53) (by norm_num) ?_ ?_
          · rw [abs_of_nonneg (by positivity)]; exact_mod_cast hcn
          · rw [zpow_neg]; push_cast; norm_num; ring
        rw [this, div_mul_cancel₀ _ hn0.ne']; norm_num
      · have h1 := rndQ_err_unit hq0 hq1
        have h2 : rndQ ((c : ℚ) / n) * n - c = (rndQ ((c : ℚ) / n) - (c : ℚ) / n) * n := by field_simp
        rw [h2, abs_mul, abs_of_pos hn0]
        have hn'' : (n : ℚ) + 1 ≤ 2 ^ 53 := by exact_mod_cast hn'
        calc _ ≤ 1 / 2 ^ 54 * (n : ℚ) := mul_le_mul_of_nonneg_right h1 hn0.le
          _ < 1 / 2 := by
            rw [div_mul_eq_mul_div, one_mul, div_lt_iff₀ (by norm_num)]
            norm_num at hn'' ⊢
            linarith
    have h3 := rndQ_near (c := c) (by exact_mod_cast hbig) (by exact_mod_cast lt_of_lt_of_le hlt hn)
      (by simpa using hx)
    rw [h3]
    push_cast
    constructor <;> linarith
  · have hnorm : (2 : ℚ) ^ (-1022 : ℤ) ≤ (c : ℚ) / n := by
      rw [le_div_iff₀ hn0]
      have h1 : (2 : ℚ) ^ (-1022 : ℤ) ≤ 2 ^ (-53 : ℤ) := zpow_le_zpow_right₀ (by norm_num) (by norm_num)
      have h2 : (n : ℚ) ≤ 2 ^ 53 := by exact_mod_cast hn
      have h3 : (2 : ℚ) ^ (-53 : ℤ) = 1 / 2 ^ 53 := by rw [zpow_neg]; norm_num
      have h4 : (1 : ℚ) ≤ c := by exact_mod_cast h0
      calc _ ≤ (2 : ℚ) ^ (-53 : ℤ) * 2 ^ 53 := mul_le_mul h1 h2 hn0.le (two_zpow_pos _).le
        _ = 1 := by rw [h3]; norm_num
        _ ≤ _ := h4
    have h1 := rndQ_err hq0 hnorm
    rw [abs_le] at h1
    have hs : (c : ℚ) ≤ 2 ^ 52 := by exact_mod_cast hsmall
    have e1 : (c : ℚ) / n / 2 ^ 53 * n = (c : ℚ) / 2 ^ 53 := by field_simp
    have e2 : (c : ℚ) / n * n = c := by field_simp
    have h6 : (c : ℚ) / 2 ^ 53 ≤ 1 / 2 := by
      rw [div_le_iff₀ (by norm_num)]; norm_num at hs ⊢; linarith
    have lo : (((2 * c - 1 : ℤ) : ℚ)) / 2 ≤ rndQ ((c : ℚ) / n) * n := by
      have := mul_le_mul_of_nonneg_right h1.1 hn0.le
      rw [sub_mul, neg_mul, e1, e2] at this
      push_cast; linarith
    have hi : rndQ ((c : ℚ) / n) * n ≤ (((2 * c + 1 : ℤ) : ℚ)) / 2 := by
      have := mul_le_mul_of_nonneg_right h1.2 hn0.le
      rw [sub_mul, e1, e2] at this
      push_cast; linarith
    have hcz : (c : ℤ) ≤ 2 ^ 52 := by exact_mod_cast hsmall
    have hlo := rndQ_mono lo
    rw [rndQ_half (by rw [abs_le]; constructor <;> omega)] at hlo
    have hhi := rndQ_mono hi
    rcases lt_or_ge (2 * (c : ℤ) + 1) (2 ^ 53 + 1) with hle | hge
    · rw [rndQ_half (by rw [abs_le]; constructor <;> omega)] at hhi
      push_cast at hlo hhi
      constructor <;> linarith
    · -- c = 2^52: the quotient is exact only if n is a power of two, use the other bound
      have hceq : c = 2 ^ 52 := by omega
      push_cast at hlo
      refine ⟨by linarith, ?_⟩
      have h8 : rndQ ((c : ℚ) / n) * n ≤ (c : ℚ) + 1 / 2 := by push_cast at hi; linarith
      have h9 := rndQ_mono h8
      refine h9.trans ?_
      have h10 : rndQ ((c : ℚ) + 1 / 2) = c := by
        rw [hceq]
        decide +kernel
      rw [h10]; linarith

end F64


/-- the rank that the rounded quotient of `c` and `n` asks for -/
theorem specRank_back {c n : Nat} (h0 : 0 < c) (hcn : c ≤ n) (hn : n ≤ 2 ^ 53) :
    specRank n (.fin (F64.rndQ ((c : ℚ) / (n : ℚ)))) = c ∨ specRank n (.fin (F64.rndQ ((c : ℚ) / (n : ℚ)))) = c + 1 := by
  have hU : U64MAX = 18446744073709551615 := rfl
  show max 1 (min ⌈F64.rndQ (min (F64.rndQ ((c : ℚ) / (n : ℚ))) 1 * F64.rndQ n)⌉.toNat U64MAX) = c ∨
    max 1 (min ⌈F64.rndQ (min (F64.rndQ ((c : ℚ) / (n : ℚ))) 1 * F64.rndQ n)⌉.toNat U64MAX) = c + 1
  have hn0 : (0 : ℚ) < n := by exact_mod_cast lt_of_lt_of_le h0 hcn
  have h1 : F64.rndQ ((c : ℚ) / (n : ℚ)) ≤ 1 := F64.rndQ_le_one (by rw [div_le_one hn0]; exact_mod_cast hcn)
  rw [min_eq_left h1, F64.rndQ_nat hn]
  obtain ⟨h2, h3⟩ := F64.rndQ_back h0 hcn hn
  generalize F64.rndQ (F64.rndQ ((c : ℚ) / (n : ℚ)) * n) = y at *
  have h4 : ⌈y⌉ ≤ (c : ℤ) + 1 := Int.ceil_le.mpr (by push_cast; linarith)
  have h5 : (c : ℤ) - 1 < ⌈y⌉ := Int.lt_ceil.mpr (by push_cast; linarith)
  norm_num at hn
  omega

theorem countUpTo_le (cs : List Cls) (v : Nat) : countUpTo cs v ≤ (cs.map (·.count)).sum := by
  unfold countUpTo
  induction cs with
  | nil => simp
  | cons c cs ih =>
    rw [List.filter_cons]
    split <;> simp only [List.map_cons, List.sum_cons] <;> omega

theorem countUpTo_mid {pre post : List Cls} {c : Cls} {cs : List Cls} (e : cs = pre ++ c :: post)
    (hs : cs.Pairwise fun c d => c.lo < d.lo ∧ c.hi ≤ d.hi) :
    countUpTo cs c.lo = (pre.map (·.count)).sum + c.count := by
  subst e
  rw [List.pairwise_append, List.pairwise_cons] at hs
  unfold countUpTo
  rw [List.filter_append, List.filter_cons, if_pos (by simp)]
  have h1 : pre.filter (fun d => decide (d.lo ≤ c.lo)) = pre := by
    rw [List.filter_eq_self]
    intro d hd
    exact decide_eq_true (hs.2.2 d hd c (by simp)).1.le
  have h2 : post.filter (fun d => decide (d.lo ≤ c.lo)) = [] := by
    rw [List.filter_eq_nil_iff]
    intro d hd
    have := (hs.2.1.1 d hd).1
    simp only [decide_eq_true_eq]
    omega
  rw [h1, h2]
  simp

/-- `d` is the first class after `c` that holds samples -/
def NextNonempty (cs : List Cls) (c d : Cls) : Prop :=
  ∃ pre mid post, cs = pre ++ c :: mid ++ d :: post ∧ (∀ e ∈ mid, e.count = 0) ∧ d.count ≠ 0

theorem AtRank.next {cs pre post : List Cls} {c d : Cls} (e : cs = pre ++ c :: post)
    (hd : AtRank cs ((pre.map (·.count)).sum + c.count + 1) d) : NextNonempty cs c d := by
  obtain ⟨p, q, e', h1, h2⟩ := hd
  have hlen : pre.length < p.length := by
    by_contra hle
    have hpre : p ++ [d] <+: pre ++ [c] := by
      refine List.prefix_of_prefix_length_le (l₃ := cs) ⟨q, by rw [e']; simp⟩ ⟨post, by rw [e]; simp⟩ (by simp; omega)
    obtain ⟨t, ht⟩ := hpre
    have := congrArg (fun l => (l.map (fun x => Cls.count x)).sum) ht
    simp only [List.map_append, List.sum_append, List.map_cons, List.map_nil, List.sum_cons, List.sum_nil] at this
    omega
  have hpre : pre ++ [c] <+: p := by
    refine List.prefix_of_prefix_length_le (l₃ := cs) ⟨post, by rw [e]; simp⟩ ⟨d :: q, e'.symm⟩ (by simp; omega)
  obtain ⟨mid, rfl⟩ := hpre
  refine ⟨pre, mid, q, by rw [e']; simp, ?_, by omega⟩
  intro x hx
  have := mem_le_sum (List.mem_map_of_mem (f := (·.count)) hx)
  simp only [List.map_append, List.sum_append, List.map_cons, List.map_nil, List.sum_cons, List.sum_nil] at h1
  omega

/-- the common part of the C55 theorems -/
theorem back_aux {h : Hist T} (R : Reachable fp T h) {cs : List Cls} (C : Classes h cs)
    (hl : h.len = (cs.map (·.count)).sum) (hn : h.len ≤ 2 ^ 53) {c : Cls} (hc : c ∈ cs) (hcc : c.count ≠ 0)
    {v : Nat} (hv : v ≤ U64MAX) (hev : Equiv h v c.lo) :
    ∃ (pre post : List Cls) (d : Cls) (x : ℚ), cs = pre ++ c :: post ∧
      x = F64.rndQ (((pre.map (·.count)).sum + c.count : ℕ) / (h.len : ℚ)) ∧
      (pre.map (·.count)).sum + c.count ≤ h.len ∧ h.quantileBelow v = .ok (.fin x) ∧
      AtRank cs (specRank h.len (.fin x)) d ∧ h.valueAtQuantile (.fin x) = .ok d.hi := by
  have W := R.wf
  have hsort := W.classes_sorted C
  have h0 : h.len ≠ 0 := by
    have := mem_le_sum (List.mem_map_of_mem (f := (·.count)) hc); omega
  have hup : countUpTo cs v = countUpTo cs c.lo := by
    obtain ⟨i, hi, rfl⟩ := (W.mem_classes C).mp hc
    have hlo : (h.lcls i).lo ≤ U64MAX := W.lval_le' hi
    rw [W.equiv_iff hv hlo] at hev
    rw [W.countUpTo_eq C, W.countUpTo_eq C]
    unfold Hist.slotOf
    rw [hev]
  obtain ⟨pre, post, e⟩ := List.append_of_mem hc
  have hmid := countUpTo_mid e hsort
  have hle := countUpTo_le cs c.lo
  have hq := C27_value_exact_partial R C hl h0 hn hv
  rw [hup, hmid] at hq
  rw [hmid, ← hl] at hle
  obtain ⟨d, hd, ed⟩ := C25_found R C hl (by omega) hn
    (.fin (F64.rndQ (((pre.map (·.count)).sum + c.count : ℕ) / (h.len : ℚ))))
  have hne : F64.rndQ (((pre.map (·.count)).sum + c.count : ℕ) / (h.len : ℚ)) ≠ 0 := by
    intro h0'
    have h1 := F64.rndQ_back (c := (pre.map (·.count)).sum + c.count) (n := h.len) (by omega) hle hn
    rw [h0', zero_mul, F64.rndQ_zero] at h1
    have : (1 : ℚ) ≤ (((pre.map (·.count)).sum + c.count : ℕ) : ℚ) := by exact_mod_cast (by omega)
    linarith [h1.1]
  rw [if_neg (by intro h; injection h with h; exact hne h)] at ed
  exact ⟨pre, post, d, _, e, rfl, hle, hq, hd, ed⟩

/-- C55 (partial): for a class `c` that holds samples and any value `v` of it, asking for the quantile below `v` and then
for the value at that quantile gives the end of the class, or (when the two roundings push the rank up) the end of the next
class that holds samples. The second case does occur: `C55_refuted`. -/
theorem C55_inverse_partial {h : Hist T} (R : Reachable fp T h) {cs : List Cls} (C : Classes h cs)
    (hl : h.len = (cs.map (·.count)).sum) (hn : h.len ≤ 2 ^ 53) {c : Cls} (hc : c ∈ cs) (hcc : c.count ≠ 0)
    {v : Nat} (hv : v ≤ U64MAX) (hev : Equiv h v c.lo) :
    ∃ q : F64, h.quantileBelow v = .ok q ∧
      (h.valueAtQuantile q = .ok c.hi ∨ ∃ d, NextNonempty cs c d ∧ h.valueAtQuantile q = .ok d.hi) := by
  obtain ⟨pre, post, d, x, e, rfl, hle, hq, hd, ed⟩ := back_aux R C hl hn hc hcc hv hev
  refine ⟨_, hq, ?_⟩
  rcases specRank_back (c := (pre.map (·.count)).sum + c.count) (n := h.len) (by omega) hle hn with hr | hr
  · left
    rw [hr] at hd
    have : AtRank cs ((pre.map (·.count)).sum + c.count) c := ⟨pre, post, e, by omega, le_rfl⟩
    rw [ed, hd.unique this]
  · right
    rw [hr] at hd
    exact ⟨d, hd.next e, ed⟩

/-- the quotients of a power of two are exact, so are the answers -/
theorem C55_pow2_partial {h : Hist T} (R : Reachable fp T h) {cs : List Cls} (C : Classes h cs)
    (hl : h.len = (cs.map (·.count)).sum) {k : Nat} (hn : h.len = 2 ^ k) (hk : k ≤ 53) {c : Cls} (hc : c ∈ cs)
    (hcc : c.count ≠ 0) {v : Nat} (hv : v ≤ U64MAX) (hev : Equiv h v c.lo) :
    ∃ q : F64, h.quantileBelow v = .ok q ∧ h.valueAtQuantile q = .ok c.hi := by
  have hU : U64MAX = 18446744073709551615 := rfl
  have hn' : h.len ≤ 2 ^ 53 := by rw [hn]; exact Nat.pow_le_pow_right (by norm_num) hk
  obtain ⟨pre, post, d, x, e, hx, hle, hq, hd, ed⟩ := back_aux R C hl hn' hc hcc hv hev
  refine ⟨_, hq, ?_⟩
  have hn0 : (0 : ℚ) < h.len := by rw [hn]; positivity
  have hxe : x = ((pre.map (·.count)).sum + c.count : ℕ) / (h.len : ℚ) := by
    rw [hx]
    refine F64.rndQ_exact ((pre.map (·.count)).sum + c.count : ℕ) (-k) (by omega) ?_ ?_
    · rw [abs_of_nonneg (by positivity)]; exact_mod_cast hle.trans hn'
    · rw [hn, zpow_neg, zpow_natCast]; push_cast; rw [div_eq_mul_inv]
  have hx1 : x ≤ 1 := by rw [hxe, div_le_one hn0]; exact_mod_cast hle
  have hr : specRank h.len (.fin x) = (pre.map (·.count)).sum + c.count := by
    show max 1 (min ⌈F64.rndQ (min x 1 * F64.rndQ h.len)⌉.toNat U64MAX) = _
    rw [min_eq_left hx1, F64.rndQ_nat hn', hxe, div_mul_cancel₀ _ hn0.ne', F64.rndQ_nat (hle.trans hn'),
      Int.ceil_natCast, Int.toNat_natCast]
    norm_num at hn'
    omega
  rw [hr] at hd
  have : AtRank cs ((pre.map (·.count)).sum + c.count) c := ⟨pre, post, e, by omega, le_rfl⟩
  rw [ed, hd.unique this]

/-- `demo` after `record_n(5, 55)`, `record_n(9, 45)`: a hundred samples -/
def demo100 : Hist .u8 :=
  { demo with maxValue := 9, minNonZero := 5, totalCount := 100, counts := [0, 0, 0, 55, 45] }

theorem demo100_reachable : Reachable Fp.ideal .u8 demo100 :=
  reachable_recordSeq (l := [(5, 55), (9, 45)]) demo_reachable (by decide) (r := .ok ()) (by decide)

def demo100Classes : List Cls := [⟨0, 0, 0⟩, ⟨1, 1, 0⟩, ⟨2, 3, 0⟩, ⟨4, 7, 55⟩, ⟨8, 15, 45⟩]

theorem demo100_classes : Classes demo100 demo100Classes := ⟨by decide +kernel, by decide +kernel, by decide +kernel⟩

/-- 55 of 100 samples are at most 7. The quotient is rounded up to the binary64 number nearest to 0.55, whose product with
100 is rounded to a number above 55, so the value at that quantile is looked for at rank 56 and is 15. -/
theorem C55_refuted : ∃ q, demo100.quantileBelow 5 = .ok q ∧ demo100.valueAtQuantile q = .ok 15 ∧
    demo100.highestEquivalent 5 = .ok 7 :=
  ⟨.fin (F64.rndQ (55 / 100)), by decide +kernel, by decide +kernel, by decide +kernel⟩

/-- a value of the class at rank `r`, and the count up to it -/
theorem AtRank.upTo {h : Hist T} (R : Reachable fp T h) {cs : List Cls} (C : Classes h cs) {r : Nat} {d : Cls}
    (hd : AtRank cs r d) {v : Nat} (hv : v = d.lo ∨ v = d.hi) : v ≤ U64MAX ∧ r ≤ countUpTo cs v := by
  have W := R.wf
  obtain ⟨i, hi, e⟩ := (W.mem_classes C).mp hd.mem
  have hlo : d.lo ≤ U64MAX := by rw [← e]; exact W.lval_le' hi
  have hup : v ≤ U64MAX ∧ h.lidx v = h.lidx d.lo := by
    rcases hv with rfl | rfl
    · exact ⟨hlo, rfl⟩
    · have : d.hi = h.lhi d.lo := by rw [← e]; rfl
      rw [this]
      exact ⟨lhi_le, lidx_lhi hlo⟩
  refine ⟨hup.1, ?_⟩
  have h1 : countUpTo cs v = countUpTo cs d.lo := by
    rw [W.countUpTo_eq C, W.countUpTo_eq C]
    unfold Hist.slotOf
    rw [hup.2]
  obtain ⟨pre, post, e, -, h2⟩ := hd
  rw [h1, countUpTo_mid e (W.classes_sorted C)]
  exact h2

/-- rounding down loses at most one part in 2^53, except for numbers so small that they are below 1 anyway -/
theorem F64.le_rndQ_or (y : ℚ) : y * (1 - 1 / 2 ^ 53) ≤ F64.rndQ y ∨ y ≤ 1 := by
  rcases le_or_gt y 1 with h | h
  · exact .inr h
  · left
    have h1 : (2 : ℚ) ^ (-1022 : ℤ) ≤ y := by
      have : (2 : ℚ) ^ (-1022 : ℤ) ≤ 2 ^ (0 : ℤ) := zpow_le_zpow_right₀ (by norm_num) (by norm_num)
      rw [zpow_zero] at this; linarith
    have h2 := F64.rndQ_err (by linarith) h1
    rw [abs_le] at h2
    have : y * (1 - 1 / 2 ^ 53) = y - y / 2 ^ 53 := by ring
    linarith [h2.1]

theorem rank_ge {n : Nat} (h0 : 0 < n) (hn : n ≤ 2 ^ 53) {x : ℚ} (hx0 : 0 ≤ x) (hx1 : x ≤ 1) :
    x * n * (1 - 1 / 2 ^ 53) ≤ specRank n (.fin x) := by
  have hU : U64MAX = 18446744073709551615 := rfl
  have hn0 : (0 : ℚ) < n := by exact_mod_cast h0
  have hy0 : 0 ≤ x * (n : ℚ) := mul_nonneg hx0 hn0.le
  have hp := specRank_pos n (.fin x)
  have hp' : (1 : ℚ) ≤ specRank n (.fin x) := by exact_mod_cast hp
  rcases F64.le_rndQ_or (x * n) with h | h
  · refine h.trans ?_
    have hle : specRank n (.fin x) ≤ n := by
      have := specRank_le n (.fin x)
      rwa [specRank_one h0 hn] at this
    have e : specRank n (.fin x) = max 1 (min ⌈F64.rndQ (x * n)⌉.toNat U64MAX) := by
      show max 1 (min ⌈F64.rndQ (min x 1 * F64.rndQ n)⌉.toNat U64MAX) = _
      rw [min_eq_left hx1, F64.rndQ_nat hn]
    have h1 := Int.le_ceil (F64.rndQ (x * n))
    have h2 : ⌈F64.rndQ (x * n)⌉ ≤ (specRank n (.fin x) : ℤ) := by
      norm_num at hn
      omega
    have h3 : ((⌈F64.rndQ (x * n)⌉ : ℤ) : ℚ) ≤ ((specRank n (.fin x) : ℤ) : ℚ) := by exact_mod_cast h2
    push_cast at h3
    linarith
  · have : x * (n : ℚ) * (1 - 1 / 2 ^ 53) ≤ x * (n : ℚ) := by
      have h2 : (1 : ℚ) - 1 / 2 ^ 53 ≤ 1 := by norm_num
      exact mul_le_of_le_one_right hy0 h2
    linarith

/-- C55 (other direction): the quantile below the value at quantile `x` is at least `x`, up to two roundings. -/
theorem C55_reverse {h : Hist T} (R : Reachable fp T h) {cs : List Cls} (C : Classes h cs)
    (hl : h.len = (cs.map (·.count)).sum) (h0 : 0 < h.len) (hn : h.len ≤ 2 ^ 53) {x : ℚ} (hx0 : 0 ≤ x) (hx1 : x ≤ 1) :
    ∃ v y, h.valueAtQuantile (.fin x) = .ok v ∧ h.quantileBelow v = .ok (.fin y) ∧ x * (1 - 1 / 2 ^ 52) ≤ y := by
  obtain ⟨d, hd, e⟩ := C25_found R C hl h0 hn (.fin x)
  have hv : (if F64.fin x = .fin 0 then d.lo else d.hi) = d.lo ∨ (if F64.fin x = .fin 0 then d.lo else d.hi) = d.hi := by
    split
    · exact .inl rfl
    · exact .inr rfl
  generalize (if F64.fin x = .fin 0 then d.lo else d.hi) = v at *
  obtain ⟨hvU, hr⟩ := hd.upTo R C hv
  refine ⟨v, _, e, C27_value_exact_partial R C hl (by omega) hn hvU, ?_⟩
  have hn0 : (0 : ℚ) < h.len := by exact_mod_cast h0
  have hle := countUpTo_le cs v
  rw [← hl] at hle
  have hr1 := specRank_pos h.len (.fin x)
  have h1 := rank_ge h0 hn hx0 hx1
  have h2 : (specRank h.len (.fin x) : ℚ) ≤ countUpTo cs v := by exact_mod_cast hr
  have hc1 : (1 : ℚ) ≤ countUpTo cs v := by exact_mod_cast (by omega)
  have hq0 : (0 : ℚ) < (countUpTo cs v : ℚ) / h.len := by positivity
  have hnorm : (2 : ℚ) ^ (-1022 : ℤ) ≤ (countUpTo cs v : ℚ) / h.len := by
    rw [le_div_iff₀ hn0]
    have h1 : (2 : ℚ) ^ (-1022 : ℤ) ≤ 2 ^ (-53 : ℤ) := zpow_le_zpow_right₀ (by norm_num) (by norm_num)
    have h2 : (h.len : ℚ) ≤ 2 ^ 53 := by exact_mod_cast hn
    have h3 : (2 : ℚ) ^ (-53 : ℤ) = 1 / 2 ^ 53 := by rw [zpow_neg]; norm_num
    calc _ ≤ (2 : ℚ) ^ (-53 : ℤ) * 2 ^ 53 := mul_le_mul h1 h2 hn0.le (F64.two_zpow_pos _).le
      _ = 1 := by rw [h3]; norm_num
      _ ≤ _ := hc1
  have h3 := F64.rndQ_err hq0 hnorm
  rw [abs_le] at h3
  have h4 : x * (1 - 1 / 2 ^ 53) ≤ (countUpTo cs v : ℚ) / h.len := by
    rw [le_div_iff₀ hn0]
    calc x * (1 - 1 / 2 ^ 53) * (h.len : ℚ) = x * h.len * (1 - 1 / 2 ^ 53) := by ring
      _ ≤ _ := h1.trans h2
  have h5 : (countUpTo cs v : ℚ) / h.len * (1 - 1 / 2 ^ 53) ≤ F64.rndQ ((countUpTo cs v : ℚ) / h.len) := by
    have : (countUpTo cs v : ℚ) / h.len * (1 - 1 / 2 ^ 53)
        = (countUpTo cs v : ℚ) / h.len - (countUpTo cs v : ℚ) / h.len / 2 ^ 53 := by ring
    linarith [h3.1]
  refine le_trans ?_ h5
  calc x * (1 - 1 / 2 ^ 52) ≤ x * (1 - 1 / 2 ^ 53) * (1 - 1 / 2 ^ 53) := by
        rw [mul_assoc]; exact mul_le_mul_of_nonneg_left (by norm_num) hx0
    _ ≤ _ := mul_le_mul_of_nonneg_right h4 (by norm_num)

/-- the hypotheses of the C55 theorems hold for `demo100`: from the quantile 0.5 to the value 7, and back to 55 of 100 -/
example : demo100.len = (demo100Classes.map (·.count)).sum ∧ 0 < demo100.len ∧ demo100.len ≤ 2 ^ 53 ∧
    (⟨4, 7, 55⟩ : Cls) ∈ demo100Classes ∧ Equiv demo100 6 4 ∧ demo100.valueAtQuantile (.fin (1 / 2)) = .ok 7 ∧
    demo100.quantileBelow 7 = .ok (.fin (F64.rndQ (55 / 100))) ∧
    NextNonempty demo100Classes ⟨4, 7, 55⟩ ⟨8, 15, 45⟩ :=
  ⟨by decide, by decide, by decide, by decide, by decide +kernel, by decide +kernel, by decide +kernel,
    [⟨0, 0, 0⟩, ⟨1, 1, 0⟩, ⟨2, 3, 0⟩], [], [], rfl, by simp, by decide⟩

/-! ## C56: the percentile forms -/

/-- C56: `percentile_below` never panics and is between 0 and 100; it is the quantile times 100, rounded. -/
theorem C56_below {h : Hist T} (R : Reachable fp T h) {v : Nat} (hv : v ≤ U64MAX) :
    ∃ x y : ℚ, h.quantileBelow v = .ok (.fin x) ∧ h.percentileBelow v = .ok (.fin y) ∧ y = F64.rndQ (x * 100) ∧
      0 ≤ y ∧ y ≤ 100 := by
  obtain ⟨x, e, h0, h1⟩ := C27_total R hv
  have h2 : F64.mul (.fin x) (.fin 100) = .fin (F64.rndQ (x * 100)) := by
    show F64.rnd (x * 100) = _
    refine F64.rnd_fin ?_
    rw [abs_of_nonneg (by linarith)]
    exact le_trans (by norm_num; linarith) F64.pow64_le
  have h100 : F64.rndQ 100 = 100 := by have := F64.rndQ_nat (n := 100) (by norm_num); exact_mod_cast this
  refine ⟨x, _, e, ?_, rfl, F64.rndQ_nonneg (by linarith), ?_⟩
  · unfold Hist.percentileBelow
    rw [e, M.ok_bind, h2]; rfl
  · have := F64.rndQ_mono (show x * 100 ≤ 100 by linarith)
    rwa [h100] at this

/-- C56 (partial): it is monotone in the value, if the counts add up to at most `u64::MAX` -/
theorem C56_mono_partial {h : Hist T} (R : Reachable fp T h) {cs : List Cls} (C : Classes h cs)
    (hs : (cs.map (·.count)).sum ≤ U64MAX) {v w : Nat} (hw : w ≤ U64MAX) (hvw : v ≤ w) :
    ∃ x y : ℚ, h.percentileBelow v = .ok (.fin x) ∧ h.percentileBelow w = .ok (.fin y) ∧ x ≤ y := by
  obtain ⟨a, b, ea, eb, hab⟩ := C27_mono_partial R C hs hw hvw
  obtain ⟨a', x, ea', ex, hx, -⟩ := C56_below R (hvw.trans hw)
  obtain ⟨b', y, eb', ey, hy, -⟩ := C56_below R hw
  rw [ea] at ea'; rw [eb] at eb'
  cases ea'; cases eb'
  exact ⟨x, y, ex, ey, by rw [hx, hy]; exact F64.rndQ_mono (by linarith)⟩

/-- C56: 100 from `max()` on, if no counter has saturated -/
theorem C56_all_partial {h : Hist T} (R : Reachable fp T h) {cs : List Cls} (C : Classes h cs)
    (hl : h.len = (cs.map (·.count)).sum) {m v : Nat} (hm : h.max = .ok m) (hmv : m ≤ v) (hv : v ≤ U64MAX) :
    h.percentileBelow v = .ok (.fin 100) := by
  have e := C27_one_partial R C hl hm hmv hv
  obtain ⟨x, y, ex, ey, hy, -⟩ := C56_below R hv
  rw [e] at ex
  cases ex
  rw [ey, hy, one_mul]
  have : F64.rndQ 100 = 100 := by have := F64.rndQ_nat (n := 100) (by norm_num); exact_mod_cast this
  rw [this]

theorem rank_near {n : Nat} (h0 : 0 < n) (hn : n ≤ 2 ^ 53) {x : ℚ} (hx0 : 0 ≤ x) (hx1 : x ≤ 1) :
    specRank n (.fin (F64.rndQ x)) ≤ exactRank n x + 1 ∧ exactRank n x ≤ specRank n (.fin (F64.rndQ x)) + 1 := by
  have hU : U64MAX = 18446744073709551615 := rfl
  have hn0 : (0 : ℚ) < n := by exact_mod_cast h0
  rcases eq_or_lt_of_le hx1 with rfl | hlt
  · rw [F64.rndQ_one, specRank_one h0 hn, exactRank_one h0]; omega
  rcases eq_or_lt_of_le hx0 with rfl | hpos
  · rw [F64.rndQ_zero]
    have := specRank_exact hn (x := 0) le_rfl (by norm_num)
    have := specRank_pos n (.fin 0)
    omega
  have e : specRank n (.fin (F64.rndQ x)) = max 1 (min ⌈F64.rndQ (F64.rndQ x * n)⌉.toNat U64MAX) := by
    show max 1 (min ⌈F64.rndQ (min (F64.rndQ x) 1 * F64.rndQ n)⌉.toNat U64MAX) = _
    rw [min_eq_left (F64.rndQ_le_one hx1), F64.rndQ_nat hn]
  have hle : specRank n (.fin (F64.rndQ x)) ≤ n := by
    have := specRank_le n (.fin (F64.rndQ x))
    rwa [specRank_one h0 hn] at this
  rw [e] at hle ⊢
  unfold exactRank
  have herr := F64.rndQ_err_unit hpos hlt
  rw [abs_le] at herr
  have hn' : (n : ℚ) ≤ 2 ^ 53 := by exact_mod_cast hn
  have hhalf : 1 / 2 ^ 54 * (n : ℚ) ≤ 1 / 2 := by
    rw [div_mul_eq_mul_div, one_mul, div_le_iff₀ (by norm_num)]; norm_num at hn' ⊢; linarith
  have hlo : x * n - 1 / 2 ≤ F64.rndQ x * n := by
    have := mul_le_mul_of_nonneg_right herr.1 hn0.le
    rw [sub_mul, neg_mul] at this; linarith
  have hhi : F64.rndQ x * n ≤ x * n + 1 / 2 := by
    have := mul_le_mul_of_nonneg_right herr.2 hn0.le
    rw [sub_mul] at this; linarith
  have hY : x * (n : ℚ) < n := by
    have := mul_lt_mul_of_pos_right hlt hn0; linarith
  have hY0 : 0 < x * (n : ℚ) := mul_pos hpos hn0
  generalize F64.rndQ x * (n : ℚ) = y at *
  generalize x * (n : ℚ) = Y at *
  have hk1 := Int.le_ceil Y
  have hk2 := Int.ceil_lt_add_one Y
  have hk0 : 0 < ⌈Y⌉ := Int.ceil_pos.mpr hY0
  have hkn : ⌈Y⌉ ≤ n := Int.ceil_le.mpr (by push_cast; linarith)
  generalize ⌈Y⌉ = k at *
  have hn'' : (n : ℤ) ≤ 2 ^ 53 := by exact_mod_cast hn
  have hup : ⌈F64.rndQ y⌉ ≤ k + 1 := by
    refine Int.ceil_le.mpr ?_
    rcases Int.le_iff_lt_or_eq.mp (hkn.trans hn'') with hlt' | heq
    · have h1 : y ≤ ((k + 1 : ℤ) : ℚ) := by push_cast; linarith
      have h2 := F64.rndQ_mono h1
      rwa [F64.rndQ_int (by rw [abs_le]; constructor <;> omega)] at h2
    · have h1 : y ≤ (k : ℚ) + 1 / 2 := by linarith
      have h2 := F64.rndQ_mono h1
      have h3 : F64.rndQ ((k : ℚ) + 1 / 2) = k := by rw [heq]; decide +kernel
      rw [h3] at h2
      push_cast; linarith
  have hdn : k - 2 < ⌈F64.rndQ y⌉ := by
    refine Int.lt_ceil.mpr ?_
    rcases le_or_gt k (2 ^ 52 + 1) with hs | hb
    · have h1 : ((2 * k - 3 : ℤ) : ℚ) / 2 ≤ y := by push_cast; linarith
      have h2 := F64.rndQ_mono h1
      rw [F64.rndQ_half (by rw [abs_le]; constructor <;> omega)] at h2
      push_cast at h2 ⊢; linarith
    · rcases le_or_gt ((k : ℚ) - 1) y with hge | hlt'
      · have h1 : ((k - 1 : ℤ) : ℚ) ≤ y := by push_cast; linarith
        have h2 := F64.rndQ_mono h1
        rw [F64.rndQ_int (by rw [abs_le]; constructor <;> omega)] at h2
        push_cast at h2 ⊢; linarith
      · have h2 := F64.rndQ_near (x := y) (c := k - 1) (by omega) (by omega)
          (by rw [abs_lt]; push_cast; constructor <;> linarith)
        rw [h2]; push_cast; linarith
  norm_num at hn
  omega

/-- C56: `value_at_percentile(p)`, for percentiles from 0 to 100, is the end of the class at a rank that is within one of
`p / 100` times the number of samples, rounded up. (The start of the class, if `p / 100` is rounded to 0.) -/
theorem C56_value_partial {h : Hist T} (R : Reachable fp T h) {cs : List Cls} (C : Classes h cs)
    (hl : h.len = (cs.map (·.count)).sum) (h0 : 0 < h.len) (hn : h.len ≤ 2 ^ 53) {p : ℚ} (hp0 : 0 ≤ p) (hp1 : p ≤ 100) :
    ∃ r c, AtRank cs r c ∧ h.valueAtPercentile (.fin p) = .ok (if F64.rndQ (p / 100) = 0 then c.lo else c.hi) ∧
      r ≤ exactRank h.len (p / 100) + 1 ∧ exactRank h.len (p / 100) ≤ r + 1 := by
  have hq0 : 0 ≤ p / 100 := by linarith
  have hq1 : p / 100 ≤ 1 := by linarith
  have e : F64.div (.fin p) (.fin 100) = .fin (F64.rndQ (p / 100)) := by
    have e1 : F64.div (.fin p) (.fin 100) = F64.rnd (p / 100) := by simp [F64.div]
    rw [e1]
    refine F64.rnd_fin ?_
    rw [abs_of_nonneg hq0]
    exact le_trans (by norm_num; linarith) F64.pow64_le
  obtain ⟨c, hc, ec⟩ := C25_found R C hl h0 hn (.fin (F64.rndQ (p / 100)))
  refine ⟨_, c, hc, ?_, rank_near h0 hn hq0 hq1⟩
  unfold Hist.valueAtPercentile
  rw [e, ec]
  congr 1
  simp only [F64.fin.injEq]

/-- C56: no percentile (not even NaN or an infinity) makes it panic, if the counts add up to at most `u64::MAX` -/
theorem C56_total_partial {h : Hist T} (R : Reachable fp T h) {cs : List Cls} (C : Classes h cs)
    (hs : (cs.map (·.count)).sum ≤ U64MAX) (p : F64) : ∃ v, h.valueAtPercentile p = .ok v := by
  unfold Hist.valueAtPercentile
  rcases C25_rank R C hs (F64.div p (.fin 100)) with ⟨c, -, e⟩ | ⟨-, e⟩
  · exact ⟨_, e⟩
  · exact ⟨_, e⟩

example : demo100.valueAtPercentile (.fin 50) = .ok 7 ∧ demo100.valueAtPercentile (.fin 90) = .ok 15 ∧
    exactRank 100 (50 / 100) = 50 ∧ demo100.percentileBelow 15 = .ok (.fin 100) ∧ demo100.max = .ok 15 ∧
    demo100.percentileBelow 3 = .ok (.fin 0) := by decide +kernel

/-- The conditions are needed. With a saturated counter `percentile_below(max())` is less than 50, and the value at 100 percent
is not `max()` but 0; with more than `u64::MAX` samples, `percentile_below` falls from 100 to 0 and `value_at_percentile`
overflows. -/
theorem C56_refuted :
    (demoSat0.max = .ok 0 ∧ ∃ x : ℚ, demoSat0.percentileBelow 0 = .ok (.fin x) ∧ x < 50) ∧
    (demoSat.max = .ok 15 ∧ demoSat.valueAtPercentile (.fin 100) = .ok 0) ∧
    (∃ h, recordSeq [(5, U64MAX), (150, U64MAX)] demoU = .ok (h, .ok ()) ∧ h.percentileBelow 5 = .ok (.fin 100) ∧
      h.percentileBelow 40 = .ok (.fin 0)) ∧
    ∃ h, recordSeq [(5, 1), (100, U64MAX)] demoU = .ok (h, .ok ()) ∧ h.valueAtPercentile (.fin 100) = .error .overflow :=
  ⟨⟨by decide, _, (by decide +kernel : demoSat0.percentileBelow 0 = .ok (.fin (F64.rndQ (F64.rndQ (1 / 3) * 100)))),
    by decide +kernel⟩, ⟨by decide +kernel, by decide +kernel⟩, okThen (by decide +kernel),
    okThen (by decide +kernel)⟩

end Hdr
