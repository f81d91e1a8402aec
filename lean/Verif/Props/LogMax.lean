import Verif.Spec.LogMax
import Verif.Props.Log
import Verif.Props.Float
import Verif.Proofs.Quantile

/-!
# Interval logs: the maximum read back (C83)
-/

namespace Hdr

open Hdr.Log Hdr.F64

variable {T : CounterTy} {ε : Type}

namespace Log

theorem bits53_int {q : ℚ} (h : Bits53 q) (hq : 2 ^ 53 ≤ |q|) : ∃ z : ℤ, q = z := by
  obtain ⟨k, e, hk, -, rfl⟩ := h
  have he : 0 ≤ e := by
    by_contra hn
    have h1 : (2 : ℚ) ^ e ≤ 1 := by
      rw [← zpow_zero (2 : ℚ)]; exact zpow_le_zpow_right₀ (by norm_num) (by omega)
    have h2 : |(k : ℚ)| < 2 ^ 53 := by exact_mod_cast hk
    rw [abs_mul, abs_of_pos (two_zpow_pos e)] at hq
    have := two_zpow_pos e
    have := abs_nonneg (k : ℚ)
    nlinarith
  obtain ⟨n, rfl⟩ := Int.eq_ofNat_of_zero_le he
  exact ⟨k * 2 ^ n, by push_cast; rfl⟩

theorem bits53_rndQ {q : ℚ} (h : Bits53 q) : rndQ q = q := by
  obtain ⟨k, e, hk, he, rfl⟩ := h
  exact rndQ_exact k e he hk.le rfl

theorem rndQ_bits (q : ℚ) : Bits53 (rndQ q) := (rndQ_nearest q).1

/-- rounding to thousandths, then to `f64` -/
theorem thousandths (f : Fmt) {q : ℚ} (hq : Bits53 q) (h0 : 0 ≤ q) :
    |rndQ (f.ms q / 1000) - q| ≤ 1 / 2000 + 1 / 2 ^ 60 + q / 2 ^ 53 ∧ ((∃ z : ℤ, q = z) → rndQ (f.ms q / 1000) = q) := by
  have hn := f.near q h0
  have hint : (∃ z : ℤ, q = z) → rndQ (f.ms q / 1000) = q := by
    rintro ⟨z, hz⟩
    have h1 : |((f.ms q : ℤ) - 1000 * z : ℤ)| < 1 := by
      have h2 : |((f.ms q : ℚ) - 1000 * z)| ≤ 1 / 2 := by
        rw [hz] at hn ⊢
        rw [abs_le] at hn ⊢
        constructor <;> linarith [hn.1, hn.2]
      have h3 : |(((f.ms q : ℤ) - 1000 * z : ℤ) : ℚ)| < 1 := by push_cast; linarith
      exact_mod_cast h3
    have h4 : (f.ms q : ℤ) = 1000 * z := by
      have := Int.abs_lt_one_iff.mp h1; omega
    have h5 : (f.ms q : ℚ) = 1000 * z := by exact_mod_cast congrArg (fun z : ℤ => (z : ℚ)) h4
    rw [h5, mul_div_cancel_left₀ _ (by norm_num), ← hz, bits53_rndQ hq]
  refine ⟨?_, hint⟩
  rcases lt_or_ge q (2 ^ 53) with hlt | hge
  · rcases Nat.eq_zero_or_pos (f.ms q) with hz | hp
    · rw [hz] at hn ⊢
      simp only [Nat.cast_zero, zero_div, rndQ_zero] at hn ⊢
      have : (0 : ℚ) ≤ q / 2 ^ 53 := by positivity
      have : (0 : ℚ) < 1 / 2 ^ 60 := by positivity
      linarith
    · have h1 : (1 : ℚ) ≤ f.ms q := by exact_mod_cast hp
      have hpos : (0 : ℚ) < (f.ms q : ℚ) / 1000 := by positivity
      have hbig : (2 : ℚ) ^ (-1022 : ℤ) ≤ (f.ms q : ℚ) / 1000 := by
        have e1 : (2 : ℚ) ^ (-1022 : ℤ) ≤ 2 ^ (-10 : ℤ) := zpow_le_zpow_right₀ (by norm_num) (by norm_num)
        have e2 : (2 : ℚ) ^ (-10 : ℤ) = 1 / 1024 := by norm_num
        rw [e2] at e1
        linarith
      have he := rndQ_err hpos hbig
      generalize (f.ms q : ℚ) / 1000 = y at *
      generalize rndQ y = x at *
      rw [abs_le] at hn he ⊢
      constructor <;> norm_num at * <;> linarith [hn.1, hn.2, he.1, he.2]
  · rw [hint (bits53_int hq (by rw [abs_of_nonneg h0]; exact hge)), sub_self, abs_zero]
    positivity

/-- the number read from what `{:.3}` writes -/
theorem read_fixed3 {value : Bytes → F64} (V : NumLaw value) (f : Fmt) {q : ℚ} (hq : Bits53 q) (hb : |q| < 2 ^ 1024) :
    ∃ x, value (Str.bytes (f.fixed3 (.fin q))) = .fin x ∧ |x - q| ≤ 1 / 2000 + 1 / 2 ^ 60 + |q| / 2 ^ 53 ∧
      ((∃ z : ℤ, q = z) → x = q) := by
  have key : ∀ p : ℚ, Bits53 p → 0 ≤ p → p < 2 ^ 1024 → rndQ (f.ms p / 1000) < 2 ^ 1024 := by
    intro p hp h0 hlt
    obtain ⟨h1, h2⟩ := thousandths f hp h0
    rcases lt_or_ge p (2 ^ 53) with h | h
    · have h3 : (2 : ℚ) ^ 54 ≤ 2 ^ 1024 := pow_le_pow_right₀ (by norm_num) (by norm_num)
      generalize (2 : ℚ) ^ 1024 = B at *
      rw [abs_le] at h1
      norm_num at h1 h h3
      linarith [h1.2]
    · rw [h2 (bits53_int hp (by rw [abs_of_nonneg h0]; exact h))]; exact hlt
  have text : ∀ p : ℚ, decVal (decimal (f.ms p / 1000) ++ pad3 (f.ms p % 1000)) = f.ms p := by
    intro p
    rw [decVal_append, (decimal_spec _).2.2, (pad3_spec (Nat.mod_lt _ (by norm_num))).2.1,
      (pad3_spec (Nat.mod_lt _ (by norm_num))).2.2]
    omega
  unfold Fmt.fixed3
  simp only
  by_cases hneg : q < 0
  · rw [if_pos hneg]
    have h0 : 0 ≤ -q := by linarith
    rw [abs_of_neg hneg] at hb ⊢
    obtain ⟨h1, h2⟩ := thousandths f hq.neg h0
    have hp := pad3_spec (Nat.mod_lt (f.ms (-q)) (show 0 < 1000 by norm_num))
    refine ⟨-rndQ (f.ms (-q) / 1000), ?_, ?_, ?_⟩
    · have := V.neg (decimal (f.ms (-q) / 1000)) (pad3 (f.ms (-q) % 1000)) (rndQ (f.ms (-q) / 1000)) (decimal_spec _).2.1
        (decimal_spec _).1 hp.1 hp.2.1 (by rw [text]; exact rndQ_nearest _) (key _ hq.neg h0 hb)
      simpa [milli] using this
    · rw [show -rndQ (f.ms (-q) / 1000) - q = -(rndQ (f.ms (-q) / 1000) - -q) by ring, abs_neg]; exact h1
    · rintro ⟨z, hz⟩
      rw [h2 ⟨-z, by rw [hz]; push_cast; ring⟩]; ring
  · rw [if_neg hneg]
    push Not at hneg
    rw [abs_of_nonneg hneg] at hb ⊢
    obtain ⟨h1, h2⟩ := thousandths f hq hneg
    have hp := pad3_spec (Nat.mod_lt (f.ms q) (show 0 < 1000 by norm_num))
    refine ⟨rndQ (f.ms q / 1000), ?_, h1, h2⟩
    have := V.pos (decimal (f.ms q / 1000)) (pad3 (f.ms q % 1000)) (rndQ (f.ms q / 1000)) (decimal_spec _).2.1
      (decimal_spec _).1 hp.1 hp.2.1 (by rw [text]; exact rndQ_nearest _) (key _ hq hneg hb)
    simpa [milli] using this

theorem rndQ_near {a : ℚ} : |rndQ a - a| ≤ |a| / 2 ^ 53 + 1 / 2 ^ 61 := by
  have key : ∀ p : ℚ, 0 < p → |rndQ p - p| ≤ p / 2 ^ 53 + 1 / 2 ^ 61 := by
    intro p hp
    rcases le_or_gt ((2 : ℚ) ^ (-1022 : ℤ)) p with h | h
    · have := rndQ_err hp h
      have : (0 : ℚ) < 1 / 2 ^ 61 := by positivity
      linarith
    · have h1 := rndQ_le_pow (q := p) (e := -1022) (by norm_num) h.le
      have h2 := rndQ_nonneg hp.le
      have h3 : (2 : ℚ) ^ (-1022 : ℤ) ≤ 1 / 2 ^ 61 := by
        have e1 : (2 : ℚ) ^ (-1022 : ℤ) ≤ 2 ^ (-61 : ℤ) := zpow_le_zpow_right₀ (by norm_num) (by norm_num)
        have e2 : (2 : ℚ) ^ (-61 : ℤ) = 1 / 2 ^ 61 := by norm_num
        rwa [e2] at e1
      have : (0 : ℚ) ≤ p / 2 ^ 53 := by positivity
      generalize (2 : ℚ) ^ (-1022 : ℤ) = t at *
      rw [abs_le]
      constructor <;> linarith
  rcases lt_trichotomy a 0 with h | h | h
  · have := key (-a) (by linarith)
    rw [rndQ_neg] at this
    rw [abs_of_neg h, show rndQ a - a = -(-rndQ a - -a) by ring, abs_neg]
    exact this
  · rw [h, rndQ_zero]; norm_num
  · rw [abs_of_pos h]; exact key a h

theorem div_fin {a b q : ℚ} (h : F64.div (.fin a) (.fin b) = .fin q) : b ≠ 0 ∧ q = rndQ (a / b) ∧ |q| < 2 ^ 1024 := by
  unfold F64.div at h
  simp only at h
  by_cases hb : b = 0
  · rw [if_pos hb] at h; split_ifs at h
  · rw [if_neg hb] at h
    unfold rnd at h
    by_cases h1 : 2 ^ 1024 ≤ rndQ (a / b)
    · rw [if_pos h1] at h; cases h
    · rw [if_neg h1] at h
      by_cases h2 : rndQ (a / b) ≤ -2 ^ 1024
      · rw [if_pos h2] at h; cases h
      · rw [if_neg h2] at h
        cases h
        exact ⟨hb, rfl, abs_lt.mpr ⟨not_le.mp h2, not_le.mp h1⟩⟩

/-- what is read for the maximum -/
theorem read_max {value : Bytes → F64} (V : NumLaw value) (f : Fmt) {m : Nat} (hm : m ≤ U64MAX) {d q : ℚ}
    (h : F64.div (F64.ofNat m) (.fin d) = .fin q) :
    ∃ x, value (Str.bytes (f.fixed3 (.fin q))) = .fin x ∧ |x - m / d| ≤ 1 / 2000 + 1 / 2 ^ 59 + |m / d| / 2 ^ 51 ∧
      (d = 1 → NearestEven m x) := by
  rw [ofNat_fin hm] at h
  obtain ⟨hd, hq, hb⟩ := div_fin h
  obtain ⟨x, h1, h2, h3⟩ := read_fixed3 V f (q := q) (hq ▸ rndQ_bits _) hb
  refine ⟨x, h1, ?_, ?_⟩
  · have e1 : |rndQ (m : ℚ) - m| ≤ m / 2 ^ 53 := by
      rcases Nat.eq_zero_or_pos m with hz | hp
      · rw [hz]; norm_num [rndQ_zero]
      · have : (1 : ℚ) ≤ m := by exact_mod_cast hp
        refine rndQ_err (by linarith) (le_trans ?_ this)
        rw [← zpow_zero (2 : ℚ)]; exact zpow_le_zpow_right₀ (by norm_num) (by norm_num)
    have e2 : |rndQ (m : ℚ) / d - m / d| ≤ |m / d| / 2 ^ 53 := by
      rw [← sub_div, abs_div, abs_div, div_div, mul_comm |d|, ← div_div]
      rw [Nat.abs_cast]
      exact div_le_div_of_nonneg_right e1 (abs_nonneg d)
    have e3 := rndQ_near (a := rndQ (m : ℚ) / d)
    rw [← hq] at e3
    generalize rndQ (m : ℚ) / d = a at *
    generalize (m : ℚ) / d = y at *
    have t1 : |a| ≤ |y| + |a - y| := by have := abs_add_le y (a - y); rwa [show y + (a - y) = a by ring] at this
    have t2 : |q| ≤ |a| + |q - a| := by have := abs_add_le a (q - a); rwa [show a + (q - a) = q by ring] at this
    have t3 : |x - y| ≤ |x - q| + |q - a| + |a - y| := by
      have u := abs_add_le (x - q) (q - a)
      have v := abs_add_le (x - q + (q - a)) (a - y)
      rw [show x - q + (q - a) + (a - y) = x - y by ring] at v
      linarith
    have hy := abs_nonneg y
    generalize |x - y| = r at *
    generalize |x - q| = r1 at *
    generalize |q - a| = r2 at *
    generalize |a - y| = r3 at *
    generalize |y| = y' at *
    generalize |a| = a' at *
    generalize |q| = q' at *
    norm_num at *
    linarith
  · intro h4
    rw [h4, div_one, rndQ_idem] at hq
    have hint : ∃ z : ℤ, q = z := by
      rcases le_or_gt m (2 ^ 53) with h5 | h5
      · exact ⟨m, by rw [hq, rndQ_nat h5]; rfl⟩
      · refine bits53_int (hq ▸ rndQ_bits _) ?_
        have h6 : rndQ ((2 ^ 53 : ℕ) : ℚ) ≤ rndQ (m : ℚ) := rndQ_mono (by exact_mod_cast h5.le)
        rw [rndQ_nat (n := 2 ^ 53) le_rfl] at h6
        rw [hq, abs_of_nonneg (rndQ_nonneg (by positivity))]
        exact_mod_cast h6
    rw [h3 hint, hq]
    exact rndQ_nearest m

theorem readBack {value : Bytes → F64} (V : NumLaw value) {f : Fmt} {d : ℚ} {ser : Ser ε} {ops : List Op} {es es' : List Entry}
    (hr : ∀ {T : CounterTy} (h : Hist T) (s du : Dur) (tag : Option Tag), Op.hist h s du tag ∈ ops → ∀ m, h.max = .ok m → m ≤ U64MAX)
    (hl : ∀ op ∈ ops, op.Loggable (.fin d)) (h : Intended f (.fin d) ser ops es) (h' : List.Forall₂ SameEntry es es') :
    List.Forall₂ (ReadBack value d) (ops.filter Op.isHist) es' := by
  induction h generalizing es' with
  | nil => cases h'; exact .nil
  | comment h ih =>
    rw [List.filter_cons_of_neg (by simp [Op.isHist])]
    exact ih (fun h s du tag hm => hr h s du tag (by simp [hm])) (fun op ho => hl op (by simp [ho])) h'
  | @hist T h start duration tag ops es m buf hm hs hi ih =>
    rw [List.filter_cons_of_pos rfl]
    cases h' with
    | cons h1 h2 =>
      refine .cons ?_ (ih (fun h s du tag hm => hr h s du tag (by simp [hm])) (fun op ho => hl op (by simp [ho])) h2)
      obtain ⟨-, -, -, m', q, hm', hq⟩ := hl _ (by simp : Op.hist h start duration tag ∈ _)
      cases hm.symm.trans hm'
      rw [hq] at h1
      obtain ⟨x, hx1, hx2, hx3⟩ := read_max V f (hr h start duration tag (by simp) m hm) hq
      cases h1 with
      | interval a b => exact .hist hm rfl a b hx1 hx2 hx3

end Log

/-- C83: in a log that was written without an error (and meets the conditions of `C43_round_trip_partial`), the entries
after the headers are one for each call of `write_histogram`, in order; `IntervalLogHistogram::max` is the maximum of the
histogram divided by the divisor. -/
theorem C83_max {fp : Fp} {D : Dbl} (L : D.Lawful) {value : Bytes → F64} (V : NumLaw value) {f : Fmt} {b : Builder} {ser : Ser ε}
    {ops : List Op} {st bt : Option Dur} {out : Bytes} {d : ℚ} (hd : b.maxValueDivisor = .fin d)
    (hr : ∀ {T : CounterTy} (h : Hist T) (s du : Dur) (tag : Option Tag), Op.hist h s du tag ∈ ops → Reachable fp T h)
    (hc : ∀ s ∈ b.comments, Plain s)
    (hst : b.startTime = st.map fun d => systemTimeAsFpSeconds (.afterEpoch d))
    (hbt : b.baseTime = bt.map fun d => systemTimeAsFpSeconds (.afterEpoch d))
    (hs : ∀ d, st = some d → d.Loggable) (hb : ∀ d, bt = some d → d.Loggable)
    (hl : ∀ op ∈ ops, op.Loggable b.maxValueDivisor) (h : writeLog f b ser ops = .ok (.ok out)) :
    ∃ hs es : List Entry, List.Forall₂ SameEntry (headerEntries st bt) hs ∧ Yields D (Iter.new out) ((hs ++ es).map .ok) ∧
      List.Forall₂ (ReadBack value d) (ops.filter Op.isHist) es := by
  obtain ⟨es, es', h1, h2, h3⟩ := writeLog_reads L hc hst hbt hs hb hl h
  rw [hd] at h1 hl
  have h4 := List.forall₂_take_append _ _ _ h2.flip
  have h5 := List.forall₂_drop_append _ _ _ h2.flip
  refine ⟨es'.take (headerEntries st bt).length, es'.drop (headerEntries st bt).length, h4.flip, ?_,
    readBack V (fun h s du tag hm m he => ?_) hl h1 h5.flip⟩
  · rw [List.take_append_drop]; simpa [errs] using reads_yields_new L h3
  · have W := (hr h s du tag hm).wf
    cases W.max_eq.symm.trans he
    exact lmax_le

namespace Log

/-- the number a text with three decimals stands for, rounded -/
def numValue (b : Bytes) : F64 :=
  match fromUtf8 b with
  | none => .nan
  | some ('-' :: s) => .fin (-rndQ (decVal (s.filter (· ≠ '.')) / 1000))
  | some s => .fin (rndQ (decVal (s.filter (· ≠ '.')) / 1000))

theorem digits_filter {s : Str} (h : Digits s) : s.filter (· ≠ '.') = s := by
  rw [List.filter_eq_self]
  intro c hc
  have := h c hc
  simp only [ne_eq, decide_not, Bool.not_eq_eq_eq_not, Bool.not_true, decide_eq_false_iff_not]
  rintro rfl
  exact absurd this (by decide)

theorem numValue_law : NumLaw numValue where
  pos a b x ha hA hB hb hx hlt := by
    unfold numValue
    rw [fromUtf8_bytes]
    cases a with
    | nil => exact absurd rfl ha
    | cons c a =>
      have hc : c ≠ '-' := by rintro rfl; exact absurd (hA '-' (by simp)) (by decide)
      have e : ((c :: a) ++ '.' :: b).filter (· ≠ '.') = (c :: a) ++ b := by
        rw [List.filter_append, digits_filter hA, List.filter_cons_of_neg (by simp), digits_filter hB]
      rw [List.cons_append]
      split
      · rename_i h; cases h
      · rename_i h; cases h; exact absurd rfl hc
      · rename_i h; cases h
        rw [← List.cons_append, e, nearestEven_unique hx (rndQ_nearest _)]
  neg a b x ha hA hB hb hx hlt := by
    unfold numValue
    rw [fromUtf8_bytes]
    have e : (a ++ '.' :: b).filter (· ≠ '.') = a ++ b := by
      rw [List.filter_append, digits_filter hA, List.filter_cons_of_neg (by simp), digits_filter hB]
    simp only [List.cons_append]
    rw [e, nearestEven_unique hx (rndQ_nearest _)]

end Log

/-- a log of two histograms with divisor 1000: the maximum 15 reads as 0.015 -/
example : NumLaw numValue ∧ (∀ s ∈ (Builder.new.withMaxValueDivisor (.fin 1000)).comments, Plain s) ∧
    Op.Loggable (.fin 1000) (.hist demo3 ⟨1, 0⟩ ⟨2, 0⟩ none) ∧ demo3.max = .ok 15 ∧
    (match writeLog Fmt.halfUp (Builder.new.withMaxValueDivisor (.fin 1000)) (v2Ser fun _ => 0)
        [.hist demo3 ⟨1, 0⟩ ⟨2, 0⟩ none, .comment "x".toList, .hist demo ⟨3, 0⟩ ⟨4, 0⟩ none] with
    | .ok (.ok b) => b == Str.bytes ("#[MaxValueDivisor: 1000.000]\n1.000,2.000,0.015," ++
      "HISTEwAAAAUAAAAAAAAAAAAAAAAAAAABAAAAAAAAAA8/8AAAAAAAAAIDBpAD\n#x\n3.000,4.000,0.000," ++
      "HISTEwAAAAEAAAAAAAAAAAAAAAAAAAABAAAAAAAAAA8/8AAAAAAAAAA=\n").toList
    | _ => false) = true ∧ numValue (Str.bytes "0.015".toList) = F64.div (.fin 15) (.fin 1000) := by
  refine ⟨numValue_law, (fun s hs => nomatch hs), ⟨by unfold Dur.Loggable Dur.Valid; decide,
    by unfold Dur.Loggable Dur.Valid; decide, (fun t h => by cases h), 15, rndQ (15 / 1000), by decide, by decide +kernel⟩,
    by decide, by decide +kernel, by decide +kernel⟩

/-- The maximum survives only to thousandths: with a divisor of 10^9 (nanoseconds shown as seconds) a maximum of 0.4 ms is
written as 0.000. -/
example (f : Fmt) : f.fixed3 (F64.div (F64.ofNat 400000) (F64.ofNat 1000000000)) = "0.000".toList := by
  have e : F64.div (F64.ofNat 400000) (F64.ofNat 1000000000) = .fin (rndQ (1 / 2500)) := by decide +kernel
  have h1 : (0 : ℚ) ≤ rndQ (1 / 2500) := rndQ_nonneg (by norm_num)
  have h2 : rndQ (1 / 2500) ≤ 1 / 2400 := by decide +kernel
  have h3 := f.near _ h1
  have h4 : f.ms (rndQ (1 / 2500)) = 0 := by
    rw [abs_le] at h3
    have : ((f.ms (rndQ (1 / 2500)) : ℕ) : ℚ) < 1 := by linarith [h3.2]
    have : f.ms (rndQ (1 / 2500)) < 1 := by exact_mod_cast this
    omega
  rw [e]
  unfold Fmt.fixed3
  simp only
  rw [if_neg (not_lt.mpr h1), h4]
  decide

end Hdr
