import Verif.Proofs.Quantile
import Verif.Props.Query
import Verif.Props.Merge

/-!
# C25, C26, C27: quantiles
-/

namespace Hdr

variable {T : CounterTy} {fp : Fp}

theorem WF.classes_sorted {h : Hist T} (W : WF fp h) {cs : List Cls} (C : Classes h cs) :
    cs.Pairwise fun c d => c.lo < d.lo ∧ c.hi ≤ d.hi := by
  rw [W.classes_unique C, List.pairwise_map]
  refine List.Pairwise.imp_of_mem ?_ (List.pairwise_lt_range (n := h.counts.length))
  intro i j hi hj hij
  rw [List.mem_range] at hi hj
  exact ⟨Lay.val_lt_val hij, (W.lhi_lval_lt hij hj).le⟩

theorem AtRank.mem {cs : List Cls} {r : Nat} {c : Cls} (hc : AtRank cs r c) : c ∈ cs := by
  obtain ⟨p, q, e, -⟩ := hc
  rw [e]; simp

theorem AtRank.count_ne {cs : List Cls} {r : Nat} {c : Cls} (hc : AtRank cs r c) : c.count ≠ 0 := by
  obtain ⟨p, q, e, h1, h2⟩ := hc
  omega

theorem AtRank.le {cs : List Cls} {r s : Nat} {c d : Cls} (hc : AtRank cs r c) (hd : AtRank cs s d) (h : r ≤ s)
    (hs : cs.Pairwise fun c d => c.lo < d.lo ∧ c.hi ≤ d.hi) : c = d ∨ (c.lo < d.lo ∧ c.hi ≤ d.hi) := by
  obtain ⟨p1, q1, e1, a1, b1⟩ := hc
  obtain ⟨p2, q2, e2, a2, b2⟩ := hd
  rcases Nat.lt_trichotomy p1.length p2.length with hl | hl | hl
  · right
    have h1 : p1 ++ [c] <+: p2 := by
      refine List.prefix_of_prefix_length_le (l₃ := cs) ?_ ?_ (by simp; omega)
      · exact ⟨q1, by rw [e1]; simp⟩
      · exact ⟨_, e2.symm⟩
    rw [e2, List.pairwise_append] at hs
    exact hs.2.2 c (h1.subset (by simp)) d (by simp)
  · left
    obtain ⟨-, h2⟩ := List.append_inj (e1.symm.trans e2) hl
    injection h2
  · exfalso
    have h1 : p2 ++ [d] <+: p1 := by
      refine List.prefix_of_prefix_length_le (l₃ := cs) ?_ ?_ (by simp; omega)
      · exact ⟨q2, by rw [e2]; simp⟩
      · exact ⟨_, e1.symm⟩
    obtain ⟨t, ht⟩ := h1
    rw [← ht] at a1
    simp only [List.map_append, List.sum_append, List.map_cons, List.map_nil, List.sum_cons, List.sum_nil] at a1
    omega

/-! ## C25 -/

/-- C25 (1): for every `f64`, including NaN, infinities, negative and out-of-range ones, if the counts add up to at most
`u64::MAX`, `value_at_quantile` does not panic and answers the end of the first class whose running count reaches the
requested rank (its beginning when the quantile is exactly 0). If the rank exceeds the number of samples the answer is 0;
`C25_found` says when that cannot happen and `C25_refuted` that it can. -/
theorem C25_rank {h : Hist T} (R : Reachable fp T h) {cs : List Cls} (C : Classes h cs)
    (hs : (cs.map (·.count)).sum ≤ U64MAX) (q : F64) :
    (∃ c, AtRank cs (specRank h.len q) c ∧ h.valueAtQuantile q = .ok (if q = .fin 0 then c.lo else c.hi)) ∨
      ((cs.map (·.count)).sum < specRank h.len q ∧ h.valueAtQuantile q = .ok 0) := by
  rw [R.wf.sum_classes C] at hs ⊢
  exact R.wf.valueAtQuantile_eq C hs q

/-- C25 (2): with up to 2^53 samples and no saturated counter, the rank is always reached. -/
theorem C25_found {h : Hist T} (R : Reachable fp T h) {cs : List Cls} (C : Classes h cs)
    (hl : h.len = (cs.map (·.count)).sum) (h0 : 0 < h.len) (hn : h.len ≤ 2 ^ 53) (q : F64) :
    ∃ c, AtRank cs (specRank h.len q) c ∧ h.valueAtQuantile q = .ok (if q = .fin 0 then c.lo else c.hi) := by
  have hU : U64MAX = 18446744073709551615 := rfl
  rcases C25_rank R C (by norm_num at hn; omega) q with h1 | ⟨h1, -⟩
  · exact h1
  · exfalso
    have h2 := specRank_le h.len q
    rw [specRank_one h0 hn] at h2
    omega

/-- C25 (3): with up to 2^53 samples, rounding can lower the rank by one, and never raises it. -/
theorem C25_rounding {n : Nat} (hn : n ≤ 2 ^ 53) {x : ℚ} (h0 : 0 ≤ x) (h1 : x ≤ 1) :
    specRank n (.fin x) = exactRank n x ∨ specRank n (.fin x) + 1 = exactRank n x := by
  have := specRank_exact hn h0 h1
  have := specRank_pos n (.fin x)
  omega

/-- C25 (4): monotone in the quantile from 0 on, provided the rank of the quantile 1.0 is reached (which `C25_found` gives
for up to 2^53 samples). Negative quantiles are not ordered below 0.0: `C25_negative_refuted`. -/
theorem C25_mono_partial {h : Hist T} (R : Reachable fp T h) {cs : List Cls} (C : Classes h cs)
    (hs : (cs.map (·.count)).sum ≤ U64MAX) (hr : specRank h.len (.fin 1) ≤ (cs.map (·.count)).sum) {p q : F64}
    (h0p : F64.le (.fin 0) p = true) (hpq : F64.le p q = true) :
    ∃ x y, h.valueAtQuantile p = .ok x ∧ h.valueAtQuantile q = .ok y ∧ x ≤ y := by
  have hlohi : ∀ c ∈ cs, c.lo ≤ c.hi := by
    intro c hc
    obtain ⟨i, hi, rfl⟩ := (R.wf.mem_classes C).mp hc
    exact lhi_ge (R.wf.lval_le' hi)
  have hp2 := specRank_le h.len p
  have hq2 := specRank_le h.len q
  rcases C25_rank R C hs p with ⟨c, hc, ep⟩ | ⟨h1, -⟩
  swap
  · omega
  rcases C25_rank R C hs q with ⟨d, hd, eq⟩ | ⟨h1, -⟩
  swap
  · omega
  refine ⟨_, _, ep, eq, ?_⟩
  have hz : q = .fin 0 → p = .fin 0 := by
    rintro rfl
    cases p with
    | nan => cases hpq
    | pinf => cases hpq
    | ninf => cases h0p
    | fin x =>
      simp only [F64.le, F64.lt, F64.feq, Bool.or_eq_true, decide_eq_true_eq] at h0p hpq
      rw [show x = 0 by rcases h0p with h | h <;> rcases hpq with h' | h' <;> linarith]
  have h1 := hlohi c hc.mem
  have h2 := hlohi d hd.mem
  rcases hc.le hd (specRank_mono h.len hpq) (R.wf.classes_sorted C) with rfl | ⟨h3, h4⟩
  · split <;> split <;> simp_all
  · split <;> split <;> (simp_all; try omega)

theorem C25_mono_exact_partial {h : Hist T} (R : Reachable fp T h) {cs : List Cls} (C : Classes h cs)
    (hl : h.len = (cs.map (·.count)).sum) (h0 : 0 < h.len) (hn : h.len ≤ 2 ^ 53) {p q : F64}
    (h0p : F64.le (.fin 0) p = true) (hpq : F64.le p q = true) :
    ∃ x y, h.valueAtQuantile p = .ok x ∧ h.valueAtQuantile q = .ok y ∧ x ≤ y := by
  have hU : U64MAX = 18446744073709551615 := rfl
  refine C25_mono_partial R C (by norm_num at hn; omega) ?_ h0p hpq
  rw [specRank_one h0 hn, hl]

def demo3Classes : List Cls := [⟨0, 0, 1⟩, ⟨1, 1, 0⟩, ⟨2, 3, 0⟩, ⟨4, 7, 3⟩, ⟨8, 15, 200⟩]

theorem demo3_classes : Classes demo3 demo3Classes := ⟨by decide +kernel, by decide +kernel, by decide +kernel⟩

/-- the hypotheses of the C25 theorems hold for `demo3`, whose samples number 204; a third of a percent of them is rank 1,
one percent rank 3, two percent rank 5 -/
example : demo3.len = (demo3Classes.map (·.count)).sum ∧ 0 < demo3.len ∧ demo3.len ≤ 2 ^ 53 ∧
    exactRank 204 (1 / 300) = 1 ∧ exactRank 204 (1 / 100) = 3 ∧ exactRank 204 (1 / 50) = 5 ∧
    AtRank demo3Classes 1 ⟨0, 0, 1⟩ ∧ AtRank demo3Classes 3 ⟨4, 7, 3⟩ ∧ AtRank demo3Classes 5 ⟨8, 15, 200⟩ :=
  ⟨by decide, by decide, by decide, by decide +kernel, by decide +kernel, by decide +kernel, ⟨[], _, rfl, by decide⟩,
    ⟨[⟨0, 0, 1⟩, ⟨1, 1, 0⟩, ⟨2, 3, 0⟩], _, rfl, by decide⟩,
    ⟨[⟨0, 0, 1⟩, ⟨1, 1, 0⟩, ⟨2, 3, 0⟩, ⟨4, 7, 3⟩], _, rfl, by decide⟩⟩

/-- `demo` after `record_n(9, 200)` twice: the 8-bit counter holds 255, `len()` is 400 -/
def demoSat : Hist .u8 := { demo with maxValue := 9, minNonZero := 9, totalCount := 400, counts := [0, 0, 0, 0, 255] }

theorem demoSat_reachable : Reachable Fp.ideal .u8 demoSat :=
  reachable_recordSeq (l := [(9, 200), (9, 200)]) demo_reachable (by decide) (r := .ok ()) (by decide)

/-- `demoU` after `record_n(5, 2^54 - 1)` -/
def demoBig : Hist .u64 :=
  { demoU with maxValue := 7, minNonZero := 4, totalCount := 2 ^ 54 - 1, counts := [0, 2 ^ 54 - 1, 0, 0, 0, 0, 0] }

theorem demoBig_reachable : Reachable Fp.ideal .u64 demoBig :=
  reachable_recordSeq (l := [(5, 2 ^ 54 - 1)]) demoU_reachable (by decide) (r := .ok ()) (by decide +kernel)

/-- The rank need not be reached: with a saturated 8-bit counter, or with 2^54 - 1 samples (whose number is rounded up to
2^54), the quantile 1.0 is 0 although no sample is 0 (and the quantile 0.0 is positive). -/
theorem C25_refuted :
    (demoSat.valueAtQuantile (.fin 1) = .ok 0 ∧ demoSat.valueAtQuantile (.fin 0) = .ok 8) ∧
    (demoBig.valueAtQuantile (.fin 1) = .ok 0 ∧ demoBig.valueAtQuantile (.fin 0) = .ok 4) :=
  ⟨⟨by decide +kernel, by decide +kernel⟩, by decide +kernel, by decide +kernel⟩

/-- Not monotone below zero: any negative quantile answers the end of the first class, 0.0 its beginning. -/
theorem C25_negative_refuted :
    demoBig.valueAtQuantile (.fin (-1)) = .ok 7 ∧ demoBig.valueAtQuantile (.fin 0) = .ok 4 :=
  ⟨by decide +kernel, by decide +kernel⟩

/-- Without the bound on the sum the running total overflows: one sample at 5 and `u64::MAX` at 100. -/
theorem C25_overflow : ∃ h, recordSeq [(5, 1), (100, U64MAX)] demoU = .ok (h, .ok ()) ∧
    h.valueAtQuantile (.fin 1) = .error .overflow :=
  okThen (by decide +kernel)

/-! ## C26 -/

theorem AtRank.first {cs : List Cls} {c : Cls} (hc : AtRank cs 1 c)
    (hs : cs.Pairwise fun c d => c.lo < d.lo ∧ c.hi ≤ d.hi) {d : Cls} (hd : d ∈ cs) (h0 : d.count ≠ 0) :
    c.lo ≤ d.lo := by
  obtain ⟨p, q, rfl, h1, h2⟩ := hc
  rw [List.pairwise_append, List.pairwise_cons] at hs
  rw [List.mem_append, List.mem_cons] at hd
  rcases hd with hd | rfl | hd
  · exact absurd (by have := mem_le_sum (List.mem_map_of_mem (f := (·.count)) hd); omega) h0
  · exact le_rfl
  · exact (hs.2.1.1 d hd).1.le

theorem AtRank.last {cs : List Cls} {c : Cls} (hc : AtRank cs (cs.map (·.count)).sum c)
    (hs : cs.Pairwise fun c d => c.lo < d.lo ∧ c.hi ≤ d.hi) {d : Cls} (hd : d ∈ cs) (h0 : d.count ≠ 0) :
    d.lo ≤ c.lo := by
  obtain ⟨p, q, rfl, h1, h2⟩ := hc
  rw [List.pairwise_append, List.pairwise_cons] at hs
  rw [List.mem_append, List.mem_cons] at hd
  simp only [List.map_append, List.sum_append, List.map_cons, List.sum_cons] at h2
  rcases hd with hd | rfl | hd
  · exact (hs.2.2 d hd c (by simp)).1.le
  · exact le_rfl
  · exact absurd (by have := mem_le_sum (List.mem_map_of_mem (f := (·.count)) hd); omega) h0

theorem WF.cls_eq_of_lo {h : Hist T} (W : WF fp h) {cs : List Cls} (C : Classes h cs) {c d : Cls} (hc : c ∈ cs)
    (hd : d ∈ cs) (e : c.lo = d.lo) : c = d := by
  obtain ⟨i, hi, rfl⟩ := (W.mem_classes C).mp hc
  obtain ⟨j, hj, rfl⟩ := (W.mem_classes C).mp hd
  rcases Nat.lt_trichotomy i j with h | rfl | h
  · exact absurd e (Lay.val_lt_val h).ne
  · rfl
  · exact absurd e (Lay.val_lt_val h).ne'

/-- C26 (partial): for a non-empty histogram whose statistics are exact and which holds up to 2^53 samples, the quantile 1.0
is `max()` and the quantile 0.0 is `min()`. The hypothesis is about the statistics because the code's claim fails for
others, see `C26_refuted`; C13 gives the histories with exact statistics. -/
theorem C26_extremes_partial {h : Hist T} (R : Reachable fp T h) {cs : List Cls} (C : Classes h cs)
    (E : ExactStats h cs) (h0 : 0 < h.len) (hn : h.len ≤ 2 ^ 53) :
    h.valueAtQuantile (.fin 1) = h.max ∧ h.valueAtQuantile (.fin 0) = h.min := by
  have hU : U64MAX = 18446744073709551615 := rfl
  have hl : h.len = (cs.map (·.count)).sum := by
    have := E.len
    norm_num at hn
    omega
  have W := R.wf
  have hsort := W.classes_sorted C
  constructor
  · obtain ⟨c, hc, e⟩ := C25_found R C hl h0 hn (.fin 1)
    rw [e, if_neg (by intro h; injection h with h; norm_num at h)]
    rw [specRank_one h0 hn, hl] at hc
    rcases E.max with ⟨hz, -⟩ | ⟨d, hd, hd0, hdm, em⟩
    · exact absurd (hz c hc.mem) hc.count_ne
    · rw [em]
      have h1 := hdm c hc.mem hc.count_ne
      have h2 := hc.last hsort hd hd0
      rw [W.cls_eq_of_lo C hc.mem hd (by omega)]
  · obtain ⟨c, hc, e⟩ := C25_found R C hl h0 hn (.fin 0)
    rw [e, if_pos rfl]
    have hr : specRank h.len (.fin 0) = 1 := by
      have h1 := specRank_exact hn (x := 0) le_rfl (by norm_num)
      have h2 := specRank_pos h.len (.fin 0)
      simp only [exactRank, zero_mul, Int.ceil_zero] at h1
      omega
    rw [hr] at hc
    rw [W.min_eq]
    have hi0 : h.totalCount ≠ 0 := fun h => by rw [Hist.len, h] at h0; exact lt_irrefl _ h0
    obtain ⟨i, hi, rfl⟩ := (W.mem_classes C).mp hc.mem
    by_cases hc0 : i = 0
    · subst hc0
      rw [if_pos (Or.inr (show h.counts.getD 0 0 ≠ 0 from hc.count_ne))]
      show (Except.ok (h.lval 0) : M Nat) = _
      rw [show h.lval 0 = 0 from Lay.val_zero]
    · have hpos : 0 < h.lval i := by
        have h1 : h.lval 0 < h.lval i := Lay.val_lt_val (by omega)
        omega
      have hlo : (h.lcls i).lo = h.lval i := rfl
      have hz : h.counts.getD 0 0 = 0 := by
        by_contra hne
        have h1 := hc.first hsort ((W.mem_classes C).mpr ⟨0, W.len_pos, rfl⟩) hne
        rw [hlo] at h1
        have h2 : (h.lcls 0).lo = 0 := Lay.val_zero
        omega
      rw [if_neg (by rintro (h | h); exacts [hi0 h, h hz]), ← W.minNz_eq]
      rcases E.minNz with ⟨ha, -⟩ | ⟨d, hd, hd0, hdc, hdm, em⟩
      · exact absurd (ha _ hc.mem (by omega)) hc.count_ne
      · rw [em]
        have h1 := hdm _ hc.mem (by omega) hc.count_ne
        have h2 := hc.first hsort hd hdc
        rw [show (h.lcls i).lo = d.lo by omega]

example : ExactStats demo3 demo3Classes ∧ 0 < demo3.len ∧ demo3.len ≤ 2 ^ 53 :=
  ⟨(demo3_reachable.wf.exactStats_iff demo3_classes).mpr (by decide +kernel), by decide, by decide⟩

/-- The claim fails when a counter has saturated, from 2^53 samples on, and when only `u64::MAX` was recorded. -/
theorem C26_refuted :
    (demoSat.valueAtQuantile (.fin 1) = .ok 0 ∧ demoSat.max = .ok 15) ∧
    (demoBig.valueAtQuantile (.fin 1) = .ok 0 ∧ demoBig.max = .ok 7) ∧
    (demoTop1.valueAtQuantile (.fin 0) = .ok (2 ^ 63) ∧ demoTop1.min = .ok U64MAX) :=
  ⟨⟨by decide +kernel, by decide +kernel⟩, ⟨by decide +kernel, by decide +kernel⟩, by decide +kernel, by decide +kernel⟩

/-! ## C27 -/

theorem WF.lastCount {h : Hist T} (W : WF fp h) {v : Nat} (hv : h.lmax ≤ v) :
    (h.counts.drop (h.slotOf v + 1)).sum = 0 := by
  refine List.sum_eq_zero ?_
  intro n hn
  obtain ⟨k, hk, rfl⟩ := List.mem_iff_getElem.mp hn
  rw [List.getElem_drop]
  rw [List.length_drop] at hk
  have hmono : h.lidx h.lmax ≤ h.lidx v := Lay.idx_mono hv
  rw [W.lidx_lmax] at hmono
  by_contra hne
  have h1 : h.counts.getD (h.slotOf v + 1 + k) 0 ≠ 0 := by
    rw [List.getD_eq_getElem?_getD, List.getElem?_eq_getElem (by omega)]; exact hne
  have h2 := W.trackMax _ h1
  unfold Hist.slotOf at h2 hk
  omega

theorem rndQ_div_le {a b : Nat} (h : a ≤ b) (h0 : b ≠ 0) :
    0 ≤ F64.rndQ (F64.rndQ a / F64.rndQ b) ∧ F64.rndQ (F64.rndQ a / F64.rndQ b) ≤ 1 := by
  have hb : 1 ≤ F64.rndQ b := F64.one_le_rndQ (by exact_mod_cast Nat.one_le_iff_ne_zero.mpr h0)
  have hab : F64.rndQ a ≤ F64.rndQ b := F64.rndQ_mono (by exact_mod_cast h)
  have ha : 0 ≤ F64.rndQ a := F64.rndQ_nonneg (by positivity)
  refine ⟨F64.rndQ_nonneg (div_nonneg ha (by linarith)), F64.rndQ_le_one ?_⟩
  rw [div_le_one (by linarith)]
  exact hab

/-- C27 (1): `quantile_below` never panics and is a number between 0 and 1, for every reachable histogram and value. -/
theorem C27_total {h : Hist T} (R : Reachable fp T h) {v : Nat} (hv : v ≤ U64MAX) :
    ∃ x : ℚ, h.quantileBelow v = .ok (.fin x) ∧ 0 ≤ x ∧ x ≤ 1 := by
  by_cases h0 : h.totalCount = 0
  · exact ⟨1, by unfold Hist.quantileBelow; rw [if_pos h0]; rfl, by norm_num, le_rfl⟩
  · have := rndQ_div_le (R.wf.belowCount_le (h.slotOf v)) h0
    exact ⟨_, R.wf.quantileBelow_eq h0 hv, this⟩

/-- C27 (2): it is 1.0 for an empty histogram. -/
theorem C27_empty {h : Hist T} (h0 : h.len = 0) (v : Nat) : h.quantileBelow v = .ok (.fin 1) := by
  unfold Hist.quantileBelow; rw [if_pos (show h.totalCount = 0 from h0)]; rfl

/-- C27 (3): when `len()` is the number of samples, the answer is the rounded quotient of the (rounded) number of samples in
classes up to that of `v` and the (rounded) number of all samples. -/
theorem C27_value_partial {h : Hist T} (R : Reachable fp T h) {cs : List Cls} (C : Classes h cs)
    (hl : h.len = (cs.map (·.count)).sum) (h0 : h.len ≠ 0) {v : Nat} (hv : v ≤ U64MAX) :
    h.quantileBelow v = .ok (.fin (F64.rndQ (F64.rndQ (countUpTo cs v) / F64.rndQ h.len))) := by
  rw [R.wf.sum_classes C] at hl
  rw [R.wf.quantileBelow_eq h0 hv, R.wf.belowCount_eq hl, R.wf.countUpTo_eq C]
  rfl

/-- … which for up to 2^53 samples is the exact quotient, rounded once. -/
theorem C27_value_exact_partial {h : Hist T} (R : Reachable fp T h) {cs : List Cls} (C : Classes h cs)
    (hl : h.len = (cs.map (·.count)).sum) (h0 : h.len ≠ 0) (hn : h.len ≤ 2 ^ 53) {v : Nat} (hv : v ≤ U64MAX) :
    h.quantileBelow v = .ok (.fin (F64.rndQ ((countUpTo cs v : ℚ) / (h.len : ℚ)))) := by
  have hle : countUpTo cs v ≤ h.len := by
    rw [R.wf.countUpTo_eq C, hl, R.wf.sum_classes C]
    have := take_drop_sum h.counts (h.slotOf v + 1)
    omega
  rw [C27_value_partial R C hl h0 hv, F64.rndQ_nat hn, F64.rndQ_nat (hle.trans hn)]

/-- C27 (4): monotone, if the counts add up to at most `u64::MAX`. -/
theorem C27_mono_partial {h : Hist T} (R : Reachable fp T h) {cs : List Cls} (C : Classes h cs)
    (hs : (cs.map (·.count)).sum ≤ U64MAX) {v w : Nat} (hw : w ≤ U64MAX) (hvw : v ≤ w) :
    ∃ x y : ℚ, h.quantileBelow v = .ok (.fin x) ∧ h.quantileBelow w = .ok (.fin y) ∧ x ≤ y := by
  rw [R.wf.sum_classes C] at hs
  by_cases h0 : h.totalCount = 0
  · exact ⟨1, 1, C27_empty h0 v, C27_empty h0 w, le_rfl⟩
  · refine ⟨_, _, R.wf.quantileBelow_eq h0 (hvw.trans hw), R.wf.quantileBelow_eq h0 hw, F64.rndQ_mono ?_⟩
    have hb : 1 ≤ F64.rndQ h.totalCount := F64.one_le_rndQ (by exact_mod_cast Nat.one_le_iff_ne_zero.mpr h0)
    refine div_le_div_of_nonneg_right (F64.rndQ_mono ?_) (by linarith)
    have h1 : h.slotOf v ≤ h.slotOf w := by
      have h2 : h.lidx v ≤ h.lidx w := Lay.idx_mono hvw
      unfold Hist.slotOf; omega
    exact_mod_cast R.wf.belowCount_mono hs h1

/-- C27 (5): 1.0 from `max()` on, when `len()` is the number of samples. -/
theorem C27_one_partial {h : Hist T} (R : Reachable fp T h) {cs : List Cls} (C : Classes h cs)
    (hl : h.len = (cs.map (·.count)).sum) {m v : Nat} (hm : h.max = .ok m) (hmv : m ≤ v) (hv : v ≤ U64MAX) :
    h.quantileBelow v = .ok (.fin 1) := by
  by_cases h0 : h.totalCount = 0
  · exact C27_empty h0 v
  · rw [R.wf.sum_classes C] at hl
    rw [R.wf.max_eq] at hm
    cases hm
    have h1 := R.wf.lastCount hmv
    have h2 := take_drop_sum h.counts (h.slotOf v + 1)
    have h3 : h.belowCount (h.slotOf v) = h.totalCount := by
      rw [R.wf.belowCount_eq hl]
      have : h.totalCount = h.counts.sum := hl
      omega
    have hb : 1 ≤ F64.rndQ h.totalCount := F64.one_le_rndQ (by exact_mod_cast Nat.one_le_iff_ne_zero.mpr h0)
    rw [R.wf.quantileBelow_eq h0 hv, h3, div_self (by linarith), F64.rndQ_one]

example : demo3.len = (demo3Classes.map (·.count)).sum ∧ demo3.len ≠ 0 ∧ demo3.max = .ok 15 ∧
    countUpTo demo3Classes 7 = 4 ∧ countUpTo demo3Classes 3 = 1 :=
  ⟨by decide, by decide, by decide +kernel, by decide, by decide⟩

/-- `demo` after `record_n(0, 255)` three times: the 8-bit counter holds 255, `len()` is 765 -/
def demoSat0 : Hist .u8 := { demo with totalCount := 765, counts := [255, 0, 0, 0, 0] }

theorem demoSat0_reachable : Reachable Fp.ideal .u8 demoSat0 :=
  reachable_recordSeq (l := [(0, 255), (0, 255), (0, 255)]) demo_reachable (by decide +kernel) (r := .ok ()) (by decide +kernel)

/-- When a counter has saturated the two halves disagree: `quantile_below(max())` can be as low as one third. -/
theorem C27_refuted : demoSat0.max = .ok 0 ∧ ∃ x : ℚ, demoSat0.quantileBelow 0 = .ok (.fin x) ∧ x ≤ 1 / 2 := by
  refine ⟨by decide, _, demoSat0_reachable.wf.quantileBelow_eq (by decide) (by decide), ?_⟩
  rw [show demoSat0.belowCount (demoSat0.slotOf 0) = 255 by decide +kernel, show demoSat0.totalCount = 765 from rfl,
    F64.rndQ_nat (by norm_num), F64.rndQ_nat (by norm_num)]
  have := F64.rndQ_le_pow (q := ((255 : ℕ) : ℚ) / ((765 : ℕ) : ℚ)) (e := -1) (by norm_num) (by norm_num)
  norm_num at this ⊢
  exact this

/-- Nor is it monotone then: with `u64::MAX` samples at 5 and as many at 150, it is 1 at 5 and 0 at 40, because the first is
computed from the counts up to the value and the second from those above it. -/
theorem C27_mono_refuted : ∃ h, recordSeq [(5, U64MAX), (150, U64MAX)] demoU = .ok (h, .ok ()) ∧
    h.quantileBelow 5 = .ok (.fin 1) ∧ h.quantileBelow 40 = .ok (.fin 0) :=
  okThen (by decide +kernel)

end Hdr
