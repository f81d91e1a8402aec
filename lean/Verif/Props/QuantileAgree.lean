import Verif.Props.SampleLast
import Verif.Props.QuantileMove
import Verif.Props.Float
import Verif.Props.Requantize

/-!
# C107: the items of `iter_quantiles` and `value_at_quantile`
-/

namespace Hdr

variable {T : CounterTy} {fp : Fp} {lg : F64 → Nat}

/-- the quantiles iterated to are binary64 numbers -/
theorem QuantileRun.bits {h : Hist T} {cs : List Cls} {t from_ : Nat} {q : ℚ} {items : List IterValue}
    (r : QuantileRun h cs t from_ q items) (h0 : 0 ≤ q) (hq : F64.rndQ q = q) :
    ∀ it ∈ items, ∃ x, it.quantileIteratedTo = .fin x ∧ F64.rndQ x = x ∧ 0 ≤ x ∧ x ≤ 1 := by
  induction r with
  | short _ => simp
  | last hc hi hl =>
    intro it hit
    rw [List.mem_singleton] at hit
    subst hit
    exact ⟨1, hi.quantileTo, F64.rndQ_one, by norm_num, le_rfl⟩
  | step hc hi hlt hs hr ih =>
    intro it hit
    rcases List.mem_cons.mp hit with rfl | hit
    · exact ⟨_, hi.quantileTo, hq, h0, hlt.le⟩
    · obtain ⟨h1, h2, k, -, -, h3⟩ := hs
      refine ih (by linarith) ?_ it hit
      rcases h3 with ⟨-, rfl⟩ | ⟨-, h3⟩
      · exact F64.rndQ_one
      · rw [h3]; exact F64.rndQ_idem _

/-- the last slot before `j` with samples -/
theorem last_filled (c : List Nat) : ∀ j, 0 < (c.take j).sum →
    ∃ d, d < j ∧ (c.take d).sum < (c.take (d + 1)).sum ∧ (c.take (d + 1)).sum = (c.take j).sum
  | 0, h => by simp at h
  | j + 1, h => by
    have hm : (c.take j).sum ≤ (c.take (j + 1)).sum :=
      List.Sublist.sum_le_sum (List.take_sublist_take_left (by omega)) (by simp)
    rcases hm.lt_or_eq with h1 | h1
    · exact ⟨j, by omega, h1, rfl⟩
    · obtain ⟨d, h2, h3, h4⟩ := last_filled c j (by omega)
      exact ⟨d, by omega, h3, by omega⟩

/-- what is known about an item and the answer of `value_at_quantile` for its quantile -/
structure ItemAnswer (h : Hist T) (l : List (Nat × Nat)) (it : IterValue) (x : ℚ) (j y : Nat) : Prop where
  qto : it.quantileIteratedTo = .fin x
  bits : F64.rndQ x = x
  ge : 0 ≤ x
  le : x ≤ 1
  lt : j < h.counts.length
  val : it.valueIteratedTo ≤ U64MAX
  idx : h.lidx it.valueIteratedTo = j
  yle : y ≤ U64MAX
  ans : h.valueAtQuantile (.fin x) = .ok (h.qans (.fin x) y)
  above : (h.counts.take (h.lidx y)).sum < specRank (numberAll l) (.fin x)
  below : specRank (numberAll l) (.fin x) ≤ (h.counts.take (h.lidx y + 1)).sum
  filled : (h.counts.take j).sum < (h.counts.take (j + 1)).sum
  reached : x ≤ F64.rndQ ((h.counts.take (j + 1)).sum / numberAll l)
  first : ∀ d < j, (h.counts.take d).sum < (h.counts.take (d + 1)).sum →
    F64.rndQ ((h.counts.take (d + 1)).sum / numberAll l) < x
  shown : ∃ p ∈ l, p.2 ≠ 0 ∧ p.1 = y

theorem itemAnswer {h : Hist T} (R : Reachable fp T h) {l : List (Nat × Nat)} (H : Contains h l) (h0 : 0 < numberAll l)
    (hn : numberAll l ≤ 2 ^ 53) (L : Log2Law lg) {t : Nat} (ht : 0 < t) (ht32 : t < 2 ^ 32) {fuel : Nat}
    {items : List IterValue} (hi : Hist.iterQuantiles lg h t fuel = .ok items) {it : IterValue} (hit : it ∈ items) :
    ∃ x j y, ItemAnswer h l it x j y := by
  have W := R.wf
  have C := W.contents
  have hU : U64MAX = 18446744073709551615 := rfl
  have hlen : h.len = numberAll l := H.len
  have hne : h.len ≠ 0 := by omega
  have r := quantile_items R hne C L ht ht32 hi
  obtain ⟨x, ex, hx, hx0, hx1⟩ := r.bits le_rfl F64.rndQ_zero it hit
  obtain ⟨k, hk⟩ := List.getElem?_of_mem hit
  obtain ⟨c, hc, q, h3, -⟩ := quantile_samples R H h0 L ht ht32 hi hk
  have hq : q = x := by
    have h5 := h3.quantileTo
    simp only [ex, F64.fin.injEq] at h5
    exact h5.symm
  subst hq
  obtain ⟨hlo, hhi, hidx, -, hcount⟩ := H.cls W C hc
  obtain ⟨j, hj, rfl⟩ := (W.mem_classes C).mp hc
  have hjl : h.lidx (h.lcls j).lo = j := Lay.idx_val
  have hval : it.valueIteratedTo = (h.lcls j).hi := h3.value
  have frac : ∀ d, d < h.counts.length → fracUpTo h h.contents (h.lcls d) =
      F64.rndQ ((h.counts.take (d + 1)).sum / numberAll l) := by
    intro d hd
    have hdl : h.lidx (h.lcls d).lo = d := Lay.idx_val
    have e1 : countUpTo h.contents (h.lcls d).lo = (h.counts.take (d + 1)).sum := by
      rw [W.countUpTo_eq C]
      unfold Hist.slotOf
      rw [hdl]
      congr 2
      omega
    have e2 : (h.counts.take (d + 1)).sum ≤ numberAll l := by
      rw [H.take W (by omega)]; exact number_le_all _ _
    unfold fracUpTo
    norm_num at hn
    rw [e1, Nat.min_eq_left (by omega), hlen, F64.rndQ_nat (by norm_num; omega), F64.rndQ_nat (by norm_num; omega)]
  have slot : ∀ d, d < h.counts.length → (h.counts.take (d + 1)).sum = (h.counts.take d).sum + (h.lcls d).count := by
    intro d hd
    rw [List.take_add_one, List.sum_append, List.getElem?_eq_getElem hd]
    simp [Hist.lcls, hd]
  obtain ⟨y, hy, hyk, ha⟩ := Contains.answers R H h0 hn (.fin q)
  obtain ⟨p, hp, rfl, hp0⟩ := hyk.mem
  have hpl := H.lidx W hp
  refine ⟨q, j, p.1, ex, hx, hx0, hx1, hj, ?_, ?_, hy, ha, ?_, ?_, ?_, ?_, ?_, ⟨p, hp, hp0, rfl⟩⟩
  · rw [hval]; exact hhi
  · rw [hval, hidx, hjl]
  · rw [H.take W (by omega)]
    refine lt_of_le_of_lt (number_le fun z _ hz => ?_) hyk.1
    by_contra hc
    have : h.lidx p.1 ≤ h.lidx z.1 := Lay.idx_mono (by omega)
    omega
  · rw [H.take W (by omega)]
    refine le_trans hyk.2 (number_le fun z _ hz => ?_)
    have : h.lidx z.1 ≤ h.lidx p.1 := Lay.idx_mono hz
    omega
  · have := h3.filled
    rw [slot j hj]
    omega
  · rw [← frac j hj]; exact h3.reached
  · intro d hd hf
    rw [← frac d (by omega)]
    refine h3.first _ ((W.mem_classes C).mpr ⟨d, by omega, rfl⟩) ?_ (Lay.val_lt_val hd)
    rw [slot d (by omega)] at hf
    omega

theorem ItemAnswer.fits {h : Hist T} {l : List (Nat × Nat)} {it : IterValue} {x : ℚ} {j y : Nat} (A : ItemAnswer h l it x j y)
    (W : WF fp h) (H : Contains h l) : (h.counts.take (j + 1)).sum ≤ numberAll l := by
  have := A.lt
  rw [H.take W (by omega)]
  exact number_le_all _ _

theorem take_sum_le (c : List Nat) {a b : Nat} (h : a ≤ b) : (c.take a).sum ≤ (c.take b).sum :=
  List.Sublist.sum_le_sum (List.take_sublist_take_left h) (by simp)

theorem leF {a b : ℚ} (h : a ≤ b) : F64.le (.fin a) (.fin b) = true := by
  rcases h.lt_or_eq with h | h <;> simp [F64.le, F64.lt, F64.feq, h]

/-- no slot with samples lies between the one shown and the one answered -/
theorem ItemAnswer.near {h : Hist T} {l : List (Nat × Nat)} {it : IterValue} {x : ℚ} {j y : Nat} (A : ItemAnswer h l it x j y)
    (W : WF fp h) (H : Contains h l) (hn : numberAll l ≤ 2 ^ 53) {d : Nat}
    (hf : (h.counts.take d).sum < (h.counts.take (d + 1)).sum) :
    ¬ (h.lidx y < d ∧ d < j) ∧ ¬ (j < d ∧ d < h.lidx y) := by
  have hfit := A.fits W H
  have h1 := A.above
  have h2 := A.below
  constructor
  · rintro ⟨h3, h4⟩
    have h5 := A.first d h4 hf
    have h6 := take_sum_le h.counts (show h.lidx y + 1 ≤ d by omega)
    have h7 := take_sum_le h.counts (show d + 1 ≤ j + 1 by omega)
    have h8 := specRank_mono (numberAll l) (p := .fin (F64.rndQ ((h.counts.take (d + 1)).sum / numberAll l))) (q := .fin x)
      (leF h5.le)
    rcases specRank_back (c := (h.counts.take (d + 1)).sum) (n := numberAll l) (by omega) (by omega) hn with h9 | h9 <;>
      rw [h9] at h8 <;> omega
  · rintro ⟨h3, h4⟩
    have h6 := take_sum_le h.counts (show j + 1 ≤ d by omega)
    have h7 := take_sum_le h.counts (show d + 1 ≤ h.lidx y by omega)
    have hf' := A.filled
    have h8 := specRank_mono (numberAll l) (p := .fin x) (q := .fin (F64.rndQ ((h.counts.take (j + 1)).sum / numberAll l)))
      (leF A.reached)
    rcases specRank_back (c := (h.counts.take (j + 1)).sum) (n := numberAll l) (by omega) hfit hn with h9 | h9 <;>
      rw [h9] at h8 <;> omega

/-- the answer is the class shown exactly if the rank asked for lies in it -/
theorem ItemAnswer.same {h : Hist T} {l : List (Nat × Nat)} {it : IterValue} {x : ℚ} {j y : Nat} (A : ItemAnswer h l it x j y) :
    h.lidx y = j ↔ (h.counts.take j).sum < specRank (numberAll l) (.fin x) ∧
      specRank (numberAll l) (.fin x) ≤ (h.counts.take (j + 1)).sum := by
  have h1 := A.above
  have h2 := A.below
  constructor
  · rintro rfl
    exact ⟨h1, h2⟩
  · rintro ⟨h3, h4⟩
    by_contra hne
    rcases Nat.lt_or_gt_of_ne hne with hlt | hlt
    · have := take_sum_le h.counts (show h.lidx y + 1 ≤ j by omega)
      omega
    · have := take_sum_le h.counts (show j + 1 ≤ h.lidx y by omega)
      omega

theorem ItemAnswer.equiv {h : Hist T} {l : List (Nat × Nat)} {it : IterValue} {x : ℚ} {j y : Nat} (A : ItemAnswer h l it x j y)
    (W : WF fp h) : Equiv h (h.qans (.fin x) y) it.valueIteratedTo ↔ h.lidx y = j := by
  have h1 := qans_equiv W (.fin x) A.yle
  have h2 : h.qans (.fin x) y ≤ U64MAX := qans_le _ A.yle
  rw [W.equiv_iff h2 A.yle] at h1
  rw [W.equiv_iff h2 A.val, h1, A.idx]

/-- The number of samples in the slots before and up to that of a value. -/
theorem Contains.before {h : Hist T} {l : List (Nat × Nat)} (H : Contains h l) (W : WF fp h) {v : Nat} (hv : v ≤ U64MAX)
    (hc : h.lidx v < h.counts.length) :
    (h.counts.take (h.lidx v)).sum = (number l fun y => y < v ∧ ¬ Equiv h y v) ∧
    (h.counts.take (h.lidx v + 1)).sum = number l fun y => y ≤ v ∨ Equiv h y v := by
  rw [H.take W (by omega), H.take W (by omega)]
  constructor <;> refine number_congr fun p hp => ?_
  · rw [W.equiv_iff (H.le W hp) hv]
    constructor
    · intro h1
      refine ⟨?_, by omega⟩
      by_contra h2
      have : h.lidx v ≤ h.lidx p.1 := Lay.idx_mono (by omega)
      omega
    · rintro ⟨h1, h2⟩
      have : h.lidx p.1 ≤ h.lidx v := Lay.idx_mono h1.le
      omega
  · rw [W.equiv_iff (H.le W hp) hv]
    constructor
    · intro h1
      by_contra h2
      push Not at h2
      have : h.lidx v ≤ h.lidx p.1 := Lay.idx_mono h2.1.le
      omega
    · rintro (h1 | h1)
      · have : h.lidx p.1 ≤ h.lidx v := Lay.idx_mono h1
        omega
      · omega

/-- C107 (partial): for the quantile of every item of `iter_quantiles`, `value_at_quantile` gives a sample (up to
equivalence) next to the one the item shows: no sample lies between the two that is not equivalent to one of them.  Missing:
they are not always equivalent, `C107_refuted` and `C107_refuted_below`. -/
theorem C107_near_partial {h : Hist T} (R : Reachable fp T h) {l : List (Nat × Nat)} (H : Contains h l) (h0 : 0 < numberAll l)
    (hn : numberAll l ≤ 2 ^ 53) (L : Log2Law lg) {t : Nat} (ht : 0 < t) (ht32 : t < 2 ^ 32) {fuel : Nat}
    {items : List IterValue} (hi : Hist.iterQuantiles lg h t fuel = .ok items) {it : IterValue} (hit : it ∈ items) :
    ∃ v, h.valueAtQuantile it.quantileIteratedTo = .ok v ∧ (∃ p ∈ l, p.2 ≠ 0 ∧ Equiv h p.1 v) ∧
      ∀ p ∈ l, p.2 ≠ 0 → p.1 ∈ Set.uIcc v it.valueIteratedTo → Equiv h p.1 v ∨ Equiv h p.1 it.valueIteratedTo := by
  have W := R.wf
  obtain ⟨x, j, y, A⟩ := itemAnswer R H h0 hn L ht ht32 hi hit
  have hv : h.qans (.fin x) y ≤ U64MAX := qans_le _ A.yle
  have hve := qans_equiv W (.fin x) A.yle
  rw [W.equiv_iff hv A.yle] at hve
  refine ⟨_, by rw [A.qto]; exact A.ans, ?_, ?_⟩
  · obtain ⟨p, hp, hp0, rfl⟩ := A.shown
    exact ⟨p, hp, hp0, by rw [W.equiv_iff A.yle hv, hve]⟩
  · intro p hp hp0 hb
    have hple := H.le W hp
    have hpl := H.lidx W hp
    rw [W.equiv_iff hple hv, W.equiv_iff hple A.val, A.idx, hve]
    have hf : (h.counts.take (h.lidx p.1)).sum < (h.counts.take (h.lidx p.1 + 1)).sum := by
      have e : (h.counts.take (h.lidx p.1 + 1)).sum = (h.counts.take (h.lidx p.1)).sum + number l fun z => Equiv h z p.1 := by
        rw [number_equiv W (fun q hq => H.le W hq) hple, ← H.slot W hpl, List.take_add_one, List.sum_append,
          List.getElem?_eq_getElem hpl]
        simp [hpl]
      have : p.2 ≤ number l fun z => Equiv h z p.1 := by
        unfold number
        refine List.single_le_sum (by simp) _ (List.mem_map.mpr ⟨p, List.mem_filter.mpr ⟨hp, ?_⟩, rfl⟩)
        simp only [decide_eq_true_eq]
        rw [W.equiv_iff hple hple]
      omega
    obtain ⟨n1, n2⟩ := A.near W H hn hf
    rw [Set.mem_uIcc] at hb
    rcases hb with ⟨h1, h2⟩ | ⟨h1, h2⟩
    · have h3 : h.lidx (h.qans (.fin x) y) ≤ h.lidx p.1 := Lay.idx_mono h1
      have h4 : h.lidx p.1 ≤ h.lidx it.valueIteratedTo := Lay.idx_mono h2
      rw [A.idx] at h4
      omega
    · have h3 : h.lidx it.valueIteratedTo ≤ h.lidx p.1 := Lay.idx_mono h1
      have h4 : h.lidx p.1 ≤ h.lidx (h.qans (.fin x) y) := Lay.idx_mono h2
      rw [A.idx] at h3
      omega

/-- C107, when they are: exactly if the rank of the quantile `x` among the `n` samples, `x * n` rounded to binary64 and then
up to an integer, and at least 1, is above the number of samples below the item's class, and not above the number of those up to
and including it. -/
theorem C107_iff {h : Hist T} (R : Reachable fp T h) {l : List (Nat × Nat)} (H : Contains h l) (h0 : 0 < numberAll l)
    (hn : numberAll l ≤ 2 ^ 53) (L : Log2Law lg) {t : Nat} (ht : 0 < t) (ht32 : t < 2 ^ 32) {fuel : Nat}
    {items : List IterValue} (hi : Hist.iterQuantiles lg h t fuel = .ok items) {it : IterValue} (hit : it ∈ items) :
    ∃ x v, it.quantileIteratedTo = .fin x ∧ h.valueAtQuantile it.quantileIteratedTo = .ok v ∧
      (Equiv h v it.valueIteratedTo ↔
        (number l fun y => y < it.valueIteratedTo ∧ ¬ Equiv h y it.valueIteratedTo) <
          max 1 ⌈F64.rndQ (x * numberAll l)⌉.toNat ∧
        max 1 ⌈F64.rndQ (x * numberAll l)⌉.toNat ≤ number l fun y => y ≤ it.valueIteratedTo ∨ Equiv h y it.valueIteratedTo) := by
  have W := R.wf
  have hU : U64MAX = 18446744073709551615 := rfl
  obtain ⟨x, j, y, A⟩ := itemAnswer R H h0 hn L ht ht32 hi hit
  refine ⟨x, _, A.qto, by rw [A.qto]; exact A.ans, ?_⟩
  have hlt := A.lt
  have hb := H.before W A.val (by rw [A.idx]; exact hlt)
  have hr : specRank (numberAll l) (.fin x) = max 1 ⌈F64.rndQ (x * numberAll l)⌉.toNat := by
    have h1 := specRank_le (numberAll l) (.fin x)
    rw [specRank_one h0 hn] at h1
    have h2 : specRank (numberAll l) (.fin x) = max 1 (min ⌈F64.rndQ (x * numberAll l)⌉.toNat U64MAX) := by
      show max 1 (min ⌈F64.rndQ (min x 1 * F64.rndQ (numberAll l))⌉.toNat U64MAX) = _
      rw [min_eq_left A.le, F64.rndQ_nat hn]
    norm_num at hn
    omega
  rw [A.equiv W, A.same, ← hb.1, ← hb.2, A.idx, hr]

/-- the two sides of a quotient -/
theorem ItemAnswer.before {h : Hist T} {l : List (Nat × Nat)} {it : IterValue} {x : ℚ} {j y : Nat} (A : ItemAnswer h l it x j y)
    (h0 : 0 < numberAll l) (hj : 0 < (h.counts.take j).sum) : ((h.counts.take j).sum : ℚ) < x * numberAll l := by
  have hn0 : (0 : ℚ) < numberAll l := by exact_mod_cast h0
  obtain ⟨d, h1, h2, h3⟩ := last_filled h.counts j hj
  have h4 := A.first d h1 h2
  rw [h3] at h4
  by_contra hc
  push Not at hc
  rw [← le_div_iff₀ hn0] at hc
  have := F64.rndQ_mono hc
  rw [A.bits] at this
  linarith

/-- C107, for a number of samples that is a power of two: the two are equivalent. -/
theorem C107_pow2 {h : Hist T} (R : Reachable fp T h) {l : List (Nat × Nat)} (H : Contains h l) {k : Nat}
    (hk : numberAll l = 2 ^ k) (hk53 : k ≤ 53) (L : Log2Law lg) {t : Nat} (ht : 0 < t) (ht32 : t < 2 ^ 32) {fuel : Nat}
    {items : List IterValue} (hi : Hist.iterQuantiles lg h t fuel = .ok items) {it : IterValue} (hit : it ∈ items) :
    ∃ v, h.valueAtQuantile it.quantileIteratedTo = .ok v ∧ Equiv h v it.valueIteratedTo := by
  have W := R.wf
  have hU : U64MAX = 18446744073709551615 := rfl
  have h0 : 0 < numberAll l := by rw [hk]; positivity
  have hn : numberAll l ≤ 2 ^ 53 := by rw [hk]; exact Nat.pow_le_pow_right (by norm_num) hk53
  obtain ⟨x, j, y, A⟩ := itemAnswer R H h0 hn L ht ht32 hi hit
  refine ⟨_, by rw [A.qto]; exact A.ans, (A.equiv W).mpr (A.same.mpr ?_)⟩
  have hn0 : (0 : ℚ) < numberAll l := by exact_mod_cast h0
  have hfit := A.fits W H
  have hexact : F64.rndQ (x * numberAll l) = x * numberAll l := by
    obtain ⟨m, e, hm, he, hx⟩ : Bits53 x := by rw [← A.bits]; exact (F64.rndQ_nearest x).1
    refine F64.rndQ_exact m (e + k) (by omega) hm.le ?_
    rw [hx, hk, zpow_add₀ (by norm_num), zpow_natCast]
    push_cast; ring
  have hreach : x * numberAll l ≤ ((h.counts.take (j + 1)).sum : ℚ) := by
    have h1 := A.reached
    generalize (h.counts.take (j + 1)).sum = b at *
    rw [F64.rndQ_exact (b : ℕ) (-k) (by omega) ?_ ?_] at h1
    · rwa [le_div_iff₀ hn0] at h1
    · rw [abs_of_nonneg (by positivity)]; exact_mod_cast hfit.trans hn
    · rw [hk, zpow_neg, zpow_natCast]; push_cast; rw [div_eq_mul_inv]
  have hb := A.before h0
  have hf := A.filled
  show _ < max 1 (min ⌈F64.rndQ (min x 1 * F64.rndQ (numberAll l))⌉.toNat U64MAX) ∧
    max 1 (min ⌈F64.rndQ (min x 1 * F64.rndQ (numberAll l))⌉.toNat U64MAX) ≤ _
  rw [min_eq_left A.le, F64.rndQ_nat hn, hexact]
  generalize (h.counts.take j).sum = a at *
  generalize (h.counts.take (j + 1)).sum = b at *
  have h1 : ⌈x * (numberAll l : ℚ)⌉ ≤ (b : ℤ) := Int.ceil_le.mpr (by exact_mod_cast hreach)
  have h2 : 0 < a → (a : ℤ) < ⌈x * (numberAll l : ℚ)⌉ := fun ha => Int.lt_ceil.mpr (by exact_mod_cast hb ha)
  norm_num at hn
  omega

/-- C107, for quantiles with few binary digits: if the quantile is a multiple of `2 ^ -a`, and the number of samples is at most
`2 ^ (53 - a)`, the two are equivalent. -/
theorem C107_short {h : Hist T} (R : Reachable fp T h) {l : List (Nat × Nat)} (H : Contains h l) (h0 : 0 < numberAll l)
    (L : Log2Law lg) {t : Nat} (ht : 0 < t) (ht32 : t < 2 ^ 32) {fuel : Nat}
    {items : List IterValue} (hi : Hist.iterQuantiles lg h t fuel = .ok items) {it : IterValue} (hit : it ∈ items)
    {m a : Nat} (hm : it.quantileIteratedTo = .fin (m / 2 ^ a)) (ha : numberAll l * 2 ^ a ≤ 2 ^ 53) :
    ∃ v, h.valueAtQuantile it.quantileIteratedTo = .ok v ∧ Equiv h v it.valueIteratedTo := by
  have W := R.wf
  have hU : U64MAX = 18446744073709551615 := rfl
  have hpow : 1 ≤ 2 ^ a := Nat.one_le_two_pow
  have hn : numberAll l ≤ 2 ^ 53 := le_trans (Nat.le_mul_of_pos_right _ hpow) ha
  obtain ⟨x, j, y, A⟩ := itemAnswer R H h0 hn L ht ht32 hi hit
  refine ⟨_, by rw [A.qto]; exact A.ans, (A.equiv W).mpr (A.same.mpr ?_)⟩
  have hn0 : (0 : ℚ) < numberAll l := by exact_mod_cast h0
  have hp0 : (0 : ℚ) < 2 ^ a := by positivity
  have hfit := A.fits W H
  have hx : x = m / 2 ^ a := by
    have := A.qto.symm.trans hm
    simpa using this
  have hm1 : m ≤ 2 ^ a := by
    have h1 := A.le
    rw [hx, div_le_one hp0] at h1
    exact_mod_cast h1
  have ha53 : a ≤ 53 := by
    by_contra hc
    have h1 : 2 ^ 54 ≤ 2 ^ a := Nat.pow_le_pow_right (by norm_num) (by omega)
    have h2 : 1 * 2 ^ a ≤ numberAll l * 2 ^ a := Nat.mul_le_mul_right _ h0
    generalize 2 ^ a = z at *
    norm_num at h1 ha
    omega
  have hr : specRank (numberAll l) (.fin x) = exactRank (numberAll l) x := by
    rw [hx]
    refine specRank_dyadic (by omega) hm1 ?_ hn
    refine le_trans (Nat.mul_le_mul_right _ hm1) ?_
    rw [Nat.mul_comm]; exact ha
  rw [hr]
  have hb := A.before h0
  have hf := A.filled
  have hreach' := A.reached
  generalize (h.counts.take j).sum = c at *
  generalize (h.counts.take (j + 1)).sum = b at *
  have hreach : x * numberAll l ≤ (b : ℚ) := by
    by_contra hc
    push Not at hc
    have hbn : (b : ℚ) < numberAll l := by
      have := mul_le_mul_of_nonneg_right A.le hn0.le
      linarith
    have hb0 : (0 : ℚ) < b := by exact_mod_cast (by omega)
    have herr := F64.rndQ_err_unit (q := (b : ℚ) / numberAll l) (by positivity) (by rw [div_lt_one hn0]; exact hbn)
    rw [abs_le] at herr
    have h1 : x ≤ (b : ℚ) / numberAll l + 1 / 2 ^ 54 := by linarith [herr.2]
    have h2 := mul_le_mul_of_nonneg_right h1 (mul_pos hn0 hp0).le
    have e1 : x * ((numberAll l : ℚ) * 2 ^ a) = (m * numberAll l : ℕ) := by
      rw [hx]; push_cast; field_simp
    have e2 : ((b : ℚ) / numberAll l + 1 / 2 ^ 54) * (numberAll l * 2 ^ a) = b * 2 ^ a + numberAll l * 2 ^ a / 2 ^ 54 := by
      field_simp
    rw [e1, e2] at h2
    have h3 : (numberAll l : ℚ) * 2 ^ a ≤ 2 ^ 53 := by exact_mod_cast ha
    have h4 : (numberAll l : ℚ) * 2 ^ a / 2 ^ 54 < 1 := by
      rw [div_lt_one (by norm_num)]; norm_num at h3 ⊢; linarith
    have h5 : ((m * numberAll l : ℕ) : ℚ) < (b * 2 ^ a + 1 : ℕ) := by push_cast at h2 ⊢; linarith
    have h6 : m * numberAll l < b * 2 ^ a + 1 := by exact_mod_cast h5
    have h7 : (b : ℚ) * 2 ^ a < x * numberAll l * 2 ^ a := mul_lt_mul_of_pos_right hc hp0
    have h8 : ((b * 2 ^ a : ℕ) : ℚ) < (m * numberAll l : ℕ) := by rw [← e1]; push_cast; linarith
    have h9 : b * 2 ^ a < m * numberAll l := by exact_mod_cast h8
    omega
  unfold exactRank
  have h1 : ⌈x * (numberAll l : ℚ)⌉ ≤ (b : ℤ) := Int.ceil_le.mpr (by exact_mod_cast hreach)
  have h2 : 0 < c → (c : ℤ) < ⌈x * (numberAll l : ℚ)⌉ := fun hc => Int.lt_ceil.mpr (by exact_mod_cast hb hc)
  omega

/-- The last item, for quantile 1: up to `2 ^ 53` samples, `value_at_quantile(1)` is its value. -/
theorem C107_last {h : Hist T} (R : Reachable fp T h) {l : List (Nat × Nat)} (H : Contains h l) (h0 : 0 < numberAll l)
    (hn : numberAll l ≤ 2 ^ 53) (L : Log2Law lg) {t : Nat} (ht : 0 < t) (ht32 : t < 2 ^ 32) {fuel : Nat}
    {items : List IterValue} (hi : Hist.iterQuantiles lg h t fuel = .ok items) :
    ∃ it v, items.getLast? = some it ∧ it.quantileIteratedTo = .fin 1 ∧ h.valueAtQuantile (.fin 1) = .ok v ∧
      Equiv h v it.valueIteratedTo := by
  obtain ⟨it, h1, h2, -⟩ := C84_quantiles_end R H h0 L ht ht32 hi
  obtain ⟨v, h3, h4⟩ := C107_short R H h0 L ht ht32 hi (List.mem_of_getLast? h1) (m := 1) (a := 0) (by rw [h2]; norm_num)
    (by omega)
  rw [h2] at h3
  exact ⟨it, v, h1, h2, h3, h4⟩

/-- the item at place `k`, its value, and the answer of `value_at_quantile` for its quantile -/
def itemAndAnswer (h : Hist T) (t k : Nat) : Option (Nat × Nat) :=
  match Hist.iterQuantiles floorLog2 h t 1000 with
  | .ok items => match items[k]? with
    | some it => match h.valueAtQuantile it.quantileIteratedTo with
      | .ok v => some (it.valueIteratedTo, v)
      | _ => none
    | none => none
  | _ => none

theorem itemAndAnswer_some {h : Hist T} {t k a v : Nat} (e : itemAndAnswer h t k = some (a, v)) :
    ∃ items it, Hist.iterQuantiles floorLog2 h t 1000 = .ok items ∧ items[k]? = some it ∧ it.valueIteratedTo = a ∧
      h.valueAtQuantile it.quantileIteratedTo = .ok v := by
  unfold itemAndAnswer at e
  split at e
  · rename_i items e1
    split at e
    · rename_i it e2
      split at e
      · rename_i v' e3
        simp only [Option.some.injEq, Prod.mk.injEq] at e
        exact ⟨items, it, e1, e2, e.1, by rw [e3, e.2]⟩
      · cases e
    · cases e
  · cases e

theorem demo100_holds : Contains demo100 [(5, 55), (9, 45)] :=
  C71_record (l := []) demo_reachable (C71_empty demo_reachable (by decide)) (by decide) (by decide) (by
    intro w _
    refine (number_le_all _ _).trans (by decide)) (by decide)

/-- With 15 ticks per half distance, one of the ticks is 0.55. 55 of 100 samples are equivalent to 5, so the item shows them;
but 0.55 times 100 is rounded up, and the rank asked for is 56. -/
theorem C107_refuted : Reachable Fp.ideal .u8 demo100 ∧ Contains demo100 [(5, 55), (9, 45)] ∧ Log2Law floorLog2 ∧
    ∃ items it, Hist.iterQuantiles floorLog2 demo100 15 1000 = .ok items ∧ it ∈ items ∧ it.valueIteratedTo = 7 ∧
      demo100.valueAtQuantile it.quantileIteratedTo = .ok 15 := by
  obtain ⟨items, it, h1, h2, h3, h4⟩ := itemAndAnswer_some (h := demo100) (t := 15) (k := 18) (a := 7) (v := 15) (by decide +kernel)
  exact ⟨demo100_reachable, demo100_holds, floorLog2_law, items, it, h1, List.mem_of_getElem? h2, h3, h4⟩

/-- `demo` after `record_n(5, 5)`, `record_n(9, 17)`: 22 samples -/
def demo22 : Hist .u8 :=
  { demo with maxValue := 9, minNonZero := 5, totalCount := 22, counts := [0, 0, 0, 5, 17] }

theorem demo22_reachable : Reachable Fp.ideal .u8 demo22 :=
  reachable_recordSeq (l := [(5, 5), (9, 17)]) demo_reachable (by decide) (r := .ok ()) (by decide)

theorem demo22_holds : Contains demo22 [(5, 5), (9, 17)] :=
  C71_record (l := []) demo_reachable (C71_empty demo_reachable (by decide)) (by decide) (by decide) (by
    intro w _
    refine (number_le_all _ _).trans (by decide)) (by decide)

/-- With 11 ticks per half distance, one of the ticks is the sum of five times 1/22, rounded, which is above 5/22 rounded: the item
shows the next sample; but times 22 it is rounded down to 5. -/
theorem C107_refuted_below : Reachable Fp.ideal .u8 demo22 ∧ Contains demo22 [(5, 5), (9, 17)] ∧ Log2Law floorLog2 ∧
    ∃ items it, Hist.iterQuantiles floorLog2 demo22 11 1000 = .ok items ∧ it ∈ items ∧ it.valueIteratedTo = 15 ∧
      demo22.valueAtQuantile it.quantileIteratedTo = .ok 7 := by
  obtain ⟨items, it, h1, h2, h3, h4⟩ := itemAndAnswer_some (h := demo22) (t := 11) (k := 5) (a := 15) (v := 7) (by decide +kernel)
  exact ⟨demo22_reachable, demo22_holds, floorLog2_law, items, it, h1, List.mem_of_getElem? h2, h3, h4⟩

/-- with one tick per half distance, the second item of `demo22` is for the median, and the two agree -/
example : numberAll [(5, 5), (9, 17)] * 2 ^ 1 ≤ 2 ^ 53 ∧ itemAndAnswer demo22 1 1 = some (15, 15) ∧
    itemAndAnswer demo22 1 0 = some (7, 4) ∧ Hist.highestEquivalent demo22 4 = .ok 7 :=
  ⟨by decide, by decide +kernel, by decide +kernel, by decide +kernel⟩

/-- eight samples: all agree -/
example : ∃ h : Hist .u8, recordSeq [(5, 5), (9, 3)] demo = .ok (h, .ok ()) ∧ Reachable Fp.ideal .u8 h ∧
    Contains h [(5, 5), (9, 3)] ∧ numberAll [(5, 5), (9, 3)] = 2 ^ 3 ∧ itemAndAnswer h 5 7 = some (7, 7) ∧
    itemAndAnswer h 5 8 = some (15, 15) :=
  ⟨{ demo with maxValue := 9, minNonZero := 5, totalCount := 8, counts := [0, 0, 0, 5, 3] }, by decide,
    reachable_recordSeq (l := [(5, 5), (9, 3)]) demo_reachable (by decide) (r := .ok ()) (by decide),
    C71_record (l := []) demo_reachable (C71_empty demo_reachable (by decide)) (by decide) (by decide) (by
      intro w _
      refine (number_le_all _ _).trans (by decide)) (by decide), by decide, by decide +kernel, by decide +kernel⟩

end Hdr
