import Verif.Spec.SampleIter
import Verif.Props.Samples
import Verif.Props.TicksExact
import Verif.Props.Panics

/-!
# C84: the iterators, against the samples recorded

The earlier properties describe the items of an iterator by the classes of the histogram (C29–C33).  Here they are
compared with the samples that were recorded.
-/

namespace Hdr

variable {T : CounterTy} {fp : Fp} {lg : F64 → Nat}

/-! ### from classes to samples -/

/-- the samples in the classes that start at or below `v` are those not above `v` or equivalent to it -/
theorem Contains.upTo {h : Hist T} {l : List (Nat × Nat)} (H : Contains h l) (W : WF fp h) {cs : List Cls} (C : Classes h cs)
    {v : Nat} (hv : v ≤ U64MAX) : countUpTo cs v = number l fun x => x ≤ v ∨ Equiv h x v := by
  have hp := W.len_pos
  rw [W.countUpTo_eq C, H.take W (by unfold Hist.slotOf; omega)]
  refine number_congr fun p hp' => ?_
  have h1 := H.lidx W hp'
  rw [W.equiv_iff (H.le W hp') hv]
  unfold Hist.slotOf
  constructor
  · intro h2
    by_contra hc
    push Not at hc
    have h3 : h.lidx v ≤ h.lidx p.1 := Lay.idx_mono (by omega)
    omega
  · rintro (h2 | h2)
    · have h3 : h.lidx p.1 ≤ h.lidx v := Lay.idx_mono h2
      omega
    · omega

theorem Contains.upTo_le {h : Hist T} {l : List (Nat × Nat)} (H : Contains h l) (W : WF fp h) {cs : List Cls}
    (C : Classes h cs) {v : Nat} (hv : v ≤ U64MAX) : countUpTo cs v ≤ U64MAX := by
  rw [H.upTo W C hv]
  refine (number_le_all _ _).trans ?_
  have h1 : h.totalCount = numberAll l := H.len
  have := W.tot
  omega

/-- a class of the list: its first value, its last value, and the number of its samples -/
theorem Contains.cls {h : Hist T} {l : List (Nat × Nat)} (H : Contains h l) (W : WF fp h) {cs : List Cls} (C : Classes h cs)
    {c : Cls} (hc : c ∈ cs) : c.lo ≤ U64MAX ∧ c.hi ≤ U64MAX ∧ h.lidx c.hi = h.lidx c.lo ∧ h.Covers c.hi ∧
      c.count = number l fun x => Equiv h x c.hi := by
  obtain ⟨i, hi, rfl⟩ := (W.mem_classes C).mp hc
  have h1 : h.lval i ≤ U64MAX := W.lval_le' hi
  have h2 : h.lidx (h.lhi (h.lval i)) = h.lidx (h.lval i) := lidx_lhi h1
  have h3 : h.lidx (h.lval i) = i := Lay.idx_val
  have hcov : h.Covers (h.lhi (h.lval i)) := by rw [W.covers_iff, h2, h3]; exact hi
  have h4 : h.lhi (h.lval i) ≤ U64MAX := by
    have := W.coverEnd_le
    unfold Hist.Covers at hcov
    omega
  refine ⟨h1, h4, h2, hcov, ?_⟩
  show h.counts.getD i 0 = number l fun x => Equiv h x (h.lhi (h.lval i))
  have h5 := H.count _ hcov
  rw [W.countAt_eq h4] at h5
  have h6 : h.slotOf (h.lhi (h.lval i)) = i := by
    unfold Hist.slotOf
    rw [h2, h3]
    omega
  rw [← Except.ok.inj h5]
  exact congrArg (fun k => h.counts.getD k 0) h6.symm

theorem Contains.upTo_hi {h : Hist T} {l : List (Nat × Nat)} (H : Contains h l) (W : WF fp h) {cs : List Cls}
    (C : Classes h cs) {c : Cls} (hc : c ∈ cs) : countUpTo cs c.lo = number l fun x => x ≤ c.hi ∨ Equiv h x c.hi := by
  obtain ⟨h1, h2, h3, -, -⟩ := H.cls W C hc
  rw [← H.upTo W C h2, W.countUpTo_eq C, W.countUpTo_eq C]
  unfold Hist.slotOf
  rw [h3]

theorem Contains.item {h : Hist T} {l : List (Nat × Nat)} (H : Contains h l) (W : WF fp h) {cs : List Cls}
    (C : Classes h cs) {c : Cls} (hc : c ∈ cs) {it : IterValue} (hv : it.valueIteratedTo = c.hi) (hn : it.countAtValue = c.count)
    (hq : it.quantile = F64.div (F64.ofNat (Min.min (countUpTo cs c.lo) U64MAX)) (F64.ofNat h.len)) :
    SampleItem h l (countUpTo cs c.lo) it := by
  obtain ⟨h1, h2, h3, h4, h5⟩ := H.cls W C hc
  refine ⟨?_, ?_, fun _ => ?_⟩
  · rw [hv]; exact H.upTo_hi W C hc
  · rw [hq, Nat.min_eq_left (H.upTo_le W C h1), H.len]
  · rw [hn, hv]; exact h5

theorem Contains.shows {h : Hist T} {l : List (Nat × Nat)} (H : Contains h l) (W : WF fp h) {cs : List Cls}
    (C : Classes h cs) {c : Cls} (hc : c ∈ cs) {it : IterValue} (hv : it.valueIteratedTo = c.hi) (h0 : c.count ≠ 0) :
    ShowsSample h l it := by
  obtain ⟨h1, h2, h3, h4, h5⟩ := H.cls W C hc
  rw [h5] at h0
  obtain ⟨p, hp, he, h6⟩ := number_pos h0
  exact ⟨p, hp, h6, by rw [hv]; exact he⟩

/-- an item counts all samples exactly if none is above its value -/
theorem showsAll_iff {h : Hist T} {l : List (Nat × Nat)} {it : IterValue} :
    ShowsAll h l it ↔ (number l fun x => x ≤ it.valueIteratedTo ∨ Equiv h x it.valueIteratedTo) = numberAll l := by
  unfold ShowsAll
  induction l with
  | nil => simp [number, numberAll]
  | cons p l ih =>
    have h1 : numberAll (p :: l) = p.2 + numberAll l := by simp [numberAll]
    have h2 := number_le_all l fun x => x ≤ it.valueIteratedTo ∨ Equiv h x it.valueIteratedTo
    rw [number_cons, h1, List.forall_mem_cons, ih]
    split
    · rename_i h3
      constructor
      · rintro ⟨-, h4⟩; omega
      · intro h4; exact ⟨fun _ => h3, by omega⟩
    · rename_i h3
      constructor
      · rintro ⟨h4, h5⟩
        have : p.2 = 0 := by
          by_contra hc
          exact h3 (h4 hc)
        omega
      · intro h4
        have : p.2 = 0 := by omega
        exact ⟨fun hc => absurd this hc, by omega⟩

theorem runningTotal_zero (it : IterValue) (items : List IterValue) : runningTotal (it :: items) 0 = it.countSinceLastIteration := by
  simp [runningTotal]

theorem runningTotal_succ (it : IterValue) (items : List IterValue) (k : Nat) :
    runningTotal (it :: items) (k + 1) = it.countSinceLastIteration + runningTotal items k := by
  simp [runningTotal]

/-! ### by quantiles -/

/-- the samples counted before an iteration that goes on at `from_` -/
def countBefore (cs : List Cls) : Nat → Nat
  | 0 => 0
  | p + 1 => countUpTo cs p

theorem countIn_before (cs : List Cls) {f v : Nat} (h : f ≤ v + 1) :
    countBefore cs f + countIn cs f (v + 1) = countUpTo cs v := by
  cases f with
  | zero => rw [countUpTo_first]; simp [countBefore]
  | succ p =>
    have h1 : p ≤ v := by omega
    have h2 := countUpTo_split cs (p := p + 1) (v := v) (by omega)
    have h3 : ((cs.filter fun c => decide (c.lo < p + 1)).map (·.count)).sum = countUpTo cs p := by
      unfold countUpTo
      simp only [Nat.lt_succ_iff]
    simp only [countBefore]
    omega

theorem QuantileRun.samples {h : Hist T} {l : List (Nat × Nat)} (H : Contains h l) (W : WF fp h)
    {cs : List Cls} (C : Classes h cs) {t : Nat} {f : Nat} {q : ℚ} {items : List IterValue}
    (r : QuantileRun h cs t f q items) (hq : q ≤ 1) (hf : ∀ d ∈ cs, d.count ≠ 0 → d.lo + 1 < f → fracUpTo h cs d < q) :
    ∀ k it, items[k]? = some it → ∃ c ∈ cs, ∃ q', QuantileItem h cs (c.lo + 1) c q' { it with countSinceLastIteration := 0 } ∧
      countBefore cs f + runningTotal items k = countUpTo cs c.lo := by
  have one : ∀ {f : Nat} {q : ℚ} {c : Cls} {it : IterValue}, c ∈ cs → QuantileItem h cs f c q it →
      (∀ d ∈ cs, d.count ≠ 0 → d.lo + 1 < f → fracUpTo h cs d < q) →
      QuantileItem h cs (c.lo + 1) c q { it with countSinceLastIteration := 0 } ∧
        countBefore cs f + it.countSinceLastIteration = countUpTo cs c.lo := by
    intro f q c it hc hit hf
    have h1 : f ≤ c.lo + 1 := by
      by_contra hcon
      exact absurd hit.reached (not_le.mpr (hf c hc hit.filled (by omega)))
    have h2 := countIn_before cs h1
    have h3 := H.upTo_le W C (H.cls W C hc).1
    refine ⟨⟨hit.value, hit.count, hit.filled, hit.quantile, hit.quantileTo, ?_, hit.reached, hit.first⟩, ?_⟩
    · have : countIn cs (c.lo + 1) (c.lo + 1) = 0 := by
        have := countIn_before cs (f := c.lo + 1) (v := c.lo) le_rfl
        simp only [countBefore] at this
        omega
      rw [this]; rfl
    · rw [hit.since, Nat.min_eq_left (by omega), h2]
  induction r with
  | short _ => intro k it hk; simp at hk
  | @last f q c it hc hit _ =>
    intro k it' hk
    cases k with
    | succ k => simp at hk
    | zero =>
      simp only [List.getElem?_cons_zero, Option.some.injEq] at hk
      subst hk
      have h1 := one hc hit fun d hd hd0 hlt => lt_of_lt_of_le (hf d hd hd0 hlt) hq
      exact ⟨c, hc, 1, h1.1, by rw [runningTotal_zero]; exact h1.2⟩
  | @step f q q' c it rest hc hit hlt tk _ ih =>
    intro k it' hk
    have h1 := one hc hit hf
    cases k with
    | zero =>
      simp only [List.getElem?_cons_zero, Option.some.injEq] at hk
      subst hk
      exact ⟨c, hc, q, h1.1, by rw [runningTotal_zero]; exact h1.2⟩
    | succ k =>
      rw [List.getElem?_cons_succ] at hk
      obtain ⟨d, hd, x, h2, h3⟩ := ih tk.2.1 (fun e he he0 hlo => lt_trans (hit.first e he he0 (by omega)) tk.1) k it' hk
      refine ⟨d, hd, x, h2, ?_⟩
      rw [runningTotal_succ, ← Nat.add_assoc, h1.2]
      exact h3

/-- the class and quantile of every item -/
theorem quantile_samples {h : Hist T} (R : Reachable fp T h) {l : List (Nat × Nat)} (H : Contains h l) (h0 : 0 < numberAll l)
    (L : Log2Law lg) {t : Nat} (ht : 0 < t) (ht32 : t < 2 ^ 32) {fuel : Nat} {items : List IterValue}
    (hi : Hist.iterQuantiles lg h t fuel = .ok items) {k : Nat} {it : IterValue} (hk : items[k]? = some it) :
    ∃ c ∈ h.contents, ∃ q', QuantileItem h h.contents (c.lo + 1) c q' { it with countSinceLastIteration := 0 } ∧
      runningTotal items k = countUpTo h.contents c.lo := by
  have W := R.wf
  have hlen : h.len = numberAll l := H.len
  have hne : h.len ≠ 0 := by omega
  have r := quantile_items R hne W.contents L ht ht32 hi
  obtain ⟨c, hc, q, h1, h2⟩ := r.samples H W W.contents (by norm_num) (fun d hd hd0 hlt => absurd hlt (by omega)) k it hk
  exact ⟨c, hc, q, h1, by simpa [countBefore] using h2⟩

/-- C84 (1): the items of `iter_quantiles`: the counts up to an item add up to the number of samples not above its value
(equivalent ones included), its quantile is their share, its count that of the samples equivalent to the value, and there
is at least one such sample; the share is not below the quantile iterated to. -/
theorem C84_quantiles {h : Hist T} (R : Reachable fp T h) {l : List (Nat × Nat)} (H : Contains h l) (h0 : 0 < numberAll l)
    (L : Log2Law lg) {t : Nat} (ht : 0 < t) (ht32 : t < 2 ^ 32) {fuel : Nat} {items : List IterValue}
    (hi : Hist.iterQuantiles lg h t fuel = .ok items) {k : Nat} {it : IterValue} (hk : items[k]? = some it) :
    SampleItem h l (runningTotal items k) it ∧ ShowsSample h l it ∧ F64.le it.quantileIteratedTo it.quantile = true := by
  have W := R.wf
  have hlen : h.len = numberAll l := H.len
  have hne : h.len ≠ 0 := by omega
  obtain ⟨c, hc, q, h1, h2⟩ := quantile_samples R H h0 L ht ht32 hi hk
  have hq : it.quantile = F64.div (F64.ofNat (Min.min (countUpTo h.contents c.lo) U64MAX)) (F64.ofNat h.len) := by
    rw [show it.quantile = _ from h1.quantile]
    obtain ⟨j, hj, rfl⟩ := (W.mem_classes W.contents).mp hc
    rw [W.fracUpTo_eq W.contents hj, ← W.frac_eq hne, W.countUpTo_eq W.contents]
    have : h.slotOf (h.lcls j).lo = j := by
      show h.slotOf (h.lval j) = j
      unfold Hist.slotOf
      rw [show h.lidx (h.lval j) = j from Lay.idx_val]
      omega
    rw [this]
    rfl
  rw [h2]
  exact ⟨H.item W W.contents hc h1.value h1.count hq, H.shows W W.contents hc h1.value h1.filled,
    ((C33_order R hne L ht ht32 hi).2 it (List.mem_of_getElem? hk)).2.2⟩

/-- C84 (2): the last item is for quantile 1, and the counts add up to the number of all samples, as far as binary64 can
tell. -/
theorem C84_quantiles_end {h : Hist T} (R : Reachable fp T h) {l : List (Nat × Nat)} (H : Contains h l) (h0 : 0 < numberAll l)
    (L : Log2Law lg) {t : Nat} (ht : 0 < t) (ht32 : t < 2 ^ 32) {fuel : Nat} {items : List IterValue}
    (hi : Hist.iterQuantiles lg h t fuel = .ok items) :
    ∃ it, items.getLast? = some it ∧ it.quantileIteratedTo = .fin 1 ∧
      F64.ofNat (runningTotal items (items.length - 1)) = F64.ofNat (numberAll l) := by
  have W := R.wf
  have C := W.contents
  have hlen : h.len = numberAll l := H.len
  have hU : h.len ≤ U64MAX := W.tot
  have hsum : h.len = Min.min (h.contents.map (·.count)).sum U64MAX := by
    rw [W.sum_classes C, H.sum W, hlen, Nat.min_eq_left (by omega)]
  obtain ⟨it, h1, h2⟩ := C33_final_partial R (by omega) C hsum L ht ht32 hi
  refine ⟨it, h1, h2, ?_⟩
  rw [List.getLast?_eq_getElem?] at h1
  obtain ⟨c, hc, q, h3, h4⟩ := quantile_samples R H h0 L ht ht32 hi h1
  have hq : q = 1 := by
    have h5 := h3.quantileTo
    simp only [h2, F64.fin.injEq] at h5
    exact h5.symm
  subst hq
  obtain ⟨hlo, -, -, -, hcount⟩ := H.cls W C hc
  have hle : countUpTo h.contents c.lo ≤ numberAll l := by
    rw [H.upTo W C hlo]; exact number_le_all _ _
  have hpos : 0 < countUpTo h.contents c.lo := by
    rw [H.upTo_hi W C hc]
    have h5 := h3.filled
    rw [hcount] at h5
    refine lt_of_lt_of_le (Nat.pos_of_ne_zero h5) (number_le fun _ _ h => Or.inr h)
  have bits : ∀ n : ℕ, 0 < n → Bits53 (F64.rndQ (n : ℚ)) := by
    intro n hn
    have hq : (0 : ℚ) < n := by exact_mod_cast hn
    rw [F64.rndQ_pos hq]
    exact F64.rndPos_bits hq
  have h5 := h3.reached
  unfold fracUpTo at h5
  rw [Nat.min_eq_left (by omega), hlen] at h5
  have ha : (1 : ℚ) ≤ F64.rndQ (countUpTo h.contents c.lo : ℕ) := F64.one_le_rndQ (by exact_mod_cast hpos)
  rw [F64.one_le_quot (bits _ hpos) (bits _ h0) (by linarith) (F64.one_le_rndQ (by exact_mod_cast h0))] at h5
  rw [h4, F64.ofNat_fin (by omega), F64.ofNat_fin (by omega)]
  refine congrArg F64.fin (le_antisymm (F64.rndQ_mono (by exact_mod_cast hle)) h5)

/-- C84 (2), partial: with up to `2 ^ 53` samples, the last item shows the largest sample, and the counts add up to the
number of all samples.  Missing: more samples than that; `C84_refuted` shows that the claim is false then. -/
theorem C84_quantiles_last_partial {h : Hist T} (R : Reachable fp T h) {l : List (Nat × Nat)} (H : Contains h l)
    (h0 : 0 < numberAll l) (hn : numberAll l ≤ 2 ^ 53) (L : Log2Law lg) {t : Nat} (ht : 0 < t) (ht32 : t < 2 ^ 32)
    {fuel : Nat} {items : List IterValue} (hi : Hist.iterQuantiles lg h t fuel = .ok items) :
    ∃ it, items.getLast? = some it ∧ it.quantileIteratedTo = .fin 1 ∧ ShowsAll h l it ∧
      runningTotal items (items.length - 1) = numberAll l := by
  obtain ⟨it, h1, h2, h3⟩ := C84_quantiles_end R H h0 L ht ht32 hi
  have h4 := h1
  rw [List.getLast?_eq_getElem?] at h4
  obtain ⟨h5, -, -⟩ := C84_quantiles R H h0 L ht ht32 hi h4
  have h6 := h5.upTo
  have h7 : runningTotal items (items.length - 1) ≤ numberAll l := by rw [h6]; exact number_le_all _ _
  have hU : (2 : ℕ) ^ 53 ≤ U64MAX := by decide
  rw [F64.ofNat_fin (by omega), F64.ofNat_fin (by omega), F64.fin.injEq, F64.rndQ_nat (by omega), F64.rndQ_nat (by omega)] at h3
  have h8 : runningTotal items (items.length - 1) = numberAll l := by exact_mod_cast h3
  exact ⟨it, h1, h2, showsAll_iff.mpr (by rw [← h6, h8]), h8⟩

/-- `demoU` with `2 ^ 60` samples of 4 and one of 8 -/
def demoHuge : Hist .u64 :=
  { demoU with maxValue := 11, minNonZero := 4, totalCount := 2 ^ 60 + 1, counts := [0, 2 ^ 60, 1, 0, 0, 0, 0] }

theorem demoHuge_eq : recordSeq [(4, 2 ^ 60), (8, 1)] demoU = .ok (demoHuge, .ok ()) := by decide +kernel

theorem demoHuge_reachable : Reachable Fp.ideal .u64 demoHuge := 
  reachable_recordSeq demoU_reachable (by decide) demoHuge_eq

theorem demoHuge_holds : Contains demoHuge [(4, 2 ^ 60), (8, 1)] := by
  have := C71_record (l' := [(4, 2 ^ 60), (8, 1)]) demoU_reachable (C71_empty demoU_reachable rfl) (by decide) demoHuge_eq
    (fun w _ => le_trans (number_le_all _ _) (by decide)) (by decide)
  exact this

/-- With more samples, `iter_quantiles` may never show the largest one: here, all items are for 4 (shown as 7, the
last value equivalent to it) and none for 8, because the share of the `2 ^ 60` samples of 4 rounds to 1. -/
theorem C84_refuted : Reachable Fp.ideal .u64 demoHuge ∧ Contains demoHuge [(4, 2 ^ 60), (8, 1)] ∧
    ∀ lg, Log2Law lg → ∀ t fuel items, 0 < t → t < 2 ^ 32 → Hist.iterQuantiles lg demoHuge t fuel = .ok items →
      (∀ it ∈ items, it.valueIteratedTo = 7) ∧ ¬ Equiv demoHuge 8 7 := by
  refine ⟨demoHuge_reachable, demoHuge_holds, fun lg L t fuel items ht ht32 hi => ⟨fun it hit => ?_, by decide⟩⟩
  obtain ⟨k, hk⟩ := List.mem_iff_getElem?.mp hit
  obtain ⟨c, hc, q, h1, -⟩ := quantile_samples demoHuge_reachable demoHuge_holds (by decide) L ht ht32 hi hk
  have e : demoHuge.contents = [⟨0, 3, 0⟩, ⟨4, 7, 2 ^ 60⟩, ⟨8, 15, 1⟩, ⟨16, 31, 0⟩, ⟨32, 63, 0⟩, ⟨64, 127, 0⟩, ⟨128, 255, 0⟩] := by
    decide +kernel
  rw [e] at hc h1
  have hv : it.valueIteratedTo = c.hi := h1.value
  simp only [List.mem_cons, List.not_mem_nil, or_false] at hc
  rcases hc with rfl | rfl | rfl | rfl | rfl | rfl | rfl
  · exact absurd rfl h1.filled
  · exact hv
  · exfalso
    have h2 := h1.first ⟨4, 7, 2 ^ 60⟩ (by simp) (by decide) (by decide)
    have h3 := h1.reached
    have e1 : fracUpTo demoHuge [⟨0, 3, 0⟩, ⟨4, 7, 2 ^ 60⟩, ⟨8, 15, 1⟩, ⟨16, 31, 0⟩, ⟨32, 63, 0⟩, ⟨64, 127, 0⟩, ⟨128, 255, 0⟩]
        ⟨4, 7, 2 ^ 60⟩ = 1 := by decide +kernel
    have e2 : fracUpTo demoHuge [⟨0, 3, 0⟩, ⟨4, 7, 2 ^ 60⟩, ⟨8, 15, 1⟩, ⟨16, 31, 0⟩, ⟨32, 63, 0⟩, ⟨64, 127, 0⟩, ⟨128, 255, 0⟩]
        ⟨8, 15, 1⟩ = 1 := by decide +kernel
    rw [e1] at h2
    rw [e2] at h3
    linarith
  all_goals exact absurd rfl h1.filled

/-! ### by classes -/

/-- in an ascending list of classes, the classes up to the `k`-th are those that do not start above it -/
theorem filter_lo_take : ∀ {fs : List Cls}, fs.Pairwise (fun a b => a.lo < b.lo) → ∀ {k : Nat} {c : Cls}, fs[k]? = some c →
    (fs.filter fun d => decide (d.lo ≤ c.lo)) = fs.take (k + 1) := by
  intro fs
  induction fs with
  | nil => intro _ k c hk; simp at hk
  | cons d fs ih =>
    intro hp k c hk
    rw [List.pairwise_cons] at hp
    cases k with
    | zero =>
      simp only [List.getElem?_cons_zero, Option.some.injEq] at hk
      subst hk
      rw [List.filter_cons_of_pos (by simp), List.take_succ_cons, List.take_zero]
      congr 1
      rw [List.filter_eq_nil_iff]
      intro e he
      have := hp.1 e he
      simp only [decide_eq_true_eq]
      omega
    | succ k =>
      rw [List.getElem?_cons_succ] at hk
      have h1 := hp.1 c (List.mem_of_getElem? hk)
      rw [List.filter_cons_of_pos (by simp; omega), List.take_succ_cons, ih hp.2 hk]

theorem WF.classes_lo {h : Hist T} (W : WF fp h) {cs : List Cls} (C : Classes h cs) : cs.Pairwise fun a b => a.lo < b.lo := by
  rw [W.classes_unique C, List.pairwise_map]
  exact List.pairwise_lt_range.imp fun hij => Lay.val_lt_val hij

/-- the items of an iteration over some of the classes, among them all that are not empty -/
theorem Contains.byClass {h : Hist T} {l : List (Nat × Nat)} (H : Contains h l) (W : WF fp h) {cs : List Cls} (C : Classes h cs)
    {p : Cls → Bool} (hp : ∀ c ∈ cs, p c = false → c.count = 0) {items : List IterValue}
    (hF : List.Forall₂ (fun c v => v.OfClass h c (Cls.upTo cs c)) (cs.filter p) items) {k : Nat} {it : IterValue}
    (hk : items[k]? = some it) : ∃ c ∈ cs.filter p, it.valueIteratedTo = c.hi ∧ it.countAtValue = c.count ∧
      SampleItem h l (runningTotal items k) it := by
  obtain ⟨hlt, rfl⟩ := List.getElem?_eq_some_iff.mp hk
  have hlt' : k < (cs.filter p).length := by rw [hF.length_eq]; exact hlt
  obtain ⟨h1, h2, h3, h4, -⟩ := (List.forall₂_iff_get.mp hF).2 k hlt' hlt
  simp only [List.get_eq_getElem] at h1 h2 h3 h4
  have hm : (cs.filter p)[k] ∈ cs.filter p := List.getElem_mem hlt'
  have hmc : (cs.filter p)[k] ∈ cs := (List.mem_filter.mp hm).1
  refine ⟨_, hm, h1, h2, ?_⟩
  have e1 : runningTotal items k = (((cs.filter p).take (k + 1)).map (·.count)).sum := by
    unfold runningTotal
    congr 1
    have : List.Forall₂ (fun c v => v.OfClass h c (Cls.upTo cs c)) ((cs.filter p).take (k + 1)) (items.take (k + 1)) :=
      List.forall₂_take _ hF
    generalize (cs.filter p).take (k + 1) = as at this
    generalize items.take (k + 1) = bs at this
    induction this with
    | nil => rfl
    | cons hab _ ih => rw [List.map_cons, List.map_cons, ih, hab.2.2.1]
  have e2 : runningTotal items k = countUpTo cs (cs.filter p)[k].lo := by
    rw [e1, ← filter_lo_take ((W.classes_lo C).filter p) (List.getElem?_eq_getElem hlt')]
    unfold countUpTo
    generalize (cs.filter p)[k].lo = x
    clear hF hk h1 h2 h3 h4 hm hmc e1 C hlt'
    induction cs with
    | nil => rfl
    | cons c cs ih =>
      have hi := ih fun d hd => hp d (List.mem_cons_of_mem _ hd)
      have hc := hp c List.mem_cons_self
      cases hpc : p c with
      | true =>
        rw [List.filter_cons_of_pos hpc, List.filter_cons, List.filter_cons]
        split
        · rw [List.map_cons, List.map_cons, List.sum_cons, List.sum_cons, hi]
        · exact hi
      | false =>
        rw [List.filter_cons_of_neg (by simp [hpc]), List.filter_cons]
        split
        · rw [List.map_cons, List.sum_cons, hi, hc hpc, Nat.zero_add]
        · exact hi
  rw [e2]
  exact H.item W C hmc h1 h2 h4

/-- C84 (3): the items of `iter_recorded`: each shows a sample, every sample is shown by an item, and the counts and
quantiles are as for `iter_quantiles`. -/
theorem C84_recorded {h : Hist T} (R : Reachable fp T h) {l : List (Nat × Nat)} (H : Contains h l) :
    ∃ items, (∀ fuel, h.distinctValues < fuel → h.iterRecorded fuel = .ok items) ∧
      (∀ k it, items[k]? = some it → SampleItem h l (runningTotal items k) it ∧ ShowsSample h l it) ∧
      (∀ p ∈ l, p.2 ≠ 0 → ∃ it ∈ items, Equiv h p.1 it.valueIteratedTo) ∧
      items.Pairwise (fun a b => a.valueIteratedTo < b.valueIteratedTo) := by
  have W := R.wf
  have C := W.contents
  obtain ⟨items, h1, hF, h3⟩ := C29_iter_recorded R C
  refine ⟨items, h1, fun k it hk => ?_, fun p hp hp0 => ?_, h3⟩
  · obtain ⟨c, hc, h4, h5, h6⟩ := H.byClass W C (p := fun c => decide (c.count ≠ 0)) (fun c _ h => by simpa using h) hF hk
    rw [List.mem_filter, decide_eq_true_eq] at hc
    exact ⟨h6, H.shows W C hc.1 h4 hc.2⟩
  · have hi := H.lidx W hp
    have hc : h.lcls (h.lidx p.1) ∈ h.contents := (W.mem_classes C).mpr ⟨_, hi, rfl⟩
    obtain ⟨g1, g2, g3, g4, g5⟩ := H.cls W C hc
    have heq : Equiv h p.1 (h.lcls (h.lidx p.1)).hi := by
      rw [W.equiv_iff (H.le W hp) g2, g3]
      exact (Lay.idx_val (i := h.lidx p.1)).symm
    have hne : (h.lcls (h.lidx p.1)).count ≠ 0 := by
      have := number_ge (P := fun x => Equiv h x (h.lcls (h.lidx p.1)).hi) hp heq
      omega
    have hm : h.lcls (h.lidx p.1) ∈ h.contents.filter fun c => decide (c.count ≠ 0) := by
      rw [List.mem_filter]; exact ⟨hc, by simpa using hne⟩
    obtain ⟨i, hi', he⟩ := List.mem_iff_getElem.mp hm
    have hlt : i < items.length := by rw [← hF.length_eq]; exact hi'
    have h4 := (List.forall₂_iff_get.mp hF).2 i hi' hlt
    simp only [List.get_eq_getElem] at h4
    refine ⟨items[i], List.getElem_mem hlt, ?_⟩
    rw [h4.1, he]
    exact heq

/-- C84 (4): the items of `iter_all`: one for every class, in ascending order, with counts and quantiles as above. -/
theorem C84_all {h : Hist T} (R : Reachable fp T h) {l : List (Nat × Nat)} (H : Contains h l) :
    ∃ items, (∀ fuel, h.distinctValues < fuel → h.iterAll fuel = .ok items) ∧
      (∀ k it, items[k]? = some it → SampleItem h l (runningTotal items k) it) ∧
      (∀ v, h.Covers v → ∃ it ∈ items, Equiv h v it.valueIteratedTo ∧ it.countAtValue = number l fun x => Equiv h x v) ∧
      (items.map (·.countSinceLastIteration)).sum = numberAll l := by
  have W := R.wf
  have C := W.contents
  obtain ⟨items, h1, hF, h3⟩ := C30_iter_all R C
  refine ⟨items, h1, fun k it hk => ?_, fun v hv => ?_, ?_⟩
  · obtain ⟨c, hc, h4, h5, h6⟩ := H.byClass W C (p := fun _ => true) (fun c _ h => by simp at h) (by simpa using hF) hk
    exact h6
  · have hi := (W.covers_iff v).mp hv
    have hvU : v ≤ U64MAX := by
      have := W.coverEnd_le
      unfold Hist.Covers at hv
      omega
    have hc : h.lcls (h.lidx v) ∈ h.contents := (W.mem_classes C).mpr ⟨_, hi, rfl⟩
    obtain ⟨g1, g2, g3, g4, g5⟩ := H.cls W C hc
    have hix : h.lidx (h.lcls (h.lidx v)).hi = h.lidx v := by
      rw [g3]
      exact Lay.idx_val (i := h.lidx v)
    obtain ⟨i, hi', he⟩ := List.mem_iff_getElem.mp hc
    have hlt : i < items.length := by rw [← hF.length_eq]; exact hi'
    have h4 := (List.forall₂_iff_get.mp hF).2 i hi' hlt
    simp only [List.get_eq_getElem] at h4
    refine ⟨items[i], List.getElem_mem hlt, ?_, ?_⟩
    · rw [h4.1, he, W.equiv_iff hvU g2, hix]
    · rw [h4.2.1, he, g5]
      refine number_congr fun p hp => ?_
      rw [W.equiv_iff (H.le W hp) g2, W.equiv_iff (H.le W hp) hvU, hix]
  · rw [h3, W.sum_classes C, H.sum W]

/-! ### by levels -/

/-- the items of an iteration by ascending levels -/
theorem Contains.byLevel {h : Hist T} {l : List (Nat × Nat)} (H : Contains h l) (W : WF fp h) {cs : List Cls} (C : Classes h cs)
    {L : Nat → Nat} (hmono : ∀ k, L k ≤ L (k + 1)) {items : List IterValue} (hL : ∀ k, k < items.length → L k ≤ U64MAX)
    (hS : ∀ k it, items[k]? = some it → StepItem h cs (levelFrom L k) (L k) it) :
    ∀ k it, items[k]? = some it → SampleItem h l (runningTotal items k) it := by
  have tot : ∀ k, k < items.length → runningTotal items k = countUpTo cs (L k) := by
    intro k
    induction k with
    | zero =>
      intro hk
      have h1 := (hS 0 _ (List.getElem?_eq_getElem hk)).since
      simp only [levelFrom] at h1
      rw [countUpTo_first, Nat.min_eq_left (H.upTo_le W C (hL 0 hk))] at h1
      unfold runningTotal
      rw [List.take_add_one, List.getElem?_eq_getElem hk]
      simpa using h1
    | succ k ih =>
      intro hk
      have h1 := (hS (k + 1) _ (List.getElem?_eq_getElem hk)).since
      have h2 := countIn_before cs (f := L k + 1) (v := L (k + 1)) (by have := hmono k; omega)
      have h3 := H.upTo_le W C (hL _ hk)
      simp only [levelFrom] at h1
      simp only [countBefore] at h2
      rw [Nat.min_eq_left (by omega)] at h1
      have h4 := ih (by omega)
      unfold runningTotal at h4 ⊢
      rw [List.take_add_one, List.getElem?_eq_getElem hk, List.map_append, List.sum_append, h4]
      simp only [Option.toList_some, List.map_cons, List.map_nil, List.sum_cons, List.sum_nil, Nat.add_zero]
      omega
  intro k it hk
  have hlt : k < items.length := (List.getElem?_eq_some_iff.mp hk).1
  have S := hS k it hk
  have hv := hL k hlt
  rw [tot k hlt]
  refine ⟨?_, ?_, fun hc => ?_⟩
  · rw [S.value]; exact H.upTo W C hv
  · rw [S.quantile, Nat.min_eq_left (H.upTo_le W C hv), H.len]
  · have h1 := S.count
    rw [S.value] at hc ⊢
    rw [H.count _ hc] at h1
    exact (Except.ok.inj h1).symm

/-- C84 (5): the items of `iter_linear`, whenever it does not panic (see C31 for when it does). -/
theorem C84_linear {h : Hist T} (R : Reachable fp T h) {l : List (Nat × Nat)} (H : Contains h l) {step fuel : Nat}
    (hs : 0 < step) (hs64 : step ≤ U64MAX) {items : List IterValue} (hi : h.iterLinear step fuel = .ok items) :
    (∀ k it, items[k]? = some it → it.valueIteratedTo = (k + 1) * step - 1 ∧ SampleItem h l (runningTotal items k) it) ∧
      (items.map (·.countSinceLastIteration)).sum = numberAll l := by
  have W := R.wf
  have C := W.contents
  have hlen : h.len = numberAll l := H.len
  have htot : h.len ≤ U64MAX := W.tot
  obtain ⟨n, hn, -⟩ := C31_steps R hs
  have more : ∀ items' : M (List IterValue), h.iterLinear step (n + 1 + fuel) = items' → items' = .ok items := by
    intro items' e
    unfold Hist.iterLinear at hi e
    cases hst : h.linearNew step with
    | error e' => rw [hst] at hi; cases hi
    | ok s =>
      rw [hst, M.ok_bind] at hi e
      rw [← e]
      exact iterCollect_more _ _ hi (n + 1 + fuel) (by omega)
  have hok : ¬ (U64MAX + 1 < (n + 1) * step ∨
      (h.sigfig = 0 ∧ h.Covers U64MAX ∧ ∃ l, h.lowestEquivalent U64MAX = .ok l ∧ l < n * step)) := fun hbad =>
    nomatch more _ (C31_panic R hs hs64 hn hbad (fuel := n + 1 + fuel) (by omega))
  rw [not_or] at hok
  obtain ⟨items', h1, h2, h3, h4⟩ := C31_linear_partial R C hs hn (by omega) (fun hsig hcov l hl => by
    by_contra hlt
    exact hok.2 ⟨hsig, hcov, l, hl, by omega⟩)
  have e := more _ (h1 (n + 1 + fuel) (by omega))
  cases e
  refine ⟨fun k it hk => ⟨(h3 k it hk).value, ?_⟩, ?_⟩
  · refine H.byLevel W C (L := linLevel step) (fun k => linLevel_mono (Nat.le_succ k)) (fun k hk => ?_) (fun k it hk => ?_) k it hk
    · have h5 : linLevel step k ≤ linLevel step n := linLevel_mono (by omega)
      have h6 : linLevel step n = (n + 1) * step - 1 := rfl
      omega
    · have h5 := h3 k it hk
      have h6 : levelFrom (linLevel step) k = k * step := by
        cases k with
        | zero => simp [levelFrom]
        | succ k =>
          have : 0 < (k + 1) * step := by positivity
          simp only [levelFrom, linLevel]
          omega
      rw [h6]
      exact h5
  · rw [h4 (by rw [W.sum_classes C, H.sum W]; omega), W.sum_classes C, H.sum W]

/-- C84 (6): the items of `iter_log`. -/
theorem C84_log {h : Hist T} (R : Reachable fp T h) {l : List (Nat × Nat)} (H : Contains h l) {start : Nat} {b : F64}
    (hs : 0 < start) (hm : start ≤ U64MAX) (hv : b.Valid) (hb : F64.lt (.fin 1) b = true) :
    ∃ n items, LogSteps h start b n ∧ (∀ fuel, n < fuel → h.iterLog start b fuel = .ok items) ∧ items.length = n ∧
      (∀ k it, items[k]? = some it → it.valueIteratedTo = logLevel start b k ∧ SampleItem h l (runningTotal items k) it) ∧
      (items.map (·.countSinceLastIteration)).sum = numberAll l := by
  have W := R.wf
  have C := W.contents
  obtain ⟨n, items, h1, h2, h3, h4, h5⟩ := C32_log R C hs hm hv hb
  have hU : U64MAX = 18446744073709551615 := rfl
  have hlen : h.len = numberAll l := H.len
  have htot : h.len ≤ U64MAX := W.tot
  refine ⟨n, items, h1, h2, h3, fun k it hk => ⟨(h4 k it hk).value, ?_⟩, ?_⟩
  · exact H.byLevel W C (L := logLevel start b) (fun k => logLevel_mono hs hm hv hb (Nat.le_succ k))
      (fun k _ => by have := logLevel_le hm (b := b) k; omega) h4 k it hk
  · rw [h5 (by rw [W.sum_classes C, H.sum W]; omega), W.sum_classes C, H.sum W]

/-- the values shown, with the running totals -/
def shown (m : M (List IterValue)) : Option (List (Nat × Nat)) :=
  match m with
  | .ok items => some ((List.range items.length).map fun k => ((items.map (·.valueIteratedTo)).getD k 0, runningTotal items k))
  | .error _ => none

/-- instances: the samples 5 (three times), 9 (200 times) and 0 of `demo3` -/
example : shown (demo3.iterRecorded 10) = some [(0, 1), (7, 4), (15, 204)] := by decide +kernel
example : shown (demo3.iterLinear 8 100) = some [(7, 4), (15, 204)] := by decide +kernel
example : shown (demo3.iterLog 2 (.fin 2) 100) = some [(1, 1), (3, 1), (7, 4), (15, 204)] := by decide +kernel
example : shown (Hist.iterQuantiles floorLog2 demo3 1 100) = some [(0, 1), (15, 204), (15, 204)] := by decide +kernel

end Hdr
