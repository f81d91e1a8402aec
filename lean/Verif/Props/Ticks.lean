import Verif.Proofs.QuantileIter
import Verif.Spec.Ticks

/-!
# C33: iteration by quantiles
-/

namespace Hdr

variable {T : CounterTy} {fp : Fp} {lg : F64 → Nat}

/-- C33 (1): for every non-empty histogram and every tick count (a nonzero `u32`), `iter_quantiles` ends without a panic,
and its items are as described by `QuantileRun`. -/
theorem C33_run {h : Hist T} (R : Reachable fp T h) (hne : h.len ≠ 0) {cs : List Cls} (C : Classes h cs)
    (L : Log2Law lg) {t : Nat} (ht : 0 < t) (ht32 : t < 2 ^ 32) :
    ∃ items, (∀ fuel, 2 ^ 53 + 2 ≤ fuel → Hist.iterQuantiles lg h t fuel = .ok items) ∧
      QuantileRun h cs t 0 0 items := by
  obtain ⟨items, h1, h2⟩ := R.wf.iterQuantiles_ok L ht ht32 hne C le_rfl
  refine ⟨items, fun fuel hf => ?_, h2⟩
  unfold Hist.iterQuantiles at h1 ⊢
  cases hs : h.quantileNew t with
  | error e => rw [hs] at h1; cases h1
  | ok s =>
    rw [hs, M.ok_bind] at h1
    rw [M.ok_bind]
    exact iterCollect_more _ _ h1 _ hf

/-- however many `next` calls were allowed, a finished iteration gives these items -/
theorem quantile_items {h : Hist T} (R : Reachable fp T h) (hne : h.len ≠ 0) {cs : List Cls} (C : Classes h cs)
    (L : Log2Law lg) {t : Nat} (ht : 0 < t) (ht32 : t < 2 ^ 32) {fuel : Nat} {items : List IterValue}
    (hi : Hist.iterQuantiles lg h t fuel = .ok items) : QuantileRun h cs t 0 0 items := by
  obtain ⟨items', h1, h2⟩ := C33_run R hne C L ht ht32
  have e := h1 (2 ^ 53 + 2 + fuel) (by omega)
  unfold Hist.iterQuantiles at hi e
  cases hs : h.quantileNew t with
  | error e => rw [hs] at hi; cases hi
  | ok s =>
    rw [hs, M.ok_bind] at hi e
    have := iterCollect_more _ _ hi (2 ^ 53 + 2 + fuel) (by omega)
    rw [this] at e
    cases e
    exact h2

/-- every item of a run is for a class and a quantile not below `q` -/
theorem QuantileRun.items {h : Hist T} {cs : List Cls} {t from_ : Nat} {q : ℚ} {items : List IterValue}
    (r : QuantileRun h cs t from_ q items) (h1 : q ≤ 1) :
    ∀ it ∈ items, ∃ c ∈ cs, ∃ f x, QuantileItem h cs f c x it ∧ q ≤ x ∧ x ≤ 1 := by
  induction r with
  | short _ => simp
  | last hc hi hl =>
    intro it hit
    rw [List.mem_singleton] at hit
    subst hit
    exact ⟨_, hc, _, _, hi, h1, le_rfl⟩
  | step hc hi hlt hs hr ih =>
    intro it hit
    rcases List.mem_cons.mp hit with rfl | hit
    · exact ⟨_, hc, _, _, hi, le_rfl, h1⟩
    · obtain ⟨c, hc, f, x, hx, hle, hle1⟩ := ih hs.2.1 it hit
      exact ⟨c, hc, f, x, hx, le_trans hs.1.le hle, hle1⟩

/-- C33 (2): `quantile_iterated_to` starts at 0 or above and increases strictly, the values do not decrease, and the
fraction of samples up to each value is at least the quantile iterated to. -/
theorem C33_order {h : Hist T} (R : Reachable fp T h) (hne : h.len ≠ 0) (L : Log2Law lg) {t : Nat} (ht : 0 < t)
    (ht32 : t < 2 ^ 32) {fuel : Nat} {items : List IterValue} (hi : Hist.iterQuantiles lg h t fuel = .ok items) :
    items.Pairwise (fun a b => a.valueIteratedTo ≤ b.valueIteratedTo ∧
      F64.lt a.quantileIteratedTo b.quantileIteratedTo = true ∧ F64.le a.quantile b.quantile = true) ∧
    ∀ it ∈ items, F64.le (.fin 0) it.quantileIteratedTo = true ∧ F64.le it.quantileIteratedTo (.fin 1) = true ∧
      F64.le it.quantileIteratedTo it.quantile = true := by
  have W := R.wf
  have C := W.classes
  have hle : ∀ a b : ℚ, F64.le (.fin a) (.fin b) = true ↔ a ≤ b := by
    intro a b
    simp only [F64.le, F64.lt, F64.feq, Bool.or_eq_true, decide_eq_true_eq]
    exact le_iff_lt_or_eq.symm
  have r := quantile_items R hne C L ht ht32 hi
  constructor
  · have key : ∀ {cs : List Cls} {from_ : Nat} {q : ℚ} {items : List IterValue} (C : Classes h cs)
        (r : QuantileRun h cs t from_ q items), q ≤ 1 → items.Pairwise (fun a b => a.valueIteratedTo ≤ b.valueIteratedTo ∧
          F64.lt a.quantileIteratedTo b.quantileIteratedTo = true ∧ F64.le a.quantile b.quantile = true) := by
      intro cs from_ q items C r
      induction r with
      | short _ => exact fun _ => List.Pairwise.nil
      | last _ _ _ => exact fun _ => List.pairwise_singleton _ _
      | step hc hi hlt hs hr ih =>
        intro h1
        refine List.Pairwise.cons ?_ (ih hs.2.1)
        intro b hb
        obtain ⟨d, hd, f, x, hx, hle1, hle2⟩ := hr.items hs.2.1 b hb
        -- the class of the later item is not before that of the earlier one
        have hge : _ ≤ d.lo := le_of_not_gt fun hlo => by
          have h2 := hi.first d hd hx.filled hlo
          have h3 := hx.reached
          have h4 := hs.1
          linarith
        obtain ⟨i, hi1, rfl⟩ := (W.mem_classes C).mp hc
        obtain ⟨j, hj1, rfl⟩ := (W.mem_classes C).mp hd
        have hij : i ≤ j := by
          by_contra hji
          have := Lay.val_lt_val (um := h.unitMag) (m := h.subBucketHalfCountMag) (not_le.mp hji)
          exact absurd hge (not_le.mpr this)
        refine ⟨?_, ?_, ?_⟩
        · rw [hi.value, hx.value]
          rcases eq_or_lt_of_le hij with rfl | hij
          · exact le_rfl
          · have hsort := W.classes_sorted C
            rw [W.classes_unique C, List.pairwise_map, ] at hsort
            have := List.pairwise_iff_getElem.mp hsort i j (by simpa using hi1) (by simpa using hj1) hij
            simpa using this.2
        · rw [hi.quantileTo, hx.quantileTo]
          simp only [F64.lt, decide_eq_true_eq]
          exact lt_of_lt_of_le hs.1 hle1
        · rw [hi.quantile, hx.quantile, hle, W.fracUpTo_eq C hi1, W.fracUpTo_eq C hj1]
          exact Hist.frac_mono hij
    exact key C r (by norm_num)
  · intro it hit
    obtain ⟨c, hc, f, x, hx, h0, h1⟩ := r.items (by norm_num) it hit
    rw [hx.quantile, hx.quantileTo, hle, hle, hle]
    exact ⟨h0, h1, hx.reached⟩

/-- a run that does not stop short ends with quantile 1 -/
theorem QuantileRun.final {h : Hist T} {cs : List Cls} {t from_ : Nat} {q : ℚ} {items : List IterValue}
    (r : QuantileRun h cs t from_ q items) (hs : ∃ c ∈ cs, c.count ≠ 0 ∧ 1 ≤ fracUpTo h cs c) :
    ∃ it, items.getLast? = some it ∧ it.quantileIteratedTo = .fin 1 := by
  induction r with
  | short hshort =>
    obtain ⟨c, hc, h1, h2⟩ := hs
    exact absurd (hshort c hc h1) (not_lt.mpr h2)
  | last hc hi hl => exact ⟨_, rfl, hi.quantileTo⟩
  | step hc hi hlt hs' hr ih =>
    obtain ⟨it, h1, h2⟩ := ih
    refine ⟨it, ?_, h2⟩
    rw [List.getLast?_cons, h1]; rfl

/-- C33 (3): if `len()` is the (saturated) sum of the counts, as it is unless a counter has saturated, the last item is for
quantile 1.0.  Partial: `C33_refuted` shows that a saturated counter breaks this. -/
theorem C33_final_partial {h : Hist T} (R : Reachable fp T h) (hne : h.len ≠ 0) {cs : List Cls} (C : Classes h cs)
    (hl : h.len = min (cs.map (·.count)).sum U64MAX)
    (L : Log2Law lg) {t : Nat} (ht : 0 < t) (ht32 : t < 2 ^ 32) {fuel : Nat} {items : List IterValue}
    (hi : Hist.iterQuantiles lg h t fuel = .ok items) :
    ∃ it, items.getLast? = some it ∧ it.quantileIteratedTo = .fin 1 := by
  have W := R.wf
  refine (quantile_items R hne C L ht ht32 hi).final ?_
  rw [W.sum_classes C] at hl
  -- the last slot with samples
  have hpos : 0 < h.counts.sum := by
    by_contra h0
    have : h.counts.sum = 0 := by omega
    rw [this] at hl
    exact hne (by simpa using hl)
  have hex : ∃ j, h.counts.getD j 0 ≠ 0 := by
    by_contra hn
    have : h.counts.sum = 0 := by
      refine List.sum_eq_zero ?_
      intro n hmem
      obtain ⟨k, hk, rfl⟩ := List.getElem_of_mem hmem
      by_contra hne'
      refine hn ⟨k, ?_⟩
      rw [List.getD_eq_getElem?_getD, List.getElem?_eq_getElem hk]
      exact hne'
    omega
  have hmx : ∃ j, h.counts.getD j 0 ≠ 0 ∧ ∀ i, h.counts.getD i 0 ≠ 0 → i ≤ j := by
    have hb : ∀ i, h.counts.getD i 0 ≠ 0 → i ≤ h.lidx h.maxValue := W.trackMax
    classical
    refine ⟨Nat.findGreatest (fun i => h.counts.getD i 0 ≠ 0) (h.lidx h.maxValue), ?_, ?_⟩
    · obtain ⟨j, hj⟩ := hex
      exact Nat.findGreatest_spec (P := fun i => h.counts.getD i 0 ≠ 0) (hb j hj) hj
    · intro i hi
      exact Nat.le_findGreatest (hb i hi) hi
  obtain ⟨j, hj, hlast⟩ := hmx
  have hjl : j < h.counts.length := by
    by_contra hge
    refine hj ?_
    rw [List.getD_eq_getElem?_getD, List.getElem?_eq_none (by omega)]; rfl
  refine ⟨h.lcls j, (W.mem_classes C).mpr ⟨j, hjl, rfl⟩, hj, ?_⟩
  rw [W.fracUpTo_eq C hjl]
  have hall : (h.counts.take (j + 1)).sum = h.counts.sum := by
    have h1 : (h.counts.take (j + 1)).sum + (h.counts.drop (j + 1)).sum = h.counts.sum := by
      rw [← List.sum_append, List.take_append_drop]
    have h2 : (h.counts.drop (j + 1)).sum = 0 := by
      refine List.sum_eq_zero ?_
      intro n hmem
      obtain ⟨k, hk, rfl⟩ := List.getElem_of_mem hmem
      by_contra hne'
      rw [List.getElem_drop] at hne'
      have hk' : j + 1 + k < h.counts.length := by rw [List.length_drop] at hk; omega
      have := hlast (j + 1 + k) (by
        rw [List.getD_eq_getElem?_getD, List.getElem?_eq_getElem hk']
        exact hne')
      omega
    omega
  have htot : Min.min (h.counts.take (j + 1)).sum U64MAX = h.totalCount := by rw [hall]; exact hl.symm
  unfold Hist.frac
  rw [htot]
  have h1 : (1 : ℚ) ≤ F64.rndQ h.totalCount :=
    F64.one_le_rndQ (by exact_mod_cast Nat.pos_of_ne_zero (show h.totalCount ≠ 0 from hne))
  rw [div_self (by linarith), F64.rndQ_one]

/-- a function with the assumed property -/
def floorLog2 : F64 → Nat
  | .fin x => (Int.log 2 x).toNat
  | _ => 0

theorem floorLog2_law : Log2Law floorLog2 where
  ge k x h _ := by
    have h1 := Int.log_mono_right (b := 2) (show (0 : ℚ) < 2 ^ k by positivity) h
    have h2 := F64.log_zpow2 k
    rw [zpow_natCast] at h2
    simp only [floorLog2]
    omega
  le k x h1 h2 _ := by
    have h3 := F64.log_le (q := x) (by linarith)
    have h4 : (2 : ℚ) ^ Int.log 2 x < 2 ^ (k : ℤ) := by rw [zpow_natCast]; linarith
    have h5 := (zpow_lt_zpow_iff_right₀ (by norm_num : (1 : ℚ) < 2)).mp h4
    simp only [floorLog2]
    omega

/-- `demo3` (one sample 0, three 4 and 200 samples 9 of 204 in all) meets the hypotheses -/
example : Reachable Fp.ideal .u8 demo3 ∧ demo3.len ≠ 0 ∧ Classes demo3 demo3Classes ∧
    demo3.len = min (demo3Classes.map (·.count)).sum U64MAX ∧ Log2Law floorLog2 :=
  ⟨demo3_reachable, by decide, demo3_classes, by decide, floorLog2_law⟩

/-- With a saturated 8-bit counter (400 samples, of which 255 are counted) no item is for quantile 1.0. -/
theorem C33_refuted : Reachable Fp.ideal .u8 demoSat ∧ ∀ lg, Log2Law lg → ∀ t fuel items, 0 < t → t < 2 ^ 32 →
    Hist.iterQuantiles lg demoSat t fuel = .ok items → ∀ it ∈ items, it.quantileIteratedTo ≠ .fin 1 := by
  refine ⟨demoSat_reachable, ?_⟩
  intro lg L t fuel items ht ht32 hi it hit heq
  have W := demoSat_reachable.wf
  have r := quantile_items demoSat_reachable (by decide) W.classes L ht ht32 hi
  obtain ⟨c, hc, f, x, hx, -, -⟩ := r.items (by norm_num) it hit
  rw [hx.quantileTo] at heq
  have hx1 : x = 1 := by simpa using heq
  have hreach := hx.reached
  obtain ⟨j, hj, rfl⟩ := (W.mem_classes W.classes).mp hc
  rw [W.fracUpTo_eq W.classes hj, hx1] at hreach
  have hle : demoSat.frac j ≤ demoSat.frac 4 := Hist.frac_mono (by
    have : demoSat.counts.length = 5 := rfl
    omega)
  have h4 : demoSat.frac 4 < 1 := by
    unfold Hist.frac
    rw [show Min.min (demoSat.counts.take (4 + 1)).sum U64MAX = 255 by decide, show demoSat.totalCount = 400 from rfl,
      F64.rndQ_nat (by norm_num), F64.rndQ_nat (by norm_num)]
    have h1 : F64.rndQ ((255 : ℕ) / (400 : ℕ) : ℚ) ≤ F64.rndQ (3 / 4) := F64.rndQ_mono (by norm_num)
    rw [F64.rndQ_exact (q := 3 / 4) 3 (-2) (by norm_num) (by norm_num) (by norm_num)] at h1
    linarith
  linarith

end Hdr
