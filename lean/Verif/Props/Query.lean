import Verif.Props.Merge

/-!
# C24, C28, C29, C30: integer queries, equality, and the iterators over all and over recorded classes
-/

namespace Hdr

variable {T : CounterTy} {fp : Fp}

/-! ## C24 -/

theorem countBetweenLoop_eq (h : Hist T) (is : List Nat) (hi : ∀ i ∈ is, i < h.counts.length) (t : Nat)
    (ht : t ≤ U64MAX) :
    h.countBetweenLoop is t = .ok (min (t + (is.map fun i => h.counts.getD i 0).sum) U64MAX) := by
  induction is generalizing t with
  | nil => unfold Hist.countBetweenLoop; simp; omega
  | cons i is ih =>
    unfold Hist.countBetweenLoop
    rw [WF.countAtIndex (hi i (by simp)), expectM_some, M.ok_bind]
    have hs : Hdr.satAdd t (h.counts.getD i 0) = min (t + h.counts.getD i 0) U64MAX := rfl
    rw [ih (fun k hk => hi k (by simp [hk])) _ (by omega), hs, List.map_cons, List.sum_cons]
    congr 1; omega

theorem WF.countBetween_eq {h : Hist T} (W : WF fp h) {lo hi : Nat} (hlo : lo ≤ U64MAX) (hhi : hi ≤ U64MAX) :
    h.countBetween lo hi = .ok (min (((List.range h.counts.length).filter fun i =>
      decide (min (h.lidx lo) (h.counts.length - 1) ≤ i ∧ i ≤ min (h.lidx hi) (h.counts.length - 1))).map
        fun i => h.counts.getD i 0).sum U64MAX) := by
  have hp := W.len_pos
  have hs := W.len_small
  unfold Hist.countBetween
  rw [indexForOrLast_eq W.toLayoutOK hlo W.counts_ne, M.ok_bind, indexForOrLast_eq W.toLayoutOK hhi W.counts_ne,
    M.ok_bind, if_pos (by omega), expectM_some, M.ok_bind]
  rw [countBetweenLoop_eq]
  · congr 1
    rw [Nat.zero_add]
    congr 3
    generalize min (h.lidx lo) (h.counts.length - 1) = a
    generalize hb : min (h.lidx hi) (h.counts.length - 1) = b
    have hb' : b < h.counts.length := by omega
    apply List.Perm.eq_of_pairwise (le := (· < ·))
    · intro a b _ _ h1 h2; omega
    · exact List.pairwise_lt_range'
    · exact (List.pairwise_lt_range).filter _
    · rw [List.perm_ext_iff_of_nodup List.nodup_range' ((List.nodup_range).filter _)]
      intro i
      rw [List.mem_range'_1, List.mem_filter, List.mem_range, decide_eq_true_iff]
      omega
  · intro i hi
    rw [List.mem_range'_1] at hi
    omega
  · decide

/-- C24: `count_between(lo, hi)` never panics; it is the saturating sum of the counts of the classes from that of `lo`
(start `L`; the last class if `lo` is not covered) through that of `hi`. -/
theorem C24_count_between {h : Hist T} (R : Reachable fp T h) {cs : List Cls} (C : Classes h cs) {lo hi : Nat}
    (hlo : lo ≤ U64MAX) (hhi : hi ≤ U64MAX) :
    ∃ L, (h.Covers lo ∧ h.lowestEquivalent lo = .ok L ∨ ¬ h.Covers lo ∧ L ∈ h.classStarts ∧ ∀ w ∈ h.classStarts, w ≤ L) ∧
      h.countBetween lo hi
        = .ok (min ((cs.filter fun c => decide (L ≤ c.lo ∧ c.lo ≤ hi)).map (·.count)).sum U64MAX) := by
  have W := R.wf
  have hp := W.len_pos
  rw [W.countBetween_eq hlo hhi, W.classes_unique C]
  have hidx : ∀ i, h.lidx (h.lval i) = i := fun i => Lay.idx_val
  have hle : ∀ i v, h.lval i ≤ v ↔ i ≤ h.lidx v := fun i v => Lay.val_le_iff
  have hmono : ∀ i j, h.lval i ≤ h.lval j ↔ i ≤ j := fun i j => by rw [hle, hidx]
  refine ⟨h.lval (min (h.lidx lo) (h.counts.length - 1)), ?_, ?_⟩
  · rw [W.covers_iff, W.classStarts_eq]
    by_cases hc : h.lidx lo < h.counts.length
    · left
      refine ⟨hc, ?_⟩
      rw [lowestEquivalent_eq W.toLayoutOK hlo, Nat.min_eq_left (by omega)]
      congr 1
      exact (Lay.val_idx).symm
    · right
      rw [Nat.min_eq_right (by omega)]
      refine ⟨hc, List.mem_map.mpr ⟨_, List.mem_range.mpr (by omega), rfl⟩, ?_⟩
      intro w hw
      rw [List.mem_map] at hw
      obtain ⟨i, hi, rfl⟩ := hw
      rw [List.mem_range] at hi
      exact (hmono _ _).mpr (by omega)
  · congr 3
    rw [List.filter_map, List.map_map]
    congr 1
    apply List.filter_congr
    intro i hi
    rw [List.mem_range] at hi
    have e1 : (h.lcls i).lo = h.lval i := rfl
    simp only [Function.comp, e1]
    rw [decide_eq_decide, hmono, hle]
    omega

/-- C24: a one-point range is `count_at` -/
theorem C24_point {h : Hist T} (R : Reachable fp T h) {v : Nat} (hv : v ≤ U64MAX) :
    h.countBetween v v = h.countAt v := by
  have W := R.wf
  have hp := W.len_pos
  rw [W.countBetween_eq hv hv, W.countAt_eq hv]
  congr 1
  generalize hk : min (h.lidx v) (h.counts.length - 1) = k
  have hk' : k < h.counts.length := by omega
  have : (List.range h.counts.length).filter (fun i => decide (k ≤ i ∧ i ≤ k)) = [k] := by
    apply List.Perm.eq_of_pairwise (le := (· < ·))
    · intro a b _ _ h1 h2; omega
    · exact (List.pairwise_lt_range).filter _
    · exact List.pairwise_singleton _ _
    · rw [List.perm_ext_iff_of_nodup ((List.nodup_range).filter _) (by simp)]
      intro i
      rw [List.mem_filter, List.mem_range, decide_eq_true_iff, List.mem_singleton]
      omega
  rw [this, List.map_cons, List.map_nil, List.sum_cons, List.sum_nil]
  have := W.getD_le k
  have : T.max ≤ U64MAX := by cases T <;> decide
  omega

/-- C24: an inverted range is empty -/
theorem C24_inverted {h : Hist T} (R : Reachable fp T h) {lo hi : Nat} (hlo : lo ≤ U64MAX) (hlt : hi < lo)
    (hc : h.Covers lo) (hne : ¬ Equiv h lo hi) : h.countBetween lo hi = .ok 0 := by
  have W := R.wf
  rw [W.countBetween_eq hlo (by omega)]
  rw [W.covers_iff] at hc
  rw [W.equiv_iff hlo (by omega)] at hne
  have h1 : h.lidx hi ≤ h.lidx lo := Lay.idx_mono hlt.le
  have : (List.range h.counts.length).filter (fun i =>
      decide (min (h.lidx lo) (h.counts.length - 1) ≤ i ∧ i ≤ min (h.lidx hi) (h.counts.length - 1))) = [] := by
    rw [List.filter_eq_nil_iff]
    intro i _
    rw [decide_eq_true_iff]
    omega
  rw [this]
  rfl

/-- C24: the whole range gives all counts -/
theorem C24_whole {h : Hist T} (R : Reachable fp T h) : h.countBetween 0 U64MAX = .ok (min h.counts.sum U64MAX) := by
  have W := R.wf
  have hp := W.len_pos
  rw [W.countBetween_eq (by decide) le_rfl]
  have h0 : h.lidx 0 = 0 := Lay.idx_zero
  have htop : h.counts.length - 1 ≤ h.lidx U64MAX := by
    have h1 := W.maxcov
    have h2 : h.lval (h.counts.length - 1) ≤ U64MAX := W.lval_le' (by omega)
    have h3 : h.lidx (h.lval (h.counts.length - 1)) ≤ h.lidx U64MAX := Lay.idx_mono h2
    have h4 : h.lidx (h.lval (h.counts.length - 1)) = h.counts.length - 1 := Lay.idx_val
    omega
  have : (List.range h.counts.length).filter (fun i =>
      decide (min (h.lidx 0) (h.counts.length - 1) ≤ i ∧ i ≤ min (h.lidx U64MAX) (h.counts.length - 1)))
      = List.range h.counts.length := by
    rw [List.filter_eq_self]
    intro i hi
    rw [List.mem_range] at hi
    rw [decide_eq_true_iff]
    omega
  rw [this, sum_range_getD]

example : demo3.countBetween 4 12 = .ok 203 ∧ demo3.countBetween 6 6 = demo3.countAt 6
    ∧ demo3.countBetween 9 4 = .ok 0 ∧ demo3.countBetween 1000 2000 = .ok 200 := by decide +kernel

/-! ## C28 -/

theorem eqCounts_iff (a b : List Nat) : Hist.eqCounts a b = true ↔ a <+: b := by
  induction a generalizing b with
  | nil => simp [Hist.eqCounts]
  | cons x xs ih =>
    cases b with
    | nil => simp [Hist.eqCounts]
    | cons y ys =>
      simp only [Hist.eqCounts, Bool.and_eq_true, beq_iff_eq, ih, List.cons_prefix_cons]

theorem prefix_iff_getD (a b : List Nat) :
    a <+: b ↔ a.length ≤ b.length ∧ ∀ i, i < a.length → b.getD i 0 = a.getD i 0 := by
  constructor
  · rintro ⟨c, rfl⟩
    refine ⟨by simp, fun i hi => ?_⟩
    simp only [List.getD_eq_getElem?_getD, List.getElem?_append_left hi]
  · rintro ⟨h1, h2⟩
    rw [List.prefix_iff_eq_take]
    apply List.ext_getElem
    · simp [h1]
    · intro i h3 h4
      have := h2 i h3
      rw [List.getD_eq_getElem?_getD, List.getD_eq_getElem?_getD, List.getElem?_eq_getElem h3,
        List.getElem?_eq_getElem (by omega)] at this
      simpa using this.symm

theorem WF.eq_spec {h s : Hist T} (W : WF fp h) (Ws : WF fp s) :
    ∃ b, h.eq s = .ok b ∧ (b = true ↔ h.low = s.low ∧ h.sigfig = s.sigfig ∧ h.len = s.len ∧ h.lmax = s.lmax
      ∧ h.lminNz = s.lminNz ∧ h.counts <+: s.counts) := by
  unfold Hist.eq Hist.low Hist.sigfig Hist.len
  by_cases h1 : h.lowestDiscernible ≠ s.lowestDiscernible ∨ h.sigDigits ≠ s.sigDigits
  · rw [if_pos h1]; exact ⟨false, rfl, by simp; tauto⟩
  rw [if_neg h1]
  by_cases h2 : h.totalCount ≠ s.totalCount
  · rw [if_pos h2]; exact ⟨false, rfl, by simp; tauto⟩
  rw [if_neg h2]
  simp only [M.pure_eq, M.ok_bind, W.max_eq, Ws.max_eq, W.minNz_eq, Ws.minNz_eq]
  by_cases h3 : h.lmax ≠ s.lmax
  · rw [if_pos h3]; exact ⟨false, rfl, by simp; tauto⟩
  rw [if_neg h3]
  by_cases h4 : h.lminNz ≠ s.lminNz
  · rw [if_pos h4]; exact ⟨false, rfl, by simp; tauto⟩
  rw [if_neg h4]
  refine ⟨_, rfl, ?_⟩
  rw [eqCounts_iff]
  tauto

theorem WF.prefix_iff {h s : Hist T} (W : WF fp h) (Ws : WF fp s) (hl : h.low = s.low) (hg : h.sigfig = s.sigfig) :
    h.counts <+: s.counts ↔ ∀ v, v ≤ U64MAX → h.Covers v → s.Covers v ∧ s.countAt v = h.countAt v := by
  obtain ⟨hum, hmag⟩ := W.same_layout Ws hl hg
  have hidx : ∀ v, s.lidx v = h.lidx v := fun v => by unfold Hist.lidx; rw [hum, hmag]
  rw [prefix_iff_getD]
  constructor
  · rintro ⟨h1, h2⟩ v hv hc
    rw [W.covers_iff] at hc
    rw [Ws.covers_iff, hidx, W.countAt_eq hv, Ws.countAt_eq hv, hidx]
    refine ⟨by omega, ?_⟩
    rw [Nat.min_eq_left (by omega), Nat.min_eq_left (by omega), h2 _ hc]
  · intro H
    have key : ∀ i, i < h.counts.length → i < s.counts.length ∧ s.counts.getD i 0 = h.counts.getD i 0 := by
      intro i hi
      have hv := W.lval_le' hi
      have e1 : h.lidx (h.lval i) = i := Lay.idx_val
      have := H (h.lval i) hv (by rw [W.covers_iff, e1]; exact hi)
      rw [Ws.covers_iff, hidx, e1, W.countAt_eq hv, Ws.countAt_eq hv, hidx, e1] at this
      obtain ⟨h3, h4⟩ := this
      rw [Nat.min_eq_left (by omega), Nat.min_eq_left (by omega)] at h4
      exact ⟨h3, by injection h4⟩
    refine ⟨?_, fun i hi => (key i hi).2⟩
    by_contra hc
    have := (key s.counts.length (by omega)).1
    omega

/-- C28 (1): `==` never panics and is true exactly when `low`, `sigfig`, `len`, `max`, `min_nz` agree and every class
the left operand covers is covered by the right one with the same count. -/
theorem C28_eq_iff {h s : Hist T} (R : Reachable fp T h) (Rs : Reachable fp T s) :
    ∃ b, h.eq s = .ok b ∧ (b = true ↔ h.low = s.low ∧ h.sigfig = s.sigfig ∧ h.len = s.len ∧ h.max = s.max
      ∧ h.minNz = s.minNz ∧ ∀ v, v ≤ U64MAX → h.Covers v → s.Covers v ∧ s.countAt v = h.countAt v) := by
  have W := R.wf
  have Ws := Rs.wf
  obtain ⟨b, e, hb⟩ := W.eq_spec Ws
  refine ⟨b, e, hb.trans ?_⟩
  rw [W.max_eq, Ws.max_eq, W.minNz_eq, Ws.minNz_eq]
  simp only [Except.ok.injEq]
  constructor
  · rintro ⟨h1, h2, h3, h4, h5, h6⟩
    exact ⟨h1, h2, h3, h4, h5, (W.prefix_iff Ws h1 h2).mp h6⟩
  · rintro ⟨h1, h2, h3, h4, h5, h6⟩
    exact ⟨h1, h2, h3, h4, h5, (W.prefix_iff Ws h1 h2).mpr h6⟩

/-- C28 (2): every histogram equals itself. -/
theorem C28_eq_refl {h : Hist T} (R : Reachable fp T h) : h.eq h = .ok true := by
  obtain ⟨b, e, hb⟩ := R.wf.eq_spec R.wf
  rw [e, hb.mpr ⟨rfl, rfl, rfl, rfl, rfl, List.prefix_rfl⟩]

/-- C28 (3): equal histograms hold the same number of samples in the class of every value, whatever their
histories and ranges. -/
theorem C28_eq_counts {h s : Hist T} (R : Reachable fp T h) (Rs : Reachable fp T s) (e : h.eq s = .ok true) {v n : Nat}
    (hv : v ≤ U64MAX) : HasCount h v n ↔ HasCount s v n := by
  have W := R.wf
  have Ws := Rs.wf
  obtain ⟨b, e1, hb⟩ := W.eq_spec Ws
  rw [e] at e1; cases e1
  obtain ⟨h1, h2, -, h4, -, h6⟩ := hb.mp rfl
  obtain ⟨hum, hmag⟩ := W.same_layout Ws h1 h2
  have hidx : ∀ v, s.lidx v = h.lidx v := fun v => by unfold Hist.lidx; rw [hum, hmag]
  rw [W.hasCount_iff hv, Ws.hasCount_iff hv, hidx]
  obtain ⟨h7, h8⟩ := (prefix_iff_getD _ _).mp h6
  by_cases hc : h.lidx v < h.counts.length
  · rw [h8 _ hc]
  · have hz : s.counts.getD (h.lidx v) 0 = 0 := by
      by_contra hne
      have a1 := Ws.trackMax _ hne
      rw [← Ws.lidx_lmax, ← h4, hidx, W.lidx_lmax] at a1
      have := W.maxcov
      omega
    rw [getD_ge (by omega), hz]

example : ∃ h', (demo3.auto true).recordN 4 0 = .ok (h', .ok ()) ∧ demo3.eq h' = .ok true :=
  okThen (by decide +kernel)

/-- `==` is not symmetric: of two histograms with equal content but different ranges only one compares equal to the
other (here the longer one has grown for a value that was later reset away). -/
theorem C28_not_symmetric :
    ∃ h', ((demo.auto true).recordN 1000 1 >>= fun p => p.1.reset.recordN 3 1) = .ok (h', .ok ()) ∧
      (∃ g, demo.recordN 3 1 = .ok (g, .ok ()) ∧ g.eq h' = .ok true ∧ h'.eq g = .ok false) := by
  obtain ⟨h', e, hh⟩ : ∃ h', ((demo.auto true).recordN 1000 1 >>= fun p => p.1.reset.recordN 3 1) = .ok (h', .ok ()) ∧
      (Hist.eq { demo with maxValue := 3, minNonZero := 3, totalCount := 1, counts := [0, 0, 1, 0, 0] } h' = .ok true ∧
       h'.eq { demo with maxValue := 3, minNonZero := 3, totalCount := 1, counts := [0, 0, 1, 0, 0] } = .ok false) :=
    okThen (by decide +kernel)
  exact ⟨h', e, _, by decide +kernel, hh.1, hh.2⟩

/-! ## C29 -/

theorem WF.lhi_lval_lt {h : Hist T} (W : WF fp h) {i j : Nat} (hij : i < j) (hj : j < h.counts.length) :
    h.lhi (h.lval i) < h.lhi (h.lval j) := by
  have h1 := W.lval_le' hj
  have h2 := W.lval_le' (lt_trans hij hj)
  by_contra hc
  have : h.lidx (h.lhi (h.lval j)) ≤ h.lidx (h.lhi (h.lval i)) := Lay.idx_mono (Nat.le_of_not_lt hc)
  rw [lidx_lhi h1, lidx_lhi h2] at this
  have e1 : h.lidx (h.lval i) = i := Lay.idx_val
  have e2 : h.lidx (h.lval j) = j := Lay.idx_val
  omega

/-- what one item of an iterator over single classes says about class `c` when all counts up to it sum to `upTo` -/
def IterValue.OfClass (h : Hist T) (c : Cls) (upTo : Nat) (v : IterValue) : Prop :=
  v.valueIteratedTo = c.hi ∧ v.countAtValue = c.count ∧ v.countSinceLastIteration = c.count ∧
    v.quantile = F64.div (F64.ofNat (min upTo U64MAX)) (F64.ofNat h.len) ∧ v.quantileIteratedTo = v.quantile

/-- sum of the counts of the classes up to and including `c` -/
def Cls.upTo (cs : List Cls) (c : Cls) : Nat := ((cs.filter fun d => decide (d.lo ≤ c.lo)).map (·.count)).sum

theorem upTo_eq (h : Hist T) {i n : Nat} (hi : i < n) :
    Cls.upTo ((List.range n).map h.lcls) (h.lcls i) = ((List.range (i + 1)).map fun k => h.counts.getD k 0).sum := by
  unfold Cls.upTo
  rw [List.filter_map, List.map_map]
  have : (List.range n).filter ((fun d : Cls => decide (d.lo ≤ (h.lcls i).lo)) ∘ h.lcls) = List.range (i + 1) := by
    apply List.Perm.eq_of_pairwise (le := (· < ·))
    · intro a b _ _ h1 h2; omega
    · exact (List.pairwise_lt_range).filter _
    · exact List.pairwise_lt_range
    · rw [List.perm_ext_iff_of_nodup ((List.nodup_range).filter _) List.nodup_range]
      intro k
      rw [List.mem_filter, List.mem_range, List.mem_range]
      simp only [Function.comp, decide_eq_true_eq]
      have e1 : (h.lcls k).lo ≤ (h.lcls i).lo ↔ k ≤ i := by
        change h.lval k ≤ h.lval i ↔ _
        rw [show h.lval k ≤ h.lval i ↔ k ≤ h.lidx (h.lval i) from Lay.val_le_iff,
          show h.lidx (h.lval i) = i from Lay.idx_val]
      rw [e1]; omega
  rw [this]; rfl

theorem slotValue_ofClass {h : Hist T} {i n tot since : Nat} (hi : i < n)
    (ht : tot = min ((List.range (i + 1)).map fun k => h.counts.getD k 0).sum U64MAX)
    (hs : since = h.counts.getD i 0) :
    (h.slotValue i tot since).OfClass h (h.lcls i) (Cls.upTo ((List.range n).map h.lcls) (h.lcls i)) := by
  rw [upTo_eq h hi]
  refine ⟨rfl, rfl, hs, ?_, rfl⟩
  unfold Hist.slotValue
  simp only
  rw [ht]
  rfl

theorem satAdd_zero_count {h : Hist T} (W : WF fp h) (i : Nat) :
    Hdr.satAdd 0 (h.counts.getD i 0) = h.counts.getD i 0 := by
  have := W.getD_le i
  have : T.max ≤ U64MAX := by cases T <;> decide
  unfold Hdr.satAdd
  omega

theorem recItems_forall₂ {h : Hist T} (W : WF fp h) (l : List Nat) (i tot : Nat) (hl : l = h.counts.drop i)
    (ht : tot = min ((List.range i).map fun k => h.counts.getD k 0).sum U64MAX) :
    List.Forall₂ (fun c v => v.OfClass h c (Cls.upTo ((List.range h.counts.length).map h.lcls) c))
      (((List.range' i l.length).map h.lcls).filter fun c => decide (c.count ≠ 0)) (h.recItems l i tot) := by
  induction l generalizing i tot with
  | nil => exact List.Forall₂.nil
  | cons c l ih =>
    obtain ⟨h1, h2, h3⟩ := getD_of_drop hl.symm
    have ht' : Hdr.satAdd tot c = min ((List.range (i + 1)).map fun k => h.counts.getD k 0).sum U64MAX := by
      rw [List.range_succ, List.map_append, List.sum_append, ht, List.map_cons, List.map_nil, List.sum_cons,
        List.sum_nil, h2]
      unfold Hdr.satAdd
      omega
    have ih' := ih (i + 1) (Hdr.satAdd tot c) h3.symm ht'
    rw [List.length_cons, List.range'_succ, List.map_cons, List.filter_cons]
    unfold Hist.recItems
    have hlc : (h.lcls i).count = c := h2
    by_cases h0 : c = 0
    · rw [if_neg (by rw [hlc]; simpa using h0), if_neg (by simpa using h0)]
      exact ih'
    · rw [if_pos (by rw [hlc]; simpa using h0), if_pos h0]
      refine List.Forall₂.cons (slotValue_ofClass h1 ht' ?_) ih'
      rw [← h2]; exact satAdd_zero_count W i

theorem allItems_forall₂ {h : Hist T} (W : WF fp h) (l : List Nat) (i tot : Nat) (hl : l = h.counts.drop i)
    (ht : tot = min ((List.range i).map fun k => h.counts.getD k 0).sum U64MAX) :
    List.Forall₂ (fun c v => v.OfClass h c (Cls.upTo ((List.range h.counts.length).map h.lcls) c))
      ((List.range' i l.length).map h.lcls) (h.allItems l i tot) := by
  induction l generalizing i tot with
  | nil => exact List.Forall₂.nil
  | cons c l ih =>
    obtain ⟨h1, h2, h3⟩ := getD_of_drop hl.symm
    have ht' : Hdr.satAdd tot c = min ((List.range (i + 1)).map fun k => h.counts.getD k 0).sum U64MAX := by
      rw [List.range_succ, List.map_append, List.sum_append, ht, List.map_cons, List.map_nil, List.sum_cons,
        List.sum_nil, h2]
      unfold Hdr.satAdd
      omega
    have ih' := ih (i + 1) (Hdr.satAdd tot c) h3.symm ht'
    rw [List.length_cons, List.range'_succ, List.map_cons]
    unfold Hist.allItems
    refine List.Forall₂.cons (slotValue_ofClass h1 ht' ?_) ih'
    rw [← h2]; exact satAdd_zero_count W i

/-- C29: `iter_recorded()` never panics and terminates; its items are, one for one and in ascending order, the classes
with a non-zero count, each reported with its highest value, its count (also as count since the last item) and the
fraction of all samples up to it; the values are strictly ascending. -/
theorem C29_iter_recorded {h : Hist T} (R : Reachable fp T h) {cs : List Cls} (C : Classes h cs) :
    ∃ items, (∀ fuel, h.distinctValues < fuel → h.iterRecorded fuel = .ok items) ∧
      List.Forall₂ (fun c v => v.OfClass h c (Cls.upTo cs c)) (cs.filter fun c => decide (c.count ≠ 0)) items ∧
      items.Pairwise (fun a b => a.valueIteratedTo < b.valueIteratedTo) := by
  have W := R.wf
  have e := W.classes_unique C
  refine ⟨_, fun fuel hf => W.iterRecorded_eq hf, ?_, ?_⟩
  · have := recItems_forall₂ W h.counts 0 0 (by simp) (by simp)
    rw [← List.range_eq_range'] at this
    rw [e]; exact this
  · have hz := W.recItems_classes C
    have hp : ((h.recItems h.counts 0 0).map fun v => (v.valueIteratedTo, v.countAtValue)).Pairwise
        (fun a b => a.1 < b.1) := by
      rw [hz, e]
      unfold Cls.nonempty
      rw [List.pairwise_map]
      apply List.Pairwise.filter
      rw [List.pairwise_map]
      apply List.Pairwise.imp_of_mem _ List.pairwise_lt_range
      intro a b _ hb hab
      exact W.lhi_lval_lt hab (List.mem_range.mp hb)
    rw [List.pairwise_map] at hp
    exact hp

/-- C30: `iter_all()` never panics and terminates; its items are, one for one and in ascending order, all classes. In
particular the counts since the last item sum to the sum of all counts. -/
theorem C30_iter_all {h : Hist T} (R : Reachable fp T h) {cs : List Cls} (C : Classes h cs) :
    ∃ items, (∀ fuel, h.distinctValues < fuel → h.iterAll fuel = .ok items) ∧
      List.Forall₂ (fun c v => v.OfClass h c (Cls.upTo cs c)) cs items ∧
      (items.map (·.countSinceLastIteration)).sum = (cs.map (·.count)).sum := by
  have W := R.wf
  have e := W.classes_unique C
  have hF : List.Forall₂ (fun c v => v.OfClass h c (Cls.upTo cs c)) cs (h.allItems h.counts 0 0) := by
    have := allItems_forall₂ W h.counts 0 0 (by simp) (by simp)
    rw [← List.range_eq_range'] at this
    rw [e]; exact this
  refine ⟨_, fun fuel hf => W.iterAll_eq hf, hF, ?_⟩
  generalize h.allItems h.counts 0 0 = items at hF
  have : ∀ (f : Cls → Nat) (a : List Cls) (b : List IterValue),
      List.Forall₂ (fun c v => IterValue.OfClass h c (f c) v) a b →
        (b.map (·.countSinceLastIteration)).sum = (a.map (·.count)).sum := by
    intro f a b hab
    induction hab with
    | nil => rfl
    | cons hv _ ih => simp only [List.map_cons, List.sum_cons, ih, hv.2.2.1]
  exact this _ _ _ hF

example : (demo3.iterRecorded 6).toOption.map (·.map fun v => (v.valueIteratedTo, v.countAtValue))
    = some [(0, 1), (7, 3), (15, 200)] := by decide +kernel
example : (demo3.iterAll 6).toOption.map (·.map fun v => (v.valueIteratedTo, v.countSinceLastIteration))
    = some [(0, 1), (1, 0), (3, 0), (7, 3), (15, 200)] := by decide +kernel

end Hdr
