import Verif.Props.SubtractStats

/-!
# C115: the statistics after `add`, and when `subtract` undoes `add` completely
-/

namespace Hdr

variable {T : CounterTy} {fp : Fp}

/-! ### exact statistics, by slots -/

private theorem lastNz_unique {l : List Nat} {b : Nat} (hb : l.getD b 0 ≠ 0) (hm : ∀ k, l.getD k 0 ≠ 0 → k ≤ b) :
    lastNz l 0 = some b := by
  have h1 := lastNz_spec l 0
  cases e : lastNz l 0 with
  | none => rw [e] at h1; exact absurd (h1 b) hb
  | some j =>
    rw [e] at h1
    obtain ⟨-, -, h2, h3⟩ := h1
    rw [Nat.sub_zero] at h2
    have := h3 b hb
    have := hm j h2
    congr 1
    omega

private theorem firstNz_unique {l : List Nat} {b : Nat} (hb0 : b ≠ 0) (hb : l.getD b 0 ≠ 0)
    (hm : ∀ k, k ≠ 0 → l.getD k 0 ≠ 0 → b ≤ k) : firstNz l 0 = some b := by
  have h1 := firstNz_spec l 0
  cases e : firstNz l 0 with
  | none => rw [e] at h1; exact absurd (h1 b (by omega)) hb
  | some j =>
    rw [e] at h1
    obtain ⟨-, hj0, -, h2, h3⟩ := h1
    rw [Nat.sub_zero] at h2
    have := h3 b (by omega) hb
    have := hm j hj0 h2
    congr 1
    omega

/-- `a` is the first, `b` the last non-empty slot, and the statistics are exact -/
private structure Ends (h : Hist T) (a b : Nat) : Prop where
  tot : h.totalCount = min h.counts.sum U64MAX
  ha : h.counts.getD a 0 ≠ 0
  hb : h.counts.getD b 0 ≠ 0
  low : ∀ k, h.counts.getD k 0 ≠ 0 → a ≤ k
  high : ∀ k, h.counts.getD k 0 ≠ 0 → k ≤ b
  min : h.min = .ok (h.lval a)
  max : h.lmax = h.lhi (h.lval b)
  minNz : ((∀ k, k ≠ 0 → h.counts.getD k 0 = 0) ∧ h.lminNz = U64MAX) ∨
    ∃ c, c ≠ 0 ∧ h.counts.getD c 0 ≠ 0 ∧ (∀ k, k ≠ 0 → h.counts.getD k 0 ≠ 0 → c ≤ k) ∧ h.lminNz = h.lval c

private theorem ends_of {h : Hist T} (W : WF fp h) {cs : List Cls} (C : Classes h cs) (X : ExactStats h cs)
    (h0 : h.totalCount ≠ 0) : ∃ a b, Ends h a b := by
  obtain ⟨x1, x2, x3⟩ := (W.exactStats_iff C).mp X
  have hl := lastNz_spec h.counts 0
  have hf := firstNz_spec h.counts 0
  have hv0 : h.lval 0 = 0 := by have := lval_ne_zero (h := h) (i := 0); simpa using this
  cases e : lastNz h.counts 0 with
  | none =>
    rw [e] at hl
    exfalso
    have : h.counts.sum = 0 := by
      apply List.sum_eq_zero
      intro x hx
      obtain ⟨i, hi, rfl⟩ := List.getElem_of_mem hx
      have := hl i
      simpa [List.getD, hi] using this
    omega
  | some b =>
    rw [e] at hl x2
    obtain ⟨-, -, hb, hl⟩ := hl
    rw [Nat.sub_zero] at hb
    have hmn := W.min_eq
    unfold Hist.scanMin at x3
    have hhigh : ∀ k, h.counts.getD k 0 ≠ 0 → k ≤ b := fun k hk => by have := hl k hk; omega
    cases e1 : firstNz h.counts 0 with
    | none =>
      rw [e1] at hf x3
      have hz : ∀ k, k ≠ 0 → h.counts.getD k 0 = 0 := fun k hk => hf k (by omega)
      have hb0 : b = 0 := by by_contra hc; exact hb (hz b hc)
      subst hb0
      refine ⟨0, 0, x1, hb, hb, fun k _ => Nat.zero_le k, hhigh, ?_, x2, .inl ⟨hz, x3⟩⟩
      rw [hmn, if_pos (.inr hb), hv0]
    | some c =>
      rw [e1] at hf x3
      obtain ⟨-, hc0, -, hc, hf⟩ := hf
      rw [Nat.sub_zero] at hc
      have hcl : ∀ k, k ≠ 0 → h.counts.getD k 0 ≠ 0 → c ≤ k := fun k hk hn => by have := hf k (by omega) hn; omega
      by_cases hz : h.counts.getD 0 0 = 0
      · refine ⟨c, b, x1, hc, hb, fun k hk => hcl k (by rintro rfl; exact hk hz) hk, hhigh, ?_, x2, .inr ⟨c, hc0, hc, hcl, x3⟩⟩
        rw [hmn, if_neg (fun q => q.elim h0 fun q => q hz), x3]
      · refine ⟨0, b, x1, hz, hb, fun k _ => Nat.zero_le k, hhigh, ?_, x2, .inr ⟨c, hc0, hc, hcl, x3⟩⟩
        rw [hmn, if_pos (.inr hz), hv0]

private theorem Ends.exact {h : Hist T} (W : WF fp h) {cs : List Cls} (C : Classes h cs) {a b : Nat} (E : Ends h a b) :
    ExactStats h cs := by
  refine (W.exactStats_iff C).mpr ⟨E.tot, ?_, ?_⟩
  · rw [lastNz_unique E.hb E.high]; exact E.max
  · unfold Hist.scanMin
    rcases E.minNz with ⟨hz, hm⟩ | ⟨c, c0, c1, c2, hm⟩
    · have hf := firstNz_spec h.counts 0
      cases e : firstNz h.counts 0 with
      | none => exact hm
      | some j =>
        rw [e] at hf
        obtain ⟨-, hj0, -, hj, -⟩ := hf
        exact absurd (hz j hj0) (by simpa using hj)
    · rw [firstNz_unique c0 c1 c2]; exact hm

private theorem lhi_lval_le {h : Hist T} {i j : Nat} (hi : h.lval i ≤ U64MAX) (hj : h.lval j ≤ U64MAX) :
    h.lhi (h.lval i) ≤ h.lhi (h.lval j) ↔ i ≤ j := by
  have xi : h.lidx (h.lhi (h.lval i)) = i := by rw [lidx_lhi hi]; exact Lay.idx_val
  have xj : h.lidx (h.lhi (h.lval j)) = j := by rw [lidx_lhi hj]; exact Lay.idx_val
  constructor
  · intro q
    have : h.lidx (h.lhi (h.lval i)) ≤ h.lidx (h.lhi (h.lval j)) := Lay.idx_mono q
    omega
  · intro q
    by_contra hc
    have : h.lidx (h.lhi (h.lval j)) ≤ h.lidx (h.lhi (h.lval i)) := Lay.idx_mono (by omega)
    have : i = j := by omega
    subst this
    omega

private theorem lidx_pred_top {h : Hist T} (W : WF fp h) : h.lidx (U64MAX - 1) = h.lidx U64MAX := by
  refine Lay.idx_eq_iff.mpr ⟨?_, ?_⟩
  · have h3 := Lay.lo_add_wid_le (v := U64MAX) W.sum62 (by decide)
    have h4 : Lay.wid h.unitMag h.subBucketHalfCountMag U64MAX ≠ 1 := by
      unfold Lay.wid Lay.bkt
      rw [show Nat.log2 U64MAX = 63 by decide +kernel]
      have := W.sum62
      exact (Nat.one_lt_two_pow (by omega)).ne'
    have h5 : 0 < Lay.wid h.unitMag h.subBucketHalfCountMag U64MAX := Lay.wid_pos
    have hU : (2 : Nat) ^ 64 = U64MAX + 1 := by decide
    omega
  · have := Lay.lt_lo_add (um := h.unitMag) (m := h.subBucketHalfCountMag) (v := U64MAX)
    omega

private theorem ends_min {h : Hist T} (W : WF fp h) {a : Nat} (ha : h.counts.getD a 0 ≠ 0)
    (hlow : ∀ k, h.counts.getD k 0 ≠ 0 → a ≤ k)
    (hnz : ((∀ k, k ≠ 0 → h.counts.getD k 0 = 0) ∧ h.lminNz = U64MAX) ∨
      ∃ c, c ≠ 0 ∧ h.counts.getD c 0 ≠ 0 ∧ (∀ k, k ≠ 0 → h.counts.getD k 0 ≠ 0 → c ≤ k) ∧ h.lminNz = h.lval c) :
    h.min = .ok (h.lval a) := by
  have ht : h.totalCount ≠ 0 := fun q => ha (W.getD_zero_of_empty q _)
  have hv0 : h.lval 0 = 0 := by have := lval_ne_zero (h := h) (i := 0); simpa using this
  rw [W.min_eq]
  by_cases q : h.counts.getD 0 0 = 0
  · rw [if_neg (fun p => p.elim ht fun p => p q)]
    have hm0 : a ≠ 0 := fun p => ha (by rw [p]; exact q)
    rcases hnz with ⟨z, -⟩ | ⟨c, c0, c1, c2, m⟩
    · exact absurd (z _ hm0) ha
    · have x1 := c2 _ hm0 ha
      have x2 := hlow _ c1
      rw [m, show c = a by omega]
  · rw [if_pos (.inr q), show a = 0 by have := hlow 0 q; omega, hv0]

/-- the sum `h1` of `h` and `s`, no counter saturated -/
private structure Summed (h s h1 : Hist T) : Prop where
  lval : ∀ i, h1.lval i = h.lval i
  lvals : ∀ i, s.lval i = h.lval i
  lidx : ∀ i, h1.lidx i = h.lidx i
  lidxs : ∀ i, s.lidx i = h.lidx i
  lhi : ∀ i, h1.lhi i = h.lhi i
  lhis : ∀ i, s.lhi i = h.lhi i
  counts : ∀ k, h1.counts.getD k 0 = h.counts.getD k 0 + s.counts.getD k 0
  len : h1.counts.length = h.counts.length
  sum : h1.counts.sum = h.counts.sum + s.counts.sum

private theorem summed {h s h1 : Hist T} (R : Reachable fp T h) (Rs : Reachable fp T s) (S : SameSettings h s)
    (hmx : s.lidx s.lmax ≠ s.lidx U64MAX) (e : h.add s = .ok (h1, .ok ()))
    (hns : ∀ k, h.counts.getD k 0 + s.counts.getD k 0 ≤ T.max) : Summed h s h1 := by
  have W := R.wf
  have Ws := Rs.wf
  obtain ⟨s1, s2⟩ := W.same_layout Ws S.low S.sigfig
  obtain ⟨h', r, e', W1, hr⟩ := W.add_spec Ws
  rw [e'] at e; cases e
  have hnt : ¬ h.ltop < s.lmax := by
    rw [W.same_ltop Ws S.low S.high S.sigfig]
    intro q
    exact hmx (by rw [q])
  have hsum : (∀ k, h1.counts.getD k 0 = h.counts.getD k 0 + s.counts.getD k 0) → h1.counts.sum = h.counts.sum + s.counts.sum := by
    intro hk
    have x := fun (l : List Nat) => sum_getD_eq l (h1.counts.length + h.counts.length + s.counts.length)
    rw [← x h1.counts (by omega), ← x h.counts (by omega), ← x s.counts (by omega), ← List.sum_map_add]
    exact congrArg List.sum (List.map_congr_left fun k _ => hk k)
  have hls : ∀ i, s.lval i = h.lval i := fun i => by unfold Hist.lval; rw [s1, s2]
  have hlis : ∀ i, s.lidx i = h.lidx i := fun i => by unfold Hist.lidx; rw [s1, s2]
  have hlhs : ∀ i, s.lhi i = h.lhi i := fun i => by unfold Hist.lhi Hist.llo Hist.lwid; rw [s1, s2]
  rcases hr with ⟨h0, rfl⟩ | ⟨h0, -, c, hl, -, hc, -⟩
  · have hk : ∀ k, h1.counts.getD k 0 = h1.counts.getD k 0 + s.counts.getD k 0 := fun k => by
      rw [Ws.getD_zero_of_empty h0, Nat.add_zero]
    exact ⟨fun _ => rfl, hls, fun _ => rfl, hlis, fun _ => rfl, hlhs, hk, rfl, hsum hk⟩
  · have hg : h.addGrown s = h := by unfold Hist.addGrown; rw [if_neg hnt]
    rw [hg] at hl
    have hk : ∀ k, h1.counts.getD k 0 = h.counts.getD k 0 + s.counts.getD k 0 := fun k => by
      have h3 := hc k
      have h4 := hns k
      rw [moved_same s1 s2] at h3
      omega
    refine ⟨c.lval, hls, c.lidx, hlis, fun i => ?_, hlhs, hk, hl, hsum hk⟩
    unfold Hist.lhi Hist.llo Hist.lwid; rw [c.um, c.mag]

/-- counts that fit, by slots -/
private theorem fits {h s : Hist T} (W : WF fp h) (Ws : WF fp s) (S : SameSettings h s) {cs ss : List Cls} (C : Classes h cs)
    (Cs : Classes s ss) (hfit : ∀ c ∈ cs, ∀ d ∈ ss, c.lo = d.lo → c.count + d.count ≤ T.max) :
    ∀ k, h.counts.getD k 0 + s.counts.getD k 0 ≤ T.max := by
  intro k
  obtain ⟨s1, s2⟩ := W.same_layout Ws S.low S.sigfig
  by_cases hk : k < h.counts.length
  · by_cases hk' : k < s.counts.length
    · refine hfit (h.lcls k) ((W.mem_classes C).mpr ⟨k, hk, rfl⟩) (s.lcls k) ((Ws.mem_classes Cs).mpr ⟨k, hk', rfl⟩) ?_
      show h.lval k = s.lval k
      unfold Hist.lval
      rw [s1, s2]
    · rw [getD_ge (l := s.counts) (by omega), Nat.add_zero]
      exact W.getD_le k
  · rw [getD_ge (l := h.counts) (by omega), Nat.zero_add]
    exact Ws.getD_le k

private theorem ends_add {h s h1 : Hist T} (R : Reachable fp T h) (Rs : Reachable fp T s) (S : SameSettings h s)
    (e : h.add s = .ok (h1, .ok ())) (W1 : WF fp h1) (hmx : s.lidx s.lmax ≠ s.lidx U64MAX) (U : Summed h s h1)
    {a b a' b' : Nat} (E : Ends h a b) (F : Ends s a' b') : Ends h1 (min a a') (max b b') := by
  have W := R.wf
  have Ws := Rs.wf
  have hvb : h.lval b ≤ U64MAX := W.lval_le (by by_contra hc; exact E.hb (getD_ge (by omega)))
  have hvb' : h.lval b' ≤ U64MAX := by
    rw [← U.lvals]
    exact Ws.lval_le (by by_contra hc; exact F.hb (getD_ge (by omega)))
  have ht : h.totalCount ≠ 0 := fun q => E.ha (W.getD_zero_of_empty q a)
  have hts : s.totalCount ≠ 0 := fun q => F.ha (Ws.getD_zero_of_empty q a')
  have hne : s.lmax ≠ U64MAX := fun q => hmx (by rw [q])
  have hne' : s.lmax = U64MAX - 1 → h.highestEquivalent 0 = .ok 0 := fun q => by
    rw [q, lidx_pred_top Ws] at hmx
    exact absurd rfl hmx
  obtain ⟨h', e', -, k1, k2, k3, -, -, -⟩ := C17_add_same_partial R Rs S
    (.inl (by rw [Ws.max_eq]; intro q; exact hne (Except.ok.inj q)))
  rw [e] at e'; cases e'
  have k1 := k1 F.tot
  have k2 := k2 _ _ ht hts W.max_eq Ws.max_eq hne'
  have k3 := k3 _ _ ht hts W.minNz_eq Ws.minNz_eq
  rw [W1.max_eq] at k2
  rw [W1.minNz_eq] at k3
  have k2 := Except.ok.inj k2
  have k3 := Except.ok.inj k3
  have hT : h1.totalCount = min h1.counts.sum U64MAX := by
    have a1 : h1.totalCount = min (h.totalCount + s.totalCount) U64MAX := k1
    have a2 := E.tot
    have a3 := F.tot
    have a4 := U.sum
    omega
  have hlow : ∀ k, h1.counts.getD k 0 ≠ 0 → min a a' ≤ k := fun k hk => by
    rw [U.counts] at hk
    by_cases q : h.counts.getD k 0 = 0
    · have := F.low k (by omega); omega
    · have := E.low k q; omega
  have hhigh : ∀ k, h1.counts.getD k 0 ≠ 0 → k ≤ max b b' := fun k hk => by
    rw [U.counts] at hk
    by_cases q : h.counts.getD k 0 = 0
    · have := F.high k (by omega); omega
    · have := E.high k q; omega
  have hmin : h1.counts.getD (min a a') 0 ≠ 0 := by
    rw [U.counts]
    have := E.ha
    have := F.ha
    rcases le_total a a' with q | q
    · rw [Nat.min_eq_left q]; omega
    · rw [Nat.min_eq_right q]; omega
  have hmax : h1.counts.getD (max b b') 0 ≠ 0 := by
    rw [U.counts]
    have := E.hb
    have := F.hb
    rcases le_total b b' with q | q
    · rw [Nat.max_eq_right q]; omega
    · rw [Nat.max_eq_left q]; omega
  have hnz : ((∀ k, k ≠ 0 → h1.counts.getD k 0 = 0) ∧ h1.lminNz = U64MAX) ∨
      ∃ c, c ≠ 0 ∧ h1.counts.getD c 0 ≠ 0 ∧ (∀ k, k ≠ 0 → h1.counts.getD k 0 ≠ 0 → c ≤ k) ∧ h1.lminNz = h1.lval c := by
    simp only [U.lval, U.counts]
    rw [k3]
    rcases E.minNz with ⟨z, m⟩ | ⟨c, c0, c1, c2, m⟩ <;> rcases F.minNz with ⟨z', m'⟩ | ⟨c', c0', c1', c2', m'⟩
    · left
      rw [m, m']
      exact ⟨fun k hk => by rw [z k hk, z' k hk], Nat.min_self _⟩
    · right
      refine ⟨c', c0', by omega, fun k hk hn => c2' k hk (by have := z k hk; omega), ?_⟩
      have : s.lminNz ≤ U64MAX := lminNz_le Ws.minle
      rw [m, Nat.min_eq_right this, m', U.lvals]
    · right
      refine ⟨c, c0, by omega, fun k hk hn => c2 k hk (by have := z' k hk; omega), ?_⟩
      have : h.lminNz ≤ U64MAX := lminNz_le W.minle
      rw [m', Nat.min_eq_left this, m]
    · right
      have hl : ∀ k, k ≠ 0 → h.counts.getD k 0 + s.counts.getD k 0 ≠ 0 → min c c' ≤ k := fun k hk hn => by
        by_cases q : h.counts.getD k 0 = 0
        · have := c2' k hk (by omega); omega
        · have := c2 k hk q; omega
      rcases le_total c c' with q | q
      · rw [Nat.min_eq_left q] at hl
        refine ⟨c, c0, by omega, hl, ?_⟩
        rw [m, m', U.lvals, Nat.min_eq_left (lval_le_lval.mpr q)]
      · rw [Nat.min_eq_right q] at hl
        refine ⟨c', c0', by omega, hl, ?_⟩
        rw [m, m', U.lvals, Nat.min_eq_right (lval_le_lval.mpr q)]
  refine ⟨hT, hmin, hmax, hlow, hhigh, ?_, ?_, hnz⟩
  · exact ends_min W1 hmin hlow hnz
  · rw [k2, E.max, F.max, U.lhi, U.lval, U.lhis, U.lvals]
    rcases le_total b b' with q | q
    · rw [Nat.max_eq_right q, Nat.max_eq_right ((lhi_lval_le hvb hvb').mpr q)]
    · rw [Nat.max_eq_left q, Nat.max_eq_left ((lhi_lval_le hvb' hvb).mpr q)]

/-- C115 (1): adding a histogram of the same configuration to another keeps the statistics exact, if no counter overflows and no
sample of the source is in the class of `u64::MAX`. -/
theorem C115_add {h s h1 : Hist T} (R : Reachable fp T h) (Rs : Reachable fp T s) (S : SameSettings h s)
    {cs ss cs1 : List Cls} (C : Classes h cs) (Cs : Classes s ss) (C1 : Classes h1 cs1) (X : ExactStats h cs)
    (Xs : ExactStats s ss) {mx : Nat} (hmx : s.max = .ok mx) (htop : ¬ Equiv s mx U64MAX)
    (e : h.add s = .ok (h1, .ok ())) (hfit : ∀ c ∈ cs, ∀ d ∈ ss, c.lo = d.lo → c.count + d.count ≤ T.max) :
    ExactStats h1 cs1 := by
  have W := R.wf
  have Ws := Rs.wf
  have W1 : WF fp h1 := by
    obtain ⟨h', r, e', w, -⟩ := W.add_spec Ws
    rw [e'] at e; cases e; exact w
  rw [Ws.max_eq] at hmx; cases hmx
  rw [Ws.equiv_iff lmax_le le_rfl] at htop
  have U := summed R Rs S htop e (fits W Ws S C Cs hfit)
  have hne : s.lmax ≠ U64MAX := fun q => htop (by rw [q])
  obtain ⟨h', e', -, -, -, -, k4, k5, -⟩ := C17_add_same_partial R Rs S
    (.inl (by rw [Ws.max_eq]; intro q; exact hne (Except.ok.inj q)))
  rw [e] at e'; cases e'
  by_cases hts : s.totalCount = 0
  · have := k5 hts
    subst this
    have : cs1 = cs := by rw [W.classes_unique C, W1.classes_unique C1]
    rw [this]
    exact X
  · obtain ⟨a', b', F⟩ := ends_of Ws Cs Xs hts
    by_cases ht : h.totalCount = 0
    · obtain ⟨x1, x2, x3⟩ := k4 ht hts
      rw [W1.max_eq, Ws.max_eq] at x1
      rw [W1.minNz_eq, Ws.minNz_eq] at x2
      have x1 := Except.ok.inj x1
      have x2 := Except.ok.inj x2
      have x3 : h1.totalCount = s.totalCount := x3
      have hc : ∀ k, h1.counts.getD k 0 = s.counts.getD k 0 := fun k => by
        rw [U.counts, W.getD_zero_of_empty ht, Nat.zero_add]
      have hz : h.counts.sum = 0 := W.sum_zero_of_empty ht
      have hnz := F.minNz
      simp only [← hc, ← x2, U.lvals] at hnz
      simp only [← U.lval] at hnz
      have ha : h1.counts.getD a' 0 ≠ 0 := by rw [hc]; exact F.ha
      have hl : ∀ k, h1.counts.getD k 0 ≠ 0 → a' ≤ k := fun k hk => F.low k (by rw [← hc]; exact hk)
      refine Ends.exact W1 C1 (a := a') (b := b') ⟨?_, ha, by rw [hc]; exact F.hb, hl,
        fun k hk => F.high k (by rw [← hc]; exact hk), ends_min W1 ha hl hnz, ?_, hnz⟩
      · rw [x3, F.tot, U.sum, hz, Nat.zero_add]
      · rw [x1, F.max, U.lhi, U.lval, U.lhis, U.lvals]
    · obtain ⟨a, b, E⟩ := ends_of W C X ht
      exact (ends_add R Rs S e W1 htop U E F).exact W1 C1

/-- C115 (2): when `subtract` undoes `add` completely.  Two histograms of the same configuration, not empty and with exact
statistics, no counter of the sum overflowing and no sample in the class of `u64::MAX`: subtracting the second from
the sum gives a histogram `==` to the first exactly if the second has the smaller or same `min()`, or the larger or same
`max()`, or the larger or same `min_nz()` (or the sum has the largest `len()` of all). -/
theorem C115_undo {h s h1 : Hist T} (R : Reachable fp T h) (Rs : Reachable fp T s) (S : SameSettings h s)
    {cs ss cs1 : List Cls} (C : Classes h cs) (Cs : Classes s ss) (C1 : Classes h1 cs1) (X : ExactStats h cs)
    (Xs : ExactStats s ss) (hn : h.len ≠ 0) (hsn : s.len ≠ 0) {mn mz mx mn' mz' mx' : Nat}
    (emn : h.min = .ok mn) (emz : h.minNz = .ok mz) (emx : h.max = .ok mx)
    (emn' : s.min = .ok mn') (emz' : s.minNz = .ok mz') (emx' : s.max = .ok mx')
    (htop : ¬ Equiv h mx U64MAX) (htop' : ¬ Equiv s mx' U64MAX)
    (e : h.add s = .ok (h1, .ok ())) (hfit : ∀ c ∈ cs, ∀ d ∈ ss, c.lo = d.lo → c.count + d.count ≤ T.max) :
    ∃ d, h1.subtract s = .ok (d, .ok ()) ∧
      (d.eq h = .ok true ↔ h1.len = U64MAX ∨ mn' ≤ mn ∨ mx ≤ mx' ∨ mz ≤ mz') := by
  have W := R.wf
  have Ws := Rs.wf
  have R1 : Reachable fp T h1 := .add R Rs e
  have W1 := R1.wf
  have X1 := C115_add R Rs S C Cs C1 X Xs emx' htop' e hfit
  rw [Ws.max_eq] at emx'; cases emx'
  rw [W.max_eq] at emx; cases emx
  rw [Ws.minNz_eq] at emz'; cases emz'
  rw [W.minNz_eq] at emz; cases emz
  rw [Ws.equiv_iff lmax_le le_rfl] at htop'
  rw [W.equiv_iff lmax_le le_rfl] at htop
  have U := summed R Rs S htop' e (fits W Ws S C Cs hfit)
  obtain ⟨a, b, E⟩ := ends_of W C X hn
  obtain ⟨a', b', F⟩ := ends_of Ws Cs Xs hsn
  have G := ends_add R Rs S e W1 htop' U E F
  rw [E.min] at emn; cases emn
  rw [F.min] at emn'; cases emn'
  have hne : s.max ≠ .ok U64MAX := fun q => htop' (by rw [Ws.max_eq] at q; rw [Except.ok.inj q])
  obtain ⟨s1, s2⟩ := W.same_layout Ws S.low S.sigfig
  have hm : ∀ j, moved h1 s (List.range s.counts.length) j = s.counts.getD j 0 := fun j => by
    obtain ⟨t1, t2⟩ : h1.unitMag = h.unitMag ∧ h1.subBucketHalfCountMag = h.subBucketHalfCountMag := by
      obtain ⟨h', r, e', -, hr⟩ := W.add_spec Ws
      rw [e'] at e; cases e
      rcases hr with ⟨q, -⟩ | ⟨-, -, c, -⟩
      · exact absurd q hsn
      · exact ⟨c.um, c.mag⟩
    exact moved_same (t1.trans s1) (t2.trans s2) j
  obtain ⟨d, r, ed', Wd, hr⟩ := W1.subtract_spec Ws
  cases r with
  | error x =>
    exfalso
    cases x with
    | SubtrahendValueExceedsMinuendRange =>
      have x1 := hr.2.1
      have xb : h1.lidx s.lmax = b' := by
        rw [F.max, U.lidx, U.lhis, U.lvals, lidx_lhi (by rw [← U.lvals]; exact Ws.lval_le (by by_contra hc; exact F.hb (getD_ge (by omega))))]
        exact Lay.idx_val
      rw [W1.ltop_lt_lhi_iff lmax_le, W1.covers_iff, xb] at x1
      have x2 : b' < h1.counts.length := by
        by_contra hc
        have := U.counts b'
        rw [getD_ge (by omega)] at this
        have := F.hb
        omega
      have x3 : s.lmax ≠ U64MAX := fun q => htop' (by rw [q])
      simp [x2, x3] at x1
    | SubtrahendCountExceedsMinuendCount =>
      obtain ⟨-, -, j, hj⟩ := hr
      rw [hm] at hj
      have := U.counts j
      omega
  | ok u =>
  refine ⟨d, ed', ?_⟩
  have Rd : Reachable fp T d := .subtract R1 Rs ed'
  -- the difference has the counts of `h`
  rcases hr with ⟨h0, -⟩ | ⟨-, -, hln, hcnt, hcfg, -⟩
  · exact absurd h0 hsn
  have hcd : ∀ j, d.counts.getD j 0 = h.counts.getD j 0 := fun j => by
    have x1 := hcnt j
    have x2 := U.counts j
    rw [hm] at x1
    omega
  have hcounts : d.counts = h.counts := by
    refine List.ext_getElem (by rw [hln, U.len]) fun i hi hi' => ?_
    have := hcd i
    simpa [List.getD, hi, hi'] using this
  have hlen : d.len = h.len := by
    have x1 : d.totalCount = min d.counts.sum U64MAX := W1.subtract_exact Ws ed' G.tot
    rw [hcounts, ← E.tot] at x1
    exact x1
  have hvd : ∀ i, d.lval i = h.lval i := fun i => by rw [← U.lval, hcfg]
  have hhd : ∀ i, d.lhi i = h.lhi i := fun i => by rw [← U.lhi, hcfg]; rfl
  have hid : ∀ i, d.lidx i = h.lidx i := fun i => by rw [← U.lidx, hcfg]
  have set : d.low = h.low ∧ d.sigfig = h.sigfig := by
    have x := (C20_subtract_effect R1 Rs Ws.contents ed').2.2
    obtain ⟨h', e', -, -, -, -, -, -, k⟩ := C17_add_same_partial R Rs S (.inl hne)
    rw [e] at e'; cases e'
    have y := (k hne).1
    exact ⟨x.low.trans y.low, x.sigfig.trans y.sigfig⟩
  -- equality is exactness
  have heq : d.eq h = .ok true ↔ ExactStats d d.contents := by
    obtain ⟨q, e1, hq⟩ := Wd.eq_spec W
    obtain ⟨-, x2, x3⟩ := (W.exactStats_iff C).mp X
    have hsm : d.scanMin = h.scanMin := by unfold Hist.scanMin; rw [hcounts]; simp only [hvd]
    rw [e1, Wd.exactStats_iff Wd.contents, hsm, hcounts]
    simp only [hvd, hhd]
    rw [← x2, ← x3]
    have htd : d.totalCount = min h.counts.sum U64MAX := by
      have : d.totalCount = h.totalCount := hlen
      rw [this, E.tot]
    constructor
    · intro q1
      obtain ⟨-, -, -, y1, y2, -⟩ := hq.mp (Except.ok.inj q1)
      exact ⟨htd, y1, y2⟩
    · rintro ⟨-, y1, y2⟩
      rw [hq.mpr ⟨set.1, set.2, hlen, y1, y2, by rw [hcounts]⟩]
  -- the extremes by slots
  have hbl : b < h.counts.length := by by_contra hc; exact E.hb (getD_ge (by omega))
  have hbl' : b' < s.counts.length := by by_contra hc; exact F.hb (getD_ge (by omega))
  have hvb : h.lval b ≤ U64MAX := W.lval_le hbl
  have hvb' : h.lval b' ≤ U64MAX := by rw [← U.lvals]; exact Ws.lval_le hbl'
  have xb : h.lidx h.lmax = b := by rw [E.max, lidx_lhi hvb]; exact Lay.idx_val
  have xb' : h.lidx s.lmax = b' := by rw [F.max, U.lhis, U.lvals, lidx_lhi hvb']; exact Lay.idx_val
  have hb : b < h.lidx U64MAX := by
    have : h.lidx h.lmax ≤ h.lidx U64MAX := Lay.idx_mono lmax_le
    omega
  have hb' : b' < h.lidx U64MAX := by
    have : h.lidx s.lmax ≤ h.lidx U64MAX := Lay.idx_mono lmax_le
    rw [U.lidxs, U.lidxs] at htop'
    omega
  have hvm : h.lval (max b b') ≤ U64MAX := by rcases le_total b b' with q | q <;> simp only [q, sup_of_le_left, sup_of_le_right] <;> assumption
  have xm : h1.lidx h1.lmax = max b b' := by
    rw [G.max, U.lidx, U.lhi, U.lval, lidx_lhi hvm]; exact Lay.idx_val
  have hc' : ∃ c ∈ ss, c.count ≠ 0 := ⟨s.lcls b', (Ws.mem_classes Cs).mpr ⟨b', hbl', rfl⟩, F.hb⟩
  have hd' : ∃ c ∈ d.contents, c.count ≠ 0 :=
    ⟨d.lcls b, (Wd.mem_classes Wd.contents).mpr ⟨b, by rw [hcounts]; exact hbl, rfl⟩, by
      have : (d.lcls b).count = d.counts.getD b 0 := rfl
      rw [this, hcd]; exact E.hb⟩
  have key := (C114_subtract_partial R1 Rs C1 Cs Wd.contents X1 G.min W1.minNz_eq W1.max_eq
    (by rw [W1.equiv_iff lmax_le le_rfl, xm, U.lidx]; omega) ed' hc' hd').1
  rw [heq, key]
  have hlv : ∀ k, h1.lidx (s.lval k) = k := fun k => by rw [U.lidx, U.lvals]; exact Lay.idx_val
  have hmnle : h1.lval (min a a') ≤ U64MAX := W1.lval_le (by by_contra hc; exact G.ha (getD_ge (by omega)))
  have P2 : (∃ c ∈ ss, c.count ≠ 0 ∧ (Equiv h1 c.lo (h1.lval (min a a')) ∨ Equiv h1 c.lo h1.lmax)) ↔ a' ≤ a ∨ b ≤ b' := by
    constructor
    · rintro ⟨c, hc, hcn, q⟩
      obtain ⟨k, hk, rfl⟩ := (Ws.mem_classes Cs).mp hc
      have hv : s.lval k ≤ U64MAX := Ws.lval_le hk
      have hcn : s.counts.getD k 0 ≠ 0 := hcn
      rw [W1.equiv_iff (v := (s.lcls k).lo) hv hmnle, W1.equiv_iff (v := (s.lcls k).lo) hv lmax_le, xm,
        show h1.lidx (h1.lval (min a a')) = min a a' from Lay.idx_val, show h1.lidx (s.lcls k).lo = k from hlv k] at q
      have y1 := F.low k hcn
      have y2 := F.high k hcn
      omega
    · intro q
      have ok : ∀ k, s.counts.getD k 0 ≠ 0 → (k = min a a' ∨ k = max b b') →
          ∃ c ∈ ss, c.count ≠ 0 ∧ (Equiv h1 c.lo (h1.lval (min a a')) ∨ Equiv h1 c.lo h1.lmax) := by
        intro k hk q
        have hkl : k < s.counts.length := by by_contra hc; exact hk (getD_ge (by omega))
        have hv : s.lval k ≤ U64MAX := Ws.lval_le hkl
        refine ⟨s.lcls k, (Ws.mem_classes Cs).mpr ⟨k, hkl, rfl⟩, hk, ?_⟩
        rw [W1.equiv_iff (v := (s.lcls k).lo) hv hmnle, W1.equiv_iff (v := (s.lcls k).lo) hv lmax_le, xm,
          show h1.lidx (h1.lval (min a a')) = min a a' from Lay.idx_val, show h1.lidx (s.lcls k).lo = k from hlv k]
        exact q
      rcases q with q | q
      · exact ok a' F.ha (.inl (Nat.min_eq_right q).symm)
      · exact ok b' F.hb (.inr (Nat.max_eq_right q).symm)
  have Q1 : s.lval a' ≤ h.lval a ↔ a' ≤ a := by rw [U.lvals]; exact lval_le_lval
  have Q2 : h.lmax ≤ s.lmax ↔ b ≤ b' := by rw [E.max, F.max, U.lhis, U.lvals]; exact lhi_lval_le hvb hvb'
  rw [P2, Q1, Q2]
  clear P2 key heq hc' hd'
  by_cases q : a' ≤ a ∨ b ≤ b'
  · exact ⟨fun _ => q.elim (fun q => .inr (.inl q)) fun q => .inr (.inr (.inl q)), fun _ => .inr (.inl q)⟩
  have q' := not_or.mp q
  have P3 : (∃ n, HasCount d h1.lminNz n ∧ n ≠ 0) ↔ h.lminNz ≤ s.lminNz := by
    have hle : h1.lminNz ≤ U64MAX := lminNz_le W1.minle
    have y1 := F.high a' F.ha
    simp only [Wd.hasCount_iff hle, hid, hcd]
    rcases E.minNz with ⟨z, -⟩ | ⟨c, c0, c1, c2, m⟩
    · exact absurd (z b (by omega)) E.hb
    rcases F.minNz with ⟨z, -⟩ | ⟨c', c0', c1', c2', m'⟩
    · exact absurd (z a' (by omega)) F.ha
    rcases G.minNz with ⟨z, -⟩ | ⟨k, k0, k1, k2, m1⟩
    · have := z c c0
      rw [U.counts] at this
      omega
    rw [m, m', m1, U.lval, U.lvals, lval_le_lval, show h.lidx (h.lval k) = k from Lay.idx_val]
    have z1 := k2 c c0 (by rw [U.counts]; omega)
    have z2 := k2 c' c0' (by rw [U.counts]; omega)
    rw [U.counts] at k1
    constructor
    · rintro ⟨n, rfl, hnn⟩
      have := c2 k k0 hnn
      omega
    · intro hcc
      refine ⟨_, rfl, fun hz => ?_⟩
      have := c2' k k0 (by omega)
      have : k = c := by omega
      rw [this] at hz
      exact c1 hz
  rw [P3]
  constructor
  · rintro (x | x | x)
    · exact .inl x
    · exact absurd x q
    · exact .inr (.inr (.inr x))
  · rintro (x | x | x | x)
    · exact .inl x
    · exact absurd (.inl x) q
    · exact absurd (.inr x) q
    · exact .inr (.inr x)

/-- `demo` with one 2 and 55 nines: exact, and `demo3` added and taken away again gives it back, for `demo3` holds a 0;
one counter of the sum is exactly full -/
example : ∃ h h1 d, recordSeq [(2, 1), (9, 55)] demo = .ok (h, .ok ()) ∧ h.add demo3 = .ok (h1, .ok ()) ∧
    ExactStats h1 h1.contents ∧ h1.subtract demo3 = .ok (d, .ok ()) ∧ d.eq h = .ok true := by
  obtain ⟨h, e1, hh⟩ : ∃ h, recordSeq [(2, 1), (9, 55)] demo = .ok (h, .ok ()) ∧
    h = { demo with maxValue := 9, minNonZero := 2, totalCount := 56, counts := [0, 0, 1, 0, 55] } := okThen (by decide +kernel)
  obtain ⟨h1, e2, hh1⟩ : ∃ h1, h.add demo3 = .ok (h1, .ok ()) ∧ h1.counts = [1, 0, 1, 3, 255] := by
    subst hh; exact okThen (by decide +kernel)
  have R : Reachable Fp.ideal .u8 h := reachable_recordSeq demo_reachable (by decide) e1
  have W := R.wf
  have W3 := demo3_reachable.wf
  have W1 : WF Fp.ideal h1 := (Reachable.add R demo3_reachable e2).wf
  have X : ExactStats h h.contents := (W.exactStats_iff W.contents).mpr (by rw [hh]; decide +kernel)
  have X3 : ExactStats demo3 demo3.contents := (W3.exactStats_iff W3.contents).mpr (by decide +kernel)
  have S : SameSettings h demo3 := by rw [hh]; exact ⟨rfl, rfl, rfl⟩
  have hfit : ∀ c ∈ h.contents, ∀ d ∈ demo3.contents, c.lo = d.lo → c.count + d.count ≤ CounterTy.max .u8 := by
    rw [W.contents_eq, W3.contents_eq, hh]
    decide +kernel
  have t3 : ¬ Equiv demo3 15 U64MAX := by unfold Equiv; decide
  have hmn : h.min = .ok 2 := by rw [hh]; decide
  have hmz : h.minNz = .ok 2 := by rw [hh]; decide
  have hmx : h.max = .ok 15 := by rw [hh]; decide
  have ht : ¬ Equiv h 15 U64MAX := by rw [hh]; unfold Equiv; decide
  obtain ⟨d, ed, hd⟩ := C115_undo R demo3_reachable S W.contents W3.contents W1.contents X X3 (by rw [hh]; decide) (by decide)
    hmn hmz hmx (mn' := 0) (mz' := 4) (mx' := 15) (by decide) (by decide) (by decide) ht t3 e2 hfit
  exact ⟨h, h1, d, e1, e2, C115_add R demo3_reachable S W.contents W3.contents W1.contents X X3 (mx := 15) (by decide) t3 e2 hfit,
    ed, hd.mpr (.inr (.inl (by decide)))⟩

end Hdr
