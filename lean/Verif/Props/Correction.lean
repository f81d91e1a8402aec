import Verif.Spec.Correction
import Verif.Props.SameSamples
import Verif.Props.Merge

/-!
# C106: correcting for coordinated omission while recording and afterwards
-/

namespace Hdr
variable {fp : Fp} {T : CounterTy}

theorem correctSeq_withHidden (i : Nat) (l : List (Nat × Nat)) (h : Hist T) :
    correctSeq i l h = recordSeq (withHidden i l) h := by
  induction l generalizing h with
  | nil => rfl
  | cons p l ih =>
    obtain ⟨v, c⟩ := p
    unfold withHidden
    rw [List.flatMap_cons, recordSeq_append, ← recordNCorrect_eq]
    simp only [correctSeq]
    cases h.recordNCorrect v c i with
    | error e => rfl
    | ok r =>
      obtain ⟨h1, r⟩ := r
      cases r with
      | error e => rfl
      | ok u => simp only [M.ok_bind]; exact ih h1

theorem withHidden_valid {i : Nat} {l : List (Nat × Nat)} (hl : ∀ p ∈ l, p.1 ≤ U64MAX ∧ p.2 ≤ T.max) :
    ∀ p ∈ withHidden i l, p.1 ≤ U64MAX ∧ p.2 ≤ T.max := by
  intro p hp
  obtain ⟨q, hq, hp⟩ := List.mem_flatMap.mp hp
  obtain ⟨x, hx, rfl⟩ := List.mem_map.mp hp
  have := hl q hq
  have := hiddenSeries_le hx
  dsimp only
  omega

/-- C106 (1): after recording samples with `record_n_correct`, a histogram holds besides what it held before the samples and
the series they are expected to have hidden. -/
theorem C106_recorded {h h' : Hist T} (R : Reachable fp T h) {l0 l : List (Nat × Nat)} (H : Contains h l0)
    (hl : ∀ p ∈ l, p.1 ≤ U64MAX ∧ p.2 ≤ T.max) {interval : Nat} (e : correctSeq interval l h = .ok (h', .ok ()))
    (hfit : ∀ w, w ≤ U64MAX → (number (l0 ++ withHidden interval l) fun v => Equiv h v w) ≤ T.max)
    (htot : numberAll (l0 ++ withHidden interval l) ≤ U64MAX) :
    Contains h' (l0 ++ withHidden interval l) := by
  rw [correctSeq_withHidden] at e
  exact C71_record R H (withHidden_valid hl) e hfit htot

/-! ## Counting -/

theorem number_const (xs : List Nat) (c : Nat) (P : Nat → Prop) [DecidablePred P] :
    number (xs.map fun x => (x, c)) P = (xs.countP fun x => decide (P x)) * c := by
  induction xs with
  | nil => simp [number]
  | cons x xs ih =>
    rw [List.map_cons, number_cons, ih, List.countP_cons]
    by_cases h : P x
    · simp [h]; ring
    · simp [h]

/-- how many of a value and the series it hides satisfy `P` -/
def seriesCount (interval : Nat) (P : Nat → Prop) [DecidablePred P] (v : Nat) : Nat :=
  (v :: hiddenSeries v interval).countP fun x => decide (P x)

theorem number_withHidden (i : Nat) (l : List (Nat × Nat)) (P : Nat → Prop) [DecidablePred P] :
    number (withHidden i l) P = (l.map fun p => seriesCount i P p.1 * p.2).sum := by
  induction l with
  | nil => rfl
  | cons p l ih =>
    unfold withHidden at ih ⊢
    rw [List.flatMap_cons, number_append, ih, number_const, List.map_cons, List.sum_cons]
    rfl

theorem numberAll_number (l : List (Nat × Nat)) : numberAll l = number l fun _ => True := by
  unfold numberAll number
  rw [List.filter_eq_self.mpr (by simp)]

theorem reported_eq {s : Hist T} (Ws : WF fp s) {l : List (Nat × Nat)} (hl : ∀ p ∈ l, p.1 ≤ U64MAX) :
    reported s l = l.map fun p => (s.lhi p.1, p.2) := by
  apply List.map_congr_left
  intro p hp
  rw [highestEquivalent_eq Ws.toLayoutOK (hl p hp)]
  rfl

theorem lhi_lval_lidx {s : Hist T} {v : Nat} (hv : v < U64MAX) : s.lhi (s.lval (s.lidx v)) = s.lhi v := by
  have h1 : s.lval (s.lidx v) = s.llo v := Lay.val_idx
  have h2 : s.llo v ≤ v := Lay.lo_le
  rw [h1]
  exact lhi_eq_of_lidx Lay.idx_lo (by omega) (by omega)

/-- what `clone_correct` and `add_correct` record for the contents of `s` counts like the samples as `s` reports them -/
theorem Contains.number_corrected {s : Hist T} (Ws : WF fp s) {l : List (Nat × Nat)} (H : Contains s l)
    (hl : ∀ p ∈ l, p.1 < U64MAX) (i : Nat) (P : Nat → Prop) [DecidablePred P] :
    number (withHidden i (Cls.nonempty ((List.range s.counts.length).map s.lcls))) P = number (withHidden i (reported s l)) P := by
  rw [number_withHidden, number_withHidden, reported_eq Ws fun p hp => (hl p hp).le, List.map_map]
  have h1 := sum_slots (h := s) (fun k => seriesCount i P (s.lhi (s.lval k))) s.counts.length l fun p hp => H.lidx Ws hp
  simp only [Nat.cast_id] at h1
  have e1 : ((Cls.nonempty ((List.range s.counts.length).map s.lcls)).map fun p => seriesCount i P p.1 * p.2).sum =
      ((List.range s.counts.length).map fun k => seriesCount i P (s.lhi (s.lval k)) * s.hits l k).sum := by
    have hr : ∀ k ∈ List.range s.counts.length, s.counts.getD k 0 = s.hits l k := fun k hk =>
      H.slot Ws (List.mem_range.mp hk)
    generalize List.range s.counts.length = ks at hr
    unfold Cls.nonempty
    induction ks with
    | nil => rfl
    | cons k ks ih =>
      have ih := ih fun k hk => hr k (by simp [hk])
      have hk := hr k (by simp)
      rw [List.map_cons, List.map_cons, List.sum_cons, ← ih]
      by_cases h0 : (s.lcls k).count = 0
      · rw [List.filter_cons_of_neg (by simpa using h0), ← hk, show s.counts.getD k 0 = 0 from h0, Nat.mul_zero, Nat.zero_add]
      · rw [List.filter_cons_of_pos (by simpa using h0), List.map_cons, List.map_cons, List.sum_cons, ← hk]
        rfl
  rw [e1, h1]
  congr 1
  apply List.map_congr_left
  intro p hp
  show seriesCount i P (s.lhi (s.lval (s.lidx p.1))) * p.2 = seriesCount i P (s.lhi p.1) * p.2
  rw [lhi_lval_lidx (hl p hp)]

theorem Contains.corrected_mem {s : Hist T} (Ws : WF fp s) {l : List (Nat × Nat)} (H : Contains s l)
    (hl : ∀ p ∈ l, p.1 < U64MAX ∧ p.2 ≠ 0) {i : Nat} {p : Nat × Nat} (hp : p ∈ withHidden i (reported s l)) :
    ∃ c, (p.1, c) ∈ withHidden i (Cls.nonempty ((List.range s.counts.length).map s.lcls)) := by
  obtain ⟨q, hq, hp⟩ := List.mem_flatMap.mp hp
  rw [reported_eq Ws fun p hp => (hl p hp).1.le] at hq
  obtain ⟨r, hr, rfl⟩ := List.mem_map.mp hq
  obtain ⟨x, hx, rfl⟩ := List.mem_map.mp hp
  have hk := H.lidx Ws hr
  have hne : s.counts.getD (s.lidx r.1) 0 ≠ 0 := by
    rw [H.slot Ws hk, hits_eq_number]
    intro hz
    have h2 := number_ge (P := fun v => s.lidx v = s.lidx r.1) hr rfl
    have := (hl r hr).2
    omega
  refine ⟨s.counts.getD (s.lidx r.1) 0, List.mem_flatMap.mpr ⟨(s.lhi r.1, s.counts.getD (s.lidx r.1) 0), ?_,
    List.mem_map.mpr ⟨x, hx, rfl⟩⟩⟩
  unfold Cls.nonempty
  refine List.mem_map.mpr ⟨s.lcls (s.lidx r.1), List.mem_filter.mpr ⟨List.mem_map.mpr ⟨_, List.mem_range.mpr hk, rfl⟩,
    by simpa [Hist.lcls] using hne⟩, ?_⟩
  show (s.lhi (s.lval (s.lidx r.1)), _) = _
  rw [lhi_lval_lidx (hl r hr).1]
  rfl

/-- C106 (2): `add_correct` adds the samples as the source reports them, and the series these hide. (No sample is
`u64::MAX`, which is reported as `u64::MAX - 1`, and no counter overflows.) -/
theorem C106_add_correct {h s h' : Hist T} (R : Reachable fp T h) (Rs : Reachable fp T s) {l0 l : List (Nat × Nat)}
    (H : Contains h l0) (Hs : Contains s l) (hl : ∀ p ∈ l, p.1 < U64MAX ∧ p.2 ≠ 0) {interval : Nat}
    (e : h.addCorrect s interval = .ok (h', .ok ()))
    (hfit : ∀ w, w ≤ U64MAX → (number (l0 ++ withHidden interval (reported s l)) fun v => Equiv h v w) ≤ T.max)
    (htot : numberAll (l0 ++ withHidden interval (reported s l)) ≤ U64MAX) :
    Contains h' (l0 ++ withHidden interval (reported s l)) := by
  have Ws := Rs.wf
  rw [C23_add_correct Rs Ws.classes, correctSeq_withHidden] at e
  have hnum : ∀ (P : Nat → Prop) [DecidablePred P],
      number (l0 ++ withHidden interval (Cls.nonempty ((List.range s.counts.length).map s.lcls))) P =
        number (l0 ++ withHidden interval (reported s l)) P := by
    intro P _
    rw [number_append, number_append, Hs.number_corrected Ws fun p hp => (hl p hp).1]
  have hv : ∀ p ∈ withHidden interval (Cls.nonempty ((List.range s.counts.length).map s.lcls)), p.1 ≤ U64MAX ∧ p.2 ≤ T.max := by
    refine withHidden_valid ?_
    intro p hp
    obtain ⟨c, hc, rfl⟩ := List.mem_map.mp hp
    obtain ⟨k, hk, rfl⟩ := List.mem_map.mp (List.mem_filter.mp hc).1
    exact ⟨lhi_le, Ws.getD_le k⟩
  have H' := C71_record R H hv e (by intro w hw; rw [hnum]; exact hfit w hw)
    (by rw [numberAll_number, hnum, ← numberAll_number]; exact htot)
  refine ⟨?_, ?_, ?_⟩
  · intro p hp
    rcases List.mem_append.mp hp with hp | hp
    · exact H'.covered p (by simp [hp])
    · obtain ⟨c, hc⟩ := Hs.corrected_mem Ws hl hp
      exact H'.covered (p.1, c) (by simp [hc])
  · intro w hw
    rw [H'.count w hw, hnum]
  · rw [H'.len, numberAll_number, hnum, ← numberAll_number]

/-- C106 (3): `clone_correct` gives a histogram that holds the samples as the source reports them, and the series these
hide. -/
theorem C106_clone_correct {s : Hist T} (Rs : Reachable fp T s) {l : List (Nat × Nat)}
    (Hs : Contains s l) (hl : ∀ p ∈ l, p.1 < U64MAX ∧ p.2 ≠ 0) {interval : Nat}
    (hfit : ∀ w, w ≤ U64MAX → (number (withHidden interval (reported s l)) fun v => Equiv s v w) ≤ T.max)
    (htot : numberAll (withHidden interval (reported s l)) ≤ U64MAX) :
    ∃ h', Hist.cloneCorrect fp s interval = .ok h' ∧ Reachable fp T h' ∧ Contains h' (withHidden interval (reported s l)) ∧
      SameSettings h' s := by
  have Ws := Rs.wf
  obtain ⟨c, h', e1, c1, c2, c3, c4, Rc, e2, c5, c6⟩ := C23_clone_correct Rs Ws.classes interval
  rw [← C23_add_correct Rs Ws.classes] at e2
  have hq : ∀ v w, v ≤ U64MAX → w ≤ U64MAX → (Equiv c v w ↔ Equiv s v w) := by
    intro v w hv hw
    rw [Rc.wf.equiv_iff hv hw, Ws.equiv_iff hv hw]
    have : ∀ x, c.lidx x = s.lidx x := by
      intro x
      unfold Hist.lidx
      rw [show c.unitMag = s.unitMag by rw [Rc.wf.um, Ws.um, show c.lowestDiscernible = s.lowestDiscernible from c1.low],
        show c.subBucketHalfCountMag = s.subBucketHalfCountMag by
          have h1 := Rc.wf.mag
          have h2 := Ws.mag
          rw [show c.sigDigits = s.sigDigits from c1.sigfig] at h1
          omega]
    rw [this, this]
  have H' := C106_add_correct Rc Rs (C71_empty Rc c3) Hs hl e2 (by
    intro w hw
    rw [List.nil_append, number_congr (Q := fun v => Equiv s v w)]
    · exact hfit w hw
    · intro p hp
      refine hq _ _ ?_ hw
      obtain ⟨q, hq1, hp⟩ := List.mem_flatMap.mp hp
      obtain ⟨x, hx, rfl⟩ := List.mem_map.mp hp
      rw [reported_eq Ws fun p hp => (hl p hp).1.le] at hq1
      obtain ⟨r, hr, rfl⟩ := List.mem_map.mp hq1
      exact le_trans (hiddenSeries_le hx) lhi_le) (by rw [List.nil_append]; exact htot)
  exact ⟨h', e1, .cloneCorrect Rs e1, by simpa using H', c5⟩

/-! ## Comparing both -/

theorem countP_range_le {n m : Nat} {P Q : Nat → Bool} (h : ∀ k, k < n → P k = true → k < m ∧ Q k = true) :
    (List.range n).countP P ≤ (List.range m).countP Q := by
  rw [List.countP_eq_length_filter, List.countP_eq_length_filter]
  refine (List.Nodup.subperm (List.nodup_range.filter _) ?_).length_le
  intro k hk
  rw [List.mem_filter, List.mem_range] at hk ⊢
  exact h k hk.1 hk.2

theorem seriesCount_range {i : Nat} (hi : i ≠ 0) (P : Nat → Prop) [DecidablePred P] (v : Nat) :
    seriesCount i P v = (if P v then 1 else 0) + (List.range (v / i - 1)).countP fun k => decide (P (v - (k + 1) * i)) := by
  unfold seriesCount hiddenSeries
  rw [if_neg hi, List.countP_cons, List.countP_map, Nat.add_comm]
  congr 1
  · by_cases h : P v <;> simp [h]

theorem seriesCount_zero (P : Nat → Prop) [DecidablePred P] (v : Nat) : seriesCount 0 P v = if P v then 1 else 0 := by
  unfold seriesCount hiddenSeries
  by_cases h : P v <;> simp [h]

/-- a larger value hides no less -/
theorem seriesCount_mono {i x v v' : Nat} (h : v ≤ v') : seriesCount i (x ≤ ·) v ≤ seriesCount i (x ≤ ·) v' := by
  by_cases hi : i = 0
  · subst hi
    rw [seriesCount_zero, seriesCount_zero]
    split
    · rw [if_pos (by omega)]
    · exact Nat.zero_le _
  · rw [seriesCount_range hi, seriesCount_range hi]
    refine Nat.add_le_add ?_ (countP_range_le ?_)
    · split
      · rw [if_pos (by omega)]
      · exact Nat.zero_le _
    · intro k hk hp
      have h1 : v / i ≤ v' / i := Nat.div_le_div_right h
      have hp : x ≤ v - (k + 1) * i := of_decide_eq_true hp
      exact ⟨by omega, decide_eq_true (by omega)⟩

/-- a value larger by at most `d` hides nothing more that is above the interval by `d` -/
theorem seriesCount_shift {i x d v v' : Nat} (h : v' ≤ v + d) (hx : i ≤ x) :
    seriesCount i (x + d ≤ ·) v' ≤ seriesCount i (x ≤ ·) v := by
  by_cases hi : i = 0
  · subst hi
    rw [seriesCount_zero, seriesCount_zero]
    split
    · rw [if_pos (by omega)]
    · exact Nat.zero_le _
  · rw [seriesCount_range hi, seriesCount_range hi]
    refine Nat.add_le_add ?_ (countP_range_le ?_)
    · split
      · rw [if_pos (by omega)]
      · exact Nat.zero_le _
    · intro k hk hp
      have hp : x + d ≤ v' - (k + 1) * i := of_decide_eq_true hp
      have h2 : (k + 2) * i ≤ v := by
        have : (k + 2) * i = (k + 1) * i + i := by ring
        omega
      have h3 : k + 2 ≤ v / i := (Nat.le_div_iff_mul_le (Nat.pos_of_ne_zero hi)).mpr h2
      exact ⟨by omega, decide_eq_true (by omega)⟩

theorem sum_map_le {l : List (Nat × Nat)} {f g : Nat × Nat → Nat} (h : ∀ p ∈ l, f p ≤ g p) :
    (l.map f).sum ≤ (l.map g).sum := by
  induction l with
  | nil => exact le_refl _
  | cons p l ih =>
    rw [List.map_cons, List.map_cons, List.sum_cons, List.sum_cons]
    exact Nat.add_le_add (h p (by simp)) (ih fun p hp => h p (by simp [hp]))

theorem number_reported {s : Hist T} (Ws : WF fp s) {l : List (Nat × Nat)} (hl : ∀ p ∈ l, p.1 ≤ U64MAX) (i : Nat)
    (P : Nat → Prop) [DecidablePred P] :
    number (withHidden i (reported s l)) P = (l.map fun p => seriesCount i P (s.lhi p.1) * p.2).sum := by
  rw [number_withHidden, reported_eq Ws hl, List.map_map]
  rfl

/-- C106 (4): correcting afterwards finds no less than correcting while recording: above every value there are at least as
many samples. -/
theorem C106_no_less {s : Hist T} (Rs : Reachable fp T s) {l : List (Nat × Nat)} (hl : ∀ p ∈ l, p.1 ≤ U64MAX)
    (interval x : Nat) :
    (number (withHidden interval l) fun v => x ≤ v) ≤ number (withHidden interval (reported s l)) fun v => x ≤ v := by
  rw [number_reported Rs.wf hl, number_withHidden]
  exact sum_map_le fun p hp => Nat.mul_le_mul_right _ (seriesCount_mono (lhi_ge (hl p hp)))

/-- C106 (5): and it finds no more, if one looks higher by as much as the highest equivalent values may differ from the
samples (above the interval). -/
theorem C106_no_more {s : Hist T} (Rs : Reachable fp T s) {l : List (Nat × Nat)} (hl : ∀ p ∈ l, p.1 ≤ U64MAX)
    {interval x d : Nat} (hx : interval ≤ x) (hd : ∀ p ∈ l, ∀ y, s.highestEquivalent p.1 = .ok y → y ≤ p.1 + d) :
    (number (withHidden interval (reported s l)) fun v => x + d ≤ v) ≤ number (withHidden interval l) fun v => x ≤ v := by
  rw [number_reported Rs.wf hl, number_withHidden]
  exact sum_map_le fun p hp => Nat.mul_le_mul_right _
    (seriesCount_shift (hd p hp _ (highestEquivalent_eq Rs.wf.toLayoutOK (hl p hp))) hx)

/-- C106 (6): so the largest sample, the second largest and so on differ by no more than that, unless both are within that of
the interval: a large quantile found by correcting afterwards is the one found by correcting while recording, or above it by
no more than the width of the classes. -/
theorem C106_largest {s : Hist T} (Rs : Reachable fp T s) {l : List (Nat × Nat)} (hl : ∀ p ∈ l, p.1 ≤ U64MAX)
    {interval d : Nat} (hd : ∀ p ∈ l, ∀ y, s.highestEquivalent p.1 = .ok y → y ≤ p.1 + d) {k y y' : Nat}
    (hy : KthLargest (withHidden interval l) k y) (hy' : KthLargest (withHidden interval (reported s l)) k y') :
    y ≤ y' ∧ (y' ≤ y + d ∨ y' < interval + d) := by
  constructor
  · by_contra hc
    have h1 := C106_no_less Rs hl interval y
    have h2 : (number (withHidden interval (reported s l)) fun v => y ≤ v) ≤
        number (withHidden interval (reported s l)) fun v => y' < v := number_le fun p _ hp => by omega
    have := hy.2
    have := hy'.1
    omega
  · by_contra hc
    have h1 := C106_no_more Rs hl (interval := interval) (x := y' - d) (by omega) hd
    rw [show y' - d + d = y' by omega] at h1
    have h2 : (number (withHidden interval l) fun v => y' - d ≤ v) ≤ number (withHidden interval l) fun v => y < v :=
      number_le fun p _ hp => by omega
    have := hy.1
    have := hy'.2
    omega

/-- C106 (7): for samples that are their own highest equivalent values (for instance all samples below
`2 * 10 ^ sigfig` with a unit of 1), both ways answer alike. -/
theorem C106_same {h s h1 h2 : Hist T} (R : Reachable fp T h) (Rs : Reachable fp T s) {l0 l : List (Nat × Nat)}
    (H : Contains h l0) (Hs : Contains s l) (hl : ∀ p ∈ l, p.1 < U64MAX ∧ p.2 ≤ T.max ∧ p.2 ≠ 0) {interval : Nat}
    (hself : ∀ p ∈ l, s.highestEquivalent p.1 = .ok p.1)
    (e1 : h.addCorrect s interval = .ok (h1, .ok ())) (e2 : correctSeq interval l h = .ok (h2, .ok ()))
    (hfit : ∀ w, w ≤ U64MAX → (number (l0 ++ withHidden interval l) fun v => Equiv h v w) ≤ T.max)
    (htot : numberAll (l0 ++ withHidden interval l) ≤ U64MAX) :
    Contains h1 (l0 ++ withHidden interval l) ∧ Contains h2 (l0 ++ withHidden interval l) ∧ h1.len = h2.len ∧
    (∀ v, h1.Covers v → h2.Covers v → h1.countAt v = h2.countAt v) ∧ h1.mean = h2.mean ∧ h1.stdev = h2.stdev ∧
    ∀ q, h1.valueAtQuantile q = h2.valueAtQuantile q := by
  have hr : reported s l = l := by
    unfold reported
    conv_rhs => rw [← List.map_id l]
    apply List.map_congr_left
    intro p hp
    rw [hself p hp]; rfl
  have hl' : ∀ p ∈ l, p.1 ≤ U64MAX ∧ p.2 ≤ T.max := fun p hp => ⟨(hl p hp).1.le, (hl p hp).2.1⟩
  have H2 := C106_recorded R H hl' e2 hfit htot
  have H1 := C106_add_correct R Rs H Hs (fun p hp => ⟨(hl p hp).1, (hl p hp).2.2⟩) e1
  rw [hr] at H1
  have H1 := H1 hfit htot
  have R1 : Reachable fp T h1 := .addCorrect R Rs e1
  rw [correctSeq_withHidden] at e2
  have R2 : Reachable fp T h2 := reachable_recordSeq R (withHidden_valid hl') e2
  rw [Rs.wf.addCorrect_eq] at e1
  have c1 : SameConfig h h1 := by
    obtain ⟨x, r, e, -, hr⟩ := R.wf.recordSeq_spec _ (Rs.wf.corrected_valid interval)
    rw [e1] at e
    cases e
    exact hr.1.cfg
  have c2 : SameConfig h h2 := by
    obtain ⟨x, r, e, -, hr⟩ := R.wf.recordSeq_spec _ (withHidden_valid (i := interval) hl')
    rw [e2] at e
    cases e
    exact hr.1.cfg
  obtain ⟨a1, a2, a3, a4, a5, -⟩ := C104_same R1 R2 (c1.low.trans c2.low.symm) (c1.sig.trans c2.sig.symm) H1 H2
  exact ⟨H1, H2, a1, a2, a3, a4, a5⟩

/-- C106 (8): the highest equivalent values of samples up to `m` differ from the samples by less than the unit, or by at most
one part in `10 ^ sigfig` of `m`. -/
theorem C106_width {s : Hist T} (Rs : Reachable fp T s) {m v y : Nat} (hv : v ≤ U64MAX) (hm : v ≤ m)
    (e : s.highestEquivalent v = .ok y) : y ≤ v + max (unit fp s - 1) (m / 10 ^ s.sigfig) := by
  rw [highestEquivalent_eq Rs.wf.toLayoutOK hv] at e
  cases e
  have hp := Rs.precise (v := s.lhi v) (y := v) hv (lidx_lhi hv)
  have hge := lhi_ge (h := s) hv
  rcases hp with hp | hp
  · have := Nat.le_max_left (unit fp s - 1) (m / 10 ^ s.sigfig)
    omega
  · have h1 : ((s.lhi v : ℤ) - v).natAbs ≤ m / 10 ^ s.sigfig :=
      (Nat.le_div_iff_mul_le (Nat.pow_pos (by omega))).mpr (le_trans hp hm)
    have := Nat.le_max_right (unit fp s - 1) (m / 10 ^ s.sigfig)
    omega

/-- three samples, corrected while recording (5, 9, 9 with two hidden 5s) and afterwards (reported as 7, 15, 15, which hide
two 11s and two 7s) -/
example : ∃ s g h, recordSeq [(5, 1), (9, 2)] demo = .ok (s, .ok ()) ∧ Contains s [(5, 1), (9, 2)] ∧
    correctSeq 4 [(5, 1), (9, 2)] demo = .ok (h, .ok ()) ∧ h.len = 5 ∧
    withHidden 4 [(5, 1), (9, 2)] = [(5, 1), (9, 2), (5, 2)] ∧
    Hist.cloneCorrect Fp.ideal s 4 = .ok g ∧ demo.addCorrect s 4 = .ok (g, .ok ()) ∧ g.len = 7 ∧
    withHidden 4 (reported s [(5, 1), (9, 2)]) = [(7, 1), (15, 2), (11, 2), (7, 2)] ∧
    Contains g [(7, 1), (15, 2), (11, 2), (7, 2)] ∧
    (∀ p ∈ [(5, 1), (9, 2)], ∀ y, s.highestEquivalent p.1 = .ok y → y ≤ p.1 + 6) ∧
    KthLargest (withHidden 4 [(5, 1), (9, 2)]) 2 9 ∧ KthLargest (withHidden 4 (reported s [(5, 1), (9, 2)])) 2 15 := by
  have key : (match recordSeq [(5, 1), (9, 2)] demo, correctSeq 4 [(5, 1), (9, 2)] demo with
      | .ok (s, .ok ()), .ok (h, .ok ()) => (match Hist.cloneCorrect Fp.ideal s 4, demo.addCorrect s 4 with
        | .ok g, .ok (g', .ok ()) => decide (g = g' ∧ h.len = 5 ∧ g.len = 7 ∧
            s.highestEquivalent 5 = .ok 7 ∧ s.highestEquivalent 9 = .ok 15 ∧
            withHidden 4 (reported s [(5, 1), (9, 2)]) = [(7, 1), (15, 2), (11, 2), (7, 2)])
        | _, _ => false)
      | _, _ => false) = true := by decide +kernel
  split at key
  · rename_i s h e1 e2
    split at key
    · rename_i g g' e3 e4
      obtain ⟨rfl, k1, k2, k5, k6, k3⟩ := of_decide_eq_true key
      have R : Reachable Fp.ideal .u8 s := reachable_recordSeq demo_reachable (by decide) e1
      have H : Contains s [(5, 1), (9, 2)] := C71_record demo_reachable (C71_empty demo_reachable rfl) (by decide) e1
        (fun w _ => le_trans (number_le_all _ _) (by decide)) (by decide)
      have k4 := C106_add_correct demo_reachable R (C71_empty demo_reachable rfl) H (by decide) e4
        (by rw [k3]; exact fun w _ => le_trans (number_le_all _ _) (by decide)) (by rw [k3]; decide)
      rw [k3] at k4
      refine ⟨s, g, h, e1, H, e2, k1, by decide, e3, e4, k2, k3, k4, ?_, by unfold KthLargest; decide, ?_⟩
      · intro p hp y hy
        simp only [List.mem_cons, List.not_mem_nil, or_false] at hp
        rcases hp with rfl | rfl
        · rw [k5] at hy; cases hy; decide
        · rw [k6] at hy; cases hy; decide
      · rw [k3]; unfold KthLargest; decide
    · cases key
  · cases key

/-- samples 3, 7, 7 are the highest values of their classes in `demo`: with an interval of 2, both ways give 3, 7, 7, 5, 5, 3, 3 -/
example : ∃ s g h, recordSeq [(3, 1), (7, 2)] demo = .ok (s, .ok ()) ∧ s.highestEquivalent 3 = .ok 3 ∧
    s.highestEquivalent 7 = .ok 7 ∧ demo.addCorrect s 2 = .ok (g, .ok ()) ∧
    correctSeq 2 [(3, 1), (7, 2)] demo = .ok (h, .ok ()) ∧ g.counts = [0, 0, 3, 4, 0] ∧ h.counts = [0, 0, 3, 4, 0] ∧
    withHidden 2 [(3, 1), (7, 2)] = [(3, 1), (7, 2), (5, 2), (3, 2)] := by
  have key : (match recordSeq [(3, 1), (7, 2)] demo, correctSeq 2 [(3, 1), (7, 2)] demo with
      | .ok (s, .ok ()), .ok (h, .ok ()) => (match demo.addCorrect s 2 with
        | .ok (g, .ok ()) => decide (s.highestEquivalent 3 = .ok 3 ∧ s.highestEquivalent 7 = .ok 7 ∧
            g.counts = [0, 0, 3, 4, 0] ∧ h.counts = [0, 0, 3, 4, 0])
        | _ => false)
      | _, _ => false) = true := by decide +kernel
  split at key
  · rename_i s h e1 e2
    split at key
    · rename_i g e3
      obtain ⟨k1, k2, k3, k4⟩ := of_decide_eq_true key
      exact ⟨s, g, h, e1, k1, k2, e3, e2, k3, k4, by decide⟩
    · cases key
  · cases key

end Hdr
