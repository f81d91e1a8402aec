import Verif.Props.Requantize

/-!
# C104: histograms that hold the same samples; recording in a finer histogram first
-/

namespace Hdr
variable {fp : Fp} {T T' : CounterTy}

/-- the same classes, counts and total, whatever the counter types, ranges and statistics -/
structure LikeContent (h : Hist T) (g : Hist T') : Prop where
  um : h.unitMag = g.unitMag
  mag : h.subBucketHalfCountMag = g.subBucketHalfCountMag
  counts : ∀ i, h.counts.getD i 0 = g.counts.getD i 0
  total : h.totalCount = g.totalCount

theorem LikeContent.of {h : Hist T} {g : Hist T'} (R : Reachable fp T h) (R' : Reachable fp T' g) (hlow : h.low = g.low)
    (hsig : h.sigfig = g.sigfig) {l : List (Nat × Nat)} (H : Contains h l) (H' : Contains g l) : LikeContent h g := by
  have hs := R.wf.same_slots R'.wf hlow hsig
  refine ⟨hs.1, hs.2, fun i => ?_, ?_⟩
  · rw [H.all R.wf, H'.all R'.wf, hits_eq_number, hits_eq_number]
    unfold Hist.lidx
    rw [hs.1, hs.2]
  · have h1 := H.len
    have h2 := H'.len
    exact h1.trans h2.symm

theorem LikeContent.slotValue {h : Hist T} {g : Hist T'} (S : LikeContent h g) (i t s : Nat) :
    h.slotValue i t s = g.slotValue i t s := by
  unfold Hist.slotValue Hist.lhi Hist.lval Hist.llo Hist.lwid
  rw [S.um, S.mag, S.counts, S.total]

theorem LikeContent.recItems {h : Hist T} {g : Hist T'} (S : LikeContent h g) (cs : List Nat) : ∀ (ds : List Nat) (i tot : Nat),
    (∀ j, cs.getD j 0 = ds.getD j 0) → h.recItems cs i tot = g.recItems ds i tot := by
  have zero : ∀ {ds : List Nat}, (∀ j, ds.getD j 0 = 0) → ∀ c ∈ ds, c = 0 := by
    intro ds hd c hc
    obtain ⟨j, hj, rfl⟩ := List.mem_iff_getElem.mp hc
    have := hd j
    rwa [List.getD_eq_getElem?_getD, List.getElem?_eq_getElem hj] at this
  induction cs with
  | nil =>
    intro ds i tot hj
    rw [recItems_zero (zero fun j => (hj j).symm.trans (by simp))]
    rfl
  | cons c cs ih =>
    intro ds i tot hj
    cases ds with
    | nil => rw [recItems_zero (zero fun j => (hj j).trans (by simp))]; rfl
    | cons d ds =>
      have h0 : c = d := by have := hj 0; simpa using this
      subst h0
      have := fun t => ih ds (i + 1) t fun j => by have := hj (j + 1); simpa using this
      unfold Hist.recItems
      rw [this, S.slotValue]

theorem LikeContent.median {h : Hist T} {g : Hist T'} (S : LikeContent h g) (W : WF fp h) (W' : WF fp g) {v : Nat}
    (hv : v ≤ U64MAX) : h.medianEquivalent v = g.medianEquivalent v := by
  rw [medianEquivalent_eq W.toLayoutOK hv, medianEquivalent_eq W'.toLayoutOK hv]
  unfold Hist.llo Hist.lwid
  rw [S.um, S.mag]

theorem recItems_le (h : Hist T) (cs : List Nat) : ∀ (i tot : Nat), ∀ x ∈ h.recItems cs i tot, x.valueIteratedTo ≤ U64MAX := by
  induction cs with
  | nil => intro i tot x hx; cases hx
  | cons c cs ih =>
    intro i tot x hx
    unfold Hist.recItems at hx
    split at hx
    · rcases List.mem_cons.mp hx with rfl | hx
      · exact lhi_le
      · exact ih _ _ x hx
    · exact ih _ _ x hx

theorem LikeContent.meanLoop {h : Hist T} {g : Hist T'} (S : LikeContent h g) (W : WF fp h) (W' : WF fp g) (vs : List IterValue) :
    ∀ t, (∀ x ∈ vs, x.valueIteratedTo ≤ U64MAX) → h.meanLoop vs t = g.meanLoop vs t := by
  induction vs with
  | nil => intro t _; rfl
  | cons v vs ih =>
    intro t hx
    unfold Hist.meanLoop
    rw [S.median W W' (hx v (by simp)), S.total]
    exact congrArg _ (funext fun m => ih _ fun x h => hx x (by simp [h]))

theorem LikeContent.stdevLoop {h : Hist T} {g : Hist T'} (S : LikeContent h g) (W : WF fp h) (W' : WF fp g) (mean : F64)
    (vs : List IterValue) : ∀ t, (∀ x ∈ vs, x.valueIteratedTo ≤ U64MAX) → h.stdevLoop mean vs t = g.stdevLoop mean vs t := by
  induction vs with
  | nil => intro t _; rfl
  | cons v vs ih =>
    intro t hx
    unfold Hist.stdevLoop
    rw [S.median W W' (hx v (by simp))]
    exact congrArg _ (funext fun m => ih _ fun x h => hx x (by simp [h]))

theorem LikeContent.mean {h : Hist T} {g : Hist T'} (S : LikeContent h g) (W : WF fp h) (W' : WF fp g) : h.mean = g.mean := by
  unfold Hist.mean
  rw [W.iterRecorded_eq (by unfold Hist.recordedFuel Hist.distinctValues; omega),
    W'.iterRecorded_eq (by unfold Hist.recordedFuel Hist.distinctValues; omega), S.recItems _ _ 0 0 S.counts, S.total,
    M.ok_bind, M.ok_bind, S.meanLoop W W' _ _ (recItems_le _ _ _ _)]

theorem LikeContent.stdev {h : Hist T} {g : Hist T'} (S : LikeContent h g) (W : WF fp h) (W' : WF fp g) : h.stdev = g.stdev := by
  unfold Hist.stdev Hist.variance
  rw [W.iterRecorded_eq (by unfold Hist.recordedFuel Hist.distinctValues; omega),
    W'.iterRecorded_eq (by unfold Hist.recordedFuel Hist.distinctValues; omega), S.recItems _ _ 0 0 S.counts, S.total,
    S.mean W W']
  simp only [M.ok_bind, S.stdevLoop W W' _ _ _ (recItems_le _ _ _ _)]

theorem quantileLoop_cons (h : Hist T) (target : Nat) (z : Bool) (c : Nat) (cs : List Nat) (i total : Nat) :
    h.quantileLoop target z (c :: cs) i total = (do
      let total ← addU64 total c
      if target ≤ total then do
        let v ← h.valueFor i
        if z then h.lowestEquivalent v else h.highestEquivalent v
      else h.quantileLoop target z cs (i + 1) total) := rfl

theorem quantileLoop_zeros (h : Hist T) {target : Nat} (z : Bool) (cs : List Nat) : ∀ {i total : Nat}, (∀ j, cs.getD j 0 = 0) →
    total < target → total ≤ U64MAX → h.quantileLoop target z cs i total = .ok 0 := by
  induction cs with
  | nil => intro i total _ _ _; rfl
  | cons c cs ih =>
    intro i total hj ht hU
    have h0 : c = 0 := by have := hj 0; simpa using this
    subst h0
    rw [quantileLoop_cons, show addU64 total 0 = .ok total from if_pos (by omega), M.ok_bind, if_neg (by omega)]
    exact ih (fun j => by have := hj (j + 1); simpa using this) ht hU

theorem LikeContent.quantileLoop {h : Hist T} {g : Hist T'} (S : LikeContent h g) (W : WF fp h) (W' : WF fp g) {target : Nat} (z : Bool)
    (cs : List Nat) : ∀ (ds : List Nat) (i total : Nat), (∀ j, cs.getD j 0 = ds.getD j 0) → i + cs.length ≤ h.counts.length →
      i + ds.length ≤ g.counts.length → total < target → total ≤ U64MAX →
      h.quantileLoop target z cs i total = g.quantileLoop target z ds i total := by
  induction cs with
  | nil =>
    intro ds i total hj _ _ ht hU
    rw [quantileLoop_zeros g z ds (fun j => (hj j).symm.trans (by simp)) ht hU]
    rfl
  | cons c cs ih =>
    intro ds i total hj hi hi' ht hU
    cases ds with
    | nil => rw [quantileLoop_zeros h z (c :: cs) (fun j => (hj j).trans (by simp)) ht hU]; rfl
    | cons d ds =>
      have h0 : c = d := by have := hj 0; simpa using this
      subst h0
      rw [List.length_cons] at hi hi'
      rw [quantileLoop_cons, quantileLoop_cons]
      by_cases ha : total + c ≤ U64MAX
      · rw [show addU64 total c = .ok (total + c) from if_pos ha, M.ok_bind, M.ok_bind]
        by_cases hc : target ≤ total + c
        · rw [if_pos hc, if_pos hc, W.valueFor (by omega), W'.valueFor (by omega), M.ok_bind, M.ok_bind,
            lowestEquivalent_eq W.toLayoutOK (W.lval_le' (by omega)), lowestEquivalent_eq W'.toLayoutOK (W'.lval_le' (by omega)),
            highestEquivalent_eq W.toLayoutOK (W.lval_le' (by omega)), highestEquivalent_eq W'.toLayoutOK (W'.lval_le' (by omega))]
          unfold Hist.lhi Hist.lval Hist.llo Hist.lwid
          rw [S.um, S.mag]
        · rw [if_neg hc, if_neg hc]
          exact ih ds (i + 1) (total + c) (fun j => by have := hj (j + 1); simpa using this) (by omega) (by omega) (by omega) ha
      · have : addU64 total c = .error .overflow := if_neg ha
        rw [this]; rfl

theorem LikeContent.quantile {h : Hist T} {g : Hist T'} (S : LikeContent h g) (W : WF fp h) (W' : WF fp g) (q : F64) :
    h.valueAtQuantile q = g.valueAtQuantile q := by
  unfold Hist.valueAtQuantile
  have hr : h.rankFor (Hist.capQuantile q) = g.rankFor (Hist.capQuantile q) := by unfold Hist.rankFor; rw [S.total]
  have hp : 0 < g.rankFor (Hist.capQuantile q) := by
    unfold Hist.rankFor
    dsimp only
    split <;> omega
  dsimp only
  rw [hr]
  exact S.quantileLoop W W' _ _ _ 0 0 S.counts (by omega) (by omega) hp (by omega)

/-- C104: two histograms with the same lowest discernible value and precision that hold the same samples answer alike: `len`, the
count of every value both cover, `mean`, `stdev`, every quantile, all values of `iter_recorded`, and, up to `2 ^ 53` samples, every `quantile_below`.
Counter type, range, auto-resize setting and history do not matter. -/
theorem C104_same {h : Hist T} {g : Hist T'} (R : Reachable fp T h) (R' : Reachable fp T' g) (hlow : h.low = g.low)
    (hsig : h.sigfig = g.sigfig) {l : List (Nat × Nat)} (H : Contains h l) (H' : Contains g l) :
    h.len = g.len ∧ (∀ v, h.Covers v → g.Covers v → h.countAt v = g.countAt v) ∧ h.mean = g.mean ∧ h.stdev = g.stdev ∧
    (∀ q, h.valueAtQuantile q = g.valueAtQuantile q) ∧
    (∃ items, (∀ fuel, h.distinctValues < fuel → h.iterRecorded fuel = .ok items) ∧
      ∀ fuel, g.distinctValues < fuel → g.iterRecorded fuel = .ok items) ∧
    (numberAll l ≤ 2 ^ 53 → ∀ v, v ≤ U64MAX → h.quantileBelow v = g.quantileBelow v) := by
  have W := R.wf
  have W' := R'.wf
  have S := LikeContent.of R R' hlow hsig H H'
  have hlid : ∀ v, h.lidx v = g.lidx v := fun v => by unfold Hist.lidx; rw [S.um, S.mag]
  have heq : ∀ a b, a ≤ U64MAX → b ≤ U64MAX → (Equiv h a b ↔ Equiv g a b) := fun a b ha hb => by
    rw [W.equiv_iff ha hb, W'.equiv_iff ha hb, hlid, hlid]
  refine ⟨S.total, ?_, S.mean W W', S.stdev W W', S.quantile W W', ⟨_, fun fuel hf => W.iterRecorded_eq hf, fun fuel hf => ?_⟩, ?_⟩
  · intro v h1 h2
    have hv : v ≤ U64MAX := by
      have := W.coverEnd_le
      unfold Hist.Covers at h1
      omega
    rw [H.count v h1, H'.count v h2]
    exact congrArg _ (number_congr fun p hp => heq _ _ (H.le W hp) hv)
  · rw [W'.iterRecorded_eq hf, S.recItems _ _ 0 0 S.counts]
  · intro hn v hv
    rcases Nat.eq_zero_or_pos (numberAll l) with h0 | h0
    · rw [C27_empty (H.len.trans h0), C27_empty (H'.len.trans h0)]
    · rw [C73_quantile_below R H h0 hn hv, C73_quantile_below R' H' h0 hn hv]
      have : (number l fun x => x ≤ v ∨ Equiv h x v) = number l fun x => x ≤ v ∨ Equiv g x v :=
        number_congr fun p hp => by rw [heq _ _ (H.le W hp) hv]
      rw [this]

/-! ## Recording in a finer histogram first -/

theorem subBucketCountMag_mono {a b : Nat} (ha : b ≤ 5) (h : a ≤ b) : Hist.subBucketCountMag a ≤ Hist.subBucketCountMag b := by
  have key : ∀ b ≤ 5, ∀ a ≤ b, Hist.subBucketCountMag a ≤ Hist.subBucketCountMag b := by decide
  exact key b ha a h

theorem Lay.wid_coarser {um m um' m' : Nat} (hu : um' ≤ um) (hm : m ≤ m') (v : Nat) : Lay.wid um' m' v ≤ Lay.wid um m v := by
  unfold Lay.wid Lay.bkt
  exact Nat.pow_le_pow_right (by omega) (by omega)

/-- C104: a histogram with a coarser (or the same) unit and a lower (or the same) precision has coarser classes -/
theorem C104_nested {h : Hist T} {s : Hist T'} (R : Reachable fp T h) (Rs : Reachable fp T' s) (hu : unit fp s ≤ unit fp h)
    (hs : h.sigfig ≤ s.sigfig) {a b : Nat} (ha : a ≤ U64MAX) (hb : b ≤ U64MAX) (he : Equiv s a b) : Equiv h a b := by
  have W := R.wf
  have Ws := Rs.wf
  rw [Ws.equiv_iff ha hb] at he
  rw [W.equiv_iff ha hb]
  have hum : s.unitMag ≤ h.unitMag := by
    rw [W.um, Ws.um]
    exact (Nat.pow_le_pow_iff_right (by omega)).mp hu
  have hmag : h.subBucketHalfCountMag ≤ s.subBucketHalfCountMag := by
    have h1 := W.mag
    have h2 := Ws.mag
    have h3 := subBucketCountMag_mono Ws.sig5 hs
    unfold Hist.sigfig at h3
    omega
  -- the class of `b` in `s`, with `lo` in the place of `b`
  have key : ∀ v, h.lidx (s.llo v) = h.lidx v := by
    intro v
    have h1 : h.lidx (s.llo v) = h.lidx (s.llo v) := rfl
    have h2 := @Lay.lo_le s.unitMag s.subBucketHalfCountMag v
    have h3 := @Lay.lt_lo_add s.unitMag s.subBucketHalfCountMag v
    have h4 : Lay.wid s.unitMag s.subBucketHalfCountMag v ≤ Lay.wid h.unitMag h.subBucketHalfCountMag v :=
      Lay.wid_coarser hum hmag v
    have h5 := @Lay.lo_le h.unitMag h.subBucketHalfCountMag v
    have h6 := @Lay.lt_lo_add h.unitMag h.subBucketHalfCountMag v
    refine Lay.idx_eq_iff.mpr ⟨?_, by unfold Hist.llo; omega⟩
    -- the class of `v` in `h` begins at a multiple of the width in `s`
    have hd : Lay.wid s.unitMag s.subBucketHalfCountMag v ∣ Lay.wid h.unitMag h.subBucketHalfCountMag v :=
      (Nat.pow_dvd_pow_iff_le_right (by omega)).mpr ((Nat.pow_le_pow_iff_right (by omega)).mp h4)
    have hd2 : Lay.wid s.unitMag s.subBucketHalfCountMag v ∣ Lay.lo h.unitMag h.subBucketHalfCountMag v :=
      dvd_trans hd (Dvd.intro_left _ rfl)
    show _ ≤ v / Lay.wid s.unitMag s.subBucketHalfCountMag v * Lay.wid s.unitMag s.subBucketHalfCountMag v
    obtain ⟨k, hk⟩ := hd2
    rw [hk] at h5 ⊢
    have : k ≤ v / Lay.wid s.unitMag s.subBucketHalfCountMag v := (Nat.le_div_iff_mul_le (@Lay.wid_pos s.unitMag s.subBucketHalfCountMag v)).mpr (by rw [Nat.mul_comm]; exact h5)
    rw [Nat.mul_comm]
    exact Nat.mul_le_mul_right _ this
  have hlo : s.llo a = s.llo b := Lay.lo_eq_iff.mpr he
  rw [← key a, ← key b, hlo]

/-- C104: recording samples in a finer histogram and adding that to a coarser one makes no difference to recording them there: both hold
the same samples, and so (`C104_same`) answer alike. -/
theorem C104_coarsen {h s h1 h2 : Hist T} (R : Reachable fp T h) (Rs : Reachable fp T s) (hu : unit fp s ≤ unit fp h)
    (hs : h.sigfig ≤ s.sigfig) {l l' : List (Nat × Nat)} (H : Contains h l) (Hs : Contains s l')
    (hl : ∀ p ∈ l', p.1 ≤ U64MAX ∧ p.2 ≤ T.max ∧ p.2 ≠ 0)
    (hfit : ∀ w, w ≤ U64MAX → (number (l ++ l') fun v => Equiv h v w) ≤ T.max) (htot : numberAll (l ++ l') ≤ U64MAX)
    (e1 : h.add s = .ok (h1, .ok ())) (e2 : recordSeq l' h = .ok (h2, .ok ())) :
    Contains h1 (l ++ l') ∧ Contains h2 (l ++ l') ∧ h1.len = h2.len ∧
    (∀ v, h1.Covers v → h2.Covers v → h1.countAt v = h2.countAt v) ∧ h1.mean = h2.mean ∧ h1.stdev = h2.stdev ∧
    (∀ q, h1.valueAtQuantile q = h2.valueAtQuantile q) := by
  have H1 := C71_add R Rs H Hs (fun a b ha hb => C104_nested R Rs hu hs ha hb) e1 (fun p hp => (hl p hp).2.2) hfit htot
  have hl' : ∀ p ∈ l', p.1 ≤ U64MAX ∧ p.2 ≤ T.max := fun p hp => ⟨(hl p hp).1, (hl p hp).2.1⟩
  have H2 := C71_record R H hl' e2 hfit htot
  have R1 : Reachable fp T h1 := .add R Rs e1
  have R2 : Reachable fp T h2 := reachable_recordSeq R hl' e2
  have c1 := R.wf.add_config Rs.wf e1
  have c2 : SameConfig h h2 := by
    obtain ⟨x, r, e, -, hr⟩ := R.wf.recordSeq_spec l' hl'
    rw [e2] at e
    cases e
    exact hr.1.cfg
  obtain ⟨a1, a2, a3, a4, a5, -⟩ := C104_same R1 R2 (c1.low.trans c2.low.symm) (c1.sig.trans c2.sig.symm) H1 H2
  exact ⟨H1, H2, a1, a2, a3, a4, a5⟩

/-- the hypotheses of `C104_coarsen`: a histogram with one significant digit and `demo`, with none -/
example : ∃ t s g g', Reachable Fp.ideal .u8 s ∧ Hist.newWithBounds Fp.ideal .u8 1 100 1 = .ok (.ok t) ∧
    recordSeq [(9, 3), (13, 2)] t = .ok (s, .ok ()) ∧ Contains s [(9, 3), (13, 2)] ∧ Contains demo3 [(5, 3), (9, 200), (0, 1)] ∧
    unit Fp.ideal s ≤ unit Fp.ideal demo3 ∧ demo3.sigfig ≤ s.sigfig ∧ demo3.add s = .ok (g, .ok ()) ∧
    recordSeq [(9, 3), (13, 2)] demo3 = .ok (g', .ok ()) ∧ g.valueAtQuantile (.fin 1) = .ok 15 ∧
    ∀ w, w ≤ U64MAX → (number ([(5, 3), (9, 200), (0, 1)] ++ [(9, 3), (13, 2)]) fun v => Equiv demo3 v w) ≤ CounterTy.u8.max := by
  have h : (match Hist.newWithBounds Fp.ideal .u8 1 100 1 with
    | .ok (.ok t) => (match recordSeq [(9, 3), (13, 2)] t with
      | .ok (s, .ok ()) => (match demo3.add s, recordSeq [(9, 3), (13, 2)] demo3 with
        | .ok (g, .ok ()), .ok (g', .ok ()) => decide (t.len = 0 ∧ g.valueAtQuantile (.fin 1) = .ok 15 ∧
            unit Fp.ideal s ≤ unit Fp.ideal demo3 ∧ demo3.sigfig ≤ s.sigfig)
        | _, _ => false)
      | _ => false)
    | _ => false) = true := by decide +kernel
  split at h
  · rename_i t ht
    split at h
    · rename_i s hs
      split at h
      · rename_i g g' hg hg'
        obtain ⟨h0, hv, hu, hsg⟩ := of_decide_eq_true h
        have R : Reachable Fp.ideal .u8 t := .newWithBounds (by decide) ht
        refine ⟨t, s, g, g', reachable_recordSeq R (by decide) hs, ht, hs, ?_, demo3_holds, hu, hsg, hg, hg', hv, ?_⟩
        · exact C71_record R (C71_empty R h0) (by decide) hs (fun w _ => le_trans (number_le_all _ _) (by decide)) (by decide)
        · exact fun w _ => le_trans (number_le_all _ _) (by decide)
      · cases h
    · cases h
  · cases h

end Hdr
