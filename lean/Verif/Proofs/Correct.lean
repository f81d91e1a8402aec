import Verif.Spec.Records
import Verif.Proofs.Iter

/-!
# Sequences of recordings; coordinated-omission correction
-/

namespace Hdr

variable {T : CounterTy} {fp : Fp}

theorem recordSeq_cons (v c : Nat) (rest : List (Nat × Nat)) (h : Hist T) :
    recordSeq ((v, c) :: rest) h = (h.recordN v c >>= fun r => match r with
      | (h, .error e) => .ok (h, .error e)
      | (h, .ok ()) => recordSeq rest h) := rfl

theorem recordSeq_append (l1 l2 : List (Nat × Nat)) (h : Hist T) :
    recordSeq (l1 ++ l2) h = (recordSeq l1 h >>= fun r => match r with
      | (h, .error e) => .ok (h, .error e)
      | (h, .ok ()) => recordSeq l2 h) := by
  induction l1 generalizing h with
  | nil => rfl
  | cons p l1 ih =>
    obtain ⟨v, c⟩ := p
    rw [List.cons_append, recordSeq_cons, recordSeq_cons]
    cases h.recordN v c with
    | error e => rfl
    | ok r =>
      obtain ⟨h1, r⟩ := r
      cases r with
      | error e => rfl
      | ok u => simp only [M.ok_bind]; exact ih h1

/-- the loop of `record_n_correct` -/
theorem correctLoop_eq (c i : Nat) (hi : 0 < i) (fuel : Nat) : ∀ (h : Hist T) (m : Nat), m < fuel →
    Hist.correctLoop c i fuel h m
      = recordSeq (((List.range (m / i)).map fun k => m - k * i).map fun v => (v, c)) h := by
  induction fuel with
  | zero => intro h m hm; omega
  | succ n ih =>
    intro h m hm
    unfold Hist.correctLoop
    by_cases hle : i ≤ m
    · have e : m / i = (m - i) / i + 1 := by
        rw [Nat.div_eq_sub_div hi hle]
      rw [if_pos hle, e, List.range_succ_eq_map, List.map_cons, List.map_cons, recordSeq_cons]
      have e2 : ((List.map Nat.succ (List.range ((m - i) / i))).map fun k => m - k * i)
          = (List.range ((m - i) / i)).map fun k => m - i - k * i := by
        rw [List.map_map]
        apply List.map_congr_left
        intro k _
        simp only [Function.comp, Nat.succ_eq_add_one]
        rw [Nat.add_mul]; omega
      rw [e2]
      simp only [Nat.zero_mul, Nat.sub_zero]
      change (h.recordN m c >>= _) = _
      cases h.recordN m c with
      | error e => rfl
      | ok r =>
        obtain ⟨h1, r⟩ := r
        cases r with
        | error e => rfl
        | ok u =>
          simp only [M.ok_bind]
          rw [show subU m i = .ok (m - i) by unfold subU; rw [if_pos hle], M.ok_bind]
          exact ih h1 (m - i) (by omega)
    · rw [if_neg hle, Nat.div_eq_of_lt (by omega)]; rfl

theorem recordNCorrect_eq (h : Hist T) (v c i : Nat) :
    h.recordNCorrect v c i = recordSeq ((v :: hiddenSeries v i).map fun v => (v, c)) h := by
  unfold Hist.recordNCorrect
  rw [List.map_cons, recordSeq_cons]
  cases h.recordN v c with
  | error e => rfl
  | ok r =>
    obtain ⟨h1, r⟩ := r
    cases r with
    | error e => rfl
    | ok u =>
      simp only [M.ok_bind]
      unfold hiddenSeries
      by_cases h0 : i = 0
      · rw [if_pos h0, if_pos h0]; rfl
      · rw [if_neg h0, if_neg h0]
        by_cases hlt : i < v
        · rw [if_pos hlt, show subU v i = .ok (v - i) by unfold subU; rw [if_pos hlt.le], M.ok_bind,
            correctLoop_eq c i (by omega) _ _ _ (by omega)]
          have e : v / i - 1 = (v - i) / i := by
            rw [Nat.div_eq_sub_div (by omega) hlt.le, Nat.add_sub_cancel]
          rw [e]
          congr 2
          apply List.map_congr_left
          intro k _
          rw [Nat.add_mul]; omega
        · rw [if_neg hlt]
          have e : v / i - 1 = 0 := by
            have : v / i ≤ i / i := Nat.div_le_div_right (by omega)
            rw [Nat.div_self (by omega)] at this
            omega
          rw [e]; rfl

/-- all the recordings `add_correct` makes for the yielded values -/
def correctedAll (interval : Nat) (vs : List IterValue) : List (Nat × Nat) :=
  vs.flatMap fun v =>
    (v.valueIteratedTo :: hiddenSeries v.valueIteratedTo interval).map fun x => (x, v.countAtValue)

theorem addCorrectLoop_eq (interval : Nat) (vs : List IterValue) (h : Hist T) :
    Hist.addCorrectLoop interval vs h = recordSeq (correctedAll interval vs) h := by
  induction vs generalizing h with
  | nil => rfl
  | cons v vs ih =>
    unfold Hist.addCorrectLoop correctedAll
    rw [List.flatMap_cons, recordSeq_append, ← recordNCorrect_eq]
    cases h.recordNCorrect v.valueIteratedTo v.countAtValue interval with
    | error e => rfl
    | ok r =>
      obtain ⟨h1, r⟩ := r
      cases r with
      | error e => rfl
      | ok u => simp only [M.ok_bind]; exact ih h1

theorem hiddenSeries_lt {v i x : Nat} (hx : x ∈ hiddenSeries v i) : x < v ∧ i ≤ x := by
  unfold hiddenSeries at hx
  split at hx
  · simp at hx
  · rename_i h0
    rw [List.mem_map] at hx
    obtain ⟨k, hk, rfl⟩ := hx
    rw [List.mem_range] at hk
    have h1 : (k + 2) * i ≤ v := by
      have : k + 2 ≤ v / i := by omega
      exact le_trans (Nat.mul_le_mul_right i this) (Nat.div_mul_le_self v i)
    have e1 : (k + 2) * i = (k + 1) * i + i := by ring
    have e2 : (k + 1) * i = k * i + i := by ring
    generalize (k + 1) * i = a at *
    omega

/-! ### the effect of a sequence on a valid histogram -/

/-- sum of the counts of the pairs whose value falls into slot `j` -/
def Hist.hits (h : Hist T) (l : List (Nat × Nat)) (j : Nat) : Nat :=
  (l.map fun p => if h.lidx p.1 = j then p.2 else 0).sum

theorem hits_cons (h : Hist T) (p : Nat × Nat) (l : List (Nat × Nat)) (j : Nat) :
    h.hits (p :: l) j = (if h.lidx p.1 = j then p.2 else 0) + h.hits l j := by simp [Hist.hits]

theorem SameConfig.hits {h h' : Hist T} (c : SameConfig h h') (l : List (Nat × Nat)) (j : Nat) :
    h'.hits l j = h.hits l j := by
  unfold Hist.hits; simp only [c.lidx]

/-- class of the maximum after a sequence -/
def Hist.maxAfter (h : Hist T) (l : List (Nat × Nat)) (m : Nat) : Nat :=
  l.foldl (fun m p => Max.max m (h.lidx p.1)) m

/-- class of the smallest non-zero-unit value after a sequence -/
def Hist.minAfter (h : Hist T) (l : List (Nat × Nat)) (m : Nat) : Nat :=
  l.foldl (fun m p => if h.lidx p.1 = 0 then m else Min.min m (h.lidx p.1)) m

theorem growTo_config (h : Hist T) (v : Nat) : SameConfig h (h.growTo v) :=
  ⟨by simp, by simp, by simp, by simp, by simp⟩

/-- one successful recording -/
theorem WF.step {h : Hist T} (W : WF fp h) {v c : Nat} (hv : v ≤ U64MAX) :
    WF fp ((h.growTo v).recorded v c) ∧ SameConfig h ((h.growTo v).recorded v c)
    ∧ h.counts.length ≤ ((h.growTo v).recorded v c).counts.length
    ∧ (∀ j, ((h.growTo v).recorded v c).counts.getD j 0
        = min (h.counts.getD j 0 + if h.lidx v = j then c else 0) T.max)
    ∧ ((h.growTo v).recorded v c).totalCount = min (h.totalCount + c) U64MAX
    ∧ h.lidx ((h.growTo v).recorded v c).maxValue = max (h.lidx h.maxValue) (h.lidx v)
    ∧ h.lidx ((h.growTo v).recorded v c).minNonZero
        = (if h.lidx v = 0 then h.lidx h.minNonZero else min (h.lidx h.minNonZero) (h.lidx v)) := by
  have Wg := W.growTo hv
  have cg := growTo_config h v
  have hcov : (h.growTo v).lidx v < (h.growTo v).counts.length := by
    rw [cg.lidx]; exact W.growTo_cov v
  have Lg := Wg.toLayoutOK
  refine ⟨W.record_wf hv, cg.trans (recorded_config _ _ _), ?_, fun j => ?_, ?_, ?_, ?_⟩
  · simp only [Hist.recorded, List.length_set]; exact W.growTo_len_le v
  · rw [recorded_getD hcov j (Wg.getD_le j), cg.lidx, W.growTo_getD]
  · simp [Hist.recorded, Hdr.satAdd]
  · rw [← cg.lidx]
    change (h.growTo v).lidx ((h.growTo v).newMax v) = _
    rw [lidx_newMax Lg, cg.lidx, cg.lidx]; simp
  · rw [← cg.lidx]
    change (h.growTo v).lidx ((h.growTo v).newMin v) = _
    split
    · rename_i h0
      rw [newMin_zero Lg (by rw [cg.lidx]; exact h0), cg.lidx]; simp
    · rename_i h0
      rw [lidx_newMin Lg hv (by rw [cg.lidx]; exact h0), cg.lidx, cg.lidx]; simp

/-- what a sequence of recordings does; `l'` is the part that was recorded -/
structure SeqEffect (h : Hist T) (l : List (Nat × Nat)) (h' : Hist T) : Prop where
  cfg : SameConfig h h'
  len : h.counts.length ≤ h'.counts.length
  counts : ∀ j, h'.counts.getD j 0 = min (h.counts.getD j 0 + h.hits l j) T.max
  total : h'.totalCount = min (h.totalCount + (l.map Prod.snd).sum) U64MAX
  max : h.lidx h'.maxValue = h.maxAfter l (h.lidx h.maxValue)
  min : h.lidx h'.minNonZero = h.minAfter l (h.lidx h.minNonZero)

theorem SeqEffect.nil {h : Hist T} (W : WF fp h) : SeqEffect h [] h where
  cfg := SameConfig.refl h
  len := le_rfl
  counts j := by have := W.getD_le j; simp [Hist.hits]; exact this
  total := by have := W.tot; simp; omega
  max := rfl
  min := rfl

theorem WF.recordSeq_spec {h : Hist T} (W : WF fp h) (l : List (Nat × Nat))
    (hv : ∀ p ∈ l, p.1 ≤ U64MAX ∧ p.2 ≤ T.max) :
    ∃ h' r, recordSeq l h = .ok (h', r) ∧ WF fp h' ∧
      (match r with
      | .ok () => SeqEffect h l h' ∧ ∀ p ∈ l, h.lidx p.1 < h'.counts.length
      | .error e => e = .ValueOutOfRangeResizeDisabled ∧ h.autoResize = false ∧
          ∃ l1 p l2, l = l1 ++ p :: l2 ∧ SeqEffect h l1 h' ∧ h.counts.length ≤ h.lidx p.1
            ∧ ∀ q ∈ l1, h.lidx q.1 < h'.counts.length) := by
  induction l generalizing h with
  | nil => exact ⟨h, .ok (), rfl, W, SeqEffect.nil W, by simp⟩
  | cons p l ih =>
    obtain ⟨v, c⟩ := p
    have hvc : v ≤ U64MAX ∧ c ≤ T.max := hv (v, c) (by simp)
    rw [recordSeq_cons, W.recordN_eq hvc.1 hvc.2]
    by_cases hc : h.lidx v < h.counts.length ∨ h.autoResize = true
    · rw [if_pos hc, M.ok_bind]
      simp only
      obtain ⟨W1, c1, l1, g1, t1, m1, n1⟩ := W.step (c := c) hvc.1
      have hcov1 : h.lidx v < ((h.growTo v).recorded v c).counts.length := by
        simp only [Hist.recorded, List.length_set]; exact W.growTo_cov v
      obtain ⟨h', r, e1, W', hr⟩ := ih W1 (fun p hp => hv p (by simp [hp]))
      have key : ∀ l0, SeqEffect ((h.growTo v).recorded v c) l0 h' → SeqEffect h ((v, c) :: l0) h' := by
        intro l0 E
        refine ⟨c1.trans E.cfg, le_trans l1 E.len, fun j => ?_, ?_, ?_, ?_⟩
        · rw [E.counts, g1, hits_cons, c1.hits]; simp only; omega
        · rw [E.total, t1]; simp only [List.map_cons, List.sum_cons]; omega
        · have := E.max
          rw [c1.lidx, c1.lidx, m1] at this
          rw [this]
          unfold Hist.maxAfter
          simp only [c1.lidx, List.foldl_cons]
        · have := E.min
          rw [c1.lidx, c1.lidx, n1] at this
          rw [this]
          unfold Hist.minAfter
          simp only [c1.lidx, List.foldl_cons]
      refine ⟨h', r, e1, W', ?_⟩
      cases r with
      | ok u =>
        obtain ⟨E, hall⟩ := hr
        refine ⟨key l E, fun p hp => ?_⟩
        rcases List.mem_cons.mp hp with hp | hp
        · subst hp; exact lt_of_lt_of_le hcov1 E.len
        · have := hall p hp; rwa [c1.lidx] at this
      | error e =>
        obtain ⟨he, ha, la, p, lb, hl, E, hp, hall⟩ := hr
        refine ⟨he, by rw [← c1.auto]; exact ha, (v, c) :: la, p, lb, by rw [hl]; rfl, key la E, ?_, fun q hq => ?_⟩
        · rw [c1.lidx] at hp
          exact le_trans l1 hp
        · rcases List.mem_cons.mp hq with hq | hq
          · subst hq; exact lt_of_lt_of_le hcov1 E.len
          · have := hall q hq; rwa [c1.lidx] at this
    · rw [if_neg hc, M.ok_bind]
      push Not at hc
      refine ⟨h, .error .ValueOutOfRangeResizeDisabled, rfl, W, rfl, by simpa using hc.2,
        [], (v, c), l, rfl, SeqEffect.nil W, hc.1, by simp⟩

/-- a sequence of covered values never grows the histogram -/
theorem WF.recordSeq_cov {h : Hist T} (W : WF fp h) (l : List (Nat × Nat))
    (hv : ∀ p ∈ l, p.1 ≤ U64MAX ∧ p.2 ≤ T.max) (hcov : ∀ p ∈ l, h.lidx p.1 < h.counts.length) :
    ∃ h', recordSeq l h = .ok (h', .ok ()) ∧ WF fp h' ∧ SeqEffect h l h'
      ∧ h'.counts.length = h.counts.length ∧ h'.highestTrackable = h.highestTrackable
      ∧ h'.bucketCount = h.bucketCount := by
  induction l generalizing h with
  | nil => exact ⟨h, rfl, W, SeqEffect.nil W, rfl, rfl, rfl⟩
  | cons p l ih =>
    obtain ⟨v, c⟩ := p
    have hvc : v ≤ U64MAX ∧ c ≤ T.max := hv (v, c) (by simp)
    have hc : h.lidx v < h.counts.length := hcov (v, c) (by simp)
    obtain ⟨h', r, e1, W', hr⟩ := W.recordSeq_spec ((v, c) :: l) hv
    rw [recordSeq_cons, W.recordN_cov hvc.1 hvc.2 hc, M.ok_bind] at e1 ⊢
    simp only at e1 ⊢
    have hl1 : (h.recorded v c).counts.length = h.counts.length := by simp [Hist.recorded]
    obtain ⟨h2, e2, W2, E2, g1, g2, g3⟩ := ih (W.recorded hvc.1 hc) (fun p hp => hv p (by simp [hp]))
      (fun p hp => by rw [hl1]; exact hcov p (by simp [hp]))
    rw [e2] at e1
    cases e1
    exact ⟨_, e2, W2, hr.1, g1.trans hl1, g2, g3⟩

/-! ### `new_from`, `clone_correct`, `add_correct` -/

theorem WF.newFrom_eq {F : CounterTy} {s : Hist F} (W : WF fp s) :
    ∃ h, Hist.newFrom fp T s = .ok h ∧ WF fp h ∧ h.totalCount = 0 ∧ h.maxValue = 0
      ∧ h.minNonZero = U64MAX ∧ h.autoResize = s.autoResize ∧ h.lowestDiscernible = s.lowestDiscernible
      ∧ h.highestTrackable = s.highestTrackable ∧ h.sigDigits = s.sigDigits
      ∧ h.unitMag = s.unitMag ∧ h.subBucketHalfCountMag = s.subBucketHalfCountMag
      ∧ h.bucketCount = s.bucketCount ∧ h.counts.length = s.counts.length := by
  have hsc : fp.log2Floor s.lowestDiscernible + Hist.subBucketCountMag s.sigDigits ≤ 63 := by
    rw [← W.um, ← W.mag]; have := W.sum62; omega
  have hbw := fresh_wf (T := T) (fp := fp) W.low1 W.low63 W.highlow W.highmax W.sig5 hsc
  unfold Hist.newFrom
  rw [newWithBounds_eq fp T W.highmax, M.ok_bind]
  have := W.low1
  have := W.low63
  have := W.highlow
  have := W.sig5
  rw [if_neg (by omega), if_neg (by omega), if_neg (by omega), if_neg (by omega), if_neg (by omega)]
  simp only
  have hum : (Hist.fresh fp T s.lowestDiscernible s.highestTrackable s.sigDigits).unitMag = s.unitMag := W.um.symm
  have hmag : (Hist.fresh fp T s.lowestDiscernible s.highestTrackable s.sigDigits).subBucketHalfCountMag
      = s.subBucketHalfCountMag := by
    show Hist.subBucketCountMag s.sigDigits - 1 = _
    have := W.mag; omega
  have hbc : (Hist.fresh fp T s.lowestDiscernible s.highestTrackable s.sigDigits).bucketCount = s.bucketCount := by
    rw [W.bc, hbw.bc]
    unfold Hist.lbkt
    rw [hum, hmag]; rfl
  have hlen : (Hist.fresh fp T s.lowestDiscernible s.highestTrackable s.sigDigits).counts.length
      = s.counts.length := by
    rw [hbw.len, W.len, hbc, hmag]
  have hres : Hist.vecResize (Hist.fresh fp T s.lowestDiscernible s.highestTrackable s.sigDigits).counts
      s.distinctValues = (Hist.fresh fp T s.lowestDiscernible s.highestTrackable s.sigDigits).counts := by
    unfold Hist.vecResize Hist.distinctValues
    rw [← hlen, if_pos le_rfl, List.take_length]
  rw [hres]
  exact ⟨_, rfl, hbw.auto s.autoResize, rfl, rfl, rfl, rfl, rfl, rfl, rfl, hum, hmag, hbc, hlen⟩

/-- every value yielded by `iter_recorded` is in range, its count fits -/
theorem recItems_mem {h : Hist T} (cs : List Nat) : ∀ (i tot : Nat) (v : IterValue),
    v ∈ h.recItems cs i tot → ∃ k c, k < cs.length ∧ cs[k]? = some c ∧ c ≠ 0
      ∧ v.valueIteratedTo = h.lhi (h.lval (i + k)) ∧ v.countAtValue = h.counts.getD (i + k) 0 := by
  induction cs with
  | nil => intro i tot v hv; simp [Hist.recItems] at hv
  | cons c cs ih =>
    intro i tot v hv
    unfold Hist.recItems at hv
    split at hv
    · rename_i h0
      rcases List.mem_cons.mp hv with hv | hv
      · subst hv; exact ⟨0, c, by simp, by simp, h0, by simp [Hist.slotValue], by simp [Hist.slotValue]⟩
      · obtain ⟨k, c', a, b, d, e, f⟩ := ih _ _ v hv
        refine ⟨k + 1, c', by simpa using a, by simpa using b, d, ?_, ?_⟩
        · rw [e]; congr 2; omega
        · rw [f]; congr 1; omega
    · obtain ⟨k, c', a, b, d, e, f⟩ := ih _ _ v hv
      refine ⟨k + 1, c', by simpa using a, by simpa using b, d, ?_, ?_⟩
      · rw [e]; congr 2; omega
      · rw [f]; congr 1; omega

theorem WF.recItems_mem {s : Hist T} (_ : WF fp s) {v : IterValue} (hv : v ∈ s.recItems s.counts 0 0) :
    ∃ k, k < s.counts.length ∧ s.counts.getD k 0 ≠ 0 ∧ v.valueIteratedTo = s.lhi (s.lval k)
      ∧ v.countAtValue = s.counts.getD k 0 := by
  obtain ⟨k, c, a, b, d, e, f⟩ := Hdr.recItems_mem s.counts 0 0 v hv
  rw [Nat.zero_add] at e f
  refine ⟨k, a, ?_, e, f⟩
  rw [List.getD_eq_getElem?_getD, b]; exact d

theorem WF.corrected_valid {s : Hist T} (Ws : WF fp s) (interval : Nat) :
    ∀ p ∈ correctedAll interval (s.recItems s.counts 0 0), p.1 ≤ U64MAX ∧ p.2 ≤ T.max := by
  intro p hp
  unfold correctedAll at hp
  rw [List.mem_flatMap] at hp
  obtain ⟨v, hv, hp⟩ := hp
  obtain ⟨k, hk, _, e, f⟩ := Ws.recItems_mem hv
  rw [List.mem_map] at hp
  obtain ⟨x, hx, rfl⟩ := hp
  have hle : v.valueIteratedTo ≤ U64MAX := by rw [e]; exact lhi_le
  refine ⟨?_, by simp only; rw [f]; exact Ws.getD_le k⟩
  rcases List.mem_cons.mp hx with hx | hx
  · subst hx; exact hle
  · have := (hiddenSeries_lt hx).1
    simp only; omega

theorem WF.addCorrect_eq {s : Hist T} (Ws : WF fp s) (h : Hist T) (interval : Nat) :
    h.addCorrect s interval = recordSeq (correctedAll interval (s.recItems s.counts 0 0)) h := by
  unfold Hist.addCorrect
  rw [Ws.iterRecorded_eq (by unfold Hist.recordedFuel Hist.distinctValues; omega), M.ok_bind,
    addCorrectLoop_eq]

theorem WF.cloneCorrect_spec {s : Hist T} (Ws : WF fp s) (interval : Nat) :
    ∃ c h', Hist.newFrom fp T s = .ok c ∧ WF fp c ∧ Hist.cloneCorrect fp s interval = .ok h'
      ∧ recordSeq (correctedAll interval (s.recItems s.counts 0 0)) c = .ok (h', .ok ())
      ∧ WF fp h' ∧ SeqEffect c (correctedAll interval (s.recItems s.counts 0 0)) h'
      ∧ h'.counts.length = s.counts.length ∧ h'.highestTrackable = s.highestTrackable := by
  obtain ⟨c, e, Wc, g1, g2, g3, g4, g5, g6, g7, g8, g9, g10, g11⟩ := Ws.newFrom_eq (T := T)
  have hl : ∀ v, c.lidx v = s.lidx v := fun v => by unfold Hist.lidx; rw [g8, g9]
  obtain ⟨h', r1, r2, r3, r4, r5, r6⟩ := Wc.recordSeq_cov _ (Ws.corrected_valid interval) (by
    intro p hp
    unfold correctedAll at hp
    rw [List.mem_flatMap] at hp
    obtain ⟨v, hv, hp⟩ := hp
    obtain ⟨k, hk, _, e, f⟩ := Ws.recItems_mem hv
    rw [List.mem_map] at hp
    obtain ⟨x, hx, rfl⟩ := hp
    have hidx : s.lidx v.valueIteratedTo = k := by
      rw [e, lidx_lhi (Ws.lval_le hk)]; exact Lay.idx_val
    rw [hl, g11]
    refine lt_of_le_of_lt ?_ hk
    rw [← hidx]
    refine Lay.idx_mono ?_
    rcases List.mem_cons.mp hx with hx | hx
    · subst hx; exact le_rfl
    · exact (hiddenSeries_lt hx).1.le)
  refine ⟨c, h', e, Wc, ?_, r1, r2, r3, by rw [r4, g11], by rw [r5, g6]⟩
  unfold Hist.cloneCorrect
  rw [e, M.ok_bind, Ws.iterRecorded_eq (by unfold Hist.recordedFuel Hist.distinctValues; omega),
    M.ok_bind, addCorrectLoop_eq, r1, M.ok_bind]
  rfl

end Hdr
