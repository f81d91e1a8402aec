import Verif.Proofs.Subtract

/-!
# Addition
-/

namespace Hdr

variable {T : CounterTy} {fp : Fp}

/-- the configuration fields that no operation except resizing touches, plus the layout constants -/
structure SameConfig (h h' : Hist T) : Prop where
  auto : h'.autoResize = h.autoResize
  low : h'.lowestDiscernible = h.lowestDiscernible
  sig : h'.sigDigits = h.sigDigits
  um : h'.unitMag = h.unitMag
  mag : h'.subBucketHalfCountMag = h.subBucketHalfCountMag

theorem SameConfig.refl (h : Hist T) : SameConfig h h := ⟨rfl, rfl, rfl, rfl, rfl⟩
theorem SameConfig.trans {a b c : Hist T} (h1 : SameConfig a b) (h2 : SameConfig b c) :
    SameConfig a c :=
  ⟨h2.auto.trans h1.auto, h2.low.trans h1.low, h2.sig.trans h1.sig, h2.um.trans h1.um,
    h2.mag.trans h1.mag⟩

theorem SameConfig.lidx {h h' : Hist T} (c : SameConfig h h') (v : Nat) : h'.lidx v = h.lidx v := by
  unfold Hist.lidx; rw [c.um, c.mag]
theorem SameConfig.lval {h h' : Hist T} (c : SameConfig h h') (v : Nat) : h'.lval v = h.lval v := by
  unfold Hist.lval; rw [c.um, c.mag]

theorem moved_same {h s : Hist T} (hum : h.unitMag = s.unitMag)
    (hmag : h.subBucketHalfCountMag = s.subBucketHalfCountMag) (j : Nat) :
    moved h s (List.range s.counts.length) j = s.counts.getD j 0 := by
  have e : ∀ i, h.lidx (s.lval i) = i := by
    intro i; unfold Hist.lidx Hist.lval; rw [hum, hmag, Lay.idx_val]
  unfold moved
  simp only [e]
  have key : ∀ n, ((List.range n).map fun i => if i = j then s.counts.getD i 0 else 0).sum
      = if j < n then s.counts.getD j 0 else 0 := by
    intro n
    induction n with
    | zero => simp
    | succ n ih =>
      rw [List.range_succ, List.map_append, List.sum_append, ih]
      by_cases h1 : j < n
      · rw [if_pos h1, if_pos (by omega)]; simp; omega
      · by_cases h2 : n = j
        · subst h2; simp
        · rw [if_neg h1, if_neg (by omega)]; simp [h2]
  rw [key]
  split
  · rfl
  · rw [getD_ge (by omega)]

theorem addCountsLoop_eq (T : CounterTy) (xs os : List Nat) (obs : Nat) (hl : xs.length = os.length)
    (hx : ∀ x ∈ xs, x ≤ T.max) (ho : obs ≤ U64MAX) :
    Hist.addCountsLoop T xs os obs
      = .ok (List.zipWith (fun x o => min (x + o) T.max) xs os, min (obs + os.sum) U64MAX) := by
  induction xs generalizing os obs with
  | nil =>
    cases os with
    | nil => simp [Hist.addCountsLoop, ho]
    | cons => simp at hl
  | cons x xs ih =>
    cases os with
    | nil => simp at hl
    | cons o os =>
      simp only [Hist.addCountsLoop]
      have hxx : x ≤ T.max := hx x (by simp)
      by_cases h0 : o = 0
      · subst h0
        simp only [ne_eq, not_true_eq_false, if_false]
        rw [ih os obs (by simpa using hl) (fun y hy => hx y (by simp [hy])) ho]
        simp
        omega
      · simp only [ne_eq, h0, not_false_eq_true, if_true]
        rw [ih os (Hdr.satAdd obs o) (by simpa using hl) (fun y hy => hx y (by simp [hy])) (Nat.min_le_right _ _)]
        simp [CounterTy.satAdd, Hdr.satAdd]
        omega

theorem getD_zipWith (f : Nat → Nat → Nat) (hf : f 0 0 = 0) (xs os : List Nat)
    (hl : xs.length = os.length) (j : Nat) :
    (List.zipWith f xs os).getD j 0 = f (xs.getD j 0) (os.getD j 0) := by
  simp only [List.getD_eq_getElem?_getD, List.getElem?_zipWith]
  by_cases hj : j < xs.length
  · rw [List.getElem?_eq_getElem hj, List.getElem?_eq_getElem (hl ▸ hj)]; rfl
  · rw [List.getElem?_eq_none (by omega), List.getElem?_eq_none (by omega)]; simp [hf]

theorem min_add_sum (T : CounterTy) (xs os : List Nat) :
    (List.zipWith (fun x o => min (x + o) T.max) xs os).sum ≤ xs.sum + os.sum := by
  induction xs generalizing os with
  | nil => simp
  | cons x xs ih =>
    cases os with
    | nil => simp
    | cons o os => have := ih os; simp; omega

/-! ### recording several classes -/

theorem satAdd_satAdd (T : CounterTy) (a b c : Nat) :
    min (min (a + b) T.max + c) T.max = min (a + (b + c)) T.max := by omega

theorem recorded_config (h : Hist T) (v c : Nat) : SameConfig h (h.recorded v c) := ⟨rfl, rfl, rfl, rfl, rfl⟩

theorem recorded_getD {h : Hist T} {v c : Nat} (hcov : h.lidx v < h.counts.length) (j : Nat)
    (hj : h.counts.getD j 0 ≤ T.max) :
    (h.recorded v c).counts.getD j 0
      = min (h.counts.getD j 0 + if h.lidx v = j then c else 0) T.max := by
  simp only [Hist.recorded, getD_set]
  by_cases h1 : h.lidx v = j
  · subst h1; simp [hcov, CounterTy.satAdd]
  · simp only [h1, false_and, if_false]; omega

theorem WF.recordN_cov {h : Hist T} (W : WF fp h) {v c : Nat} (hv : v ≤ U64MAX) (hc : c ≤ T.max)
    (hcov : h.lidx v < h.counts.length) : h.recordN v c = .ok (h.recorded v c, .ok ()) := by
  rw [W.recordN_eq hv hc, if_pos (Or.inl hcov)]
  unfold Hist.growTo; rw [if_pos hcov]

theorem addRecordLoop_spec {s : Hist T} (Ws : WF fp s) (is : List Nat) :
    ∀ h : Hist T, WF fp h → (∀ i ∈ is, i < s.counts.length) →
      (∀ i ∈ is, h.lidx (s.lval i) < h.counts.length) →
      ∃ h', Hist.addRecordLoop s is h = .ok h' ∧ WF fp h' ∧ SameConfig h h'
        ∧ h'.highestTrackable = h.highestTrackable ∧ h'.bucketCount = h.bucketCount
        ∧ h'.counts.length = h.counts.length
        ∧ (∀ j, h'.counts.getD j 0 = min (h.counts.getD j 0 + moved h s is j) T.max)
        ∧ h'.totalCount = min (h.totalCount + (is.map fun i => s.counts.getD i 0).sum) U64MAX
        ∧ h.lidx h'.maxValue = is.foldl (fun m i =>
            if s.counts.getD i 0 ≠ 0 then max m (h.lidx (s.lval i)) else m) (h.lidx h.maxValue) := by
  induction is with
  | nil =>
    intro h W _ _
    refine ⟨h, rfl, W, SameConfig.refl h, rfl, rfl, rfl, fun j => ?_, ?_, rfl⟩
    · have := W.getD_le j; simp only [moved_nil]; omega
    · have := W.tot; simp; omega
  | cons i is ih =>
    intro h W hlen hcov
    have hi := hlen i (by simp)
    unfold Hist.addRecordLoop
    rw [WF.countAtIndex hi, expectM_some, M.ok_bind]
    by_cases hc : s.counts.getD i 0 = 0
    · rw [if_neg (by rw [hc]; simp)]
      obtain ⟨h', g1, g2, g3, g4, g4b, g5, g6, g7, g8⟩ := ih h W (fun k hk => hlen k (by simp [hk]))
        (fun k hk => hcov k (by simp [hk]))
      refine ⟨h', g1, g2, g3, g4, g4b, g5, fun j => ?_, ?_, ?_⟩
      · rw [g6, moved_cons, hc]; simp
      · rw [g7]; simp only [List.map_cons, List.sum_cons, hc]; rw [Nat.zero_add]
      · rw [g8]; simp only [List.foldl_cons, hc, ne_eq, not_true_eq_false, if_false]
    · have hv := Ws.lval_le hi
      have hcc := hcov i (by simp)
      rw [if_pos hc, Ws.valueFor hi, M.ok_bind, W.recordN_cov hv (Ws.getD_le i) hcc, M.ok_bind]
      simp only
      have hl1 : (h.recorded (s.lval i) (s.counts.getD i 0)).counts.length = h.counts.length := by
        simp [Hist.recorded]
      obtain ⟨h', g1, g2, g3, g4, g4b, g5, g6, g7, g8⟩ := ih (h.recorded (s.lval i) (s.counts.getD i 0))
        (W.recorded hv hcc) (fun k hk => hlen k (by simp [hk]))
        (fun k hk => by rw [hl1]; exact hcov k (by simp [hk]))
      refine ⟨h', g1, g2, (recorded_config h _ _).trans g3, g4, g4b, by rw [g5, hl1], fun j => ?_, ?_, ?_⟩
      · rw [g6, recorded_getD hcc j (W.getD_le j), moved_cons]
        change min (min _ _ + moved h s is j) _ = _
        omega
      · rw [g7]
        simp only [List.map_cons, List.sum_cons]
        show min (Hdr.satAdd h.totalCount (s.counts.getD i 0) + _) _ = _
        unfold Hdr.satAdd
        omega
      · change h.lidx h'.maxValue = _ at g8
        rw [g8]
        simp only [List.foldl_cons, ne_eq, hc, not_false_eq_true, if_true]
        change is.foldl _ (h.lidx (h.newMax (s.lval i))) = _
        rw [lidx_newMax W.toLayoutOK]
        rfl

/-! ### the three cases -/

theorem sum_range_getD (l : List Nat) : ((List.range l.length).map fun i => l.getD i 0).sum = l.sum := by
  congr 1
  apply List.ext_getElem
  · simp
  · intro i h1 h2
    simp only [List.getElem_map, List.getElem_range]
    rw [List.getD_eq_getElem?_getD, List.getElem?_eq_getElem h2]; rfl

/-- summing over an initial segment that holds all the non-zero entries -/
theorem sum_range_prefix (f : Nat → Nat) (n k : Nat) (hk : n ≤ k) (hz : ∀ i, n ≤ i → f i = 0) :
    ((List.range k).map f).sum = ((List.range n).map f).sum := by
  induction k with
  | zero => have : n = 0 := by omega
            subst this; rfl
  | succ k ih =>
    by_cases hn : n ≤ k
    · rw [List.range_succ, List.map_append, List.sum_append, ih hn]
      simp [hz k hn]
    · have : n = k + 1 := by omega
      subst this; rfl

/-- same-layout test of `add` -/
def Hist.matching (h s : Hist T) : Prop :=
  h.bucketCount = s.bucketCount ∧ h.subBucketCount = s.subBucketCount ∧ h.unitMag = s.unitMag

instance (h s : Hist T) : Decidable (h.matching s) := by unfold Hist.matching; infer_instance

theorem matching_mag {h s : Hist T} (W : WF fp h) (Ws : WF fp s) (hm : h.matching s) :
    h.subBucketHalfCountMag = s.subBucketHalfCountMag := by
  have := hm.2.1
  rw [W.sbc, Ws.sbc] at this
  have := Nat.pow_right_injective (le_refl 2) this
  omega

theorem matching_len {h s : Hist T} (W : WF fp h) (Ws : WF fp s) (hm : h.matching s) :
    h.counts.length = s.counts.length := by
  rw [W.len, Ws.len, hm.1, matching_mag W Ws hm]

theorem lmax_lt_of_lt {h : Hist T} {mx : Nat} (W : WF fp h) (hlt : h.lmax < mx) : h.maxValue < mx :=
  lt_of_le_of_lt W.maxValue_le_lmax hlt

theorem beq_matching (h s : Hist T) :
    (h.bucketCount == s.bucketCount && h.subBucketCount == s.subBucketCount
      && h.unitMag == s.unitMag) = decide (h.matching s) := by
  rw [Bool.eq_iff_iff, decide_eq_true_iff]
  unfold Hist.matching
  simp [and_assoc]

theorem WF.addBody_spec {h s : Hist T} (W : WF fp h) (Ws : WF fp s) (_hs : s.totalCount ≠ 0)
    (hcov : h.lidx s.lmax < h.counts.length) :
    ∃ h', h.addBody s = .ok h' ∧ WF fp h' ∧ SameConfig h h'
      ∧ h'.highestTrackable = h.highestTrackable ∧ h'.bucketCount = h.bucketCount
      ∧ h'.counts.length = h.counts.length
      ∧ (∀ j, h'.counts.getD j 0
          = min (h.counts.getD j 0 + moved h s (List.range s.counts.length) j) T.max)
      ∧ (h.matching s ∧ h.totalCount = 0 →
          h' = { h with counts := s.counts, totalCount := s.totalCount
                        minNonZero := s.minNonZero, maxValue := s.maxValue })
      ∧ (¬ (h.matching s ∧ h.totalCount = 0) →
          h'.totalCount = min (h.totalCount + s.counts.sum) U64MAX)
      ∧ (h.matching s ∧ h.totalCount ≠ 0 →
          h'.maxValue = (if h.lmax < s.lmax then s.lmax ||| h.unitMagMask else h.maxValue)
          ∧ h'.minNonZero = (if s.lminNz < h.lminNz then (h.updateMin s.lminNz).minNonZero
              else h.minNonZero))
      ∧ (∀ n, h.lidx h.maxValue < n → h.lidx s.lmax < n → h.lidx h'.maxValue < n) := by
  have L := W.toLayoutOK
  unfold Hist.addBody
  rw [beq_matching]
  by_cases hm : h.matching s
  · have hmag := matching_mag W Ws hm
    have hlen := matching_len W Ws hm
    have hmv : ∀ j, moved h s (List.range s.counts.length) j = s.counts.getD j 0 :=
      moved_same hm.2.2 hmag
    have hlid : ∀ v, h.lidx v = s.lidx v := fun v => by unfold Hist.lidx; rw [hm.2.2, hmag]
    simp only [hm, decide_true, Bool.true_and]
    by_cases h0 : h.totalCount = 0
    · rw [if_pos (by simp [Hist.isEmpty, h0]), assertM_true (by simpa using hlen), M.ok_bind]
      have hz := W.getD_zero_of_empty h0
      refine ⟨_, rfl, ?_, ⟨rfl, rfl, rfl, rfl, rfl⟩, rfl, rfl, hlen.symm, ?_, fun _ => rfl,
        fun hn => absurd ⟨trivial, h0⟩ hn, fun hn => absurd h0 hn.2, fun n _ hn => by
          show h.lidx s.maxValue < n
          rwa [hlid, Ws.lidx_lmax, ← hlid] at hn⟩
      · refine { (⟨W.sbc, W.half, W.mag17, W.sum62, W.lzb, W.mask, W.ummask⟩ : LayoutOK _) with
          sig5 := W.sig5, mag := W.mag, low1 := W.low1, low63 := W.low63, highlow := W.highlow
          highmax := W.highmax, um := W.um, bc := W.bc, len := hlen ▸ W.len, cmax := Ws.cmax
          tot := Ws.tot, totsum := Ws.totsum, maxle := Ws.maxle, maxcov := ?_
          minle := Ws.minle, minpos := by show h.lidx s.minNonZero ≠ 0; rw [hlid]; exact Ws.minpos
          trackMax := ?_, trackMin := ?_ }
        · show h.lidx s.maxValue < _; rw [hlid]; exact Ws.maxcov
        · intro i hi; show i ≤ h.lidx s.maxValue; rw [hlid]; exact Ws.trackMax i hi
        · intro i hi0 hi; show h.lidx s.minNonZero ≤ i; rw [hlid]; exact Ws.trackMin i hi0 hi
      · intro j
        have := Ws.getD_le j
        rw [hz, hmv]; simp only; omega
    · rw [if_neg (by simp [Hist.isEmpty, h0]), if_pos trivial,
        addCountsLoop_eq T _ _ 0 hlen W.cmax (by decide), M.ok_bind]
      simp only [Nat.zero_add]
      let cs := List.zipWith (fun x o => min (x + o) T.max) h.counts s.counts
      let h1 : Hist T := { h with
        counts := cs
        totalCount := Hdr.satAdd h.totalCount (min s.counts.sum U64MAX) }
      have L1 : LayoutOK h1 := ⟨L.sbc, L.half, L.mag17, L.sum62, L.lzb, L.mask, L.ummask⟩
      have hcl : cs.length = h.counts.length := by simp [cs, hlen]
      have hcg : ∀ j, cs.getD j 0 = min (h.counts.getD j 0 + s.counts.getD j 0) T.max :=
        getD_zipWith _ (by simp) _ _ hlen
      rw [Ws.max_eq, M.ok_bind]
      change ∃ h', (h1.max >>= _) = _ ∧ _
      rw [show h1.max = .ok h.lmax from Hdr.max_eq L1 W.maxle, M.ok_bind, Ws.minNz_eq, M.ok_bind]
      -- the maximum
      have hmaxstep : (if h.lmax < s.lmax then h1.updateMax s.lmax else h1)
          = { h1 with maxValue := if h.lmax < s.lmax then s.lmax ||| h.unitMagMask else h.maxValue } := by
        split
        · rename_i hlt
          have h3 := lmax_lt_of_lt W hlt
          have h4 : s.lmax ≤ s.lmax ||| h.unitMagMask := Nat.left_le_or
          unfold Hist.updateMax
          simp only
          rw [if_pos (show h1.maxValue < s.lmax ||| h1.unitMagMask from by
            show h.maxValue < s.lmax ||| h.unitMagMask
            omega)]
        · rfl
      rw [hmaxstep]
      let h2 : Hist T :=
        { h1 with maxValue := if h.lmax < s.lmax then s.lmax ||| h.unitMagMask else h.maxValue }
      have L2 : LayoutOK h2 := ⟨L.sbc, L.half, L.mag17, L.sum62, L.lzb, L.mask, L.ummask⟩
      change ∃ h', (h2.minNz >>= _) = _ ∧ _
      rw [show h2.minNz = .ok h.lminNz from Hdr.minNz_eq L2 W.minle, M.ok_bind]
      have hminstep : (if s.lminNz < h.lminNz then h2.updateMin s.lminNz else h2)
          = { h2 with minNonZero := if s.lminNz < h.lminNz then (h.updateMin s.lminNz).minNonZero
              else h.minNonZero } := by
        split
        · unfold Hist.updateMin
          simp only
          change (if s.lminNz ≤ h.unitMagMask then h2 else
            if s.lminNz &&& Hist.notU64 h.unitMagMask < h.minNonZero then _ else h2) = _
          by_cases ha : s.lminNz ≤ h.unitMagMask
          · simp only [if_pos ha]; rfl
          · by_cases hb : s.lminNz &&& Hist.notU64 h.unitMagMask < h.minNonZero
            · simp only [if_neg ha, if_pos hb]; rfl
            · simp only [if_neg ha, if_neg hb]; rfl
        · rfl
      rw [hminstep]
      -- class of the new maximum and minimum
      have hmx : h.lidx (if h.lmax < s.lmax then s.lmax ||| h.unitMagMask else h.maxValue)
          = max (h.lidx h.maxValue) (s.lidx s.maxValue) := by
        have e1 := W.lidx_lmax
        have e2 := Ws.lidx_lmax
        simp only [← hlid] at e2
        split
        · rename_i hlt
          rw [lidx_or_mask L, e2, ← hlid]
          have : h.lidx h.lmax ≤ h.lidx s.lmax := Lay.idx_mono hlt.le
          omega
        · rename_i hlt
          have : h.lidx s.lmax ≤ h.lidx h.lmax := Lay.idx_mono (by omega)
          rw [← hlid]
          omega
      have hmn0 : (h.updateMin s.lminNz).minNonZero ≤ h.minNonZero := by
        unfold Hist.updateMin
        simp only
        split
        · exact le_rfl
        · split
          · rename_i hb; exact hb.le
          · exact le_rfl
      have hmnle : ∀ i, i ≠ 0 → (h.lidx h.minNonZero ≤ i ∨ s.lidx s.minNonZero ≤ i) →
          h.lidx (if s.lminNz < h.lminNz then (h.updateMin s.lminNz).minNonZero else h.minNonZero) ≤ i := by
        intro i hi0 hor
        have es : h.lidx s.lminNz = s.lidx s.minNonZero := by rw [hlid, lidx_lminNz]
        have eh : h.lidx h.lminNz = h.lidx h.minNonZero := lidx_lminNz
        split
        · rename_i hlt
          rcases hor with hor | hor
          · exact le_trans (Lay.idx_mono hmn0) hor
          · unfold Hist.updateMin
            simp only
            split
            · rename_i ha
              exfalso
              have h1 : h.lidx s.lminNz = 0 := by
                rw [Hist.lidx, Lay.idx_eq_zero_iff]
                rw [L.ummask] at ha
                have hp : 0 < 2 ^ h.unitMag := by positivity
                omega
              exact Ws.minpos (es ▸ h1)
            · split
              · rw [L.ummask, and_not_mask (lminNz_le Ws.minle) (by have := L.sum62; omega)]
                show Lay.idx _ _ _ ≤ i
                rw [unit_idx]
                change h.lidx s.lminNz ≤ i
                omega
              · rename_i hnb
                rw [L.ummask, and_not_mask (lminNz_le Ws.minle) (by have := L.sum62; omega)] at hnb
                have h1 : h.lidx h.minNonZero ≤ Lay.idx _ _ (s.lminNz / 2 ^ h.unitMag * 2 ^ h.unitMag) :=
                  Lay.idx_mono (by omega)
                rw [unit_idx] at h1
                change _ ≤ h.lidx s.lminNz at h1
                omega
        · rename_i hlt
          have h1 : h.lidx h.lminNz ≤ h.lidx s.lminNz := Lay.idx_mono (by omega)
          omega
      refine ⟨_, rfl, ?_, ⟨rfl, rfl, rfl, rfl, rfl⟩, rfl, rfl, hcl, ?_, fun hn => absurd hn.2 h0, ?_,
        fun _ => ⟨rfl, rfl⟩, fun n h1 h2 => ?_⟩
      rotate_right
      · show h.lidx (if _ then _ else _) < n
        rw [hmx, ← Ws.lidx_lmax, ← hlid]; omega
      · refine { (⟨W.sbc, W.half, W.mag17, W.sum62, W.lzb, W.mask, W.ummask⟩ : LayoutOK _) with
          sig5 := W.sig5, mag := W.mag, low1 := W.low1, low63 := W.low63, highlow := W.highlow
          highmax := W.highmax, um := W.um, bc := W.bc, len := hcl ▸ W.len, cmax := ?_
          tot := Nat.min_le_right _ _, totsum := ?_, maxle := ?_, maxcov := ?_
          minle := ?_, minpos := ?_, trackMax := ?_, trackMin := ?_ }
        · intro c hc
          obtain ⟨i, hi, rfl⟩ := List.getElem_of_mem hc
          have h1 := hcg i
          rw [List.getD_eq_getElem?_getD, List.getElem?_eq_getElem hi] at h1
          simp only [Option.getD_some] at h1
          change cs[i] ≤ _
          rw [h1]; exact Nat.min_le_right _ _
        · have h1 := min_add_sum T h.counts s.counts
          have h2 := W.totsum
          show min cs.sum U64MAX ≤ min (h.totalCount + min s.counts.sum U64MAX) U64MAX
          change cs.sum ≤ _ at h1
          omega
        · show (if _ then _ else _) ≤ _
          split
          · rw [L.ummask]; exact or_mask_le lmax_le (by have := L.sum62; omega)
          · exact W.maxle
        · show h.lidx (if _ then _ else _) < cs.length
          rw [hmx, hcl]
          have := W.maxcov
          have := Ws.maxcov
          omega
        · show (if _ then _ else _) ≤ _
          split
          · exact le_trans hmn0 W.minle
          · exact W.minle
        · show h.lidx (if _ then _ else _) ≠ 0
          split
          · unfold Hist.updateMin
            simp only
            split
            · exact W.minpos
            · split
              · rename_i ha hb
                rw [L.ummask, and_not_mask (lminNz_le Ws.minle) (by have := L.sum62; omega)]
                show Lay.idx _ _ _ ≠ 0
                rw [unit_idx]
                intro hz
                have := Lay.idx_eq_zero_iff.mp hz
                rw [L.ummask] at ha
                omega
              · exact W.minpos
          · exact W.minpos
        · intro i hi
          show i ≤ h.lidx (if _ then _ else _)
          rw [hmx]
          change cs.getD i 0 ≠ 0 at hi
          rw [hcg] at hi
          by_cases hz : h.counts.getD i 0 = 0
          · have := Ws.trackMax i (by omega)
            omega
          · have := W.trackMax i hz
            omega
        · intro i hi0 hi
          change cs.getD i 0 ≠ 0 at hi
          rw [hcg] at hi
          refine hmnle i hi0 ?_
          by_cases hz : h.counts.getD i 0 = 0
          · exact Or.inr (Ws.trackMin i hi0 (by omega))
          · exact Or.inl (W.trackMin i hi0 hz)
      · intro j; rw [hmv]; exact hcg j
      · intro _
        show min (h.totalCount + min s.counts.sum U64MAX) U64MAX = _
        omega
  · simp only [hm, decide_false, Bool.false_and, Bool.false_eq_true, if_false]
    have hsm : s.lidx s.lmax = s.lidx s.maxValue := Ws.lidx_lmax
    have hol := Ws.maxcov
    rw [Ws.max_eq, M.ok_bind, indexFor_eq Ws.toLayoutOK lmax_le, M.ok_bind, expectM_some, M.ok_bind,
      hsm, WF.countAtIndex hol, expectM_some, M.ok_bind, Ws.valueFor hol, M.ok_bind]
    have hcv : ∀ i, i ≤ s.lidx s.maxValue → h.lidx (s.lval i) < h.counts.length := by
      intro i hi
      have h2 : s.lval i ≤ s.maxValue := Lay.val_le_iff.mpr hi
      have h3 := Ws.maxValue_le_lmax
      exact lt_of_le_of_lt (Lay.idx_mono (by omega)) hcov
    generalize ho : s.lidx s.maxValue = o at *
    have hv := Ws.lval_le hol
    have hcc := hcv o le_rfl
    rw [W.recordN_cov hv (Ws.getD_le o) hcc, M.ok_bind]
    simp only
    have hl1 : (h.recorded (s.lval o) (s.counts.getD o 0)).counts.length = h.counts.length := by
      simp [Hist.recorded]
    obtain ⟨h', g1, g2, g3, g4, g4b, g5, g6, g7, g8⟩ :=
      addRecordLoop_spec Ws (List.range o) (h.recorded (s.lval o) (s.counts.getD o 0))
        (W.recorded hv hcc) (fun k hk => by have := List.mem_range.mp hk; omega)
        (fun k hk => by rw [hl1]; exact hcv k (by have := List.mem_range.mp hk; omega))
    have hz : ∀ i, o + 1 ≤ i → s.counts.getD i 0 = 0 := by
      intro i hi
      by_contra hne
      have := Ws.trackMax i hne
      omega
    refine ⟨h', g1, g2, (recorded_config h _ _).trans g3, g4, g4b, by rw [g5, hl1], fun j => ?_,
      fun hn => absurd hn.1 id, fun _ => ?_, fun hn => absurd hn.1 id, fun n h1 h2 => ?_⟩
    rotate_right
    · have hle : ∀ k, k ≤ o → h.lidx (s.lval k) < n := by
        intro k hk
        have h4 : s.lval k ≤ s.maxValue := Lay.val_le_iff.mpr (by show k ≤ s.lidx s.maxValue; rw [ho]; exact hk)
        exact lt_of_le_of_lt (Lay.idx_mono (h4.trans Ws.maxValue_le_lmax)) h2
      change h.lidx h'.maxValue = _ at g8
      rw [g8]
      have h5 : h.lidx (h.recorded (s.lval o) (s.counts.getD o 0)).maxValue < n := by
        change h.lidx (h.newMax (s.lval o)) < n
        rw [lidx_newMax L]
        have := hle o le_rfl
        change max (h.lidx h.maxValue) (h.lidx (s.lval o)) < n
        omega
      have h6 : ∀ k ∈ List.range o, k ≤ o := fun k hk => (List.mem_range.mp hk).le
      revert h5 h6
      change h.lidx (h.recorded (s.lval o) (s.counts.getD o 0)).maxValue < n → _ → List.foldl (fun m i =>
            if s.counts.getD i 0 ≠ 0 then max m (h.lidx (s.lval i)) else m) (h.lidx (h.recorded (s.lval o) (s.counts.getD o 0)).maxValue) (List.range o) < n
      generalize h.lidx (h.recorded (s.lval o) (s.counts.getD o 0)).maxValue = m
      generalize List.range o = is
      intro h5 h6
      clear g8 g1
      induction is generalizing m with
      | nil => exact h5
      | cons i is ih =>
        refine ih _ ?_ fun k hk => h6 k (by simp [hk])
        have := hle i (h6 i (by simp))
        dsimp only
        split <;> omega
    · rw [g6, recorded_getD hcc j (W.getD_le j)]
      have e : moved h s (List.range s.counts.length) j
          = moved h s (List.range o) j + if h.lidx (s.lval o) = j then s.counts.getD o 0 else 0 := by
        unfold moved
        rw [sum_range_prefix _ (o + 1) _ (by omega) (fun i hi => by rw [hz i hi]; simp),
          List.range_succ, List.map_append, List.sum_append]
        simp
      rw [e]
      change min (min _ _ + moved h s (List.range o) j) _ = _
      omega
    · rw [g7]
      have e : s.counts.sum = ((List.range o).map fun i => s.counts.getD i 0).sum + s.counts.getD o 0 := by
        rw [← sum_range_getD, sum_range_prefix _ (o + 1) _ (by omega) hz,
          List.range_succ, List.map_append, List.sum_append]
        simp
      rw [e]
      show min (Hdr.satAdd h.totalCount (s.counts.getD o 0) + _) _ = _
      unfold Hdr.satAdd
      omega

/-! ### the whole of `add` -/

/-- the destination after `add` has made room for the source -/
def Hist.addGrown (h s : Hist T) : Hist T := if h.ltop < s.lmax then h.resized s.lmax else h

theorem WF.high_le_ltop {h : Hist T} (W : WF fp h) :
    h.highestTrackable ≤ h.ltop ∨ U64MAX - 1 ≤ h.ltop := by
  have hp := W.len_pos
  have hi : h.lidx h.highestTrackable < h.counts.length := W.high_cov
  have h1 : h.highestTrackable < h.lval h.counts.length := Lay.lt_val_iff.mpr hi
  have h2 : h.lval (h.counts.length - 1 + 1) = h.llo (h.lval (h.counts.length - 1)) +
      h.lwid (h.lval (h.counts.length - 1)) := by
    rw [show h.llo (h.lval (h.counts.length - 1)) = h.lval (h.counts.length - 1) from Lay.lo_val]
    exact Lay.val_succ
  rw [Nat.sub_add_cancel hp] at h2
  unfold Hist.ltop Hist.lhi
  split
  · right; omega
  · by_cases h3 : h.lval h.counts.length ≤ U64MAX
    · left; rw [← h2, Nat.min_eq_left h3]; omega
    · right; rw [← h2]; omega

theorem WF.addGrown {h s : Hist T} (W : WF fp h) :
    WF fp (h.addGrown s) ∧ (h.addGrown s).lidx s.lmax < (h.addGrown s).counts.length
      ∧ SameConfig h (h.addGrown s)
      ∧ (∀ j, (h.addGrown s).counts.getD j 0 = h.counts.getD j 0)
      ∧ (h.addGrown s).totalCount = h.totalCount
      ∧ (h.addGrown s).maxValue = h.maxValue ∧ (h.addGrown s).minNonZero = h.minNonZero
      ∧ h.counts.length ≤ (h.addGrown s).counts.length
      ∧ (h.ltop < s.lmax → h.resize s.lmax = .ok (h.addGrown s)) := by
  unfold Hist.addGrown
  by_cases hlt : h.ltop < s.lmax
  · have hcfg : 2 * h.lowestDiscernible ≤ s.lmax := by
      have h1 := W.highlow
      rcases W.high_le_ltop with h2 | h2
      · omega
      · have h3 := W.low63
        have : U64MAX / 2 = 9223372036854775807 := by decide
        have : U64MAX = 18446744073709551615 := by decide
        omega
    have hb : h.lbkt h.highestTrackable ≤ h.lbkt s.lmax := by
      have h1 : h.lidx h.highestTrackable ≤ h.lidx s.lmax := by
        have h2 : h.lidx h.ltop ≤ h.lidx s.lmax := Lay.idx_mono hlt.le
        rw [W.lidx_ltop] at h2
        have := W.high_cov
        omega
      unfold Hist.lbkt
      rw [← Lay.idx_bkt, ← Lay.idx_bkt (v := s.lmax)]
      exact Nat.sub_le_sub_right (Nat.div_le_div_right h1) 1
    have hlen : h.counts.length ≤ (h.lbkt s.lmax + 1 + 1) * 2 ^ h.subBucketHalfCountMag := by
      rw [W.len, W.bc]; exact Nat.mul_le_mul_right _ (by omega)
    have Wr := W.resized lmax_le hcfg hb
    rw [if_pos hlt]
    refine ⟨Wr, ?_, ⟨rfl, rfl, rfl, rfl, rfl⟩, fun j => ?_, rfl, rfl, rfl, ?_,
      fun _ => resize_eq W.toLayoutOK lmax_le hcfg⟩
    · exact Wr.high_cov
    · simp only [Hist.resized]; rw [getD_vecResize_grow hlen]
    · simp only [Hist.resized, length_vecResize]; exact hlen
  · rw [if_neg hlt]
    exact ⟨W, W.cov_of_le_ltop (by omega), SameConfig.refl h, fun _ => rfl, rfl, rfl, rfl, le_rfl,
      fun h1 => absurd h1 hlt⟩

theorem moved_config {h h' : Hist T} (c : SameConfig h h') (s : Hist T) (is : List Nat) (j : Nat) :
    moved h' s is j = moved h s is j := by
  unfold moved; simp only [c.lidx]

/-- what `add` does, in every case -/
theorem WF.add_spec {h s : Hist T} (W : WF fp h) (Ws : WF fp s) :
    ∃ h' r, h.add s = .ok (h', r) ∧ WF fp h' ∧
      (match r with
      | .error .OtherAddendValueExceedsRange =>
        s.totalCount ≠ 0 ∧ h.autoResize = false ∧ h.ltop < s.lmax ∧ h' = h
      | .error .ResizeFailedUsizeTypeTooSmall => False
      | .ok () =>
        (s.totalCount = 0 ∧ h' = h) ∨
        (s.totalCount ≠ 0 ∧ (h.ltop < s.lmax → h.autoResize = true)
          ∧ SameConfig h h'
          ∧ h'.counts.length = (h.addGrown s).counts.length
          ∧ h'.highestTrackable = (h.addGrown s).highestTrackable
          ∧ (∀ j, h'.counts.getD j 0
              = min (h.counts.getD j 0 + moved h s (List.range s.counts.length) j) T.max)
          ∧ ((h.addGrown s).matching s ∧ h.totalCount = 0 →
              h'.counts = s.counts ∧ h'.totalCount = s.totalCount
              ∧ h'.maxValue = s.maxValue ∧ h'.minNonZero = s.minNonZero)
          ∧ (¬ ((h.addGrown s).matching s ∧ h.totalCount = 0) →
              h'.totalCount = min (h.totalCount + s.counts.sum) U64MAX)
          ∧ ((h.addGrown s).matching s ∧ h.totalCount ≠ 0 →
              h'.maxValue = (if h.lmax < s.lmax then s.lmax ||| h.unitMagMask else h.maxValue)
              ∧ h'.minNonZero = (if s.lminNz < h.lminNz then (h.updateMin s.lminNz).minNonZero
                  else h.minNonZero)))) := by
  unfold Hist.add
  by_cases hs : s.totalCount = 0
  · rw [if_pos (by simp [Hist.isEmpty, hs])]
    exact ⟨h, .ok (), rfl, W, Or.inl ⟨hs, rfl⟩⟩
  · rw [if_neg (by simp [Hist.isEmpty, hs])]
    have := W.len_pos
    rw [W.lastIndex, M.ok_bind, W.valueFor (by omega), M.ok_bind,
      highestEquivalent_eq W.toLayoutOK (W.lval_le (by omega)), M.ok_bind, Ws.max_eq, M.ok_bind]
    change ∃ h' r, (if h.ltop < s.lmax then _ else _) = _ ∧ _
    obtain ⟨Wg, hcov, hcfg, hget, htot, hmx, hmn, hlen, hres⟩ := W.addGrown (s := s)
    obtain ⟨h', b1, b2, b3, b4, b4b, b5, b6, b7, b8, b9, -⟩ := Wg.addBody_spec Ws hs hcov
    have hmaxg : (h.addGrown s).lmax = h.lmax := by
      unfold Hist.lmax Hist.lhi Hist.llo Hist.lwid; rw [hmx, hcfg.um, hcfg.mag]
    have hming : (h.addGrown s).lminNz = h.lminNz := by
      unfold Hist.lminNz Hist.llo; rw [hmn, hcfg.um, hcfg.mag]
    have hmask : (h.addGrown s).unitMagMask = h.unitMagMask := by
      rw [Wg.ummask, W.ummask, hcfg.um]
    have hum : ((h.addGrown s).updateMin s.lminNz).minNonZero = (h.updateMin s.lminNz).minNonZero := by
      unfold Hist.updateMin
      simp only [hmask, hmn]
      split
      · exact hmn
      · split
        · rfl
        · exact hmn
    rw [hmaxg, hming, hmx, hmn, hmask, hum] at b9
    rw [htot] at b7 b8 b9
    have hfin : (s.totalCount ≠ 0 ∧ SameConfig h h'
          ∧ h'.counts.length = (h.addGrown s).counts.length
          ∧ h'.highestTrackable = (h.addGrown s).highestTrackable
          ∧ (∀ j, h'.counts.getD j 0
              = min (h.counts.getD j 0 + moved h s (List.range s.counts.length) j) T.max)
          ∧ ((h.addGrown s).matching s ∧ h.totalCount = 0 →
              h'.counts = s.counts ∧ h'.totalCount = s.totalCount
              ∧ h'.maxValue = s.maxValue ∧ h'.minNonZero = s.minNonZero)
          ∧ (¬ ((h.addGrown s).matching s ∧ h.totalCount = 0) →
              h'.totalCount = min (h.totalCount + s.counts.sum) U64MAX)
          ∧ ((h.addGrown s).matching s ∧ h.totalCount ≠ 0 →
              h'.maxValue = (if h.lmax < s.lmax then s.lmax ||| h.unitMagMask else h.maxValue)
              ∧ h'.minNonZero = (if s.lminNz < h.lminNz then (h.updateMin s.lminNz).minNonZero
                  else h.minNonZero))) := by
      refine ⟨hs, hcfg.trans b3, b5, b4, fun j => ?_, fun hh => ?_, b8, b9⟩
      · rw [b6, hget, moved_config hcfg]
      · have e := b7 hh
        rw [e]; exact ⟨rfl, rfl, rfl, rfl⟩
    by_cases hlt : h.ltop < s.lmax
    · rw [if_pos hlt]
      cases ha : h.autoResize with
      | false =>
        rw [if_pos (by simp)]
        exact ⟨h, .error .OtherAddendValueExceedsRange, rfl, W, hs, rfl, hlt, rfl⟩
      | true =>
        rw [if_neg (by simp), hres hlt, M.ok_bind, b1, M.ok_bind]
        exact ⟨h', .ok (), rfl, b2, Or.inr ⟨hfin.1, fun _ => rfl, hfin.2⟩⟩
    · rw [if_neg hlt]
      have hg : h.addGrown s = h := by unfold Hist.addGrown; rw [if_neg hlt]
      rw [hg] at b1
      rw [b1, M.ok_bind]
      exact ⟨h', .ok (), rfl, b2, Or.inr ⟨hfin.1, fun h1 => absurd h1 hlt, hfin.2⟩⟩

/-- the class of `max()` after `add` is that of one of the two maxima, or below -/
theorem WF.add_max_lt {h s h' : Hist T} {r : Except AdditionError Unit} (W : WF fp h) (Ws : WF fp s)
    (e : h.add s = .ok (h', r)) {n : Nat} (h1 : h.lidx h.maxValue < n) (h2 : h.lidx s.lmax < n) :
    h.lidx h'.maxValue < n := by
  unfold Hist.add at e
  by_cases hs : s.totalCount = 0
  · rw [if_pos (by simp [Hist.isEmpty, hs])] at e
    cases e; exact h1
  · rw [if_neg (by simp [Hist.isEmpty, hs])] at e
    have := W.len_pos
    rw [W.lastIndex, M.ok_bind, W.valueFor (by omega), M.ok_bind,
      highestEquivalent_eq W.toLayoutOK (W.lval_le (by omega)), M.ok_bind, Ws.max_eq, M.ok_bind] at e
    change (if h.ltop < s.lmax then _ else _) = _ at e
    obtain ⟨Wg, hcov, hcfg, hget, htot, hmx, hmn, hlen, hres⟩ := W.addGrown (s := s)
    obtain ⟨g, b1, -, -, -, -, -, -, -, -, -, b⟩ := Wg.addBody_spec Ws hs hcov
    simp only [hcfg.lidx, hmx] at b
    have hb := b n h1 h2
    by_cases hlt : h.ltop < s.lmax
    · rw [if_pos hlt] at e
      cases ha : h.autoResize with
      | false =>
        rw [ha, if_pos (by simp)] at e
        cases e; exact h1
      | true =>
        rw [ha, if_neg (by simp), hres hlt, M.ok_bind, b1, M.ok_bind] at e
        cases e; exact hb
    · rw [if_neg hlt] at e
      have hg : h.addGrown s = h := by unfold Hist.addGrown; rw [if_neg hlt]
      rw [hg] at b1
      rw [b1, M.ok_bind] at e
      cases e; exact hb

end Hdr
