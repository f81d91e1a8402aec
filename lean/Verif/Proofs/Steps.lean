import Verif.Proofs.Quantile

/-!
# Iterators that follow a schedule of reporting levels (`iter_linear`, `iter_log`)
-/

namespace Hdr

variable {T : CounterTy} {fp : Fp} {P : Type}

/-- a pick with an explicit value -/
theorem WF.iterPick_value {h : Hist T} {pk : Picker P} {s : IterState P} {p : P} {v : Nat}
    (hi : s.currentIndex < h.counts.length)
    (hp : pk.pick s.picker s.currentIndex s.totalCountToIndex s.countAtIndex = .ok (p, some ⟨none, some v⟩)) :
    h.iterPick pk s = .ok (.emitted
      { s with picker := p, countSinceLastIteration := 0, lastPickedIndex := some s.currentIndex }
      { valueIteratedTo := v
        quantile := F64.div (F64.ofNat s.totalCountToIndex) (F64.ofNat h.totalCount)
        quantileIteratedTo := F64.div (F64.ofNat s.totalCountToIndex) (F64.ofNat h.totalCount)
        countAtValue := h.counts.getD s.currentIndex 0
        countSinceLastIteration := s.countSinceLastIteration }) := by
  unfold Hist.iterPick
  rw [hp, M.ok_bind]
  simp only
  unfold Hist.iterEmit
  simp only
  rw [M.pure_eq, M.ok_bind, WF.countAtIndex hi, expectM_some, M.ok_bind]
  rfl

theorem take_succ_sum {l : List Nat} {i : Nat} (hi : i < l.length) :
    (l.take (i + 1)).sum = (l.take i).sum + l.getD i 0 := by
  rw [List.take_add_one, List.sum_append, List.getD_eq_getElem?_getD, List.getElem?_eq_getElem hi]
  simp

/-- what `iter_linear` and `iter_log` yield at reporting level `v`, the previous level's slots ending before `b` -/
def Hist.stepItem (h : Hist T) (v b : Nat) : IterValue :=
  { valueIteratedTo := v
    quantile := F64.div (F64.ofNat (Min.min (h.counts.take (h.slotOf v + 1)).sum U64MAX)) (F64.ofNat h.totalCount)
    quantileIteratedTo :=
      F64.div (F64.ofNat (Min.min (h.counts.take (h.slotOf v + 1)).sum U64MAX)) (F64.ofNat h.totalCount)
    countAtValue := h.counts.getD (h.slotOf v) 0
    countSinceLastIteration := Min.min ((h.counts.take (h.slotOf v + 1)).sum - (h.counts.take b).sum) U64MAX }

/-- the state in which the driver waits after having picked slot `j` -/
def Hist.pickedState (h : Hist T) (j : Nat) (p : P) : IterState P :=
  { totalCountToIndex := Min.min (h.counts.take (j + 1)).sum U64MAX, countSinceLastIteration := 0
    countAtIndex := h.counts.getD j 0, currentIndex := j, lastPickedIndex := some j
    maxValueIndex := h.lidx h.maxValue, fresh := false, ended := false, picker := p }

/-- `value_for` one past the last slot of the largest layout: the value `2^64` is lost, in a shift by 64 bits (which
panics) if the histogram has 0 significant digits, and silently otherwise -/
theorem valueFor_all {h : Hist T} (L : LayoutOK h) :
    h.valueFor h.lall = if h.subBucketHalfCountMag = 0 then .error .overflow else .ok 0 := by
  have hm := L.mag17
  have hs := L.sum62
  have hsmall : h.lall < 2 ^ 24 := Lay.allSlots_lt hm
  have hp0 : 0 < 2 ^ h.subBucketHalfCountMag := by positivity
  have hp : 2 ^ h.subBucketHalfCountMag ≤ 2 ^ 17 := Nat.pow_le_pow_right (by norm_num) hm
  have hall : h.lall = (65 - h.unitMag - h.subBucketHalfCountMag) * 2 ^ h.subBucketHalfCountMag := rfl
  have hdiv : h.lall / 2 ^ h.subBucketHalfCountMag = 65 - h.unitMag - h.subBucketHalfCountMag := by
    rw [hall]; exact Nat.mul_div_cancel _ hp0
  have hand : h.lall &&& (2 ^ h.subBucketHalfCountMag - 1) = 0 := by
    rw [Nat.and_two_pow_sub_one_eq_mod, hall, Nat.mul_mod_left]
  have hpow : 2 ^ h.subBucketHalfCountMag * 2 ^ (64 - h.subBucketHalfCountMag) = 2 ^ 64 := by
    rw [← pow_add]; congr 1; omega
  unfold Hist.valueFor
  rw [shrU64_ok (by omega), M.ok_bind, L.half, subU_ok (by omega)]
  rw [if_pos (show h.lall < 4294967296 by omega)]
  simp only [M.ok_bind, expectM_some]
  rw [hand, hdiv]
  unfold Hist.valueFromLoc
  rw [chkI64_ok (by omega), M.ok_bind, addU32_ok (by omega), M.ok_bind, if_neg (by omega)]
  have e1 : (((65 - h.unitMag - h.subBucketHalfCountMag : Nat) : Int) - 1).toNat % 256
      = 64 - h.unitMag - h.subBucketHalfCountMag := by omega
  rw [e1, addU8_ok (by omega), M.ok_bind,
    show 64 - h.unitMag - h.subBucketHalfCountMag + h.unitMag = 64 - h.subBucketHalfCountMag by omega, Nat.zero_add]
  unfold shlU64
  by_cases h0 : h.subBucketHalfCountMag = 0
  · rw [if_pos h0, if_neg (by omega)]
  · rw [if_neg h0, if_pos (by omega), hpow, Nat.mod_self]

/-- walking from a fresh slot `i` to the slot of the level and picking there -/
theorem WF.stepWalk {h : Hist T} (W : WF fp h) {pk : Picker P} {p p' : P} {v : Nat} (k b : Nat)
    (hpick : ∀ i t c, i < h.counts.length → pk.pick p i t c =
      if h.slotOf v ≤ i then .ok (p', some ⟨none, some v⟩) else .ok (p, none))
    (lp : Option Nat) (hlp : ∀ j, lp = some j → j < h.lidx h.maxValue) (d : Nat) :
    ∀ i cai, b ≤ i → i + d = h.slotOf v →
      h.iterCollect pk (k + 1)
        { totalCountToIndex := Min.min (h.counts.take i).sum U64MAX
          countSinceLastIteration := Min.min ((h.counts.take i).sum - (h.counts.take b).sum) U64MAX
          countAtIndex := cai, currentIndex := i, lastPickedIndex := lp, maxValueIndex := h.lidx h.maxValue
          fresh := true, ended := false, picker := p }
        = (h.iterCollect pk k (h.pickedState (h.slotOf v) p') >>= fun vs => .ok (h.stepItem v b :: vs)) := by
  have hp := W.len_pos
  have hslot : h.slotOf v < h.counts.length := by unfold Hist.slotOf; omega
  have hpm : ∀ s : IterState P, s.lastPickedIndex = lp → s.maxValueIndex = h.lidx h.maxValue →
      Hist.pickedMax s = false := by
    intro s e1 e2
    unfold Hist.pickedMax
    rw [e1, e2]
    cases lp with
    | none => rfl
    | some j => have := hlp j rfl; simp; omega
  have hsat : ∀ i, b ≤ i → i < h.counts.length →
      Hdr.satAdd (Min.min (h.counts.take i).sum U64MAX) (h.counts.getD i 0)
        = Min.min (h.counts.take (i + 1)).sum U64MAX ∧
      Hdr.satAdd (Min.min ((h.counts.take i).sum - (h.counts.take b).sum) U64MAX) (h.counts.getD i 0)
        = Min.min ((h.counts.take (i + 1)).sum - (h.counts.take b).sum) U64MAX := by
    intro i hb hi
    have h1 := take_succ_sum hi
    have h2 := take_sum_mono h.counts hb
    unfold Hdr.satAdd
    omega
  induction d with
  | zero =>
    intro i cai hb hi
    have hi' : i = h.slotOf v := by omega
    subst hi'
    rw [iterCollect_unfold _ _ _ _ hslot.le, if_neg (by simp), iterPass_before hslot (hpm _ rfl rfl),
      iterLoad_fresh rfl hslot, M.ok_bind]
    rw [WF.iterPick_value (p := p') (v := v) hslot (by simp only [hpick _ _ _ hslot]; rw [if_pos le_rfl]), M.ok_bind]
    simp only [(hsat _ hb hslot).1, (hsat _ hb hslot).2]
    rfl
  | succ d ih =>
    intro i cai hb hi
    have hlt : i < h.counts.length := by omega
    rw [iterCollect_unfold _ _ _ _ hlt.le, if_neg (by simp), iterPass_before hlt (hpm _ rfl rfl),
      iterLoad_fresh rfl hlt, M.ok_bind]
    rw [W.iterPick_none (p := p) hlt (by simp only [hpick _ _ _ hlt]; rw [if_neg (by omega)]), M.ok_bind]
    simp only [(hsat _ hb hlt).1, (hsat _ hb hlt).2]
    exact ih (i + 1) _ (by omega) (by omega)

/-- from a picked slot below that of the maximum to the next pick -/
theorem WF.stepNext {h : Hist T} (W : WF fp h) {pk : Picker P} {p p' : P} {v : Nat} (k j : Nat)
    (hpick : ∀ i t c, i < h.counts.length → pk.pick p i t c =
      if h.slotOf v ≤ i then .ok (p', some ⟨none, some v⟩) else .ok (p, none))
    (hj : j ≤ h.slotOf v) (hm : j < h.lidx h.maxValue) :
    h.iterCollect pk (k + 1) (h.pickedState j p)
      = (h.iterCollect pk k (h.pickedState (h.slotOf v) p') >>= fun vs => .ok (h.stepItem v (j + 1) :: vs)) := by
  have hp := W.len_pos
  have hslot : h.slotOf v < h.counts.length := by unfold Hist.slotOf; omega
  have hjl : j < h.counts.length := by omega
  have hpm : Hist.pickedMax (h.pickedState j p) = false := by simp [Hist.pickedMax, Hist.pickedState]; omega
  rw [iterCollect_unfold _ _ _ _ (show (h.pickedState j p).currentIndex ≤ _ from hjl.le), if_neg (by simp [Hist.pickedState]),
    iterPass_before (show (h.pickedState j p).currentIndex < _ from hjl) hpm, iterLoad_stale rfl, M.ok_bind]
  by_cases hle : h.slotOf v ≤ j
  · have : j = h.slotOf v := by omega
    subst this
    rw [WF.iterPick_value (pk := pk) (s := h.pickedState (h.slotOf v) p) (p := p') (v := v) hslot
      ((hpick _ _ _ hslot).trans (if_pos le_rfl)), M.ok_bind]
    simp only [Hist.stepItem, Hist.pickedState, Nat.sub_self, Nat.zero_min]
  · rw [W.iterPick_none (pk := pk) (s := h.pickedState j p) (p := p) hjl
      ((hpick _ _ _ hjl).trans (if_neg hle)), M.ok_bind]
    have := W.stepWalk (p' := p') k (j + 1) hpick (some j) (by simp; omega) (h.slotOf v - (j + 1)) (j + 1)
      (h.counts.getD j 0) le_rfl (by omega)
    rw [Nat.sub_self, Nat.zero_min] at this
    exact this

/-- a further pick of the same slot, from that of the maximum on -/
theorem WF.stepMore {h : Hist T} (W : WF fp h) {pk : Picker P} {p p' : P} {v : Nat} (k : Nat)
    (hpick : ∀ i t c, i < h.counts.length → pk.pick p i t c =
      if h.slotOf v ≤ i then .ok (p', some ⟨none, some v⟩) else .ok (p, none))
    (hmore : pk.more p (h.slotOf v) = .ok (p, true)) (hm : h.lidx h.maxValue ≤ h.slotOf v) :
    h.iterCollect pk (k + 1) (h.pickedState (h.slotOf v) p)
      = (h.iterCollect pk k (h.pickedState (h.slotOf v) p') >>= fun vs =>
          .ok (h.stepItem v (h.slotOf v + 1) :: vs)) := by
  have hp := W.len_pos
  have hslot : h.slotOf v < h.counts.length := by unfold Hist.slotOf; omega
  have hpm : Hist.pickedMax (h.pickedState (h.slotOf v) p) = true := by
    simp [Hist.pickedMax, Hist.pickedState, hm]
  rw [iterCollect_unfold _ _ _ _ (show (h.pickedState (h.slotOf v) p).currentIndex ≤ _ from hslot.le),
    if_neg (by simp [Hist.pickedState]),
    iterPass_after (s := h.pickedState (h.slotOf v) p) hslot hpm]
  rw [show pk.more (h.pickedState (h.slotOf v) p).picker (h.pickedState (h.slotOf v) p).currentIndex = .ok (p, true)
    from hmore, M.ok_bind]
  simp only [if_true]
  rw [WF.iterPick_value (pk := pk) (s := { h.pickedState (h.slotOf v) p with picker := p }) (p := p') (v := v) hslot
    ((hpick _ _ _ hslot).trans (if_pos le_rfl)), M.ok_bind]
  simp only [Hist.stepItem, Hist.pickedState, Nat.sub_self, Nat.zero_min]

/-- the end, from the slot of the maximum on -/
theorem WF.stepStop {h : Hist T} {pk : Picker P} {p : P} (k j : Nat) (hj : j < h.counts.length)
    (hmore : ∃ p', pk.more p j = .ok (p', false)) (hm : h.lidx h.maxValue ≤ j) :
    h.iterCollect pk (k + 1) (h.pickedState j p) = .ok [] := by
  obtain ⟨p', hmore⟩ := hmore
  have hpm : Hist.pickedMax (h.pickedState j p) = true := by
    simp [Hist.pickedMax, Hist.pickedState, hm]
  rw [iterCollect_unfold _ _ _ _ (show (h.pickedState j p).currentIndex ≤ _ from hj.le),
    if_neg (by simp [Hist.pickedState]),
    iterPass_after (s := h.pickedState j p) hj hpm]
  rw [show pk.more (h.pickedState j p).picker (h.pickedState j p).currentIndex = .ok (p', false)
    from hmore, M.ok_bind]
  rfl

/-- A picker that follows the levels `L 0, L 1, …, L (n - 1)` -/
structure Sched (h : Hist T) (pk : Picker P) (p : Nat → P) (L : Nat → Nat) (n : Nat) : Prop where
  pos : 0 < n
  mono : ∀ k, k + 1 < n → L k ≤ L (k + 1)
  pick : ∀ k, k < n → ∀ i t c, i < h.counts.length → pk.pick (p k) i t c =
    if h.slotOf (L k) ≤ i then .ok (p (k + 1), some ⟨none, some (L k)⟩) else .ok (p k, none)
  cont : ∀ k, k + 1 < n → h.slotOf (L k) < h.lidx h.maxValue ∨
    (h.slotOf (L (k + 1)) = h.slotOf (L k) ∧ pk.more (p (k + 1)) (h.slotOf (L k)) = .ok (p (k + 1), true))
  reach : h.lidx h.maxValue ≤ h.slotOf (L (n - 1))
  stop : ∃ p', pk.more (p n) (h.slotOf (L (n - 1))) = .ok (p', false)

/-- the first slot not yet counted before level `k` -/
def Hist.stepBase (h : Hist T) (L : Nat → Nat) : Nat → Nat
  | 0 => 0
  | k + 1 => h.slotOf (L k) + 1

theorem slotOf_mono {h : Hist T} {v w : Nat} (hvw : v ≤ w) : h.slotOf v ≤ h.slotOf w := by
  have h1 : h.lidx v ≤ h.lidx w := Lay.idx_mono hvw
  unfold Hist.slotOf
  omega

theorem WF.slotOf_lt {h : Hist T} (W : WF fp h) (v : Nat) : h.slotOf v < h.counts.length := by
  have := W.len_pos
  unfold Hist.slotOf; omega

theorem WF.schedTail {h : Hist T} (W : WF fp h) {pk : Picker P} {p : Nat → P} {L : Nat → Nat} {n : Nat}
    (S : Sched h pk p L n) (d : Nat) :
    ∀ k f, k + 1 + d = n → d ≤ f →
      h.iterCollect pk (f + 1) (h.pickedState (h.slotOf (L k)) (p (k + 1)))
        = .ok ((List.range' (k + 1) d).map fun j => h.stepItem (L j) (h.stepBase L j)) := by
  induction d with
  | zero =>
    intro k f hk _
    have hn : n - 1 = k := by omega
    have h1 := S.reach
    have h2 := S.stop
    rw [hn] at h1 h2
    rw [show k + 1 = n by omega]
    exact WF.stepStop _ _ (W.slotOf_lt _) h2 h1
  | succ d ih =>
    intro k f hk hf
    obtain ⟨f', rfl⟩ : ∃ f', f = f' + 1 := ⟨f - 1, by omega⟩
    have hrec := ih (k + 1) f' (by omega) (by omega)
    rw [List.range'_succ, List.map_cons]
    by_cases hlt : h.slotOf (L k) < h.lidx h.maxValue
    · rw [W.stepNext _ _ (S.pick (k + 1) (by omega)) (slotOf_mono (S.mono k (by omega))) hlt, hrec, M.ok_bind]
      rfl
    · rcases S.cont k (by omega) with h1 | ⟨h1, h2⟩
      · exact absurd h1 hlt
      · rw [← h1] at h2 hlt ⊢
        rw [W.stepMore _ (S.pick (k + 1) (by omega)) h2 (by omega), hrec, M.ok_bind]
        congr 2
        rw [show h.stepBase L (k + 1) = h.slotOf (L k) + 1 from rfl, h1]

theorem WF.schedCollect {h : Hist T} (W : WF fp h) {pk : Picker P} {p : Nat → P} {L : Nat → Nat} {n : Nat}
    (S : Sched h pk p L n) {fuel : Nat} (hf : n < fuel) :
    (h.iterNew (p 0) >>= fun s => h.iterCollect pk fuel s)
      = .ok ((List.range n).map fun k => h.stepItem (L k) (h.stepBase L k)) := by
  have hn := S.pos
  rw [W.iterNew_eq, M.ok_bind]
  obtain ⟨f, rfl⟩ : ∃ f, fuel = f + 1 + 1 := ⟨fuel - 2, by omega⟩
  have h1 := W.stepWalk (f + 1) 0 (S.pick 0 hn) none (by simp) (h.slotOf (L 0)) 0 0 le_rfl (by omega)
  have h2 := W.schedTail S (n - 1) 0 f (by omega) (by omega)
  rw [h2, M.ok_bind] at h1
  simp only [List.take_zero, List.sum_nil, Nat.zero_min, Nat.sub_zero] at h1
  rw [h1]
  obtain ⟨m, rfl⟩ : ∃ m, n = m + 1 := ⟨n - 1, by omega⟩
  rw [List.range_eq_range', List.range'_succ, List.map_cons]
  rfl

end Hdr
