import Verif.Props.Release

/-!
# C82: `iter_linear` of a release build, for every histogram and every step
-/

namespace Hdr

variable {T : CounterTy} {fp : Fp}

/-- the `k`-th level of `iter_linear` in wrapping arithmetic, counting from 0 -/
def wrappedLevel (step k : Nat) : Nat := ((k + 1) * step - 1) % 2 ^ 64

theorem wrappedLevel_lt (step k : Nat) : wrappedLevel step k ≤ U64MAX := by
  have : wrappedLevel step k < 2 ^ 64 := Nat.mod_lt _ (by norm_num)
  have hU : U64MAX = 18446744073709551615 := rfl
  norm_num at this; omega

theorem wrappedLevel_succ {step : Nat} (hs : 0 < step) (k : Nat) :
    (wrappedLevel step k + step) % 2 ^ 64 = wrappedLevel step (k + 1) := by
  unfold wrappedLevel
  rw [Nat.mod_add_mod]
  congr 1
  have : 1 ≤ (k + 1) * step := Nat.le_mul_of_pos_left step (by omega) |>.trans' hs
  rw [show (k + 1 + 1) * step = (k + 1) * step + step by ring]
  omega

/-- after a multiple of 2^64 steps the level is `u64::MAX` -/
theorem wrappedLevel_top {step k c : Nat} (hs : 0 < step) (h0 : 0 < c) (h : k + 1 = 2 ^ 64 * c) : wrappedLevel step k = U64MAX := by
  unfold wrappedLevel
  rw [h]
  have h1 : 1 ≤ c * step := Nat.mul_pos h0 hs
  rw [Nat.mul_assoc]
  generalize c * step = n at h1
  have hU : U64MAX = 18446744073709551615 := rfl
  norm_num
  omega

namespace Release

open Hdr.Hist

/-- `value_for` never panics in a release build -/
theorem valueFor_total (h : Hist T) {i : Nat} (hi : i < 4294967296) : ∃ w, Hist.valueFor h i = .ok w ∧ w ≤ U64MAX := by
  have hv : ∀ b s, ∃ w, Hist.valueFromLoc h b s = .ok w ∧ w ≤ U64MAX := fun b s => by
    refine ⟨_, rfl, ?_⟩
    have := Nat.mod_lt (s * 2 ^ ((b + h.unitMag) % 2 ^ 8 % 64)) (show 0 < 2 ^ 64 by norm_num)
    have hU : U64MAX = 18446744073709551615 := rfl
    norm_num at this ⊢
    omega
  unfold Hist.valueFor
  rw [if_pos hi]
  simp only [shrU64, wrapI64M, subU32, addU32, expectM_some, M.ok_bind]
  split
  · exact hv _ _
  · exact hv _ _

/-- the state of `iter_linear` after `k` items, which reported `acc` samples -/
structure LinInv (h : Hist T) (step k acc : Nat) (s : IterState LinearState) : Prop where
  index : s.currentIndex ≤ h.counts.length
  maxi : s.maxValueIndex = h.lidx h.maxValue
  ended : s.ended = false
  pick : s.picker = ⟨step, wrappedLevel step k, h.llo (wrappedLevel step k)⟩
  room : k + 1 ≤ 2 ^ 65
  before : pickedMax s = false → k + 1 ≤ 2 ^ 64 ∧
    (h.counts.sum ≤ U64MAX → acc + s.countSinceLastIteration =
      (h.counts.take (s.currentIndex + if s.fresh then 0 else 1)).sum)
  atEnd : pickedMax s = false → s.currentIndex < h.counts.length
  seen : pickedMax s = true → h.lidx h.maxValue ≤ s.currentIndex
  after : pickedMax s = true → s.countSinceLastIteration = 0 ∧ (h.counts.sum ≤ U64MAX → acc = h.counts.sum)

theorem take_all {h : Hist T} (W : WF fp h) {k : Nat} (hk : h.lidx h.maxValue < k) : (h.counts.take k).sum = h.counts.sum := by
  have hz : (h.counts.drop k).sum = 0 := by
    refine List.sum_eq_zero fun x hx => ?_
    obtain ⟨n, hn, e⟩ := List.mem_iff_getElem.mp hx
    rw [List.getElem_drop] at e
    by_contra hne
    rw [List.length_drop] at hn
    have := W.trackMax (k + n) (by rw [List.getD_eq_getElem?_getD, List.getElem?_eq_getElem (by omega), e]; exact hne)
    omega
  have hts : (h.counts.take k).sum + (h.counts.drop k).sum = h.counts.sum := by
    rw [← List.sum_append, List.take_append_drop]
  omega

theorem take_le (l : List Nat) (k : Nat) : (l.take k).sum ≤ l.sum := by
  conv_rhs => rw [← List.take_append_drop k l]
  rw [List.sum_append]; omega

/-- what `linear::Iter::pick` does at slot `i` -/
theorem linearPick_eq {h : Hist T} (W : WF fp h) {step k i : Nat} (hs : 0 < step) (hi : i < h.counts.length) :
    Hist.linearPick h ⟨step, wrappedLevel step k, h.llo (wrappedLevel step k)⟩ i = .ok
      (if h.llo (wrappedLevel step k) ≤ h.lval i ∨ i = h.counts.length - 1 then
        (⟨step, wrappedLevel step (k + 1), h.llo (wrappedLevel step (k + 1))⟩, some ⟨none, some (wrappedLevel step k)⟩)
      else (⟨step, wrappedLevel step k, h.llo (wrappedLevel step k)⟩, none)) := by
  have hv : Hist.valueFor h i = .ok (h.lval i) := (Hist.valueFor_le _ _).out _ (W.valueFor hi)
  have hl : Hist.lowestEquivalent h (wrappedLevel step (k + 1)) = .ok (h.llo (wrappedLevel step (k + 1))) :=
    (Hist.lowestEquivalent_le _ _).out _ (lowestEquivalent_eq W.toLayoutOK (wrappedLevel_lt _ _))
  unfold Hist.linearPick
  rw [hv, M.ok_bind, W.lastIndex, M.ok_bind]
  dsimp only
  by_cases c : h.llo (wrappedLevel step k) ≤ h.lval i ∨ i = h.counts.length - 1
  · rw [if_pos c, if_pos c]
    have hadd : addU64 (wrappedLevel step k) step = .ok (wrappedLevel step (k + 1)) := by
      unfold addU64; rw [wrappedLevel_succ hs]
    rw [hadd, M.ok_bind, hl]
    rfl
  · rw [if_neg c, if_neg c]
    rfl

/-- the picking part of a pass, once the counts have been read -/
theorem linIterPick {h : Hist T} (W : WF fp h) {step k : Nat} (hs : 0 < step) {s : IterState LinearState}
    (hi : s.currentIndex < h.counts.length) (hp : s.picker = ⟨step, wrappedLevel step k, h.llo (wrappedLevel step k)⟩) :
    (∃ v : IterValue, v.valueIteratedTo = wrappedLevel step k ∧ v.countSinceLastIteration = s.countSinceLastIteration ∧
      (h.llo (wrappedLevel step k) ≤ h.lval s.currentIndex ∨ s.currentIndex = h.counts.length - 1) ∧
      Hist.iterPick h (Hist.linearPicker h) s = .ok (.emitted { s with
        picker := ⟨step, wrappedLevel step (k + 1), h.llo (wrappedLevel step (k + 1))⟩
        countSinceLastIteration := 0, lastPickedIndex := some s.currentIndex } v)) ∨
    (s.currentIndex ≠ h.counts.length - 1 ∧
      Hist.iterPick h (Hist.linearPicker h) s = .ok (.again { s with currentIndex := s.currentIndex + 1, fresh := true })) := by
  have hpk : (Hist.linearPicker h).pick s.picker s.currentIndex s.totalCountToIndex s.countAtIndex =
      Hist.linearPick h s.picker s.currentIndex := rfl
  unfold Hist.iterPick
  rw [hpk, hp, linearPick_eq W hs hi, M.ok_bind]
  by_cases c : h.llo (wrappedLevel step k) ≤ h.lval s.currentIndex ∨ s.currentIndex = h.counts.length - 1
  · left
    rw [if_pos c]
    dsimp only
    unfold Hist.iterEmit
    simp only [WF.countAtIndex hi, expectM_some, M.ok_bind, M.pure_eq]
    exact ⟨_, rfl, rfl, c, rfl⟩
  · right
    rw [if_neg c]
    dsimp only
    refine ⟨fun e => c (.inr e), ?_⟩
    have hadd : addU64 s.currentIndex 1 = .ok (s.currentIndex + 1) := by
      unfold addU64
      have := W.len_small
      have hU : U64MAX = 18446744073709551615 := rfl
      rw [Nat.mod_eq_of_lt (by norm_num; omega)]
    rw [hadd, M.ok_bind]
    rw [← hp]
    rfl

/-- one pass -/
theorem linPass {h : Hist T} (W : WF fp h) {step k acc : Nat} (hs : 0 < step) {s : IterState LinearState}
    (I : LinInv h step k acc s) :
    (∃ t, Hist.iterPass h (Hist.linearPicker h) s = .ok (.finished t) ∧ (h.counts.sum ≤ U64MAX → acc = h.counts.sum)) ∨
    (∃ t v, Hist.iterPass h (Hist.linearPicker h) s = .ok (.emitted t v) ∧ v.valueIteratedTo = wrappedLevel step k ∧
      LinInv h step (k + 1) (acc + v.countSinceLastIteration) t) ∨
    (∃ t, Hist.iterPass h (Hist.linearPicker h) s = .ok (.again t) ∧ LinInv h step k acc t ∧
      t.currentIndex = s.currentIndex + 1) := by
  have hsm := W.len_small
  have h24 : h.counts.length < 2 ^ 24 := lt_of_le_of_lt W.len_le_all (Lay.allSlots_lt W.mag17)
  unfold Hist.iterPass
  by_cases hd : s.currentIndex = h.distinctValues
  · left
    rw [if_pos hd]
    refine ⟨_, rfl, ?_⟩
    cases hp : pickedMax s
    · exact absurd hd (Nat.ne_of_lt (I.atEnd hp))
    · exact (I.after hp).2
  have hi : s.currentIndex < h.counts.length := lt_of_le_of_ne I.index hd
  rw [if_neg hd]
  cases hp : pickedMax s
  · -- before the slot of the largest sample has been picked
    simp only [Bool.false_eq_true, if_false]
    rw [show assertM (decide (s.currentIndex < h.distinctValues)) = .ok () by
      unfold assertM; rw [decide_eq_true (show s.currentIndex < h.distinctValues from hi)]; rfl]
    obtain ⟨b1, b2⟩ := I.before hp
    -- the state after reading the count
    have hload : ∃ t, h.iterLoad s = .ok t ∧ t.currentIndex = s.currentIndex ∧ t.maxValueIndex = s.maxValueIndex ∧
        t.ended = s.ended ∧ t.picker = s.picker ∧ t.lastPickedIndex = s.lastPickedIndex ∧ t.fresh = false ∧
        (h.counts.sum ≤ U64MAX → acc + t.countSinceLastIteration = (h.counts.take (s.currentIndex + 1)).sum) := by
      unfold Hdr.Hist.iterLoad
      by_cases hf : s.fresh = true
      · rw [if_pos hf, WF.countAtIndex hi, expectM_some, M.ok_bind]
        refine ⟨_, rfl, rfl, rfl, rfl, rfl, rfl, rfl, fun hU => ?_⟩
        have e := b2 hU
        rw [if_pos hf, Nat.add_zero] at e
        have ht := take_succ_sum hi
        have hle := take_le h.counts (s.currentIndex + 1)
        dsimp only
        unfold satAdd
        rw [Nat.min_eq_left (by omega)]
        omega
      · rw [if_neg hf]
        refine ⟨_, rfl, rfl, rfl, rfl, rfl, rfl, by simpa using hf, fun hU => ?_⟩
        have e := b2 hU
        rwa [if_neg hf] at e
    obtain ⟨t, e, t1, t2, t3, t4, t5, t6, t7⟩ := hload
    have hpt : pickedMax t = false := by unfold pickedMax at hp ⊢; rw [t5, t2]; exact hp
    simp only [M.ok_bind, e]
    rcases linIterPick W hs (s := t) (by rw [t1]; exact hi) (by rw [t4]; exact I.pick) with ⟨v, v1, v2, v3, v4⟩ | ⟨v1, v2⟩
    · right; left
      rw [t1] at v3
      refine ⟨_, v, v4, v1, ?_⟩
      constructor
      · dsimp only; omega
      · dsimp only; rw [t2]; exact I.maxi
      · dsimp only; rw [t3]; exact I.ended
      · rfl
      · have : 2 ^ 65 = 2 * 2 ^ 64 := by norm_num
        omega
      · intro hq
        have hlt : s.currentIndex < h.lidx h.maxValue := by
          unfold pickedMax at hq
          dsimp only at hq
          rw [t2, I.maxi, t1] at hq
          simpa using hq
        have hmc := W.maxcov
        have hlv : h.llo (wrappedLevel step k) ≤ h.lval s.currentIndex := v3.resolve_right (by omega)
        refine ⟨?_, fun hU => ?_⟩
        · by_contra hc
          have hk : k + 1 = 2 ^ 64 * 1 := by omega
          rw [wrappedLevel_top hs (by norm_num) hk] at hlv
          have h1 : h.lval (h.lidx U64MAX) = h.llo U64MAX := Lay.val_idx
          rw [← h1, lval_le_lval] at hlv
          have h2 : h.lidx h.maxValue ≤ h.lidx U64MAX := Lay.idx_mono W.maxle
          omega
        · dsimp only
          rw [v2, t7 hU, t1, t6]
          simp
      · intro hq
        dsimp only
        omega
      · intro hq
        unfold pickedMax at hq
        dsimp only at hq
        rw [t2, I.maxi] at hq
        exact of_decide_eq_true hq
      · intro hq
        refine ⟨rfl, fun hU => ?_⟩
        rw [v2, t7 hU]
        refine take_all W ?_
        unfold pickedMax at hq
        dsimp only at hq
        rw [t2, I.maxi, t1] at hq
        have := of_decide_eq_true hq
        omega
    · right; right
      refine ⟨_, v2, ?_, by dsimp only; rw [t1]⟩
      rw [t1] at v1
      have hpa : pickedMax ({ t with currentIndex := t.currentIndex + 1, fresh := true } : IterState LinearState) = false := hpt
      constructor
      · dsimp only; omega
      · dsimp only; rw [t2]; exact I.maxi
      · dsimp only; rw [t3]; exact I.ended
      · dsimp only; rw [t4]; exact I.pick
      · exact I.room
      · intro _
        refine ⟨b1, fun hU => ?_⟩
        dsimp only
        rw [t7 hU, t1]
        simp
      · intro _; dsimp only; omega
      · intro hq; rw [hpa] at hq; cases hq
      · intro hq; rw [hpa] at hq; cases hq
  · -- afterwards
    simp only [if_true]
    obtain ⟨a1, a2⟩ := I.after hp
    obtain ⟨w, w1, w2⟩ := valueFor_total h (i := s.currentIndex + 1) (by omega)
    have hm : (Hist.linearPicker h).more s.picker s.currentIndex =
        .ok (s.picker, decide (wrappedLevel step k < w)) := by
      show Hist.linearMore h s.picker s.currentIndex = _
      rw [I.pick]
      exact linearMore_eq (by omega) w1
    rw [hm, M.ok_bind]
    dsimp only
    by_cases hw : wrappedLevel step k < w
    · rw [decide_eq_true hw, if_pos rfl]
      have hst : ({ s with picker := s.picker } : IterState LinearState) = s := rfl
      rcases linIterPick W hs hi I.pick with ⟨v, v1, v2, v3, v4⟩ | ⟨v1, v2⟩
      · right; left
        refine ⟨_, v, v4, v1, ?_⟩
        have hpa : pickedMax ({ s with
            picker := ⟨step, wrappedLevel step (k + 1), h.llo (wrappedLevel step (k + 1))⟩
            countSinceLastIteration := 0, lastPickedIndex := some s.currentIndex } : IterState LinearState) = true := by
          show decide (s.maxValueIndex ≤ s.currentIndex) = true
          rw [I.maxi]
          exact decide_eq_true (I.seen hp)
        constructor
        · exact I.index
        · exact I.maxi
        · exact I.ended
        · rfl
        · by_contra hc
          have hr := I.room
          have hk : k + 1 = 2 ^ 64 * 2 := by norm_num at hc hr ⊢; omega
          rw [wrappedLevel_top hs (by norm_num) hk] at hw
          omega
        · intro hq; rw [hpa] at hq; cases hq
        · intro hq; rw [hpa] at hq; cases hq
        · intro _; exact I.seen hp
        · intro _
          refine ⟨rfl, fun hU => ?_⟩
          rw [v2, a1, Nat.add_zero]
          exact a2 hU
      · right; right
        refine ⟨_, v2, ?_, rfl⟩
        have hpa : pickedMax ({ s with currentIndex := s.currentIndex + 1, fresh := true } : IterState LinearState) = true := hp
        constructor
        · dsimp only; omega
        · exact I.maxi
        · exact I.ended
        · exact I.pick
        · exact I.room
        · intro hq; rw [hpa] at hq; cases hq
        · intro hq; rw [hpa] at hq; cases hq
        · intro _; exact (I.seen hp).trans (Nat.le_succ _)
        · intro _; exact ⟨a1, a2⟩
    · rw [decide_eq_false hw]
      left
      exact ⟨_, rfl, a2⟩

/-- one call of `next` -/
theorem linNext {h : Hist T} (W : WF fp h) {step k acc : Nat} (hs : 0 < step) : ∀ (n : Nat) {s : IterState LinearState},
    LinInv h step k acc s → h.counts.length < n + s.currentIndex →
    (∃ t, Hist.iterNextLoop h (Hist.linearPicker h) n s = .ok (t, none) ∧ (h.counts.sum ≤ U64MAX → acc = h.counts.sum)) ∨
    (∃ t v, Hist.iterNextLoop h (Hist.linearPicker h) n s = .ok (t, some v) ∧ v.valueIteratedTo = wrappedLevel step k ∧
      LinInv h step (k + 1) (acc + v.countSinceLastIteration) t) := by
  intro n
  induction n with
  | zero => intro s I hn; have := I.index; omega
  | succ n ih =>
    intro s I hn
    unfold Hist.iterNextLoop
    rw [if_neg (by rw [I.ended]; exact Bool.false_ne_true)]
    rcases linPass W hs I with ⟨t, e, ha⟩ | ⟨t, v, e, hv, I'⟩ | ⟨t, e, I', hidx⟩
    · left; rw [e, M.ok_bind]; exact ⟨t, rfl, ha⟩
    · right; rw [e, M.ok_bind]; exact ⟨t, v, rfl, hv, I'⟩
    · rw [e, M.ok_bind]
      exact ih I' (by omega)

/-- all calls of `next` -/
theorem linCollect {h : Hist T} (W : WF fp h) {step : Nat} (hs : 0 < step) : ∀ (n : Nat) {k acc : Nat} {s : IterState LinearState},
    LinInv h step k acc s → 2 ^ 65 < n + k → ∃ vs, (∀ m, n ≤ m → Hist.iterCollect h (Hist.linearPicker h) m s = .ok vs) ∧
      k + vs.length < 2 ^ 65 ∧ vs.map (·.valueIteratedTo) = (List.range vs.length).map (fun j => wrappedLevel step (k + j)) ∧
      (h.counts.sum ≤ U64MAX → acc + (vs.map (·.countSinceLastIteration)).sum = h.counts.sum) := by
  intro n
  induction n with
  | zero => intro k acc s I hn; have := I.room; omega
  | succ n ih =>
    intro k acc s I hn
    have hnext := linNext W hs (h.distinctValues + 2) I (by unfold Hdr.Hist.distinctValues; omega)
    have hr := I.room
    rcases hnext with ⟨t, e, ha⟩ | ⟨t, v, e, hv, I'⟩
    · refine ⟨[], fun m hm => ?_, ?_, rfl, ?_⟩
      · obtain ⟨m, rfl⟩ : ∃ m', m = m' + 1 := ⟨m - 1, by omega⟩
        unfold Hist.iterCollect Hist.iterNext
        rw [e]; rfl
      · rw [List.length_nil]; omega
      · simpa using ha
    · obtain ⟨vs, h1, h2, h3, h4⟩ := ih I' (by omega)
      refine ⟨v :: vs, fun m hm => ?_, ?_, ?_, ?_⟩
      · obtain ⟨m, rfl⟩ : ∃ m', m = m' + 1 := ⟨m - 1, by omega⟩
        unfold Hist.iterCollect Hist.iterNext
        rw [e, M.ok_bind]
        dsimp only
        rw [h1 m (by omega)]; rfl
      · rw [List.length_cons]; omega
      · rw [List.length_cons, List.range_succ_eq_map, List.map_cons, List.map_cons, hv, h3, List.map_map]
        congr 1
        refine List.map_congr_left fun j _ => ?_
        simp only [Function.comp]
        congr 1; omega
      · intro hU
        have := h4 hU
        simp only [List.map_cons, List.sum_cons]; omega

end Release

/-- C82 (2): what `iter_linear` does in a release build, for every step but 0: it never panics and always ends, after fewer
than 2^65 items. The items are for the multiples of the step less one, modulo 2^64; the counts of the items add up to the
number of samples, if that is at most `u64::MAX`. -/
theorem C82_iter_linear {h : Hist T} (R : Reachable fp T h) {step : Nat} (hs : 0 < step) (hU : step ≤ U64MAX) :
    ∃ vs, (∀ fuel, 2 ^ 65 < fuel → Release.Hist.iterLinear h step fuel = .ok vs) ∧ vs.length < 2 ^ 65 ∧
      (∀ j v, vs[j]? = some v → v.valueIteratedTo = ((j + 1) * step - 1) % 2 ^ 64) ∧
      (h.counts.sum ≤ U64MAX → (vs.map (·.countSinceLastIteration)).sum = h.counts.sum) := by
  have W := R.wf
  have hs1 : Release.subU64 step 1 = .ok (wrappedLevel step 0) := by
    unfold Release.subU64 Release.wrapSub wrappedLevel
    rw [if_pos (show 1 ≤ step from hs)]
    have hU' : U64MAX = 18446744073709551615 := rfl
    rw [Nat.zero_add, Nat.one_mul, Nat.mod_eq_of_lt (by norm_num; omega)]
  have hl : Release.Hist.lowestEquivalent h (wrappedLevel step 0) = .ok (h.llo (wrappedLevel step 0)) :=
    (Release.Hist.lowestEquivalent_le _ _).out _ (lowestEquivalent_eq W.toLayoutOK (wrappedLevel_lt _ _))
  obtain ⟨s, e, I⟩ : ∃ s, Release.Hist.linearNew h step = .ok s ∧ Release.LinInv h step 0 0 s := by
    have hn := (Release.Hist.iterNew_le h (⟨step, wrappedLevel step 0, h.llo (wrappedLevel step 0)⟩ : Hist.LinearState)).out _
      (W.iterNew_eq _)
    unfold Release.Hist.linearNew
    rw [show assertM (decide (0 < step)) = .ok () by unfold assertM; rw [decide_eq_true hs]; rfl, M.ok_bind, hs1, M.ok_bind, hl,
      M.ok_bind]
    refine ⟨_, hn, ?_⟩
    have hp := W.len_pos
    constructor
    · exact Nat.zero_le _
    · rfl
    · rfl
    · rfl
    · norm_num
    · intro _; exact ⟨by norm_num, fun _ => rfl⟩
    · intro _; exact hp
    · intro hq; cases hq
    · intro hq; cases hq
  obtain ⟨vs, h1, h2, h3, h4⟩ := Release.linCollect W hs (2 ^ 65 + 1) I (by omega)
  refine ⟨vs, fun fuel hf => ?_, by omega, ?_, fun hc => by have := h4 hc; omega⟩
  · unfold Release.Hist.iterLinear
    rw [e, M.ok_bind]
    exact h1 fuel (by omega)
  · intro j v hj
    have hlt : j < vs.length := (List.getElem?_eq_some_iff.mp hj).1
    have := congrArg (·[j]?) h3
    simp only [List.getElem?_map, hj, Option.map_some, List.getElem?_range hlt, Option.some.injEq, Nat.zero_add] at this
    exact this

/-- a step for which a debug build panics -/
example : Reachable Fp.ideal .u8 demoWide ∧ demoWide.counts.sum = 1 ∧
    demoWide.iterLinear (2 ^ 63 + 1) 10 = .error .overflow := by
  exact ⟨demoWide_reachable, by decide +kernel, C82_iter_linear_refuted.2.2.1⟩

end Hdr
