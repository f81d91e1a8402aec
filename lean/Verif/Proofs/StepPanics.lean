import Verif.Props.Steps

/-!
# Iterators that follow a schedule of reporting levels until a computation panics
-/

namespace Hdr

variable {T : CounterTy} {fp : Fp} {P : Type}

theorem iterPick_error {h : Hist T} {pk : Picker P} {s : IterState P} {e : Panic}
    (hp : pk.pick s.picker s.currentIndex s.totalCountToIndex s.countAtIndex = .error e) :
    h.iterPick pk s = .error e := by
  unfold Hist.iterPick
  rw [hp]
  rfl

/-- walking from a fresh slot `i` to the slot of the level, where picking panics -/
theorem WF.stepWalkErr {h : Hist T} (W : WF fp h) {pk : Picker P} {p : P} {v : Nat} {e : Panic} (k : Nat)
    (hpick : ∀ i t c, i < h.counts.length → pk.pick p i t c =
      if h.slotOf v ≤ i then .error e else .ok (p, none))
    (lp : Option Nat) (hlp : ∀ j, lp = some j → j < h.lidx h.maxValue) (d : Nat) :
    ∀ i cai t c, i + d = h.slotOf v →
      h.iterCollect pk (k + 1)
        { totalCountToIndex := t, countSinceLastIteration := c
          countAtIndex := cai, currentIndex := i, lastPickedIndex := lp, maxValueIndex := h.lidx h.maxValue
          fresh := true, ended := false, picker := p }
        = .error e := by
  have hslot : h.slotOf v < h.counts.length := W.slotOf_lt v
  have hpm : ∀ s : IterState P, s.lastPickedIndex = lp → s.maxValueIndex = h.lidx h.maxValue →
      Hist.pickedMax s = false := by
    intro s e1 e2
    unfold Hist.pickedMax
    rw [e1, e2]
    cases lp with
    | none => rfl
    | some j => have := hlp j rfl; simp; omega
  induction d with
  | zero =>
    intro i cai t c hi
    have hi' : i = h.slotOf v := by omega
    subst hi'
    rw [iterCollect_unfold _ _ _ _ hslot.le, if_neg (by simp), iterPass_before hslot (hpm _ rfl rfl),
      iterLoad_fresh rfl hslot, M.ok_bind]
    rw [iterPick_error (e := e) (by simp only [hpick _ _ _ hslot]; rw [if_pos le_rfl])]
    rfl
  | succ d ih =>
    intro i cai t c hi
    have hlt : i < h.counts.length := by omega
    rw [iterCollect_unfold _ _ _ _ hlt.le, if_neg (by simp), iterPass_before hlt (hpm _ rfl rfl),
      iterLoad_fresh rfl hlt, M.ok_bind]
    rw [W.iterPick_none (p := p) hlt (by simp only [hpick _ _ _ hlt]; rw [if_neg (by omega)]), M.ok_bind]
    exact ih (i + 1) _ _ _ (by omega)

/-- from a picked slot below that of the maximum to the pick that panics -/
theorem WF.stepNextErr {h : Hist T} (W : WF fp h) {pk : Picker P} {p : P} {v : Nat} {e : Panic} (k j : Nat)
    (hpick : ∀ i t c, i < h.counts.length → pk.pick p i t c =
      if h.slotOf v ≤ i then .error e else .ok (p, none))
    (hj : j ≤ h.slotOf v) (hm : j < h.lidx h.maxValue) :
    h.iterCollect pk (k + 1) (h.pickedState j p) = .error e := by
  have hslot : h.slotOf v < h.counts.length := W.slotOf_lt v
  have hjl : j < h.counts.length := by omega
  have hpm : Hist.pickedMax (h.pickedState j p) = false := by simp [Hist.pickedMax, Hist.pickedState]; omega
  rw [iterCollect_unfold _ _ _ _ (show (h.pickedState j p).currentIndex ≤ _ from hjl.le), if_neg (by simp [Hist.pickedState]),
    iterPass_before (show (h.pickedState j p).currentIndex < _ from hjl) hpm, iterLoad_stale rfl, M.ok_bind]
  by_cases hle : h.slotOf v ≤ j
  · rw [iterPick_error (pk := pk) (s := h.pickedState j p) (e := e) ((hpick _ _ _ hjl).trans (if_pos hle))]
    rfl
  · rw [W.iterPick_none (pk := pk) (s := h.pickedState j p) (p := p) hjl
      ((hpick _ _ _ hjl).trans (if_neg hle)), M.ok_bind]
    exact W.stepWalkErr k hpick (some j) (by simp; omega) (h.slotOf v - (j + 1)) (j + 1) _ _ _ (by omega)

/-- a further pick of the same slot, from that of the maximum on, panics -/
theorem WF.stepMoreErr {h : Hist T} (W : WF fp h) {pk : Picker P} {p : P} {v : Nat} {e : Panic} (k : Nat)
    (hpick : ∀ i t c, i < h.counts.length → pk.pick p i t c =
      if h.slotOf v ≤ i then .error e else .ok (p, none))
    (hmore : pk.more p (h.slotOf v) = .ok (p, true)) (hm : h.lidx h.maxValue ≤ h.slotOf v) :
    h.iterCollect pk (k + 1) (h.pickedState (h.slotOf v) p) = .error e := by
  have hslot : h.slotOf v < h.counts.length := W.slotOf_lt v
  have hpm : Hist.pickedMax (h.pickedState (h.slotOf v) p) = true := by
    simp [Hist.pickedMax, Hist.pickedState, hm]
  rw [iterCollect_unfold _ _ _ _ (show (h.pickedState (h.slotOf v) p).currentIndex ≤ _ from hslot.le),
    if_neg (by simp [Hist.pickedState]),
    iterPass_after (s := h.pickedState (h.slotOf v) p) hslot hpm]
  rw [show pk.more (h.pickedState (h.slotOf v) p).picker (h.pickedState (h.slotOf v) p).currentIndex = .ok (p, true)
    from hmore, M.ok_bind]
  simp only [if_true]
  rw [iterPick_error (pk := pk) (s := { h.pickedState (h.slotOf v) p with picker := p }) (e := e)
    ((hpick _ _ _ hslot).trans (if_pos le_rfl))]
  rfl

/-- the question for more panics -/
theorem WF.stepStopErr {h : Hist T} {pk : Picker P} {p : P} {e : Panic} (k j : Nat) (hj : j < h.counts.length)
    (hmore : pk.more p j = .error e) (hm : h.lidx h.maxValue ≤ j) :
    h.iterCollect pk (k + 1) (h.pickedState j p) = .error e := by
  have hpm : Hist.pickedMax (h.pickedState j p) = true := by
    simp [Hist.pickedMax, Hist.pickedState, hm]
  rw [iterCollect_unfold _ _ _ _ (show (h.pickedState j p).currentIndex ≤ _ from hj.le),
    if_neg (by simp [Hist.pickedState]),
    iterPass_after (s := h.pickedState j p) hj hpm]
  rw [show pk.more (h.pickedState j p).picker (h.pickedState j p).currentIndex = .error e from hmore]
  rfl

/-- the step from level `k` to level `k + 1` is taken -/
def SchedCont (h : Hist T) (pk : Picker P) (p : Nat → P) (L : Nat → Nat) (k : Nat) : Prop :=
  h.slotOf (L k) < h.lidx h.maxValue ∨
    (h.slotOf (L (k + 1)) = h.slotOf (L k) ∧ pk.more (p (k + 1)) (h.slotOf (L k)) = .ok (p (k + 1), true))

/-- A picker that follows the levels `L 0, L 1, …, L (m - 1)` and then panics: when picking `L m`, or when asked for more
after `L (m - 1)`. -/
structure SchedErr (h : Hist T) (pk : Picker P) (p : Nat → P) (L : Nat → Nat) (m : Nat) (e : Panic) : Prop where
  mono : ∀ k, L k ≤ L (k + 1)
  pick : ∀ k, k < m → ∀ i t c, i < h.counts.length → pk.pick (p k) i t c =
    if h.slotOf (L k) ≤ i then .ok (p (k + 1), some ⟨none, some (L k)⟩) else .ok (p k, none)
  cont : ∀ k, k + 1 < m → SchedCont h pk p L k
  panic : ((∀ k, k + 1 = m → SchedCont h pk p L k) ∧ ∀ i t c, i < h.counts.length → pk.pick (p m) i t c =
      if h.slotOf (L m) ≤ i then .error e else .ok (p m, none)) ∨
    (0 < m ∧ h.lidx h.maxValue ≤ h.slotOf (L (m - 1)) ∧ pk.more (p m) (h.slotOf (L (m - 1))) = .error e)

theorem WF.schedErrTail {h : Hist T} (W : WF fp h) {pk : Picker P} {p : Nat → P} {L : Nat → Nat} {m : Nat} {e : Panic}
    (S : SchedErr h pk p L m e) (d : Nat) :
    ∀ k f, k + 1 + d = m → d ≤ f →
      h.iterCollect pk (f + 1) (h.pickedState (h.slotOf (L k)) (p (k + 1))) = .error e := by
  induction d with
  | zero =>
    intro k f hk _
    have hm : m = k + 1 := by omega
    subst hm
    rcases S.panic with ⟨h1, h2⟩ | ⟨-, h1, h2⟩
    · by_cases hlt : h.slotOf (L k) < h.lidx h.maxValue
      · exact W.stepNextErr _ _ h2 (slotOf_mono (S.mono k)) hlt
      · rcases h1 k rfl with h1 | ⟨h1, h3⟩
        · exact absurd h1 hlt
        · rw [← h1] at h3 hlt ⊢
          exact W.stepMoreErr _ h2 h3 (by omega)
    · exact WF.stepStopErr _ _ (W.slotOf_lt _) h2 h1
  | succ d ih =>
    intro k f hk hf
    obtain ⟨f', rfl⟩ : ∃ f', f = f' + 1 := ⟨f - 1, by omega⟩
    have hrec := ih (k + 1) f' (by omega) (by omega)
    by_cases hlt : h.slotOf (L k) < h.lidx h.maxValue
    · rw [W.stepNext _ _ (S.pick (k + 1) (by omega)) (slotOf_mono (S.mono k)) hlt, hrec]
      rfl
    · rcases S.cont k (by omega) with h1 | ⟨h1, h2⟩
      · exact absurd h1 hlt
      · rw [← h1] at h2 hlt ⊢
        rw [W.stepMore _ (S.pick (k + 1) (by omega)) h2 (by omega), hrec]
        rfl

theorem WF.schedErrCollect {h : Hist T} (W : WF fp h) {pk : Picker P} {p : Nat → P} {L : Nat → Nat} {m : Nat} {e : Panic}
    (S : SchedErr h pk p L m e) {fuel : Nat} (hf : m < fuel) :
    (h.iterNew (p 0) >>= fun s => h.iterCollect pk fuel s) = .error e := by
  rw [W.iterNew_eq, M.ok_bind]
  cases m with
  | zero =>
    rcases S.panic with ⟨-, h2⟩ | ⟨h1, -⟩
    · obtain ⟨f, rfl⟩ : ∃ f, fuel = f + 1 := ⟨fuel - 1, by omega⟩
      exact W.stepWalkErr f h2 none (by simp) (h.slotOf (L 0)) 0 0 0 0 (by omega)
    · exact absurd h1 (lt_irrefl _)
  | succ m =>
    obtain ⟨f, rfl⟩ : ∃ f, fuel = f + 1 + 1 := ⟨fuel - 2, by omega⟩
    have h1 := W.stepWalk (f + 1) 0 (S.pick 0 (by omega)) none (by simp) (h.slotOf (L 0)) 0 0 le_rfl (by omega)
    have h2 := W.schedErrTail S m 0 f (by omega) (by omega)
    rw [h2] at h1
    simp only [List.take_zero, List.sum_nil, Nat.zero_min, Nat.sub_zero] at h1
    rw [h1]
    rfl

/-! ### `iter_linear` -/

theorem WF.linPickErr {h : Hist T} (W : WF fp h) {step k : Nat} (hs : 0 < step) (hL : U64MAX < linLevel step (k + 1))
    (i t c : Nat) (hi : i < h.counts.length) :
    h.linearPicker.pick (h.linState step k) i t c =
      if h.slotOf (linLevel step k) ≤ i then .error .overflow else .ok (h.linState step k, none) := by
  show h.linearPick (h.linState step k) i = _
  unfold Hist.linearPick
  rw [W.valueFor hi, M.ok_bind, W.lastIndex, M.ok_bind]
  have e : ((h.linState step k).lowest ≤ h.lval i ∨ i = h.counts.length - 1) ↔ h.slotOf (linLevel step k) ≤ i :=
    W.slotOf_le_iff (v := linLevel step k) hi
  by_cases hle : h.slotOf (linLevel step k) ≤ i
  · rw [if_pos (e.mpr hle), if_pos hle]
    have hadd : addU64 (h.linState step k).highest (h.linState step k).step = .error .overflow := by
      unfold addU64
      rw [show (h.linState step k).highest + (h.linState step k).step = linLevel step (k + 1) from linLevel_succ hs,
        if_neg (by omega)]
    rw [hadd]
    rfl
  · rw [if_neg (fun hc => hle (e.mp hc)), if_neg hle]
    rfl

/-- what the next theorem assumes: the level after the last does not fit, or the end of the class of `u64::MAX` is needed -/
theorem WF.linSchedErr {h : Hist T} (W : WF fp h) {step n : Nat} (hs : 0 < step) (hn : LinearSteps h step n)
    (hbad : U64MAX + 1 < (n + 1) * step ∨
      (h.sigfig = 0 ∧ h.Covers U64MAX ∧ ∃ l, h.lowestEquivalent U64MAX = .ok l ∧ l < n * step)) :
    ∃ m, m ≤ n ∧ SchedErr h h.linearPicker (h.linState step) (linLevel step) m .overflow := by
  have hn0 := hn.1.1
  have hmono : ∀ k, linLevel step k ≤ linLevel step (k + 1) := fun k => linLevel_mono (by omega)
  by_cases hex : ∃ k, k < n ∧ U64MAX < linLevel step (k + 1)
  · classical
    obtain ⟨hk, hlev⟩ := Nat.find_spec hex
    have hmin : ∀ j, j < Nat.find hex → linLevel step (j + 1) ≤ U64MAX := by
      intro j hj
      have := Nat.find_min hex hj
      by_contra hc
      exact this ⟨by omega, by omega⟩
    generalize Nat.find hex = m at *
    refine ⟨m, hk.le, hmono, ?_, ?_, Or.inl ⟨?_, ?_⟩⟩
    · intro k hkm i t c hi
      exact W.linPick hs (hmin k hkm) i t c hi
    · intro k hkm
      exact W.linCont hs hn (by omega) (hmin k (by omega))
    · intro k hkm
      exact W.linCont hs hn (by omega) (hmin k (by omega))
    · intro i t c hi
      exact W.linPickErr hs hlev i t c hi
  · have hlev : ∀ k, k < n → linLevel step (k + 1) ≤ U64MAX := by
      intro k hk
      by_contra hc
      exact hex ⟨k, hk, by omega⟩
    have h4 : linLevel step (n - 1) = n * step - 1 := by unfold linLevel; rw [Nat.sub_add_cancel hn0]
    refine ⟨n, le_rfl, hmono, ?_, ?_, Or.inr ⟨hn0, (W.linReach hs hn0).mp hn.1.2.1, ?_⟩⟩
    · intro k hkm i t c hi
      exact W.linPick hs (hlev k hkm) i t c hi
    · intro k hkm
      exact W.linCont hs hn hkm (hlev k (by omega))
    · rcases hbad with hbad | ⟨hsig, hcov, l, hl, hlt⟩
      · exfalso
        have h1 := hlev (n - 1) (by omega)
        rw [Nat.sub_add_cancel hn0] at h1
        have h2 : linLevel step n = (n + 1) * step - 1 := rfl
        omega
      · rw [lowestEquivalent_eq W.toLayoutOK le_rfl] at hl
        cases hl
        rw [W.linMoreTop ((W.slotOf_top _).mpr ⟨hcov, by omega⟩), if_pos (W.mag_zero.mpr hsig)]

end Hdr
