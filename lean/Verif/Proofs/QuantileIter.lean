import Verif.Proofs.Ticks
import Verif.Props.Steps

/-!
# What `iter_quantiles` yields
-/

namespace Hdr

variable {T : CounterTy} {fp : Fp}

open F64

/-- the binary64 fraction of samples in the slots up to `j` -/
def Hist.frac (h : Hist T) (j : Nat) : ℚ :=
  rndQ (rndQ (Min.min (h.counts.take (j + 1)).sum U64MAX : ℕ) / rndQ h.totalCount)

theorem WF.frac_eq {h : Hist T} (W : WF fp h) (hne : h.totalCount ≠ 0) (j : Nat) :
    F64.div (F64.ofNat (Min.min (h.counts.take (j + 1)).sum U64MAX)) (F64.ofNat h.totalCount) = .fin (h.frac j) := by
  rw [ofNat_fin (Nat.min_le_right _ _), ofNat_fin W.tot]
  have h1 : 1 ≤ rndQ h.totalCount := one_le_rndQ (by exact_mod_cast Nat.pos_of_ne_zero hne)
  have h2 := rndQ_u64_le (n := Min.min (h.counts.take (j + 1)).sum U64MAX) (Nat.min_le_right _ _)
  have h3 : 0 ≤ rndQ (Min.min (h.counts.take (j + 1)).sum U64MAX : ℕ) := rndQ_nonneg (by positivity)
  simp only [F64.div]
  rw [if_neg (by linarith)]
  refine rnd_fin ?_
  rw [abs_of_nonneg (div_nonneg h3 (by linarith))]
  refine le_trans ?_ pow64_le
  rw [div_le_iff₀ (by linarith)]
  refine le_trans h2 ?_
  nlinarith [show (0 : ℚ) < 2 ^ 64 by positivity]

theorem Hist.frac_mono {h : Hist T} {i j : Nat} (hij : i ≤ j) : h.frac i ≤ h.frac j := by
  unfold Hist.frac
  have h0 : 0 ≤ rndQ (h.totalCount : ℚ) := rndQ_nonneg (by positivity)
  refine rndQ_mono (div_le_div_of_nonneg_right (rndQ_mono ?_) h0)
  have := take_sum_mono h.counts (show i + 1 ≤ j + 1 by omega)
  have : Min.min (h.counts.take (i + 1)).sum U64MAX ≤ Min.min (h.counts.take (j + 1)).sum U64MAX := by omega
  exact_mod_cast this

/-! ### The picker -/

/-- the state of the picker -/
def qst (t : Nat) (q : ℚ) (re : Bool) : Hist.QuantileState := ⟨t, .fin q, re⟩

section
variable {h : Hist T} {lg : F64 → Nat} {t : Nat} {q : ℚ} {i j c tot : Nat}

theorem qpick_zero {p : Hist.QuantileState} (hc : c = 0) :
    (Hist.quantilePicker lg h).pick p i tot c = .ok (p, none) := by
  show Hist.quantilePick lg h p tot c = _
  unfold Hist.quantilePick; rw [if_pos hc]; rfl

theorem qpick_low {re : Bool} (hf : F64.div (F64.ofNat tot) (F64.ofNat h.totalCount) = .fin (h.frac j))
    (hlt : h.frac j < q) :
    (Hist.quantilePicker lg h).pick (qst t q re) i tot c = .ok (qst t q re, none) := by
  show Hist.quantilePick lg h _ tot c = _
  unfold Hist.quantilePick Hist.len
  rw [hf]
  simp only [qst, F64.lt, hlt, decide_true, if_true]
  split <;> rfl

theorem qpick_end : (Hist.quantilePicker lg h).pick (qst t q true) i tot c = .ok (qst t q true, none) := by
  show Hist.quantilePick lg h _ tot c = _
  unfold Hist.quantilePick
  simp only [qst, if_true]
  split
  · rfl
  · split <;> rfl

theorem qpick_one (hf : F64.div (F64.ofNat tot) (F64.ofNat h.totalCount) = .fin (h.frac j)) (hc : c ≠ 0)
    (hle : 1 ≤ h.frac j) :
    (Hist.quantilePicker lg h).pick (qst t 1 false) i tot c = .ok (qst t 1 true, some ⟨some (.fin 1), none⟩) := by
  show Hist.quantilePick lg h _ tot c = _
  unfold Hist.quantilePick Hist.len
  rw [hf]
  simp only [qst, F64.lt, F64.feq, not_lt.mpr hle, decide_false, decide_true, if_true, hc, if_false, Bool.false_eq_true]
  rfl

theorem qpick_step (L : Log2Law lg) (ht : 0 < t) (Q : TickQ t q) (h1 : q < 1)
    (hf : F64.div (F64.ofNat tot) (F64.ofNat h.totalCount) = .fin (h.frac j)) (hc : c ≠ 0)
    (hle : q ≤ h.frac j) :
    (Hist.quantilePicker lg h).pick (qst t q false) i tot c
      = .ok (qst t (nextQ q (ticksAt lg t q)) false, some ⟨some (.fin q), none⟩) := by
  show Hist.quantilePick lg h _ tot c = _
  unfold Hist.quantilePick Hist.len
  rw [hf]
  simp only [qst, F64.lt, F64.feq, not_lt.mpr hle, h1.ne, decide_false, hc, if_false, Bool.false_eq_true]
  rw [quantileStep_eq L ht Q h1, M.ok_bind]
  rfl

end

/-- a pick with an explicit quantile -/
theorem WF.iterPick_quantile {h : Hist T} (W : WF fp h) {P : Type} {pk : Picker P} {s : IterState P} {p : P} {q : F64}
    (hi : s.currentIndex < h.counts.length)
    (hp : pk.pick s.picker s.currentIndex s.totalCountToIndex s.countAtIndex = .ok (p, some ⟨some q, none⟩)) :
    h.iterPick pk s = .ok (.emitted
      { s with picker := p, countSinceLastIteration := 0, lastPickedIndex := some s.currentIndex }
      { valueIteratedTo := h.lhi (h.lval s.currentIndex)
        quantile := F64.div (F64.ofNat s.totalCountToIndex) (F64.ofNat h.totalCount)
        quantileIteratedTo := q
        countAtValue := h.counts.getD s.currentIndex 0
        countSinceLastIteration := s.countSinceLastIteration }) := by
  unfold Hist.iterPick
  rw [hp, M.ok_bind]
  simp only
  unfold Hist.iterEmit
  simp only
  rw [W.valueFor hi, M.ok_bind, highestEquivalent_eq W.toLayoutOK (W.lval_le hi), M.ok_bind,
    WF.countAtIndex hi, expectM_some, M.ok_bind]
  rfl

/-- the item for slot `j` and quantile `q`, the slots below `b` having been counted -/
def Hist.qItem (h : Hist T) (j : Nat) (q : ℚ) (b : Nat) : IterValue :=
  { valueIteratedTo := h.lhi (h.lval j)
    quantile := .fin (h.frac j)
    quantileIteratedTo := .fin q
    countAtValue := h.counts.getD j 0
    countSinceLastIteration := Min.min ((h.counts.take (j + 1)).sum - (h.counts.take b).sum) U64MAX }

/-- the first value not counted yet -/
def Hist.qFrom (h : Hist T) : Nat → Nat
  | 0 => 0
  | b + 1 => h.lval b + 1

theorem WF.slotOf_lval {h : Hist T} {j : Nat} (hj : j < h.counts.length) : h.slotOf (h.lval j) = j := by
  have : h.lidx (h.lval j) = j := Lay.idx_val
  unfold Hist.slotOf
  rw [this]; omega

theorem WF.fracUpTo_eq {h : Hist T} (W : WF fp h) {cs : List Cls} (C : Classes h cs) {j : Nat}
    (hj : j < h.counts.length) : fracUpTo h cs (h.lcls j) = h.frac j := by
  unfold fracUpTo Hist.frac
  rw [show (h.lcls j).lo = h.lval j from rfl, W.countUpTo_eq C, WF.slotOf_lval hj]
  rfl

theorem WF.qItem_ok {h : Hist T} (W : WF fp h) {cs : List Cls} (C : Classes h cs) {j b : Nat} {q : ℚ}
    (hj : j < h.counts.length) (hb : b ≤ j + 1) (hc : h.counts.getD j 0 ≠ 0) (hq : q ≤ h.frac j)
    (hfirst : ∀ i, i < j → h.counts.getD i 0 ≠ 0 → h.frac i < q) :
    QuantileItem h cs (h.qFrom b) (h.lcls j) q (h.qItem j q b) := by
  have hfrac := W.fracUpTo_eq C hj
  refine ⟨rfl, rfl, hc, ?_, rfl, ?_, ?_, ?_⟩
  · rw [hfrac]; rfl
  · show Min.min _ _ = _
    have e := W.countUpTo_eq C (h.lval j)
    rw [WF.slotOf_lval hj] at e
    cases b with
    | zero =>
      simp only [Hist.qFrom]
      rw [countUpTo_first, show (h.lcls j).lo = h.lval j from rfl, e]; simp
    | succ b =>
      have hbj : h.lval b ≤ h.lval j := Lay.val_le_val (by omega)
      have e2 := W.countUpTo_eq C (h.lval b)
      rw [WF.slotOf_lval (by omega)] at e2
      simp only [Hist.qFrom]
      rw [show (h.lcls j).lo = h.lval j from rfl, countUpTo_succ _ hbj, e, e2]
  · rw [hfrac]; exact hq
  · intro d hd hdc hlo
    obtain ⟨i, hi, rfl⟩ := (W.mem_classes C).mp hd
    rw [W.fracUpTo_eq C hi]
    refine hfirst i ?_ hdc
    by_contra hge
    have : h.lval j ≤ h.lval i := Lay.val_le_val (by omega)
    exact absurd hlo (not_lt.mpr this)

theorem tickStep_ok {lg : F64 → Nat} (L : Log2Law lg) {t : Nat} (ht : 0 < t) (ht32 : t < 2 ^ 32) {q : ℚ}
    (Q : TickQ t q) (h1 : q < 1) :
    TickStep t q (nextQ q (ticksAt lg t q)) := by
  obtain ⟨a, b, -⟩ := halvings L Q.nonneg h1 Q.repr
  obtain ⟨Q', hstep⟩ := nextQ_good L ht ht32 Q h1
  have h53 : (0 : ℚ) < 1 / 2 ^ 53 := by positivity
  refine ⟨by linarith, Q'.le_one, lg (.fin (halvingArg q)), a, b, ?_⟩
  simp only
  by_cases hc : rndQ (q + incr (ticksAt lg t q)) = q
  · exact Or.inl ⟨hc, if_pos hc⟩
  · exact Or.inr ⟨hc, if_neg hc⟩

/-! ### The driver -/

/-- after the end mark nothing more is picked -/
theorem WF.qEndWalk {h : Hist T} (W : WF fp h) {lg : F64 → Nat} {t : Nat} {q : ℚ} (k d : Nat) :
    ∀ (i : Nat) (s : IterState Hist.QuantileState), i + d = h.counts.length → s.currentIndex = i →
      s.ended = false → s.picker = qst t q true → Hist.pickedMax s = false →
      h.iterCollect (Hist.quantilePicker lg h) (k + 1) s = .ok [] := by
  induction d with
  | zero =>
    intro i s hi hs he hp hm
    have : s.currentIndex = h.counts.length := by omega
    rw [iterCollect_unfold _ _ _ _ this.le, if_neg (by simp [he]), iterPass_end this]
    rfl
  | succ d ih =>
    intro i s hi hs he hp hm
    have hlt : s.currentIndex < h.counts.length := by omega
    rw [iterCollect_unfold _ _ _ _ hlt.le, if_neg (by simp [he]), iterPass_before hlt hm]
    have hload : ∃ s', h.iterLoad s = .ok s' ∧ s'.currentIndex = s.currentIndex ∧ s'.ended = s.ended ∧
        s'.picker = s.picker ∧ s'.lastPickedIndex = s.lastPickedIndex ∧ s'.maxValueIndex = s.maxValueIndex := by
      cases hf : s.fresh with
      | true => rw [iterLoad_fresh hf hlt]; exact ⟨_, rfl, rfl, rfl, rfl, rfl, rfl⟩
      | false => rw [iterLoad_stale hf]; exact ⟨_, rfl, rfl, rfl, rfl, rfl, rfl⟩
    obtain ⟨s', e1, e2, e3, e4, e5, e6⟩ := hload
    rw [e1, M.ok_bind, W.iterPick_none (p := qst t q true) (by omega) (by rw [e4, hp]; exact qpick_end), M.ok_bind]
    refine ih (i + 1) _ (by omega) (by simp only; omega) (by simp only; rw [e3, he]) rfl ?_
    unfold Hist.pickedMax at hm ⊢
    simp only
    rw [e5, e6]; exact hm

theorem WF.qEnd {h : Hist T} (W : WF fp h) {lg : F64 → Nat} {t : Nat} {q : ℚ} (k j : Nat) (hj : j < h.counts.length) :
    h.iterCollect (Hist.quantilePicker lg h) (k + 1) (h.pickedState j (qst t q true)) = .ok [] := by
  by_cases hm : h.lidx h.maxValue ≤ j
  · refine WF.stepStop k j hj ⟨qst t q true, ?_⟩ hm
    rfl
  · exact W.qEndWalk k (h.counts.length - j) j (h.pickedState j (qst t q true)) (by omega) rfl rfl rfl
      (by simp [Hist.pickedMax, Hist.pickedState]; omega)

/-- from the slot of the maximum on, if quantile 1 is out of reach -/
theorem WF.qPast {h : Hist T} (W : WF fp h) {lg : F64 → Nat} {t j : Nat} (hf : h.frac j < 1)
    (hne : h.totalCount ≠ 0) (k d : Nat) :
    ∀ (i : Nat) (s : IterState Hist.QuantileState), i + d = h.counts.length → s.currentIndex = i →
      s.ended = false → s.picker = qst t 1 false → Hist.pickedMax s = true →
      s.totalCountToIndex = Min.min (h.counts.take (j + 1)).sum U64MAX →
      h.iterCollect (Hist.quantilePicker lg h) (k + 1) s = .ok [] := by
  induction d with
  | zero =>
    intro i s hi hs he hp hm ht
    have : s.currentIndex = h.counts.length := by omega
    rw [iterCollect_unfold _ _ _ _ this.le, if_neg (by simp [he]), iterPass_end this]
    rfl
  | succ d ih =>
    intro i s hi hs he hp hm ht
    have hlt : s.currentIndex < h.counts.length := by omega
    rw [iterCollect_unfold _ _ _ _ hlt.le, if_neg (by simp [he]), iterPass_after hlt hm]
    have e : (Hist.quantilePicker lg h).more s.picker s.currentIndex = .ok (qst t 1 false, true) := by
      rw [hp]; rfl
    rw [e, M.ok_bind]
    simp only [if_true]
    rw [W.iterPick_none (pk := Hist.quantilePicker lg h) (s := { s with picker := qst t 1 false })
      (p := qst t 1 false) hlt (qpick_low (j := j) (by simp only; rw [ht]; exact W.frac_eq hne j) hf), M.ok_bind]
    exact ih (i + 1) _ (by omega) (by simp only; omega) he rfl hm ht

/-- enough `next` calls from quantile `q` on -/
def enough (q : ℚ) (n : Nat) : Prop := (1 - q) * 2 ^ 53 + 1 < n

variable {lg : F64 → Nat} {t : Nat}

/-- what is shown about the items from a picked slot on -/
def PickedOk (h : Hist T) (cs : List Cls) (lg : F64 → Nat) (t n : Nat) : Prop :=
  ∀ (q : ℚ) (j : Nat), TickQ t q → enough q n → j < h.counts.length → h.counts.getD j 0 ≠ 0 →
    (∀ i, i < j → h.counts.getD i 0 ≠ 0 → h.frac i < q) →
    ∃ items, h.iterCollect (Hist.quantilePicker lg h) n (h.pickedState j (qst t q false)) = .ok items ∧
      QuantileRun h cs t (h.qFrom (j + 1)) q items

/-- the pick itself: from a loaded slot whose fraction reaches `q` -/
theorem WF.qEmit {h : Hist T} (W : WF fp h) (L : Log2Law lg) (ht : 0 < t) (ht32 : t < 2 ^ 32) (hne : h.totalCount ≠ 0)
    {cs : List Cls} (C : Classes h cs) {n : Nat} (hn : PickedOk h cs lg t n) {q q0 : ℚ} {j b : Nat} (Q : TickQ t q)
    (he : enough q (n + 1))
    (hj : j < h.counts.length) (hb : b ≤ j + 1) (hc : h.counts.getD j 0 ≠ 0) (hq : q ≤ h.frac j)
    (hfirst : ∀ i, i < j → h.counts.getD i 0 ≠ 0 → h.frac i < q)
    (hq0 : q = q0 ∨ q = 1 ∧ ∀ d ∈ cs, d.count ≠ 0 → d.lo ≤ (h.lcls j).lo)
    (lp : Option Nat) :
    ∃ s' v rest, h.iterPick (Hist.quantilePicker lg h)
        { totalCountToIndex := Min.min (h.counts.take (j + 1)).sum U64MAX
          countSinceLastIteration := Min.min ((h.counts.take (j + 1)).sum - (h.counts.take b).sum) U64MAX
          countAtIndex := h.counts.getD j 0, currentIndex := j, lastPickedIndex := lp
          maxValueIndex := h.lidx h.maxValue, fresh := false, ended := false, picker := qst t q false }
        = .ok (.emitted s' v) ∧ h.iterCollect (Hist.quantilePicker lg h) n s' = .ok rest ∧
      QuantileRun h cs t (h.qFrom b) q0 (v :: rest) := by
  have hmem : h.lcls j ∈ cs := (W.mem_classes C).mpr ⟨j, hj, rfl⟩
  have hitem := W.qItem_ok C hj hb hc hq hfirst
  have hn1 : 1 ≤ n := by
    unfold enough at he
    have h1 := Q.le_one
    have : (1 : ℚ) < (n + 1 : ℕ) := by
      refine lt_of_le_of_lt ?_ he
      have : 0 ≤ (1 - q) * 2 ^ 53 := mul_nonneg (by linarith) (by positivity)
      linarith
    have : 1 < n + 1 := by exact_mod_cast this
    omega
  rcases eq_or_lt_of_le Q.le_one with hq1 | hq1
  · subst hq1
    obtain ⟨n', rfl⟩ : ∃ n', n = n' + 1 := ⟨n - 1, by omega⟩
    have hp := W.iterPick_quantile (pk := Hist.quantilePicker lg h) (p := qst t 1 true) (q := .fin 1)
      (s := { totalCountToIndex := Min.min (h.counts.take (j + 1)).sum U64MAX
              countSinceLastIteration := Min.min ((h.counts.take (j + 1)).sum - (h.counts.take b).sum) U64MAX
              countAtIndex := h.counts.getD j 0, currentIndex := j, lastPickedIndex := lp
              maxValueIndex := h.lidx h.maxValue, fresh := false, ended := false, picker := qst t 1 false }) hj
      (qpick_one (W.frac_eq hne j) hc hq)
    refine ⟨_, h.qItem j 1 b, [], hp.trans ?_, W.qEnd (lg := lg) (t := t) (q := 1) n' j hj, .last hmem hitem ?_⟩
    · simp only [W.frac_eq hne j]
      rfl
    · rcases hq0 with h1 | ⟨-, h1⟩
      · exact Or.inl h1.symm
      · exact Or.inr h1
  · obtain ⟨Q', hstep⟩ := nextQ_good L ht ht32 Q hq1
    have hq00 : q0 = q := by
      rcases hq0 with h1 | ⟨h1, -⟩
      · exact h1.symm
      · exact absurd h1 hq1.ne
    subst hq00
    have hp := W.iterPick_quantile (pk := Hist.quantilePicker lg h)
      (p := qst t (nextQ q0 (ticksAt lg t q0)) false) (q := .fin q0)
      (s := { totalCountToIndex := Min.min (h.counts.take (j + 1)).sum U64MAX
              countSinceLastIteration := Min.min ((h.counts.take (j + 1)).sum - (h.counts.take b).sum) U64MAX
              countAtIndex := h.counts.getD j 0, currentIndex := j, lastPickedIndex := lp
              maxValueIndex := h.lidx h.maxValue, fresh := false, ended := false, picker := qst t q0 false }) hj
      (qpick_step L ht Q hq1 (W.frac_eq hne j) hc hq)
    obtain ⟨rest, e1, e2⟩ := hn (nextQ q0 (ticksAt lg t q0)) j Q' (by
      unfold enough at he ⊢
      push_cast at he
      norm_num at he hstep ⊢
      linarith) hj hc
      (fun i hi hci => by
        have := hfirst i hi hci
        have h53 : (0 : ℚ) < 1 / 2 ^ 53 := by positivity
        linarith)
    refine ⟨_, h.qItem j q0 b, rest, hp.trans ?_, e1, .step hmem hitem hq1 (tickStep_ok L ht ht32 Q hq1) e2⟩
    simp only [W.frac_eq hne j]
    rfl

/-- walking from a fresh slot -/
theorem WF.qWalk {h : Hist T} (W : WF fp h) (L : Log2Law lg) (ht : 0 < t) (ht32 : t < 2 ^ 32) (hne : h.totalCount ≠ 0)
    {cs : List Cls} (C : Classes h cs) {n : Nat} (hn : PickedOk h cs lg t n) {q : ℚ} (Q : TickQ t q)
    (he : enough q (n + 1)) (b : Nat) (lp : Option Nat) (hlp : ∀ j, lp = some j → j < h.lidx h.maxValue) (d : Nat) :
    ∀ i cai, b ≤ i → i + d = h.counts.length → (∀ k, k < i → h.counts.getD k 0 ≠ 0 → h.frac k < q) →
      ∃ items, h.iterCollect (Hist.quantilePicker lg h) (n + 1)
        { totalCountToIndex := Min.min (h.counts.take i).sum U64MAX
          countSinceLastIteration := Min.min ((h.counts.take i).sum - (h.counts.take b).sum) U64MAX
          countAtIndex := cai, currentIndex := i, lastPickedIndex := lp, maxValueIndex := h.lidx h.maxValue
          fresh := true, ended := false, picker := qst t q false } = .ok items ∧
        QuantileRun h cs t (h.qFrom b) q items := by
  have hpm : ∀ s : IterState Hist.QuantileState, s.lastPickedIndex = lp → s.maxValueIndex = h.lidx h.maxValue →
      Hist.pickedMax s = false := by
    intro s e1 e2
    unfold Hist.pickedMax
    rw [e1, e2]
    cases lp with
    | none => rfl
    | some j => have := hlp j rfl; simp; omega
  induction d with
  | zero =>
    intro i cai hb hi hfirst
    have hi : i = h.counts.length := by omega
    refine ⟨[], ?_, .short ?_⟩
    · rw [iterCollect_unfold _ _ _ _ (by simp only; omega), if_neg (by simp), iterPass_end hi]
      rfl
    · intro c hc hcc
      obtain ⟨k, hk, rfl⟩ := (W.mem_classes C).mp hc
      rw [W.fracUpTo_eq C hk]
      exact lt_of_lt_of_le (hfirst k (by omega) hcc) Q.le_one
  | succ d ih =>
    intro i cai hb hi hfirst
    have hlt : i < h.counts.length := by omega
    have hsat : Hdr.satAdd (Min.min (h.counts.take i).sum U64MAX) (h.counts.getD i 0)
          = Min.min (h.counts.take (i + 1)).sum U64MAX ∧
        Hdr.satAdd (Min.min ((h.counts.take i).sum - (h.counts.take b).sum) U64MAX) (h.counts.getD i 0)
          = Min.min ((h.counts.take (i + 1)).sum - (h.counts.take b).sum) U64MAX := by
      have h1 := take_succ_sum hlt
      have h2 := take_sum_mono h.counts hb
      unfold Hdr.satAdd
      omega
    rw [iterCollect_unfold _ _ _ _ hlt.le, if_neg (by simp), iterPass_before hlt (hpm _ rfl rfl),
      iterLoad_fresh rfl hlt, M.ok_bind]
    simp only [hsat.1, hsat.2]
    by_cases hc : h.counts.getD i 0 ≠ 0 ∧ q ≤ h.frac i
    · obtain ⟨s', v, rest, e1, e2, e3⟩ :=
        W.qEmit L ht ht32 hne C hn (b := b) Q he hlt (by omega) hc.1 hc.2 hfirst (Or.inl rfl) lp
      rw [e1, M.ok_bind]
      simp only [e2, M.ok_bind]
      exact ⟨_, rfl, e3⟩
    · have hnone : (Hist.quantilePicker lg h).pick (qst t q false) i (Min.min (h.counts.take (i + 1)).sum U64MAX)
          (h.counts.getD i 0) = .ok (qst t q false, none) := by
        by_cases hz : h.counts.getD i 0 = 0
        · exact qpick_zero hz
        · exact qpick_low (W.frac_eq hne i) (not_le.mp fun hle => hc ⟨hz, hle⟩)
      rw [W.iterPick_none (p := qst t q false) hlt hnone, M.ok_bind]
      refine ih (i + 1) _ (by omega) (by omega) ?_
      intro k hk hkc
      rcases Nat.lt_succ_iff_lt_or_eq.mp hk with h1 | rfl
      · exact hfirst k h1 hkc
      · exact not_le.mp fun hle => hc ⟨hkc, hle⟩

theorem WF.qPicked {h : Hist T} (W : WF fp h) (L : Log2Law lg) (ht : 0 < t) (ht32 : t < 2 ^ 32)
    (hne : h.totalCount ≠ 0) {cs : List Cls} (C : Classes h cs) (n : Nat) : PickedOk h cs lg t n := by
  induction n with
  | zero =>
    intro q j Q he
    unfold enough at he
    have := Q.le_one
    have : 0 ≤ (1 - q) * 2 ^ 53 := mul_nonneg (by linarith) (by positivity)
    norm_num at he
    norm_num at this
    linarith
  | succ n ih =>
    intro q j Q he hj hc hfirst
    by_cases hm : h.lidx h.maxValue ≤ j
    · have hpm : Hist.pickedMax (h.pickedState j (qst t q false)) = true := by
        simp [Hist.pickedMax, Hist.pickedState, hm]
      have hlast : ∀ i, h.counts.getD i 0 ≠ 0 → i ≤ j := fun i hi => le_trans (W.trackMax i hi) hm
      rw [iterCollect_unfold _ _ _ _ (show (h.pickedState j (qst t q false)).currentIndex ≤ _ from hj.le),
        if_neg (by simp [Hist.pickedState]), iterPass_after (s := h.pickedState j (qst t q false)) hj hpm]
      rw [show (Hist.quantilePicker lg h).more (h.pickedState j (qst t q false)).picker
        (h.pickedState j (qst t q false)).currentIndex = .ok (qst t 1 false, true) from rfl, M.ok_bind]
      simp only [if_true]
      by_cases hf : 1 ≤ h.frac j
      · have hQ1 : TickQ t 1 := ⟨by norm_num, le_rfl, rndQ_one, fun h => absurd h (lt_irrefl _)⟩
        have he1 : enough 1 (n + 1) := by
          unfold enough at he ⊢
          refine lt_of_le_of_lt ?_ he
          have := Q.le_one
          have : 0 ≤ (1 - q) * 2 ^ 53 := mul_nonneg (by linarith) (by positivity)
          linarith
        have := W.qEmit L ht ht32 hne C ih (q0 := q) (b := j + 1) hQ1 he1 hj le_rfl hc hf
          (fun i hi hci => lt_of_lt_of_le (hfirst i hi hci) Q.le_one)
          (Or.inr ⟨rfl, fun d hd hdc => by
            obtain ⟨k, hk, rfl⟩ := (W.mem_classes C).mp hd
            exact Lay.val_le_val (hlast k hdc)⟩) (some j)
        rw [Nat.sub_self, Nat.zero_min] at this
        obtain ⟨s', v, rest, e1, e2, e3⟩ := this
        refine ⟨v :: rest, ?_, e3⟩
        simp only [Hist.pickedState]
        rw [e1, M.ok_bind]
        simp only [e2, M.ok_bind]
      · have hf := not_le.mp hf
        refine ⟨[], ?_, .short ?_⟩
        · rw [W.iterPick_none (pk := Hist.quantilePicker lg h)
            (s := { h.pickedState j (qst t q false) with picker := qst t 1 false }) (p := qst t 1 false) hj
            (qpick_low (j := j) (W.frac_eq hne j) hf), M.ok_bind]
          exact W.qPast hf hne n (h.counts.length - (j + 1)) (j + 1) _ (by omega) rfl rfl rfl hpm rfl
        · intro c hcm hcc
          obtain ⟨k, hk, rfl⟩ := (W.mem_classes C).mp hcm
          rw [W.fracUpTo_eq C hk]
          exact lt_of_le_of_lt (Hist.frac_mono (hlast k hcc)) hf
    · have hm : j < h.lidx h.maxValue := not_le.mp hm
      have hpm : Hist.pickedMax (h.pickedState j (qst t q false)) = false := by
        simp [Hist.pickedMax, Hist.pickedState]; omega
      rw [iterCollect_unfold _ _ _ _ (show (h.pickedState j (qst t q false)).currentIndex ≤ _ from hj.le),
        if_neg (by simp [Hist.pickedState]),
        iterPass_before (show (h.pickedState j (qst t q false)).currentIndex < _ from hj) hpm,
        iterLoad_stale rfl, M.ok_bind]
      by_cases hf : q ≤ h.frac j
      · have := W.qEmit L ht ht32 hne C ih (q0 := q) (b := j + 1) Q he hj le_rfl hc hf hfirst (Or.inl rfl) (some j)
        rw [Nat.sub_self, Nat.zero_min] at this
        obtain ⟨s', v, rest, e1, e2, e3⟩ := this
        refine ⟨v :: rest, ?_, e3⟩
        simp only [Hist.pickedState]
        rw [e1, M.ok_bind]
        simp only [e2, M.ok_bind]
      · have hf := not_le.mp hf
        rw [W.iterPick_none (pk := Hist.quantilePicker lg h)
          (s := h.pickedState j (qst t q false)) (p := qst t q false) hj
          (qpick_low (j := j) (W.frac_eq hne j) hf), M.ok_bind]
        have := W.qWalk L ht ht32 hne C ih Q he (j + 1) (some j) (by simp; omega) (h.counts.length - (j + 1)) (j + 1)
          (h.counts.getD j 0) le_rfl (by omega) (fun k hk hkc => by
            rcases Nat.lt_succ_iff_lt_or_eq.mp hk with h1 | rfl
            · exact hfirst k h1 hkc
            · exact hf)
        rw [Nat.sub_self, Nat.zero_min] at this
        exact this

theorem WF.iterQuantiles_ok {h : Hist T} (W : WF fp h) (L : Log2Law lg) (ht : 0 < t) (ht32 : t < 2 ^ 32)
    (hne : h.totalCount ≠ 0) {cs : List Cls} (C : Classes h cs) {fuel : Nat} (hf : 2 ^ 53 + 2 ≤ fuel) :
    ∃ items, Hist.iterQuantiles lg h t fuel = .ok items ∧ QuantileRun h cs t 0 0 items := by
  unfold Hist.iterQuantiles Hist.quantileNew
  rw [assertM_true (decide_eq_true ht), M.ok_bind, W.iterNew_eq, M.ok_bind]
  obtain ⟨n, rfl⟩ : ∃ n, fuel = n + 1 := ⟨fuel - 1, by omega⟩
  have he : enough 0 (n + 1) := by
    unfold enough
    have : ((2 ^ 53 + 2 : ℕ) : ℚ) ≤ (n + 1 : ℕ) := by exact_mod_cast hf
    refine lt_of_lt_of_le ?_ this
    push_cast
    norm_num
  have := W.qWalk L ht ht32 hne C (W.qPicked L ht ht32 hne C n) (tickQ_zero ht32) he 0 none (by simp)
    h.counts.length 0 0 le_rfl (by omega) (by simp)
  simp only [List.take_zero, List.sum_nil, Nat.zero_min, Nat.sub_zero] at this
  exact this

/-- more `next` calls change nothing -/
theorem iterCollect_more {P : Type} {h : Hist T} {pk : Picker P} {items : List IterValue} :
    ∀ (n : Nat) (s : IterState P), h.iterCollect pk n s = .ok items → ∀ m, n ≤ m → h.iterCollect pk m s = .ok items := by
  intro n
  induction n generalizing items with
  | zero => intro s hs; cases hs
  | succ n ih =>
    intro s hs m hm
    obtain ⟨m, rfl⟩ : ∃ k, m = k + 1 := ⟨m - 1, by omega⟩
    rw [iterCollect_succ] at hs ⊢
    cases hx : h.iterNext pk s with
    | error e => rw [hx] at hs; cases hs
    | ok r =>
      rw [hx, M.ok_bind] at hs
      rw [M.ok_bind]
      obtain ⟨s', v⟩ := r
      cases v with
      | none => exact hs
      | some v =>
        simp only at hs ⊢
        rw [M.bind_eq_ok] at hs
        obtain ⟨vs, h1, h2⟩ := hs
        rw [ih s' h1 m (by omega), M.ok_bind]
        exact h2

end Hdr
