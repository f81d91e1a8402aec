import Verif.Model.Iter
import Verif.Proofs.Add

/-!
# The iteration driver, `iter_recorded` and `iter_all`
-/

namespace Hdr

variable {T : CounterTy} {fp : Fp} {P : Type}

theorem iterNextLoop_zero (h : Hist T) (pk : Picker P) (s : IterState P) :
    h.iterNextLoop pk 0 s = .error .fuel := rfl

theorem iterNextLoop_succ (h : Hist T) (pk : Picker P) (n : Nat) (s : IterState P) :
    h.iterNextLoop pk (n + 1) s =
      if s.ended then .ok (s, none)
      else h.iterPass pk s >>= fun r => match r with
        | .finished s => .ok (s, none)
        | .emitted s v => .ok (s, some v)
        | .again s => h.iterNextLoop pk n s := rfl

/-- a pass that loops advances the index by one and does not end the iteration -/
theorem iterPick_again {h : Hist T} {pk : Picker P} {s s' : IterState P}
    (hp : h.iterPick pk s = .ok (.again s')) :
    s'.currentIndex = s.currentIndex + 1 ∧ s'.ended = s.ended := by
  unfold Hist.iterPick at hp
  cases h1 : pk.pick s.picker s.currentIndex s.totalCountToIndex s.countAtIndex with
  | error e => rw [h1] at hp; cases hp
  | ok r =>
    rw [h1, M.ok_bind] at hp
    obtain ⟨p, m⟩ := r
    cases m with
    | some m =>
      simp only at hp
      rw [M.bind_eq_ok] at hp
      obtain ⟨v, _, h2⟩ := hp
      cases h2
    | none =>
      simp only at hp
      rw [M.bind_eq_ok] at hp
      obtain ⟨i, h2, h3⟩ := hp
      unfold addU64 at h2
      split at h2
      · cases h2; cases h3; exact ⟨rfl, rfl⟩
      · cases h2

theorem iterLoad_keeps {h : Hist T} {s s' : IterState P} (hl : h.iterLoad s = .ok s') :
    s'.currentIndex = s.currentIndex ∧ s'.ended = s.ended := by
  unfold Hist.iterLoad at hl
  split at hl
  · rw [M.bind_eq_ok] at hl
    obtain ⟨c, _, h2⟩ := hl
    cases h2; exact ⟨rfl, rfl⟩
  · cases hl; exact ⟨rfl, rfl⟩

theorem iterPass_again {h : Hist T} {pk : Picker P} {s s' : IterState P}
    (hp : h.iterPass pk s = .ok (.again s')) :
    s.currentIndex ≠ h.counts.length ∧ s'.currentIndex = s.currentIndex + 1 ∧ s'.ended = s.ended := by
  unfold Hist.iterPass at hp
  split at hp
  · cases hp
  · rename_i hne
    split at hp
    · rw [M.bind_eq_ok] at hp
      obtain ⟨⟨p, more⟩, _, h2⟩ := hp
      simp only at h2
      split at h2
      · have := iterPick_again h2; exact ⟨hne, this⟩
      · cases h2
    · rw [M.bind_eq_ok] at hp
      obtain ⟨_, _, h2⟩ := hp
      rw [M.bind_eq_ok] at h2
      obtain ⟨s1, h3, h4⟩ := h2
      have a := iterLoad_keeps h3
      have b := iterPick_again h4
      exact ⟨hne, by rw [b.1, a.1], by rw [b.2, a.2]⟩

/-- enough fuel is enough -/
theorem iterNextLoop_stable (h : Hist T) (pk : Picker P) (m : Nat) :
    ∀ s : IterState P, s.currentIndex ≤ h.counts.length → h.counts.length < m + s.currentIndex →
      h.iterNextLoop pk (m + 1) s = h.iterNextLoop pk m s := by
  induction m with
  | zero => intro s h1 h2; omega
  | succ m ih =>
    intro s h1 h2
    rw [iterNextLoop_succ, iterNextLoop_succ]
    split
    · rfl
    · cases hp : h.iterPass pk s with
      | error e => rfl
      | ok r =>
        rw [M.ok_bind, M.ok_bind]
        cases r with
        | finished => rfl
        | emitted => rfl
        | again s' =>
          have := iterPass_again hp
          exact ih s' (by omega) (by omega)

theorem iterNext_unfold (h : Hist T) (pk : Picker P) (s : IterState P)
    (hc : s.currentIndex ≤ h.counts.length) :
    h.iterNext pk s =
      if s.ended then .ok (s, none)
      else h.iterPass pk s >>= fun r => match r with
        | .finished s => .ok (s, none)
        | .emitted s v => .ok (s, some v)
        | .again s => h.iterNext pk s := by
  unfold Hist.iterNext
  rw [iterNextLoop_succ]
  split
  · rfl
  · cases hp : h.iterPass pk s with
    | error e => rfl
    | ok r =>
      rw [M.ok_bind, M.ok_bind]
      cases r with
      | finished => rfl
      | emitted => rfl
      | again s' =>
        have := iterPass_again hp
        exact (iterNextLoop_stable h pk (h.counts.length + 1) s' (by omega) (by omega)).symm

theorem iterCollect_succ (h : Hist T) (pk : Picker P) (k : Nat) (s : IterState P) :
    h.iterCollect pk (k + 1) s = h.iterNext pk s >>= fun r => match r with
      | (_, none) => .ok []
      | (s, some v) => h.iterCollect pk k s >>= fun vs => .ok (v :: vs) := rfl

theorem iterCollect_unfold (h : Hist T) (pk : Picker P) (k : Nat) (s : IterState P)
    (hc : s.currentIndex ≤ h.counts.length) :
    h.iterCollect pk (k + 1) s =
      if s.ended then .ok []
      else h.iterPass pk s >>= fun r => match r with
        | .finished _ => .ok []
        | .emitted s v => h.iterCollect pk k s >>= fun vs => .ok (v :: vs)
        | .again s => h.iterCollect pk (k + 1) s := by
  rw [iterCollect_succ, iterNext_unfold h pk s hc]
  split
  · rfl
  · cases hp : h.iterPass pk s with
    | error e => rfl
    | ok r =>
      rw [M.ok_bind, M.ok_bind]
      cases r with
      | finished => rfl
      | emitted => rfl
      | again s' => simp only [iterCollect_succ]

/-! ### building blocks -/

theorem WF.iterNew_eq {h : Hist T} (W : WF fp h) (p : P) :
    h.iterNew p = .ok {
      totalCountToIndex := 0, countSinceLastIteration := 0, countAtIndex := 0, currentIndex := 0
      lastPickedIndex := none, maxValueIndex := h.lidx h.maxValue, fresh := true, ended := false
      picker := p } := by
  unfold Hist.iterNew
  rw [W.max_eq, M.ok_bind, indexFor_eq W.toLayoutOK lmax_le, M.ok_bind, expectM_some, M.ok_bind,
    W.lidx_lmax]
  rfl

theorem WF.len_small {h : Hist T} (W : WF fp h) : h.counts.length + 1 ≤ U64MAX := by
  have h1 := W.len_le_all
  have h2 : h.lall < 2 ^ 24 := Lay.allSlots_lt W.mag17
  have h3 : 2 ^ 24 + 1 ≤ U64MAX := by decide
  omega

/-- the value emitted at slot `i` by pickers that leave the choice to the driver -/
def Hist.slotValue (h : Hist T) (i total since : Nat) : IterValue :=
  { valueIteratedTo := h.lhi (h.lval i)
    quantile := F64.div (F64.ofNat total) (F64.ofNat h.totalCount)
    quantileIteratedTo := F64.div (F64.ofNat total) (F64.ofNat h.totalCount)
    countAtValue := h.counts.getD i 0
    countSinceLastIteration := since }

theorem WF.iterEmit_default {h : Hist T} (W : WF fp h) {s : IterState P}
    (hi : s.currentIndex < h.counts.length) :
    h.iterEmit s ⟨none, none⟩
      = .ok (h.slotValue s.currentIndex s.totalCountToIndex s.countSinceLastIteration) := by
  unfold Hist.iterEmit
  simp only
  rw [W.valueFor hi, M.ok_bind, highestEquivalent_eq W.toLayoutOK (W.lval_le hi), M.ok_bind,
    WF.countAtIndex hi, expectM_some, M.ok_bind]
  rfl

theorem WF.addU64_succ {h : Hist T} (W : WF fp h) {i : Nat} (hi : i < h.counts.length) :
    addU64 i 1 = .ok (i + 1) := by
  have := W.len_small
  unfold addU64
  rw [if_pos (by omega)]

/-- pick none -/
theorem WF.iterPick_none {h : Hist T} (W : WF fp h) {pk : Picker P} {s : IterState P} {p : P}
    (hi : s.currentIndex < h.counts.length)
    (hp : pk.pick s.picker s.currentIndex s.totalCountToIndex s.countAtIndex = .ok (p, none)) :
    h.iterPick pk s = .ok (.again { s with picker := p, currentIndex := s.currentIndex + 1, fresh := true }) := by
  unfold Hist.iterPick
  rw [hp, M.ok_bind]
  simp only
  rw [W.addU64_succ hi, M.ok_bind]
  rfl

/-- pick with default value -/
theorem WF.iterPick_default {h : Hist T} (W : WF fp h) {pk : Picker P} {s : IterState P} {p : P}
    (hi : s.currentIndex < h.counts.length)
    (hp : pk.pick s.picker s.currentIndex s.totalCountToIndex s.countAtIndex
      = .ok (p, some ⟨none, none⟩)) :
    h.iterPick pk s = .ok (.emitted
      { s with picker := p, countSinceLastIteration := 0, lastPickedIndex := some s.currentIndex }
      (h.slotValue s.currentIndex s.totalCountToIndex s.countSinceLastIteration)) := by
  unfold Hist.iterPick
  rw [hp, M.ok_bind]
  simp only
  rw [W.iterEmit_default (s := { s with picker := p }) hi, M.ok_bind]
  rfl

theorem iterLoad_fresh {h : Hist T} {s : IterState P} (hf : s.fresh = true)
    (hi : s.currentIndex < h.counts.length) :
    h.iterLoad s = .ok { s with
      countAtIndex := h.counts.getD s.currentIndex 0
      totalCountToIndex := Hdr.satAdd s.totalCountToIndex (h.counts.getD s.currentIndex 0)
      countSinceLastIteration := Hdr.satAdd s.countSinceLastIteration (h.counts.getD s.currentIndex 0)
      fresh := false } := by
  unfold Hist.iterLoad
  rw [if_pos hf, WF.countAtIndex hi, expectM_some, M.ok_bind]; rfl

theorem iterLoad_stale {h : Hist T} {s : IterState P} (hf : s.fresh = false) :
    h.iterLoad s = .ok s := by
  unfold Hist.iterLoad
  rw [if_neg (by simp [hf])]; rfl

theorem iterPass_end {h : Hist T} {pk : Picker P} {s : IterState P}
    (hi : s.currentIndex = h.counts.length) :
    h.iterPass pk s = .ok (.finished { s with ended := true }) := by
  unfold Hist.iterPass
  rw [if_pos (show s.currentIndex = h.distinctValues from hi)]; rfl

theorem iterPass_before {h : Hist T} {pk : Picker P} {s : IterState P}
    (hi : s.currentIndex < h.counts.length) (hm : Hist.pickedMax s = false) :
    h.iterPass pk s = (h.iterLoad s >>= fun s => h.iterPick pk s) := by
  unfold Hist.iterPass
  rw [if_neg (show s.currentIndex ≠ h.distinctValues from Nat.ne_of_lt hi), if_neg (by simp [hm]),
    assertM_true (decide_eq_true (show s.currentIndex < h.distinctValues from hi)), M.ok_bind]

theorem iterPass_after {h : Hist T} {pk : Picker P} {s : IterState P}
    (hi : s.currentIndex < h.counts.length) (hm : Hist.pickedMax s = true) :
    h.iterPass pk s = (pk.more s.picker s.currentIndex >>= fun r =>
      if r.2 then h.iterPick pk { s with picker := r.1 }
      else .ok (.finished { s with picker := r.1, ended := true })) := by
  unfold Hist.iterPass
  rw [if_neg (show s.currentIndex ≠ h.distinctValues from Nat.ne_of_lt hi), if_pos (by simp [hm])]
  rfl

theorem getD_of_drop {l : List Nat} {i c : Nat} {cs : List Nat} (h : l.drop i = c :: cs) :
    i < l.length ∧ l.getD i 0 = c ∧ l.drop (i + 1) = cs := by
  have h1 : i < l.length := by
    by_contra hn
    rw [List.drop_eq_nil_of_le (by omega)] at h; cases h
  refine ⟨h1, ?_, ?_⟩
  · rw [List.drop_eq_getElem_cons h1] at h
    rw [List.getD_eq_getElem?_getD, List.getElem?_eq_getElem h1]
    simpa using (List.cons.inj h).1
  · rw [List.drop_eq_getElem_cons h1] at h
    exact (List.cons.inj h).2

/-! ### `iter_recorded` -/

/-- closed form of the values yielded by `iter_recorded` from slot `i` on -/
def Hist.recItems (h : Hist T) : List Nat → Nat → Nat → List IterValue
  | [], _, _ => []
  | c :: cs, i, tot =>
    if c ≠ 0 then h.slotValue i (Hdr.satAdd tot c) (Hdr.satAdd 0 c) :: recItems h cs (i + 1) (Hdr.satAdd tot c)
    else recItems h cs (i + 1) (Hdr.satAdd tot c)

theorem recItems_zero {h : Hist T} {cs : List Nat} (hz : ∀ c ∈ cs, c = 0) (i tot : Nat) :
    h.recItems cs i tot = [] := by
  induction cs generalizing i tot with
  | nil => rfl
  | cons c cs ih =>
    unfold Hist.recItems
    rw [if_neg (by simp [hz c (by simp)])]
    exact ih (fun x hx => hz x (by simp [hx])) _ _

theorem WF.drop_zero_after {h : Hist T} (W : WF fp h) {i : Nat} (hi : h.lidx h.maxValue < i) :
    ∀ c ∈ h.counts.drop i, c = 0 := by
  intro c hc
  obtain ⟨k, hk, rfl⟩ := List.getElem_of_mem hc
  by_contra hne
  have h1 : h.counts.getD (i + k) 0 ≠ 0 := by
    rw [List.getD_eq_getElem?_getD]
    rw [List.getElem_drop] at hne
    rw [List.length_drop] at hk
    rw [List.getElem?_eq_getElem (by omega)]
    exact hne
  have := W.trackMax _ h1
  omega

theorem WF.recCollect {h : Hist T} (W : WF fp h) (cs : List Nat) :
    ∀ (i tot cai : Nat) (lp : Option Nat) (k : Nat), h.counts.drop i = cs → i ≤ h.counts.length →
      (∀ j, lp = some j → j < i ∧ j < h.lidx h.maxValue) → cs.length ≤ k →
      h.iterCollect Hist.recordedPicker (k + 1)
        { totalCountToIndex := tot, countSinceLastIteration := 0, countAtIndex := cai
          currentIndex := i, lastPickedIndex := lp, maxValueIndex := h.lidx h.maxValue
          fresh := true, ended := false, picker := lp }
        = .ok (h.recItems cs i tot) := by
  induction cs with
  | nil =>
    intro i tot cai lp k hd hi hlp hk
    have : i = h.counts.length := by
      have := congrArg List.length hd
      simp at this; omega
    rw [iterCollect_unfold _ _ _ _ hi, if_neg (by simp), iterPass_end this, M.ok_bind]
    rfl
  | cons c cs ih =>
    intro i tot cai lp k hd hi hlp hk
    obtain ⟨hlt, hc, hd'⟩ := getD_of_drop hd
    have hpm : ∀ s : IterState (Option Nat), s.lastPickedIndex = lp → s.maxValueIndex = h.lidx h.maxValue →
        Hist.pickedMax s = false := by
      intro s e1 e2
      unfold Hist.pickedMax
      rw [e1, e2]
      cases lp with
      | none => rfl
      | some j => have := (hlp j rfl).2; simp; omega
    have hv : lp ≠ some i := by
      intro he; have := (hlp i he).1; omega
    rw [iterCollect_unfold _ _ _ _ hi, if_neg (by simp), iterPass_before hlt (hpm _ rfl rfl),
      iterLoad_fresh rfl hlt, M.ok_bind]
    simp only [hc]
    unfold Hist.recItems
    by_cases h0 : c = 0
    · subst h0
      rw [W.iterPick_none hlt (p := lp) (by simp [Hist.recordedPicker]), M.ok_bind, if_neg (by simp)]
      simp only
      exact ih (i + 1) _ _ lp k hd' (by omega) (fun j hj => ⟨by have := (hlp j hj).1; omega, (hlp j hj).2⟩)
        (by simp at hk; omega)
    · rw [W.iterPick_default hlt (p := some i) (by simp [Hist.recordedPicker, h0, hv]), M.ok_bind, if_pos h0]
      simp only
      obtain ⟨k', rfl⟩ : ∃ k', k = k' + 1 := ⟨k - 1, by simp at hk; omega⟩
      rw [iterCollect_unfold _ _ _ _ (by simpa using hi), if_neg (by simp)]
      have hmi := W.trackMax i (by rw [hc]; exact h0)
      by_cases hm : h.lidx h.maxValue ≤ i
      · rw [iterPass_after hlt (by simp [Hist.pickedMax, hm])]
        simp only [Hist.recordedPicker, M.ok_bind, Bool.false_eq_true, if_false]
        rw [recItems_zero]
        rw [← hd']
        exact W.drop_zero_after (by omega)
      · rw [iterPass_before hlt (by simp [Hist.pickedMax]; omega), iterLoad_stale rfl, M.ok_bind,
          W.iterPick_none hlt (p := some i) (by simp [Hist.recordedPicker]), M.ok_bind]
        simp only
        rw [ih (i + 1) _ _ (some i) k' hd' (by omega)
          (fun j hj => by cases hj; exact ⟨by omega, by omega⟩) (by simp at hk; omega), M.ok_bind]

theorem WF.iterRecorded_eq {h : Hist T} (W : WF fp h) {fuel : Nat} (hf : h.counts.length < fuel) :
    h.iterRecorded fuel = .ok (h.recItems h.counts 0 0) := by
  unfold Hist.iterRecorded
  rw [W.iterNew_eq, M.ok_bind]
  obtain ⟨k, rfl⟩ : ∃ k, fuel = k + 1 := ⟨fuel - 1, by omega⟩
  exact W.recCollect h.counts 0 0 0 none k (by simp) (by omega) (by simp) (by omega)

/-! ### `iter_all` -/

/-- closed form of the values yielded by `iter_all` from slot `i` on -/
def Hist.allItems (h : Hist T) : List Nat → Nat → Nat → List IterValue
  | [], _, _ => []
  | c :: cs, i, tot =>
    h.slotValue i (Hdr.satAdd tot c) (Hdr.satAdd 0 c) :: allItems h cs (i + 1) (Hdr.satAdd tot c)

theorem WF.allCollect {h : Hist T} (W : WF fp h) (cs : List Nat) :
    ∀ (i tot cai : Nat) (lp : Option Nat) (k : Nat), h.counts.drop i = cs → i ≤ h.counts.length →
      tot ≤ U64MAX → (lp = if i = 0 then none else some (i - 1)) → cs.length ≤ k →
      h.iterCollect Hist.allPicker (k + 1)
        { totalCountToIndex := tot, countSinceLastIteration := 0, countAtIndex := cai
          currentIndex := i, lastPickedIndex := lp, maxValueIndex := h.lidx h.maxValue
          fresh := true, ended := false, picker := lp }
        = .ok (h.allItems cs i tot) := by
  induction cs with
  | nil =>
    intro i tot cai lp k hd hi ht hlp hk
    have : i = h.counts.length := by
      have := congrArg List.length hd
      simp at this; omega
    rw [iterCollect_unfold _ _ _ _ hi, if_neg (by simp), iterPass_end this, M.ok_bind]
    rfl
  | cons c cs ih =>
    intro i tot cai lp k hd hi ht hlp hk
    obtain ⟨hlt, hc, hd'⟩ := getD_of_drop hd
    have hv : lp ≠ some i := by
      rw [hlp]; split
      · simp
      · simp; omega
    obtain ⟨k', rfl⟩ : ∃ k', k = k' + 1 := ⟨k - 1, by simp at hk; omega⟩
    unfold Hist.allItems
    -- after the emission at `i`
    have hafter : ∀ tot' cai' fr, tot' ≤ U64MAX → (h.lidx h.maxValue ≤ i ∨ fr = false) →
        h.iterCollect Hist.allPicker (k' + 1)
          { totalCountToIndex := tot', countSinceLastIteration := 0, countAtIndex := cai'
            currentIndex := i, lastPickedIndex := some i, maxValueIndex := h.lidx h.maxValue
            fresh := fr, ended := false, picker := some i } = .ok (h.allItems cs (i + 1) tot') := by
      intro tot' cai' fr ht' hor
      rw [iterCollect_unfold _ _ _ _ (by simpa using hi), if_neg (by simp)]
      by_cases hm : h.lidx h.maxValue ≤ i
      · rw [iterPass_after hlt (by simp [Hist.pickedMax, hm])]
        rw [show Hist.allPicker.more (some i) i = .ok (some i, true) from rfl, M.ok_bind]
        simp only [if_true]
        rw [W.iterPick_none hlt (p := some i) (by simp [Hist.allPicker]), M.ok_bind]
        simp only
        exact ih (i + 1) _ _ (some i) k' hd' (by omega) ht' (by simp) (by simp at hk; omega)
      · have hfr : fr = false := hor.resolve_left hm
        subst hfr
        rw [iterPass_before hlt (by simp [Hist.pickedMax]; omega), iterLoad_stale rfl, M.ok_bind,
          W.iterPick_none hlt (p := some i) (by simp [Hist.allPicker]), M.ok_bind]
        simp only
        exact ih (i + 1) _ _ (some i) k' hd' (by omega) ht' (by simp) (by simp at hk; omega)
    rw [iterCollect_unfold _ _ _ _ hi, if_neg (by simp)]
    have hts : Hdr.satAdd tot c ≤ U64MAX := Nat.min_le_right _ _
    by_cases hm : h.lidx h.maxValue < i
    · -- past the maximum
      have hz : c = 0 := W.drop_zero_after hm c (by rw [hd]; simp)
      have hi0 : i ≠ 0 := by omega
      rw [if_neg hi0] at hlp
      subst hlp
      rw [iterPass_after hlt (by simp [Hist.pickedMax]; omega)]
      rw [show Hist.allPicker.more (some (i - 1)) i = .ok (some (i - 1), true) from rfl, M.ok_bind]
      simp only [if_true]
      rw [W.iterPick_default hlt (p := some i) (by simp [Hist.allPicker]; omega), M.ok_bind]
      simp only
      rw [hafter tot cai true ht (Or.inl (by omega)), M.ok_bind, hz]
      have e : Hdr.satAdd tot 0 = tot := by unfold Hdr.satAdd; omega
      have e0 : Hdr.satAdd 0 0 = 0 := by decide
      rw [e, e0]
    · have hpm : Hist.pickedMax (P := Option Nat) {
          totalCountToIndex := tot, countSinceLastIteration := 0, countAtIndex := cai
          currentIndex := i, lastPickedIndex := lp, maxValueIndex := h.lidx h.maxValue
          fresh := true, ended := false, picker := lp } = false := by
        unfold Hist.pickedMax
        simp only
        rw [hlp]
        split
        · rename_i he; split at he <;> simp_all
        · rename_i j he
          split at he
          · cases he
          · cases he; simp; omega
      rw [iterPass_before hlt hpm, iterLoad_fresh rfl hlt, M.ok_bind]
      simp only [hc]
      rw [W.iterPick_default hlt (p := some i) (by simp [Hist.allPicker, hv]), M.ok_bind]
      simp only
      rw [hafter (Hdr.satAdd tot c) c false hts (Or.inr rfl), M.ok_bind]

theorem WF.iterAll_eq {h : Hist T} (W : WF fp h) {fuel : Nat} (hf : h.counts.length < fuel) :
    h.iterAll fuel = .ok (h.allItems h.counts 0 0) := by
  unfold Hist.iterAll
  rw [W.iterNew_eq, M.ok_bind]
  obtain ⟨k, rfl⟩ : ∃ k, fuel = k + 1 := ⟨fuel - 1, by omega⟩
  exact W.allCollect h.counts 0 0 0 none k (by simp) (by omega) (by omega) (by simp) (by omega)

end Hdr
