import Verif.Props.Query
import Verif.Props.Merge
import Verif.Props.Record

/-!
# C57: the operator forms; C58: what holds for every iterator
-/

namespace Hdr

variable {T : CounterTy} {fp : Fp}

/-! ## C57 -/

/-- C57: `h += v` panics exactly when the histogram does not cover `v` and may not grow; otherwise it adds one to the count
of `v`'s class and to `len()`, and changes no other class. -/
theorem C57_add_value {h : Hist T} (R : Reachable fp T h) {v : Nat} (hv : v ≤ U64MAX) :
    ((∃ p, h.addAssignValue v = .error p) ↔ ¬ h.Covers v ∧ h.isAutoResize = false) ∧
    (∀ h', h.addAssignValue v = .ok h' → h.recordN v 1 = .ok (h', .ok ()) ∧
      (∀ w n, w ≤ U64MAX → HasCount h w n → HasCount h' w (if Equiv h v w then min (n + 1) T.max else n)) ∧
      h'.len = min (h.len + 1) U64MAX) := by
  have h1 : 1 ≤ T.max := by cases T <;> decide
  obtain ⟨h', r, e, h2, h3, -⟩ := C10_record_fails R hv h1
  have e' : h.record v = .ok (h', r) := e
  cases r with
  | ok u =>
    have e2 : h.addAssignValue v = .ok h' := by unfold Hist.addAssignValue; rw [e']; rfl
    refine ⟨?_, fun g hg => ?_⟩
    · rw [← h2]; simp [e2]
    · rw [e2] at hg; cases hg
      have := C09_record_effect R hv h1 e
      exact ⟨e, this.1, this.2.1⟩
  | error x =>
    have e2 : h.addAssignValue v = .error .expect := by unfold Hist.addAssignValue; rw [e']; rfl
    refine ⟨?_, fun g hg => by rw [e2] at hg; cases hg⟩
    rw [← h2]
    simp only [e2, Except.error.injEq, exists_eq', true_iff]
    by_contra hne
    have := h3.mp (by intro h; injection h with h; exact hne (by rw [h]))
    cases this

/-- C57: `h += s` (and `h + s`) panics exactly when `add` returns an error, that is when `s` is not empty, `h` may not grow and
does not admit the largest value of `s`; otherwise the result is that of `add`. -/
theorem C57_add {h s : Hist T} (R : Reachable fp T h) (Rs : Reachable fp T s) {mx : Nat} (hm : s.max = .ok mx) :
    ((∃ p, h.addAssign s = .error p) ↔ s.len ≠ 0 ∧ h.isAutoResize = false ∧ (¬ h.Covers mx ∨ mx = U64MAX)) ∧
    (∀ h', h.addAssign s = .ok h' ↔ h.add s = .ok (h', .ok ())) := by
  obtain ⟨h', r, e, h1, h2, -⟩ := C18_add_outcome_partial R Rs
  have h2 := h2 mx hm
  rcases h1 with rfl | rfl
  · have e2 : h.addAssign s = .ok h' := by unfold Hist.addAssign; rw [e]; rfl
    refine ⟨by rw [← h2]; simp [e2], fun g => ?_⟩
    rw [e2, e]; simp
  · have e2 : h.addAssign s = .error .expect := by unfold Hist.addAssign; rw [e]; rfl
    refine ⟨by rw [← h2]; simp [e2], fun g => ?_⟩
    rw [e2, e]; simp

/-- C57: `h -= s` (and `h - s`) panics exactly when `subtract` returns an error, that is when `s` is not empty and holds a value
`h` does not admit or more samples of a class than `h`; otherwise the result is that of `subtract`. -/
theorem C57_subtract {h s : Hist T} (R : Reachable fp T h) (Rs : Reachable fp T s) {mx : Nat} {cs : List Cls}
    (C : Classes s cs) (hm : s.max = .ok mx) :
    ((∃ p, h.subAssign s = .error p) ↔ s.len ≠ 0 ∧ (¬ h.Covers mx ∨ mx = U64MAX ∨
      ∃ v a, v ≤ U64MAX ∧ HasCount h v a ∧ a < recordedFor h (Cls.records cs) v)) ∧
    (∀ h', h.subAssign s = .ok h' ↔ h.subtract s = .ok (h', .ok ())) := by
  obtain ⟨h', r, e, h1, h2, -, -⟩ := C21_subtract_outcome_partial R Rs C hm
  cases r with
  | ok u =>
    have e2 : h.subAssign s = .ok h' := by unfold Hist.subAssign; rw [e]; rfl
    refine ⟨?_, fun g => by rw [e2, e]; simp⟩
    simp only [reduceCtorEq, false_iff] at h1 h2
    simp only [e2, reduceCtorEq, exists_false, false_iff]
    rintro ⟨h0, h3⟩
    by_cases h4 : ¬ h.Covers mx ∨ mx = U64MAX
    · exact h1 ⟨h0, h4⟩
    · refine h2 ⟨h0, h4, ?_⟩
      rcases h3 with h3 | h3 | h3
      · exact absurd (Or.inl h3) h4
      · exact absurd (Or.inr h3) h4
      · exact h3
  | error x =>
    have e2 : h.subAssign s = .error .expect := by unfold Hist.subAssign; rw [e]; rfl
    refine ⟨?_, fun g => by rw [e2, e]; simp⟩
    simp only [e2, Except.error.injEq, exists_eq', true_iff]
    cases x with
    | SubtrahendValueExceedsMinuendRange => have := h1.mp rfl; tauto
    | SubtrahendCountExceedsMinuendCount => have := h2.mp rfl; tauto

theorem okSat {m : M (Hist T)} {Q : Hist T → Prop} [DecidablePred Q]
    (h : (match m with
      | .ok h' => decide (Q h')
      | _ => false) = true) : ∃ h', m = .ok h' ∧ Q h' := by
  split at h
  · rename_i h'; exact ⟨h', rfl, of_decide_eq_true h⟩
  · cases h

/-- `demo` covers 15 and does not grow, so `+= 15` records and `+= 16` panics; `demo3 -= demo3` leaves nothing -/
example : (∃ h', demo.addAssignValue 15 = .ok h' ∧ h'.countAt 15 = .ok 1) ∧ demo.addAssignValue 16 = .error .expect ∧
    (∃ h', demo3.addAssign demo3 = .ok h' ∧ h'.len = 2 * demo3.len) ∧
    (∃ h', demo3.subAssign demo3 = .ok h' ∧ h'.len = 0) ∧ demo.subAssign demo3 = .error .expect :=
  ⟨okSat (by decide +kernel), by decide +kernel, okSat (by decide +kernel), okSat (by decide +kernel), by decide +kernel⟩

/-! ## C58 -/

variable {P : Type}

/-- the states reached from `s` by calls of `next`, and the items these calls returned -/
inductive Emits (h : Hist T) (pk : Picker P) : IterState P → List IterValue → IterState P → Prop
  | nil (s) : Emits h pk s [] s
  | snoc {s vs s1 v s2} : Emits h pk s vs s1 → h.iterNext pk s1 = .ok (s2, some v) → Emits h pk s (vs ++ [v]) s2

theorem iterPick_cases {h : Hist T} {pk : Picker P} {s : IterState P} {r : IterPass P} (e : h.iterPick pk s = .ok r) :
    (∃ p, r = .again { s with picker := p, currentIndex := s.currentIndex + 1, fresh := true }) ∨
    (∃ p v, r = .emitted { s with picker := p, countSinceLastIteration := 0, lastPickedIndex := some s.currentIndex } v ∧
      v.countSinceLastIteration = s.countSinceLastIteration ∧
      v.quantile = F64.div (F64.ofNat s.totalCountToIndex) (F64.ofNat h.len) ∧
      h.counts[s.currentIndex]? = some v.countAtValue) := by
  unfold Hist.iterPick at e
  rw [M.bind_eq_ok] at e
  obtain ⟨⟨p, m⟩, -, e⟩ := e
  cases m with
  | none =>
    dsimp only at e
    rw [M.bind_eq_ok] at e
    obtain ⟨i, e1, e⟩ := e
    unfold addU64 at e1
    split at e1
    · cases e1; cases e; exact .inl ⟨p, rfl⟩
    · cases e1
  | some m =>
    dsimp only at e
    rw [M.bind_eq_ok] at e
    obtain ⟨v, e1, e⟩ := e
    cases e
    refine .inr ⟨p, v, rfl, ?_⟩
    have tail : ∀ w, (expectM (h.countAtIndex s.currentIndex) >>= fun c => (.ok
        { valueIteratedTo := w
          quantile := F64.div (F64.ofNat s.totalCountToIndex) (F64.ofNat h.len)
          quantileIteratedTo := m.quantileIteratedTo.getD (F64.div (F64.ofNat s.totalCountToIndex) (F64.ofNat h.len))
          countAtValue := c
          countSinceLastIteration := s.countSinceLastIteration } : M IterValue)) = .ok v →
        v.countSinceLastIteration = s.countSinceLastIteration ∧
        v.quantile = F64.div (F64.ofNat s.totalCountToIndex) (F64.ofNat h.len) ∧
        h.counts[s.currentIndex]? = some v.countAtValue := by
      intro w e1
      rw [M.bind_eq_ok] at e1
      obtain ⟨c, e2, e1⟩ := e1
      cases e1
      refine ⟨rfl, rfl, ?_⟩
      unfold Hist.countAtIndex at e2
      dsimp only at e2 ⊢
      cases h3 : h.counts[s.currentIndex]? with
      | none => rw [h3] at e2; cases e2
      | some x => rw [h3] at e2; cases e2; rfl
    unfold Hist.iterEmit at e1
    dsimp only at e1
    split at e1
    · exact tail _ e1
    · rw [M.bind_eq_ok] at e1
      obtain ⟨x, -, e1⟩ := e1
      rw [M.bind_eq_ok] at e1
      obtain ⟨y, -, e1⟩ := e1
      exact tail _ e1

/-- what a pass that does not panic does -/
theorem iterPass_cases {h : Hist T} {pk : Picker P} {s : IterState P} {r : IterPass P} (e : h.iterPass pk s = .ok r) :
    (∃ s', r = .finished s' ∧ s'.ended = true ∧ s'.lastPickedIndex = s.lastPickedIndex ∧
      s'.maxValueIndex = s.maxValueIndex ∧ (s.currentIndex = h.counts.length ∨ Hist.pickedMax s = true)) ∨
    (s.currentIndex ≠ h.counts.length ∧ Hist.pickedMax s = true ∧ ∃ p, h.iterPick pk { s with picker := p } = .ok r) ∨
    (s.currentIndex < h.counts.length ∧ Hist.pickedMax s = false ∧ ∃ s1, h.iterLoad s = .ok s1 ∧ h.iterPick pk s1 = .ok r) := by
  unfold Hist.iterPass at e
  split at e
  · rename_i h1; cases e; exact .inl ⟨_, rfl, rfl, rfl, rfl, .inl h1⟩
  · rename_i hne
    split at e
    · rename_i hp
      rw [M.bind_eq_ok] at e
      obtain ⟨⟨p, m⟩, -, e⟩ := e
      dsimp only at e
      split at e
      · exact .inr (.inl ⟨hne, hp, p, e⟩)
      · cases e; exact .inl ⟨_, rfl, rfl, rfl, rfl, .inr hp⟩
    · rename_i hp
      rw [M.bind_eq_ok] at e
      obtain ⟨_, ha, e⟩ := e
      rw [M.bind_eq_ok] at e
      obtain ⟨t, el, e⟩ := e
      refine .inr (.inr ⟨?_, by simpa using hp, t, el, e⟩)
      unfold assertM at ha
      split at ha
      · rename_i h1; exact of_decide_eq_true h1
      · cases ha

theorem iterNextLoop_none {h : Hist T} {pk : Picker P} : ∀ {n : Nat} {s s' : IterState P},
    h.iterNextLoop pk n s = .ok (s', none) → s'.ended = true := by
  intro n
  induction n with
  | zero => intro s s' e; cases e
  | succ n ih =>
    intro s s' e
    rw [iterNextLoop_succ] at e
    split at e
    · cases e; assumption
    · rw [M.bind_eq_ok] at e
      obtain ⟨r, e1, e2⟩ := e
      cases r with
      | finished t =>
        cases e2
        rcases iterPass_cases e1 with ⟨_, h1, h2, -⟩ | ⟨-, -, p, h1⟩ | ⟨-, -, s1, -, h1⟩
        · cases h1; exact h2
        · rcases iterPick_cases h1 with ⟨_, h1⟩ | ⟨_, _, h1, -⟩ <;> cases h1
        · rcases iterPick_cases h1 with ⟨_, h1⟩ | ⟨_, _, h1, -⟩ <;> cases h1
      | emitted t v => cases e2
      | again t => exact ih e2

/-- C58: iterators are fused. Once `next` has returned `None`, every later call does, for any `PickyIterator`. -/
theorem C58_fused {h : Hist T} {pk : Picker P} {s s' : IterState P} (e : h.iterNext pk s = .ok (s', none)) :
    h.iterNext pk s' = .ok (s', none) := by
  have := iterNextLoop_none e
  unfold Hist.iterNext
  rw [iterNextLoop_succ, if_pos this]

/-- invariant of the iteration: `acc` samples have been reported, `k` slots have been visited -/
structure IterInv (h : Hist T) (acc k : Nat) (s : IterState P) : Prop where
  le : s.currentIndex ≤ h.counts.length
  total : s.totalCountToIndex = (h.counts.take k).sum
  acc : acc + s.countSinceLastIteration = s.totalCountToIndex
  last : ∀ i, s.lastPickedIndex = some i → i ≤ s.currentIndex
  before : Hist.pickedMax s = false → k = s.currentIndex + if s.fresh then 0 else 1
  after : Hist.pickedMax s = true → s.maxValueIndex < k

theorem IterInv.load {h : Hist T} (hs : h.counts.sum ≤ U64MAX) {acc k : Nat} {s s1 : IterState P} (I : IterInv h acc k s)
    (hp : Hist.pickedMax s = false) (hlt : s.currentIndex < h.counts.length) (e : h.iterLoad s = .ok s1) :
    IterInv h acc (s.currentIndex + 1) s1 ∧ s1.currentIndex = s.currentIndex ∧ s1.fresh = false ∧
      Hist.pickedMax s1 = false ∧ s1.maxValueIndex = s.maxValueIndex := by
  unfold Hist.iterLoad at e
  have hk := I.before hp
  split at e
  · rename_i hf
    rw [M.bind_eq_ok] at e
    obtain ⟨c, ec, e⟩ := e
    cases e
    rw [if_pos hf, Nat.add_zero] at hk
    unfold Hist.countAtIndex at ec
    rw [List.getElem?_eq_getElem hlt] at ec
    cases ec
    have h1 : (h.counts.take (s.currentIndex + 1)).sum = s.totalCountToIndex + h.counts[s.currentIndex] := by
      rw [List.take_add_one, List.sum_append, I.total, hk, List.getElem?_eq_getElem hlt]; simp
    have h2 : (h.counts.take (s.currentIndex + 1)).sum ≤ h.counts.sum := by
      conv_rhs => rw [← List.take_append_drop (s.currentIndex + 1) h.counts]
      rw [List.sum_append]; omega
    have ha := I.acc
    refine ⟨⟨I.le, ?_, ?_, I.last, ?_, ?_⟩, rfl, rfl, hp, rfl⟩
    · show satAdd _ _ = _
      unfold satAdd; omega
    · show acc + satAdd _ _ = satAdd _ _
      unfold satAdd; omega
    · intro _; rfl
    · intro h3
      have : Hist.pickedMax s = true := h3
      rw [hp] at this; cases this
  · rename_i hf
    cases e
    rw [if_neg hf] at hk
    exact ⟨hk ▸ I, rfl, by simpa using hf, hp, rfl⟩

theorem IterInv.pick_again {h : Hist T} {acc k : Nat} {s : IterState P} (I : IterInv h acc k s)
    (hlt : s.currentIndex < h.counts.length) (hf : Hist.pickedMax s = false → s.fresh = false) (p : P) :
    IterInv h acc k { s with picker := p, currentIndex := s.currentIndex + 1, fresh := true } := by
  refine ⟨hlt, I.total, I.acc, fun i hi => (I.last i hi).trans (Nat.le_succ _), fun h1 => ?_, I.after⟩
  have h2 := I.before h1
  rw [hf h1] at h2
  simpa using h2

theorem IterInv.pick_emit {h : Hist T} {acc k : Nat} {s : IterState P} (I : IterInv h acc k s)
    (hf : Hist.pickedMax s = false → s.fresh = false) (p : P) :
    IterInv h (acc + s.countSinceLastIteration) k
      { s with picker := p, countSinceLastIteration := 0, lastPickedIndex := some s.currentIndex } := by
  have key : Hist.pickedMax s = true → s.maxValueIndex ≤ s.currentIndex := by
    unfold Hist.pickedMax
    intro h1
    cases h2 : s.lastPickedIndex with
    | none => rw [h2] at h1; cases h1
    | some i => rw [h2] at h1; exact (of_decide_eq_true h1).trans (I.last i h2)
  refine ⟨I.le, I.total, I.acc, fun i hi => by cases hi; exact le_rfl, fun h1 => ?_, fun h1 => ?_⟩
  · cases hp : Hist.pickedMax s with
    | false => exact I.before hp
    | true =>
      have h2 := key hp
      simp only [Hist.pickedMax, decide_eq_false_iff_not] at h1
      exact absurd h2 h1
  · cases hp : Hist.pickedMax s with
    | true => exact I.after hp
    | false =>
      have h2 := I.before hp
      rw [hf hp] at h2
      simp only [Hist.pickedMax, decide_eq_true_eq] at h1
      simp only [Bool.false_eq_true, if_false] at h2
      dsimp only at *
      omega

theorem IterInv.next {h : Hist T} (hs : h.counts.sum ≤ U64MAX) {pk : Picker P} : ∀ {n acc k : Nat} {s s' : IterState P}
    {r : Option IterValue}, IterInv h acc k s → h.iterNextLoop pk n s = .ok (s', r) →
    s'.maxValueIndex = s.maxValueIndex ∧
    (∀ v, r = some v → ∃ k', IterInv h (acc + v.countSinceLastIteration) k' s' ∧
      v.quantile = F64.div (F64.ofNat (acc + v.countSinceLastIteration)) (F64.ofNat h.len)) := by
  intro n
  induction n with
  | zero => intro acc k s s' r I e; cases e
  | succ n ih =>
    intro acc k s s' r I e
    rw [iterNextLoop_succ] at e
    split at e
    · cases e; exact ⟨rfl, by simp⟩
    · rw [M.bind_eq_ok] at e
      obtain ⟨q, e1, e2⟩ := e
      have main : ∀ {k : Nat} {t : IterState P}, IterInv h acc k t → t.currentIndex < h.counts.length →
          (Hist.pickedMax t = false → t.fresh = false) → t.maxValueIndex = s.maxValueIndex → h.iterPick pk t = .ok q →
          s'.maxValueIndex = s.maxValueIndex ∧
          (∀ v, r = some v → ∃ k', IterInv h (acc + v.countSinceLastIteration) k' s' ∧
            v.quantile = F64.div (F64.ofNat (acc + v.countSinceLastIteration)) (F64.ofNat h.len)) := by
        intro k t J hlt hf hm h1
        rcases iterPick_cases h1 with ⟨p, rfl⟩ | ⟨p, v, rfl, h2, h3, -⟩
        · have := ih (J.pick_again hlt hf p) e2
          exact ⟨this.1.trans hm, this.2⟩
        · cases e2
          refine ⟨hm, fun w hw => ?_⟩
          cases hw
          exact ⟨k, by rw [h2]; exact J.pick_emit hf p, by rw [h3, h2, J.acc]⟩
      rcases iterPass_cases e1 with ⟨t, rfl, -, -, h3, -⟩ | ⟨hne, hp, p, h1⟩ | ⟨hlt, hp, s1, el, h1⟩
      · cases e2; exact ⟨h3, by simp⟩
      · have J : IterInv h acc k { s with picker := p } := ⟨I.le, I.total, I.acc, I.last, I.before, I.after⟩
        refine main J (lt_of_le_of_ne I.le hne) (fun h2 => ?_) rfl h1
        have : Hist.pickedMax s = false := h2
        rw [hp] at this; cases this
      · obtain ⟨J, j1, j2, j3, j4⟩ := I.load hs hp hlt el
        exact main J (by omega) (fun _ => j2) j4 h1

theorem IterInv.emits {h : Hist T} (hs : h.counts.sum ≤ U64MAX) {pk : Picker P} {p : P} {s0 s : IterState P}
    {vs : List IterValue} (e0 : h.iterNew p = .ok s0) (E : Emits h pk s0 vs s) :
    s.maxValueIndex = s0.maxValueIndex ∧ ∃ k, IterInv h (vs.map (·.countSinceLastIteration)).sum k s := by
  induction E with
  | nil =>
    refine ⟨rfl, 0, ?_⟩
    unfold Hist.iterNew at e0
    rw [M.bind_eq_ok] at e0
    obtain ⟨_, -, e0⟩ := e0
    rw [M.bind_eq_ok] at e0
    obtain ⟨_, -, e0⟩ := e0
    rw [M.bind_eq_ok] at e0
    obtain ⟨_, -, e0⟩ := e0
    cases e0
    refine ⟨by simp, by simp, by simp, by simp, by simp, ?_⟩
    simp [Hist.pickedMax]
  | snoc E e ih =>
    obtain ⟨h1, k, I⟩ := ih
    have := I.next hs e
    obtain ⟨k', I', -⟩ := this.2 _ rfl
    refine ⟨this.1.trans h1, k', ?_⟩
    rw [List.map_append, List.sum_append]
    simpa using I'

/-- C58: no sample is reported twice. For any `PickyIterator`, if the counts add up to at most `u64::MAX`, the quantile of an
item is the sum of the `count_since_last_iteration`s of all items up to it divided by `len()`, and these sums never exceed the
number of samples. -/
theorem C58_running_sum_partial {h : Hist T} (hs : h.counts.sum ≤ U64MAX) {pk : Picker P} {p : P} {s0 s s' : IterState P}
    {vs : List IterValue} {v : IterValue} (e0 : h.iterNew p = .ok s0) (E : Emits h pk s0 vs s)
    (e : h.iterNext pk s = .ok (s', some v)) :
    v.quantile = F64.div (F64.ofNat ((vs ++ [v]).map (·.countSinceLastIteration)).sum) (F64.ofNat h.len) ∧
    ((vs ++ [v]).map (·.countSinceLastIteration)).sum ≤ h.counts.sum := by
  obtain ⟨-, k, I⟩ := IterInv.emits hs e0 E
  obtain ⟨k', I', hq⟩ := (I.next hs e).2 v rfl
  rw [List.map_append, List.sum_append]
  simp only [List.map_cons, List.map_nil, List.sum_cons, List.sum_nil, Nat.add_zero]
  refine ⟨hq, ?_⟩
  have h1 := I'.acc
  have h2 := I'.total
  have h3 : (h.counts.take k').sum ≤ h.counts.sum := by
    conv_rhs => rw [← List.take_append_drop k' h.counts]
    rw [List.sum_append]; omega
  omega

theorem iterNextLoop_since {h : Hist T} {pk : Picker P} : ∀ {n : Nat} {s s' : IterState P} {v : IterValue},
    h.iterNextLoop pk n s = .ok (s', some v) → s'.countSinceLastIteration = 0 := by
  intro n
  induction n with
  | zero => intro s s' v e; cases e
  | succ n ih =>
    intro s s' v e
    rw [iterNextLoop_succ] at e
    split at e
    · cases e
    · rw [M.bind_eq_ok] at e
      obtain ⟨r, e1, e2⟩ := e
      cases r with
      | finished t => cases e2
      | again t => exact ih e2
      | emitted t w =>
        cases e2
        rcases iterPass_cases e1 with ⟨_, h1, -⟩ | ⟨-, -, p, h1⟩ | ⟨-, -, s1, -, h1⟩
        · cases h1
        · rcases iterPick_cases h1 with ⟨_, h1⟩ | ⟨_, _, h1, -⟩ <;> cases h1
          rfl
        · rcases iterPick_cases h1 with ⟨_, h1⟩ | ⟨_, _, h1, -⟩ <;> cases h1
          rfl

theorem Emits.since_zero {h : Hist T} {pk : Picker P} {p : P} {s0 s : IterState P} {vs : List IterValue}
    (e0 : h.iterNew p = .ok s0) (E : Emits h pk s0 vs s) : s.countSinceLastIteration = 0 := by
  cases E with
  | nil =>
    unfold Hist.iterNew at e0
    rw [M.bind_eq_ok] at e0
    obtain ⟨_, -, e0⟩ := e0
    rw [M.bind_eq_ok] at e0
    obtain ⟨_, -, e0⟩ := e0
    rw [M.bind_eq_ok] at e0
    obtain ⟨_, -, e0⟩ := e0
    cases e0; rfl
  | snoc _ e => exact iterNextLoop_since e

/-- C58: no sample is lost. Once an item has been produced at the slot of `max()` or above it, the
`count_since_last_iteration`s of the items produced add up to the number of samples. -/
theorem C58_all_samples_partial {h : Hist T} (R : Reachable fp T h) (hs : h.counts.sum ≤ U64MAX) {pk : Picker P} {p : P}
    {s0 s : IterState P} {vs : List IterValue} (e0 : h.iterNew p = .ok s0) (E : Emits h pk s0 vs s) {mx i j : Nat}
    (hm : h.max = .ok mx) (hi : h.indexFor mx = .ok (some i)) (hl : s.lastPickedIndex = some j) (hij : i ≤ j) :
    (vs.map (·.countSinceLastIteration)).sum = h.counts.sum := by
  have W := R.wf
  obtain ⟨hmi, k, I⟩ := IterInv.emits hs e0 E
  rw [W.iterNew_eq] at e0
  cases e0
  rw [W.max_eq] at hm
  cases hm
  rw [indexFor_eq W.toLayoutOK lmax_le, W.lidx_lmax] at hi
  cases hi
  have hp : Hist.pickedMax s = true := by
    unfold Hist.pickedMax
    rw [hl, hmi]
    exact decide_eq_true hij
  have hk := I.after hp
  rw [hmi] at hk
  have h0 := Emits.since_zero (by rw [W.iterNew_eq]) E
  have ha := I.acc
  have ht := I.total
  have hz : (h.counts.drop k).sum = 0 := by
    refine List.sum_eq_zero fun x hx => ?_
    obtain ⟨n, hn, e⟩ := List.mem_iff_getElem.mp hx
    rw [List.getElem_drop] at e
    by_contra hne
    rw [List.length_drop] at hn
    have := W.trackMax (k + n) (by rw [List.getD_eq_getElem?_getD, List.getElem?_eq_getElem (by omega), e]; exact hne)
    dsimp only at hk
    omega
  have hts : (h.counts.take k).sum + (h.counts.drop k).sum = h.counts.sum := by
    rw [← List.sum_append, List.take_append_drop]
  omega

theorem WF.iterEmit_ok {h : Hist T} (W : WF fp h) {s : IterState P} (hi : s.currentIndex < h.counts.length) (m : PickMeta) :
    ∃ v, h.iterEmit s m = .ok v := by
  unfold Hist.iterEmit
  dsimp only
  cases m.valueIteratedTo with
  | some v => dsimp only; rw [WF.countAtIndex hi]; exact ⟨_, rfl⟩
  | none =>
    dsimp only
    rw [W.valueFor hi, M.ok_bind, highestEquivalent_eq W.toLayoutOK (W.lval_le hi), M.ok_bind, WF.countAtIndex hi]
    exact ⟨_, rfl⟩

theorem WF.iterPick_ok {h : Hist T} (W : WF fp h) {pk : Picker P}
    (hpick : ∀ p i t c, i < h.distinctValues → ∃ r, pk.pick p i t c = .ok r) {s : IterState P}
    (hi : s.currentIndex < h.counts.length) : ∃ r, h.iterPick pk s = .ok r := by
  unfold Hist.iterPick
  obtain ⟨⟨p, m⟩, e⟩ := hpick s.picker s.currentIndex s.totalCountToIndex s.countAtIndex hi
  rw [e, M.ok_bind]
  cases m with
  | none => dsimp only; rw [W.addU64_succ hi]; exact ⟨_, rfl⟩
  | some m =>
    dsimp only
    obtain ⟨v, e⟩ := W.iterEmit_ok (s := { s with picker := p }) hi m
    rw [e]; exact ⟨_, rfl⟩

theorem WF.iterPass_ok {h : Hist T} (W : WF fp h) {pk : Picker P}
    (hpick : ∀ p i t c, i < h.distinctValues → ∃ r, pk.pick p i t c = .ok r)
    (hmore : ∀ p i, i < h.distinctValues → ∃ r, pk.more p i = .ok r) {s : IterState P}
    (hi : s.currentIndex ≤ h.counts.length) : ∃ r, h.iterPass pk s = .ok r := by
  unfold Hist.iterPass
  split
  · exact ⟨_, rfl⟩
  · rename_i hne
    have hlt : s.currentIndex < h.counts.length := lt_of_le_of_ne hi hne
    split
    · obtain ⟨⟨p, m⟩, e⟩ := hmore s.picker s.currentIndex hlt
      rw [e, M.ok_bind]
      dsimp only
      split
      · exact W.iterPick_ok hpick hlt
      · exact ⟨_, rfl⟩
    · have h1 : assertM (decide (s.currentIndex < h.distinctValues)) = .ok () := by
        unfold assertM Hist.distinctValues; rw [if_pos (decide_eq_true hlt)]
      rw [h1, M.ok_bind]
      have h2 : ∃ s1 : IterState P, h.iterLoad s = .ok s1 := by
        unfold Hist.iterLoad
        split
        · rw [WF.countAtIndex hlt]; exact ⟨_, rfl⟩
        · exact ⟨_, rfl⟩
      obtain ⟨s1, e1⟩ := h2
      rw [e1, M.ok_bind]
      exact W.iterPick_ok hpick (by rw [(iterLoad_keeps e1).1]; exact hlt)

theorem iterPick_le {h : Hist T} {pk : Picker P} {s : IterState P} {r : IterPass P} (e : h.iterPick pk s = .ok r) :
    ∀ s' v, r = .emitted s' v → s'.currentIndex = s.currentIndex := by
  intro s' v hr
  subst hr
  rcases iterPick_cases e with ⟨_, h1⟩ | ⟨_, _, h1, -⟩ <;> cases h1
  rfl

theorem iterNextLoop_le {h : Hist T} {pk : Picker P} : ∀ {n : Nat} {s s' : IterState P} {v : IterValue},
    s.currentIndex ≤ h.counts.length → h.iterNextLoop pk n s = .ok (s', some v) → s'.currentIndex ≤ h.counts.length := by
  intro n
  induction n with
  | zero => intro s s' v _ e; cases e
  | succ n ih =>
    intro s s' v hle e
    rw [iterNextLoop_succ] at e
    split at e
    · cases e
    · rw [M.bind_eq_ok] at e
      obtain ⟨r, e1, e2⟩ := e
      cases r with
      | finished t => cases e2
      | again t => have := iterPass_again e1; exact ih (by omega) e2
      | emitted t w =>
        cases e2
        rcases iterPass_cases e1 with ⟨_, h1, -⟩ | ⟨-, -, p, h1⟩ | ⟨-, -, s1, el, h1⟩
        · cases h1
        · rw [iterPick_le h1 _ _ rfl]; exact hle
        · rw [iterPick_le h1 _ _ rfl, (iterLoad_keeps el).1]; exact hle

theorem Emits.index_le {h : Hist T} {pk : Picker P} {p : P} {s0 s : IterState P} {vs : List IterValue}
    (e0 : h.iterNew p = .ok s0) (E : Emits h pk s0 vs s) : s.currentIndex ≤ h.counts.length := by
  induction E with
  | nil =>
    unfold Hist.iterNew at e0
    rw [M.bind_eq_ok] at e0
    obtain ⟨_, -, e0⟩ := e0
    rw [M.bind_eq_ok] at e0
    obtain ⟨_, -, e0⟩ := e0
    rw [M.bind_eq_ok] at e0
    obtain ⟨_, -, e0⟩ := e0
    cases e0; exact Nat.zero_le _
  | snoc _ e ih => exact iterNextLoop_le ih e

/-- C58: `next` always returns, and panics only if the picker does. -/
theorem C58_returns {h : Hist T} (R : Reachable fp T h) {pk : Picker P}
    (hpick : ∀ p i t c, i < h.distinctValues → ∃ r, pk.pick p i t c = .ok r)
    (hmore : ∀ p i, i < h.distinctValues → ∃ r, pk.more p i = .ok r) {p : P} {s0 s : IterState P} {vs : List IterValue}
    (e0 : h.iterNew p = .ok s0) (E : Emits h pk s0 vs s) : ∃ r, h.iterNext pk s = .ok r := by
  have W := R.wf
  have hle := E.index_le e0
  clear E e0 s0
  unfold Hist.iterNext
  have hn : h.counts.length < (h.distinctValues + 2) + s.currentIndex := by unfold Hist.distinctValues; omega
  generalize h.distinctValues + 2 = n at hn
  induction n generalizing s with
  | zero => omega
  | succ n ih =>
    rw [iterNextLoop_succ]
    split
    · exact ⟨_, rfl⟩
    · obtain ⟨r, e⟩ := W.iterPass_ok hpick hmore hle
      rw [e, M.ok_bind]
      cases r with
      | finished t => exact ⟨_, rfl⟩
      | emitted t v => exact ⟨_, rfl⟩
      | again t =>
        have := iterPass_again e
        exact ih (by omega) (by omega)

/-- `n` calls of `next` that return items -/
def Hist.runN (h : Hist T) (pk : Picker P) : Nat → IterState P → M (List IterValue × IterState P)
  | 0, s => .ok ([], s)
  | n + 1, s => do
    let (vs, s1) ← runN h pk n s
    match ← h.iterNext pk s1 with
    | (s2, some v) => .ok (vs ++ [v], s2)
    | (_, none) => .error .assert

theorem runN_emits {h : Hist T} {pk : Picker P} {s : IterState P} : ∀ {n : Nat} {r : List IterValue × IterState P},
    h.runN pk n s = .ok r → Emits h pk s r.1 r.2 := by
  intro n
  induction n with
  | zero => intro r e; cases e; exact .nil _
  | succ n ih =>
    intro r e
    simp only [Hist.runN] at e
    rw [M.bind_eq_ok] at e
    obtain ⟨⟨vs, s1⟩, e1, e⟩ := e
    rw [M.bind_eq_ok] at e
    obtain ⟨⟨s2, o⟩, e2, e⟩ := e
    cases o with
    | none => cases e
    | some v => cases e; exact .snoc (ih e1) e2

/-- `iter_all` over `demo3`: its picker never panics; after the fifth item, that of the slot of `max()`, all 204 samples are
reported, and the next call returns `None` for good -/
example : (∀ p i t c, i < demo3.distinctValues → ∃ r, Hist.allPicker.pick p i t c = .ok r) ∧
    (∀ p i, i < demo3.distinctValues → ∃ r, Hist.allPicker.more p i = .ok r) ∧
    demo3.counts.sum ≤ U64MAX ∧
    ∃ s0 vs s, demo3.iterNew none = .ok s0 ∧ Emits demo3 Hist.allPicker s0 vs s ∧ s.lastPickedIndex = some 4 ∧
      demo3.max = .ok 15 ∧ demo3.indexFor 15 = .ok (some 4) ∧
      vs.map (·.countSinceLastIteration) = demo3.counts ∧ (demo3.iterNext Hist.allPicker s).toOption.map (·.2) = some none := by
  refine ⟨fun p i t c _ => ⟨_, rfl⟩, fun p i _ => ⟨_, rfl⟩, by decide, ?_⟩
  have h1 : ((demo3.iterNew none >>= demo3.runN Hist.allPicker 5).toOption.map fun r => (r.1.map (·.countSinceLastIteration),
      r.2.lastPickedIndex, (demo3.iterNext Hist.allPicker r.2).toOption.map (·.2)))
      = some (demo3.counts, some 4, some none) := by decide +kernel
  cases e0 : demo3.iterNew (none : Option Nat) with
  | error x => rw [e0] at h1; cases h1
  | ok s0 =>
    rw [e0, M.ok_bind] at h1
    cases e1 : demo3.runN Hist.allPicker 5 s0 with
    | error x => rw [e1] at h1; cases h1
    | ok r =>
      rw [e1] at h1
      simp only [Except.toOption, Option.map_some, Option.some.injEq, Prod.mk.injEq] at h1
      exact ⟨s0, r.1, r.2, rfl, runN_emits e1, h1.2.1, by decide +kernel, by decide +kernel, h1.1, h1.2.2⟩

/-- `u64::MAX` samples in the class of 5 and as many in that of 9 -/
def demoFull : Hist .u64 :=
  { demoU with maxValue := 11, minNonZero := 4, totalCount := U64MAX, counts := [0, U64MAX, U64MAX, 0, 0, 0, 0] }

/-- the strategy that picks slot 2 and no other -/
def pickTwo : Picker Unit := ⟨fun p i _ _ => .ok (p, if i = 2 then some ⟨none, none⟩ else none), fun p _ => .ok (p, false)⟩

theorem emits_of_runN {h : Hist T} {pk : Picker P} {n : Nat} {p : P} {f : IterValue → α} {j : Option Nat} {l : List α}
    (e : ((h.iterNew p >>= h.runN pk n).toOption.map fun r => (r.1.map f, r.2.lastPickedIndex)) = some (l, j)) :
    ∃ s0 vs s, h.iterNew p = .ok s0 ∧ Emits h pk s0 vs s ∧ s.lastPickedIndex = j ∧ vs.map f = l := by
  cases e0 : h.iterNew p with
  | error x => rw [e0] at e; cases e
  | ok s0 =>
    rw [e0, M.ok_bind] at e
    cases e1 : h.runN pk n s0 with
    | error x => rw [e1] at e; cases e
    | ok r =>
      rw [e1] at e
      simp only [Except.toOption, Option.map_some, Option.some.injEq, Prod.mk.injEq] at e
      exact ⟨s0, r.1, r.2, rfl, runN_emits e1, e.2, e.1⟩

/-- With more than `u64::MAX` samples the sums saturate. `iter_all` then reports all of them, but the quantile of its third
item is 1 and not 2. A strategy that picks only the slot of `max()` reports `u64::MAX` samples instead of twice as many. -/
theorem C58_refuted : recordSeq [(5, U64MAX), (9, U64MAX)] demoU = .ok (demoFull, .ok ()) ∧
    demoFull.max = .ok 15 ∧ demoFull.indexFor 15 = .ok (some 2) ∧ demoFull.counts.sum = 2 * U64MAX ∧
    (∃ s0 vs s, demoFull.iterNew none = .ok s0 ∧ Emits demoFull Hist.allPicker s0 vs s ∧ s.lastPickedIndex = some 2 ∧
      vs.map (fun v => (v.countSinceLastIteration, v.quantile)) =
        [(0, .fin 0), (U64MAX, .fin 1), (U64MAX, .fin 1)]) ∧
    (∃ s0 vs s, demoFull.iterNew () = .ok s0 ∧ Emits demoFull pickTwo s0 vs s ∧ s.lastPickedIndex = some 2 ∧
      vs.map (·.countSinceLastIteration) = [U64MAX]) :=
  ⟨by decide +kernel, by decide +kernel, by decide +kernel, by decide +kernel,
    emits_of_runN (n := 3) (by decide +kernel), emits_of_runN (n := 1) (by decide +kernel)⟩

end Hdr
