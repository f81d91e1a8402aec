import Verif.Props.Quantile
import Verif.Props.Ops

/-!
# `quantile_below` and the running sums of iterators when counters or sums saturate

`C27_value_partial` and `C58_running_sum_partial` assume that nothing saturates.  The theorems here say what happens in
every case.
-/

namespace Hdr

variable {T : CounterTy} {fp : Fp} {P : Type}

/-- number of classes that start at or below `v` -/
def classesUpTo (cs : List Cls) (v : Nat) : Nat := (cs.filter fun c => decide (c.lo ≤ v)).length

theorem WF.classesUpTo_eq {h : Hist T} (W : WF fp h) {cs : List Cls} (C : Classes h cs) (v : Nat) :
    classesUpTo cs v = h.slotOf v + 1 := by
  have hp := W.len_pos
  have hlt : h.slotOf v < h.counts.length := by unfold Hist.slotOf; omega
  unfold classesUpTo
  rw [W.classes_unique C, List.filter_map, List.length_map]
  have h3 : (List.range h.counts.length).filter ((fun c : Cls => decide (c.lo ≤ v)) ∘ h.lcls) = List.range (h.slotOf v + 1) := by
    apply List.Perm.eq_of_pairwise (le := (· < ·))
    · intro a b _ _ h1 h2; omega
    · exact (List.pairwise_lt_range).filter _
    · exact List.pairwise_lt_range
    · rw [List.perm_ext_iff_of_nodup (List.nodup_range.filter _) List.nodup_range]
      intro i
      rw [List.mem_filter, List.mem_range, List.mem_range]
      simp only [Function.comp, decide_eq_true_eq]
      have e1 : (h.lcls i).lo ≤ v ↔ i ≤ h.lidx v := Lay.val_le_iff
      rw [e1]
      unfold Hist.slotOf
      omega
  rw [h3, List.length_range]

/-- C27, the value in every case: if the classes up to that of `v` are at most half of all classes, it is the (saturated) sum of
their counts over `len()`; otherwise it is `len()` less the (saturated) sum of the counts of the other classes, over `len()`. -/
theorem C27_value_all {h : Hist T} (R : Reachable fp T h) {cs : List Cls} (C : Classes h cs) (h0 : h.len ≠ 0) {v : Nat}
    (hv : v ≤ U64MAX) :
    h.quantileBelow v = .ok (.fin (F64.rndQ (F64.rndQ
      (if classesUpTo cs v ≤ cs.length / 2 then Min.min (countUpTo cs v) U64MAX
        else h.len - Min.min ((cs.map (·.count)).sum - countUpTo cs v) U64MAX : ℕ) / F64.rndQ h.len))) := by
  have hlen : cs.length = h.counts.length := by
    rw [R.wf.classes_unique C, List.length_map, List.length_range]
  have hd := take_drop_sum h.counts (h.slotOf v + 1)
  rw [R.wf.quantileBelow_eq h0 hv, R.wf.classesUpTo_eq C, R.wf.countUpTo_eq C, R.wf.sum_classes C, hlen,
    show h.counts.sum - (h.counts.take (h.slotOf v + 1)).sum = (h.counts.drop (h.slotOf v + 1)).sum by omega]
  rfl

/-- an instance in which the two halves disagree: see `C27_refuted` -/
example : demoSat0.len = 765 ∧ demoSat0.contents.map (·.count) = [255, 0, 0, 0, 0]
    ∧ classesUpTo demoSat0.contents 0 ≤ demoSat0.contents.length / 2
    ∧ ¬ classesUpTo demoSat0.contents 15 ≤ demoSat0.contents.length / 2 := by decide +kernel

/-- first slot after the last one an item was produced for -/
def nextSlot (s : IterState P) : Nat := s.lastPickedIndex.elim 0 (· + 1)

/-- invariant of the iteration, with saturated sums: `k` slots have been visited -/
structure SatInv (h : Hist T) (k : Nat) (s : IterState P) : Prop where
  le : s.currentIndex ≤ h.counts.length
  total : s.totalCountToIndex = Min.min (h.counts.take k).sum U64MAX
  since : s.countSinceLastIteration = Min.min ((h.counts.take k).sum - (h.counts.take (nextSlot s)).sum) U64MAX
  last : ∀ i, s.lastPickedIndex = some i → i ≤ s.currentIndex
  kle : k ≤ s.currentIndex + 1
  before : Hist.pickedMax s = false → (k = s.currentIndex + if s.fresh then 0 else 1) ∧ nextSlot s ≤ k
  after : Hist.pickedMax s = true → s.maxValueIndex < k

theorem SatInv.load {h : Hist T} {k : Nat} {s s1 : IterState P} (I : SatInv h k s)
    (hp : Hist.pickedMax s = false) (hlt : s.currentIndex < h.counts.length) (e : h.iterLoad s = .ok s1) :
    SatInv h (s.currentIndex + 1) s1 ∧ s1.currentIndex = s.currentIndex ∧ s1.fresh = false ∧
      Hist.pickedMax s1 = false ∧ s1.maxValueIndex = s.maxValueIndex ∧ nextSlot s1 = nextSlot s := by
  unfold Hist.iterLoad at e
  obtain ⟨hk, hn⟩ := I.before hp
  split at e
  · rename_i hf
    rw [M.bind_eq_ok] at e
    obtain ⟨c, ec, e⟩ := e
    cases e
    rw [if_pos hf, Nat.add_zero] at hk
    unfold Hist.countAtIndex at ec
    rw [List.getElem?_eq_getElem hlt] at ec
    cases ec
    have h1 : (h.counts.take (s.currentIndex + 1)).sum = (h.counts.take k).sum + h.counts[s.currentIndex] := by
      rw [List.take_add_one, List.sum_append, hk, List.getElem?_eq_getElem hlt]; simp
    have h2 : (h.counts.take (nextSlot s)).sum ≤ (h.counts.take k).sum := take_sum_mono _ hn
    have ht := I.total
    have hsn := I.since
    refine ⟨⟨I.le, ?_, ?_, I.last, le_rfl, ?_, ?_⟩, rfl, rfl, hp, rfl, rfl⟩
    · show satAdd _ _ = _
      unfold satAdd; omega
    · show satAdd _ _ = Min.min (_ - (h.counts.take (nextSlot s)).sum) _
      unfold satAdd; omega
    · intro _; exact ⟨rfl, show nextSlot s ≤ _ by omega⟩
    · intro h3
      have : Hist.pickedMax s = true := h3
      rw [hp] at this; cases this
  · rename_i hf
    cases e
    rw [if_neg hf] at hk
    exact ⟨hk ▸ I, rfl, by simpa using hf, hp, rfl, rfl⟩

theorem SatInv.pick_again {h : Hist T} {k : Nat} {s : IterState P} (I : SatInv h k s)
    (hlt : s.currentIndex < h.counts.length) (hf : Hist.pickedMax s = false → s.fresh = false) (p : P) :
    SatInv h k { s with picker := p, currentIndex := s.currentIndex + 1, fresh := true } := by
  refine ⟨hlt, I.total, I.since, fun i hi => (I.last i hi).trans (Nat.le_succ _), I.kle.trans (Nat.le_succ _),
    fun h1 => ?_, I.after⟩
  obtain ⟨h2, h3⟩ := I.before h1
  rw [hf h1] at h2
  exact ⟨by simpa using h2, h3⟩

/-- `max()` and the picker -/
structure Zeros (h : Hist T) (m : Nat) : Prop where
  zero : ∀ n, m < n → (h.counts.take n).sum = (h.counts.take (m + 1)).sum

theorem SatInv.pick_emit {h : Hist T} {k m : Nat} {s : IterState P} (I : SatInv h k s) (Z : Zeros h m)
    (hm : s.maxValueIndex = m) (hf : Hist.pickedMax s = false → s.fresh = false) (p : P) :
    SatInv h k { s with picker := p, countSinceLastIteration := 0, lastPickedIndex := some s.currentIndex } ∧
      s.totalCountToIndex = Min.min (h.counts.take (s.currentIndex + 1)).sum U64MAX ∧
      s.countSinceLastIteration
        = Min.min ((h.counts.take (s.currentIndex + 1)).sum - (h.counts.take (nextSlot s)).sum) U64MAX := by
  have key : Hist.pickedMax s = true → s.maxValueIndex < nextSlot s ∧ nextSlot s ≤ s.currentIndex + 1 := by
    unfold Hist.pickedMax nextSlot
    intro h1
    cases h2 : s.lastPickedIndex with
    | none => rw [h2] at h1; cases h1
    | some i =>
      rw [h2] at h1
      have := of_decide_eq_true h1
      have := I.last i h2
      simp only [Option.elim_some]
      omega
  have hsum : (h.counts.take k).sum = (h.counts.take (s.currentIndex + 1)).sum := by
    cases hp : Hist.pickedMax s with
    | false =>
      obtain ⟨h2, -⟩ := I.before hp
      rw [hf hp] at h2
      rw [h2]; rfl
    | true =>
      have h2 := I.after hp
      have h3 := I.kle
      rw [Z.zero k (by omega), Z.zero (s.currentIndex + 1) (by omega)]
  have ht := I.total
  have hsn := I.since
  rw [hsum] at ht hsn
  refine ⟨⟨I.le, I.total, ?_, fun i hi => by cases hi; exact le_rfl, I.kle, fun h1 => ?_, fun h1 => ?_⟩, ht, hsn⟩
  · show 0 = Min.min (_ - (h.counts.take (s.currentIndex + 1)).sum) _
    rw [hsum]; simp
  · simp only [Hist.pickedMax, decide_eq_false_iff_not] at h1
    have hp : Hist.pickedMax s = false := by
      cases hp : Hist.pickedMax s with
      | false => rfl
      | true => have := key hp; omega
    obtain ⟨h2, -⟩ := I.before hp
    rw [hf hp] at h2
    have h2 : k = s.currentIndex + 1 := h2
    refine ⟨?_, ?_⟩
    · show k = s.currentIndex + if s.fresh then 0 else 1
      rw [hf hp]; exact h2
    · show s.currentIndex + 1 ≤ k
      omega
  · cases hp : Hist.pickedMax s with
    | true => exact I.after hp
    | false =>
      obtain ⟨h2, -⟩ := I.before hp
      rw [hf hp] at h2
      simp only [Hist.pickedMax, decide_eq_true_eq] at h1
      simp only [Bool.false_eq_true, if_false] at h2
      dsimp only at *
      omega

/-- what is said of an item -/
structure SatItem (h : Hist T) (s s' : IterState P) (v : IterValue) (j : Nat) : Prop where
  last : s'.lastPickedIndex = some j
  count : h.counts[j]? = some v.countAtValue
  quantile : v.quantile = F64.div (F64.ofNat (Min.min (h.counts.take (j + 1)).sum U64MAX)) (F64.ofNat h.len)
  since : v.countSinceLastIteration = Min.min ((h.counts.take (j + 1)).sum - (h.counts.take (nextSlot s)).sum) U64MAX
  mono : nextSlot s ≤ j + 1

theorem SatInv.next {h : Hist T} {m : Nat} (Z : Zeros h m) {pk : Picker P} : ∀ {n k : Nat} {s s' : IterState P}
    {r : Option IterValue}, SatInv h k s → s.maxValueIndex = m → h.iterNextLoop pk n s = .ok (s', r) →
    s'.maxValueIndex = m ∧ ∀ v, r = some v → ∃ k' j, SatInv h k' s' ∧ SatItem h s s' v j := by
  intro n
  induction n with
  | zero => intro k s s' r I hm e; cases e
  | succ n ih =>
    intro k s s' r I hm e
    rw [iterNextLoop_succ] at e
    split at e
    · cases e; exact ⟨hm, by simp⟩
    · rw [M.bind_eq_ok] at e
      obtain ⟨q, e1, e2⟩ := e
      have main : ∀ {k : Nat} {t : IterState P}, SatInv h k t → t.currentIndex < h.counts.length →
          (Hist.pickedMax t = false → t.fresh = false) → t.maxValueIndex = m → nextSlot t = nextSlot s →
          h.iterPick pk t = .ok q →
          s'.maxValueIndex = m ∧ ∀ v, r = some v → ∃ k' j, SatInv h k' s' ∧ SatItem h s s' v j := by
        intro k t J hlt hf hmt hn h1
        rcases iterPick_cases h1 with ⟨p, rfl⟩ | ⟨p, v, rfl, h2, h3, h4⟩
        · obtain ⟨a, b⟩ := ih (J.pick_again hlt hf p) hmt e2
          refine ⟨a, fun v hv => ?_⟩
          obtain ⟨k', j, c, d⟩ := b v hv
          refine ⟨k', j, c, d.last, d.count, d.quantile, ?_, ?_⟩
          · rw [← hn]; exact d.since
          · rw [← hn]; exact d.mono
        · cases e2
          refine ⟨hmt, fun w hw => ?_⟩
          cases hw
          obtain ⟨a, b, c⟩ := J.pick_emit Z hmt hf p
          refine ⟨k, t.currentIndex, a, rfl, h4, by rw [h3, b], by rw [h2, c, hn], ?_⟩
          rw [← hn]
          unfold nextSlot
          cases h5 : t.lastPickedIndex with
          | none => exact Nat.zero_le _
          | some i => have := J.last i h5; simp only [Option.elim_some]; omega
      rcases iterPass_cases e1 with ⟨t, rfl, -, -, h3, -⟩ | ⟨hne, hp, p, h1⟩ | ⟨hlt, hp, s1, el, h1⟩
      · cases e2; exact ⟨h3.trans hm, by simp⟩
      · have J : SatInv h k { s with picker := p } := ⟨I.le, I.total, I.since, I.last, I.kle, I.before, I.after⟩
        refine main J (lt_of_le_of_ne I.le hne) (fun h2 => ?_) hm rfl h1
        have : Hist.pickedMax s = false := h2
        rw [hp] at this; cases this
      · obtain ⟨J, j1, j2, j3, j4, j5⟩ := I.load hp hlt el
        exact main J (by omega) (fun _ => j2) (j4.trans hm) j5 h1

theorem WF.zeros {h : Hist T} (W : WF fp h) : Zeros h (h.lidx h.maxValue) := by
  refine ⟨fun n hn => ?_⟩
  have h1 : h.counts.take n = h.counts.take (h.lidx h.maxValue + 1)
      ++ (h.counts.take n).drop (h.lidx h.maxValue + 1) := by
    conv_lhs => rw [← List.take_append_drop (h.lidx h.maxValue + 1) (h.counts.take n)]
    rw [List.take_take, Nat.min_eq_left (by omega)]
  rw [h1, List.sum_append]
  have : ((h.counts.take n).drop (h.lidx h.maxValue + 1)).sum = 0 := by
    refine List.sum_eq_zero fun x hx => ?_
    obtain ⟨i, hi, e⟩ := List.mem_iff_getElem.mp hx
    rw [List.getElem_drop, List.getElem_take] at e
    by_contra hne
    rw [List.length_drop, List.length_take] at hi
    have := W.trackMax (h.lidx h.maxValue + 1 + i)
      (by rw [List.getD_eq_getElem?_getD, List.getElem?_eq_getElem (by omega), e]; exact hne)
    omega
  rw [this, Nat.add_zero]

theorem SatInv.emits {h : Hist T} (W : WF fp h) {pk : Picker P} {p : P} {s0 s : IterState P}
    {vs : List IterValue} (e0 : h.iterNew p = .ok s0) (E : Emits h pk s0 vs s) :
    s.maxValueIndex = h.lidx h.maxValue ∧ ∃ k, SatInv h k s := by
  induction E with
  | nil =>
    rw [W.iterNew_eq] at e0
    cases e0
    refine ⟨rfl, 0, ?_⟩
    refine ⟨by simp, by simp, by simp, by simp, by simp, ?_, ?_⟩
    · intro _; exact ⟨rfl, le_rfl⟩
    · simp [Hist.pickedMax]
  | snoc E e ih =>
    obtain ⟨h1, k, I⟩ := ih
    obtain ⟨a, b⟩ := SatInv.next W.zeros I h1 e
    obtain ⟨k', j, c, -⟩ := b _ rfl
    exact ⟨a, k', c⟩

/-- C58, the items in every case, for any `PickyIterator`: an item is for some slot `j`, not before that of the item before it.
Its count is that of the slot, its quantile the (saturated) sum of the counts up to that slot over `len()`, and its
`count_since_last_iteration` the (saturated) sum of the counts after the slot of the previous item and up to `j`. -/
theorem C58_item {h : Hist T} (R : Reachable fp T h) {pk : Picker P} {p : P} {s0 s s' : IterState P}
    {vs : List IterValue} {v : IterValue} (e0 : h.iterNew p = .ok s0) (E : Emits h pk s0 vs s)
    (e : h.iterNext pk s = .ok (s', some v)) :
    ∃ j, s'.lastPickedIndex = some j ∧ nextSlot s ≤ j + 1 ∧ h.counts[j]? = some v.countAtValue ∧
      v.quantile = F64.div (F64.ofNat (Min.min (h.counts.take (j + 1)).sum U64MAX)) (F64.ofNat h.len) ∧
      v.countSinceLastIteration = Min.min ((h.counts.take (j + 1)).drop (nextSlot s)).sum U64MAX := by
  obtain ⟨hm, k, I⟩ := SatInv.emits R.wf e0 E
  obtain ⟨-, b⟩ := SatInv.next R.wf.zeros I hm e
  obtain ⟨k', j, -, c⟩ := b v rfl
  refine ⟨j, c.last, c.mono, c.count, c.quantile, ?_⟩
  rw [c.since]
  have h1 := take_drop_sum (h.counts.take (j + 1)) (nextSlot s)
  rw [List.take_take, Nat.min_eq_left c.mono] at h1
  congr 1
  omega

/-- an instance: the second and third item of `iter_all` over `u64::MAX` samples at 5 and as many at 9, see `C58_refuted` -/
example : ∃ s0 vs s, demoFull.iterNew none = .ok s0 ∧ Emits demoFull Hist.allPicker s0 vs s ∧ vs.length = 3 ∧
    nextSlot s = 3 ∧ demoFull.counts.take 3 = [0, U64MAX, U64MAX] := by
  obtain ⟨-, -, -, -, ⟨s0, vs, s, a, b, c, d⟩, -⟩ := C58_refuted
  refine ⟨s0, vs, s, a, b, ?_, ?_, by decide⟩
  · have := congrArg List.length d
    simpa using this
  · unfold nextSlot; rw [c]; rfl

end Hdr
