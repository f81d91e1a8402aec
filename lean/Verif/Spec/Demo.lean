import Verif.Spec.Vocab

/-!
# Concrete inhabitants used to show that hypotheses can be met
-/

namespace Hdr

/-- an exact `log2` -/
def Fp.ideal : Fp where
  log2Floor := Nat.log2
  le63 low h := by
    by_cases h0 : low = 0
    · subst h0; decide
    · have := (Nat.log2_lt h0).mpr h; omega
  exactSmall _ _ _ := rfl

/-- a `log2` that, like the correctly rounded one, gives 50 for `2^50 - 1`
(the true logarithm differs from 50 by less than half a unit in the last place) -/
def Fp.rounding : Fp where
  log2Floor low := if low = 2 ^ 50 - 1 then 50 else Nat.log2 low
  le63 low h := by
    split
    · decide
    · exact Fp.ideal.le63 low h
  exactSmall low _ h := by
    rw [if_neg (by omega)]

/-- a zlib that stores its input -/
def V2.Zlib.stored : V2.Zlib where
  deflate := id
  inflate := id
  unread _ := 0

deriving instance DecidableEq for Hist

instance {ε α : Type} [DecidableEq ε] [DecidableEq α] : DecidableEq (Except ε α) := fun a b =>
  match a, b with
  | .ok x, .ok y => if h : x = y then .isTrue (by rw [h]) else .isFalse (by intro e; cases e; exact h rfl)
  | .error x, .error y => if h : x = y then .isTrue (by rw [h]) else .isFalse (by intro e; cases e; exact h rfl)
  | .ok _, .error _ => .isFalse (by intro e; cases e)
  | .error _, .ok _ => .isFalse (by intro e; cases e)

/-- evaluate an operation that succeeds and check a decidable fact about the state it leaves -/
theorem okThen {ε : Type} {T : CounterTy} {m : M (Hist T × Except ε Unit)} {P : Hist T → Prop} [DecidablePred P]
    (h : (match m with
      | .ok (h', .ok ()) => decide (P h')
      | _ => false) = true) : ∃ h', m = .ok (h', .ok ()) ∧ P h' := by
  split at h
  · rename_i h'; exact ⟨h', rfl, of_decide_eq_true h⟩
  · cases h

/-- `Histogram::<u8>::new_with_bounds(1, 15, 0)`: 0 significant figures, four buckets, five slots. -/
def demo : Hist .u8 :=
  { autoResize := false, highestTrackable := 15, lowestDiscernible := 1, sigDigits := 0, bucketCount := 4
    subBucketCount := 2, subBucketHalfCount := 1, subBucketHalfCountMag := 0, subBucketMask := 1
    leadingZeroCountBase := 63, unitMag := 0, unitMagMask := 0, maxValue := 0, minNonZero := U64MAX
    totalCount := 0, counts := [0, 0, 0, 0, 0] }

theorem demo_eq : Hist.newWithBounds Fp.ideal .u8 1 15 0 = .ok (.ok demo) := by decide

theorem demo_reachable : Reachable Fp.ideal .u8 demo := .newWithBounds (by decide) demo_eq

/-- `demo` after `record_n(5, 3)`, `record_n(9, 200)`, `record_n(0, 1)` -/
def demo3 : Hist .u8 :=
  { demo with maxValue := 9, minNonZero := 5, totalCount := 204, counts := [1, 0, 0, 3, 200] }

theorem demo3_eq : recordSeq [(5, 3), (9, 200), (0, 1)] demo = .ok (demo3, .ok ()) := by decide

theorem reachable_recordSeq {fp : Fp} {T : CounterTy} {l : List (Nat × Nat)} :
    ∀ {h h' : Hist T} {r}, Reachable fp T h → (∀ p ∈ l, p.1 ≤ U64MAX ∧ p.2 ≤ T.max) →
      recordSeq l h = .ok (h', r) → Reachable fp T h' := by
  induction l with
  | nil => intro h h' r R _ e; cases e; exact R
  | cons p l ih =>
    intro h h' r R hl e
    obtain ⟨v, c⟩ := p
    unfold recordSeq at e
    cases hx : h.recordN v c with
    | error x => rw [hx] at e; cases e
    | ok y =>
      obtain ⟨h1, r1⟩ := y
      rw [hx] at e
      have R1 : Reachable fp T h1 := .recordN R (hl (v, c) (by simp)).1 (hl (v, c) (by simp)).2 hx
      cases r1 with
      | error x => cases e; exact R1
      | ok u => exact ih R1 (fun p hp => hl p (by simp [hp])) e

theorem demo3_reachable : Reachable Fp.ideal .u8 demo3 :=
  reachable_recordSeq demo_reachable (by decide) demo3_eq

/-- `Histogram::<u64>::new_with_bounds(4, 200, 0)`: unit 4 -/
def demoU : Hist .u64 :=
  { autoResize := false, highestTrackable := 200, lowestDiscernible := 4, sigDigits := 0, bucketCount := 6
    subBucketCount := 2, subBucketHalfCount := 1, subBucketHalfCountMag := 0, subBucketMask := 4
    leadingZeroCountBase := 61, unitMag := 2, unitMagMask := 3, maxValue := 0, minNonZero := U64MAX
    totalCount := 0, counts := [0, 0, 0, 0, 0, 0, 0] }

theorem demoU_eq : Hist.newWithBounds Fp.ideal .u64 4 200 0 = .ok (.ok demoU) := by decide

theorem demoU_reachable : Reachable Fp.ideal .u64 demoU := .newWithBounds (by decide) demoU_eq

end Hdr
