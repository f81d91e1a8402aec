import Std.Data.String.ToNat
import Verif.Props.Config
import Verif.Props.Errors

/-!
# C92: the texts of configuration errors are true
-/

namespace Hdr.Err

/-- `text`, if it is a condition on the arguments of the constructor with a number in it, holds of these arguments -/
structure Holds (low high sigfig : Nat) (text : String) : Prop where
  low_ge : ∀ n : Nat, text = "Lowest discernible value must be >= " ++ n.repr → n ≤ low
  low_le : ∀ n : Nat, text = "Lowest discernible value must be <= `u64::max_value() / " ++ n.repr ++ "`" → low ≤ U64MAX / n
  high_ge : ∀ n : Nat, text = "Highest trackable value must be >= " ++ n.repr ++
    " * lowest discernible value for some internal calculations" → n * low ≤ high
  sigfig_le : ∀ n : Nat, text = "Number of significant digits must be in the range `[0, " ++ n.repr ++ "]`" → sigfig ≤ n

theorem append_inj_right {p s t : String} (h : s ++ p = t ++ p) : s = t := by
  have := congrArg String.toList h
  rw [String.toList_append, String.toList_append] at this
  exact String.toList_inj.mp (List.append_cancel_right this)

theorem read_number {p q : String} {k n : Nat} (h : p ++ k.repr ++ q = p ++ n.repr ++ q) : n = k :=
  (Nat.repr_injective (append_inj (append_inj_right h))).symm

/-- C92: a refused configuration violates the condition the text of the error states. -/
theorem C92_refused (fp : Fp) (T : CounterTy) {low high sigfig : Nat} (hh : high ≤ U64MAX) {e : CreationError}
    (h : Hist.newWithBounds fp T low high sigfig = .ok (.error e)) (h1 : e ≠ .CannotRepresentSigFigBeyondLow)
    (h2 : e ≠ .UsizeTypeTooSmall) : ¬ Holds low high sigfig (creation e) := by
  obtain ⟨r, hr, hm⟩ := C01_constructor fp T (low := low) (sigfig := sigfig) hh
  rw [h] at hr
  obtain rfl := Except.ok.inj hr
  unfold firstViolation at hm
  intro H
  split at hm
  · rename_i x hx
    obtain rfl := Except.error.inj hm
    split at hx
    · obtain rfl := Option.some.inj hx
      have := H.low_ge 1 (by decide +kernel)
      omega
    · split at hx
      · obtain rfl := Option.some.inj hx
        have := H.low_le 2 (by decide +kernel)
        omega
      · split at hx
        · obtain rfl := Option.some.inj hx
          have := H.high_ge 2 (by decide +kernel)
          omega
        · split at hx
          · obtain rfl := Option.some.inj hx
            have := H.sigfig_le 5 (by decide +kernel)
            omega
          · split at hx
            · obtain rfl := Option.some.inj hx
              exact h1 rfl
            · cases hx
  · obtain ⟨g, hg⟩ := hm
    cases hg

/-- C92: an accepted configuration satisfies the conditions stated in all these texts. -/
theorem C92_accepted (fp : Fp) (T : CounterTy) {low high sigfig : Nat} (hh : high ≤ U64MAX) {g : Hist T}
    (h : Hist.newWithBounds fp T low high sigfig = .ok (.ok g)) (e : CreationError) : Holds low high sigfig (creation e) := by
  obtain ⟨r, hr, hm⟩ := C01_constructor fp T (low := low) (sigfig := sigfig) hh
  rw [h] at hr
  obtain rfl := Except.ok.inj hr
  unfold firstViolation at hm
  have hc : 1 ≤ low ∧ low ≤ U64MAX / 2 ∧ 2 * low ≤ high ∧ sigfig ≤ 5 := by
    split at hm
    · cases hm
    · rename_i hx
      split at hx
      · cases hx
      · split at hx
        · cases hx
        · split at hx
          · cases hx
          · split at hx
            · cases hx
            · omega
  obtain ⟨c1, c2, c3, c4⟩ := hc
  constructor
  · intro n hn
    cases e
    · have h1 : creation .LowIsZero = "Lowest discernible value must be >= " ++ (1 : Nat).repr := by decide +kernel
      obtain rfl := Nat.repr_injective (append_inj (h1.symm.trans hn))
      exact c1
    all_goals exact absurd hn (ne_append (by decide +kernel))
  · intro n hn
    rw [String.append_assoc] at hn
    cases e
    · exact absurd hn (ne_append (by decide +kernel))
    · rw [← String.append_assoc] at hn
      obtain rfl := read_number (p := "Lowest discernible value must be <= `u64::max_value() / ") (q := "`") (k := 2)
        (by rw [← hn]; decide +kernel)
      exact c2
    all_goals exact absurd hn (ne_append (by decide +kernel))
  · intro n hn
    rw [String.append_assoc] at hn
    cases e
    · exact absurd hn (ne_append (by decide +kernel))
    · exact absurd hn (ne_append (by decide +kernel))
    · rw [← String.append_assoc] at hn
      obtain rfl := read_number (p := "Highest trackable value must be >= ")
        (q := " * lowest discernible value for some internal calculations") (k := 2) (by rw [← hn]; decide +kernel)
      exact c3
    all_goals exact absurd hn (ne_append (by decide +kernel))
  · intro n hn
    rw [String.append_assoc] at hn
    cases e
    · exact absurd hn (ne_append (by decide +kernel))
    · exact absurd hn (ne_append (by decide +kernel))
    · exact absurd hn (ne_append (by decide +kernel))
    · rw [← String.append_assoc] at hn
      obtain rfl := read_number (p := "Number of significant digits must be in the range `[0, ") (q := "]`") (k := 5)
        (by rw [← hn]; decide +kernel)
      exact c4
    all_goals exact absurd hn (ne_append (by decide +kernel))

example : Hist.newWithBounds Fp.ideal .u8 5 9 3 = .ok (.error .HighLessThanTwiceLow) ∧ ¬ 2 * 5 ≤ 9 := by decide +kernel
example : (match Hist.newWithBounds Fp.ideal .u8 5 1000 1 with | .ok (.ok _) => true | _ => false) = true := by decide +kernel

end Hdr.Err
