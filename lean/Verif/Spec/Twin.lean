import Verif.Spec.Release

/-!
# Specification vocabulary: interchangeable histograms

What a program can see of the histograms it holds: the answers of its calls, and the read-outs. A program decides on its
next call from these.
-/

namespace Hdr

/-- the read-outs of a histogram: counter type, `low()`, `high()`, `sigfig()`, `len()`, `buckets()`,
`distinct_values()`, `is_auto_resize()` (lib.rs:302-350) -/
structure View where
  T : CounterTy
  low : Nat
  high : Nat
  sigfig : Nat
  len : Nat
  buckets : Nat
  distinctValues : Nat
  autoResize : Bool

def AnyHist.view (x : AnyHist) : View :=
  ⟨x.T, x.h.low, x.h.high, x.h.sigfig, x.h.len, x.h.buckets, x.h.distinctValues, x.h.isAutoResize⟩

/-- Two histograms of one counter type, made by any calls, that compare equal and have the same `high()` and
`is_auto_resize()`. -/
def Alike (fp : Fp) (x y : AnyHist) : Prop :=
  ∃ (T : CounterTy) (a b : Hist T), x = ⟨T, a⟩ ∧ y = ⟨T, b⟩ ∧ Reachable fp T a ∧ Reachable fp T b ∧
    a.eq b = .ok true ∧ a.high = b.high ∧ a.isAutoResize = b.isAutoResize

namespace Api

/-- a program that decides on its next call from all answers so far and the present read-outs of its histograms -/
abbrev Observer := List Answer → List View → Option FullCall

/-- it sees nothing else of the state -/
def Observer.script (p : Observer) : Script := fun w => p w.answers (w.hists.map AnyHist.view)

/-- all a program has seen after its first `n` calls, when it starts with the histograms `st` -/
def observe (E : Env) (fuel : Nat) (p : Observer) (n : Nat) (st : List AnyHist) : M (List Answer × List View) :=
  (fun w => (w.answers, w.hists.map AnyHist.view)) <$> exec .debug E fuel p.script n ⟨st, []⟩

end Api
end Hdr
