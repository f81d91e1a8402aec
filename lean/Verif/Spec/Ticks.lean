import Verif.Spec.Steps

/-!
# Specification vocabulary: iteration by quantiles
-/

namespace Hdr

variable {T : CounterTy}

/-- What is assumed about `x.log2() as u32` for `1 ≤ x ≤ 2^64`: `floor(log2 x)`, or one more when `x` is not a power of
two (a result just below an integer may be rounded up to it). -/
structure Log2Law (lg : F64 → Nat) : Prop where
  ge : ∀ (k : ℕ) (x : ℚ), 2 ^ k ≤ x → x ≤ 2 ^ 64 → k ≤ lg (.fin x)
  le : ∀ (k : ℕ) (x : ℚ), 1 ≤ x → x < 2 ^ k → x ≤ 2 ^ 64 → lg (.fin x) ≤ k

/-- the fraction of samples in the classes up to and including `c`, as a binary64 quotient -/
def fracUpTo (h : Hist T) (cs : List Cls) (c : Cls) : ℚ :=
  F64.rndQ (F64.rndQ (min (countUpTo cs c.lo) U64MAX : ℕ) / F64.rndQ h.len)

/-- `q'` follows `q < 1` when iterating with `t` ticks per half distance: the unit interval is divided into
`t * 2^(k+1)` ticks, where the distance `1 - q` has been halved `k` times (that is, `2^-(k+1) ≤ 1 - q`, and `1 - q` is
at most about `2^-(k-1)`); the binary64 sum of `q` and the tick is next, or 1 if adding the tick changes nothing.
The result is above `q` and at most 1. -/
def TickStep (t : Nat) (q q' : ℚ) : Prop :=
  q < q' ∧ q' ≤ 1 ∧ ∃ k : ℕ, 1 ≤ 2 ^ (k + 1) * (1 - q) ∧ 2 ^ k * (1 - q) ≤ 2 * (1 + 1 / 2 ^ 50) ∧
    let s := F64.rndQ (q + F64.rndQ (1 / F64.rndQ (t * 2 ^ (k + 1) : ℕ)))
    (s = q ∧ q' = 1 ∨ s ≠ q ∧ q' = s)

/-- What an item of `iter_quantiles` that reports class `c` for quantile `q` must show; `from_` is the first value not
counted yet.  `c` is the first class with samples at which the fraction of samples reaches `q`. -/
structure QuantileItem (h : Hist T) (cs : List Cls) (from_ : Nat) (c : Cls) (q : ℚ) (it : IterValue) : Prop where
  value : it.valueIteratedTo = c.hi
  count : it.countAtValue = c.count
  filled : c.count ≠ 0
  quantile : it.quantile = .fin (fracUpTo h cs c)
  quantileTo : it.quantileIteratedTo = .fin q
  since : it.countSinceLastIteration = min (countIn cs from_ (c.lo + 1)) U64MAX
  reached : q ≤ fracUpTo h cs c
  first : ∀ d ∈ cs, d.count ≠ 0 → d.lo < c.lo → fracUpTo h cs d < q

/-- The items of `iter_quantiles(t)` from quantile `q` on: items follow each other by ticks up to an item for quantile 1,
which is the last one and may come early if its class is the last one with samples.  If no class reaches quantile 1,
there is no such item. -/
inductive QuantileRun (h : Hist T) (cs : List Cls) (t : Nat) : (from_ : Nat) → (q : ℚ) → List IterValue → Prop
  | short {from_ : Nat} {q : ℚ} : (∀ c ∈ cs, c.count ≠ 0 → fracUpTo h cs c < 1) → QuantileRun h cs t from_ q []
  | last {from_ : Nat} {q : ℚ} {c : Cls} {it : IterValue} : c ∈ cs → QuantileItem h cs from_ c 1 it →
      (q = 1 ∨ ∀ d ∈ cs, d.count ≠ 0 → d.lo ≤ c.lo) → QuantileRun h cs t from_ q [it]
  | step {from_ : Nat} {q q' : ℚ} {c : Cls} {it : IterValue} {rest : List IterValue} : c ∈ cs →
      QuantileItem h cs from_ c q it → q < 1 → TickStep t q q' → QuantileRun h cs t (c.lo + 1) q' rest →
      QuantileRun h cs t from_ q (it :: rest)

end Hdr
