import Verif.Spec.Log
import Verif.Spec.Float

/-!
# Specification vocabulary: the maximum an interval log carries
-/

namespace Hdr.Log

open Hdr

/-- What is assumed of the number nom's `double` makes of the text it recognises: for a number as `{:.3}` writes it, the
nearest `f64` (ties to even), unless that would be infinite. -/
structure NumLaw (value : Bytes → F64) : Prop where
  pos : ∀ (a b : Str) (x : ℚ), a ≠ [] → Digits a → Digits b → b.length = 3 → NearestEven (decVal (a ++ b) / 1000) x →
    x < 2 ^ 1024 → value (Str.bytes (a ++ '.' :: b)) = .fin x
  neg : ∀ (a b : Str) (x : ℚ), a ≠ [] → Digits a → Digits b → b.length = 3 → NearestEven (decVal (a ++ b) / 1000) x →
    x < 2 ^ 1024 → value (Str.bytes ('-' :: a ++ '.' :: b)) = .fin (-x)

/-- `write_histogram`, as opposed to `write_comment` -/
def Op.isHist : Op → Bool
  | .hist .. => true
  | .comment _ => false

/-- the entry read for a call of `write_histogram` with divisor `d`: same tag, same times at the precision of the log, and
`IntervalLogHistogram::max` answers `max()` divided by `d`, to half a thousandth and the precision of `f64`. Without a
divisor it answers `max()` converted to `f64`. -/
inductive ReadBack (value : Bytes → F64) (d : ℚ) : Op → Entry → Prop
  | hist {T : CounterTy} {h : Hist T} {start duration : Dur} {tag : Option Tag} {iv : Interval} {m : Nat} {x : ℚ} :
      h.max = .ok m → iv.tag = tag.map Tag.asStr → SameTime start iv.start → SameTime duration iv.duration →
      value iv.max = .fin x → |x - m / d| ≤ 1 / 2000 + 1 / 2 ^ 59 + |m / d| / 2 ^ 51 → (d = 1 → NearestEven m x) →
      ReadBack value d (.hist h start duration tag) (.interval iv)

end Hdr.Log
