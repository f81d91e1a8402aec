import Verif.Model.Iter

/-!
# What a user reads off an item of an iterator
-/

namespace Hdr

/-- `IterationValue::percentile`, src/iterators/mod.rs:121-123. (The other accessors, mod.rs:114-145, return the fields of
`IterValue`.) -/
def IterValue.percentile (v : IterValue) : F64 := F64.mul v.quantile (.fin 100)

end Hdr
