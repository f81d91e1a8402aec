import Verif.Spec.Log
import Verif.Model.LogRelease

/-!
# Specification vocabulary: logs in a release build
-/

namespace Hdr.Release.Log

open Hdr.Log

/-- `xs` is everything the iterator yields in a release build: after `xs` it answers `None`, and goes on doing so. -/
inductive Yields (D : Dbl) : Iter → List (Except Nat Entry) → Prop
  | done {it it' : Iter} : next D it = .ok (none, it') → next D it' = .ok (none, it') → Yields D it []
  | item {it it' : Iter} {x : Except Nat Entry} {xs : List (Except Nat Entry)} :
      next D it = .ok (some x, it') → Yields D it' xs → Yields D it (x :: xs)

end Hdr.Release.Log
