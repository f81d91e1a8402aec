import Verif.Model.SyncExt

/-!
# Model of `src/sync/mod.rs`, continued: an owner that does anything at all to the merged histogram

`DerefMut` (sync/mod.rs:411-415) hands out `&mut Histogram<C>`.  Besides the writes and the reset of `Model/SyncExt.lean`
the owner may then call every other method of `Histogram` (`auto`, `set_to`, `clear`, ...), and even put another histogram in
its place (`*h = other`, `std::mem::replace`): one with other bounds, another precision, another auto-resize setting.
Whatever the owner does, the effect is that another histogram is there afterwards.
-/

namespace Hdr.Sync

/-- what is done to a histogram: one of the writes a recorder offers (sync/mod.rs:233-287), or, by the owner only, anything
else (sync/mod.rs:411-415), after which the histogram is `g` -/
inductive OwnerWrite (T : CounterTy) where
  | write (w : Write T) | put (g : Hist T)

/-- the effect on the histogram -/
def OwnerWrite.run {T : CounterTy} : OwnerWrite T → Hist T → M (Hist T)
  | .write w, h => w.run h
  | .put g, _ => pure g

/-- the real code, `Model/Sync.lean` and `Model/SyncExt.lean`, with an owner that does anything -/
def OwnerOps.owned (fp : Fp) (T : CounterTy) : OwnerOps (Hist T) (OwnerWrite T) where
  fresh := Hist.newFrom fp T
  add := addExpect
  write := OwnerWrite.run
  reset h := pure h.reset

end Hdr.Sync
