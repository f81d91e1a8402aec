import Verif.Model.SyncExt
import Verif.Spec.Sync

/-!
# Specification vocabulary: concurrent recording with outdated loads, an active owner and a dropped `SyncHistogram`

As in `Spec/Sync.lean` every histogram is paired with what it contains; here also with what it contained before it was
reset.  The contents the `SyncHistogram` starts with count as one item, `none`; `some w` is the write `w`.
-/

namespace Hdr.Sync

variable {H W : Type}

/-- a histogram, what is in it, and what was taken out of it by `reset` -/
structure Logged (H W : Type) where
  hist : H
  inside : List (Option W)
  taken : List (Option W)

/-- histograms that remember: a new one contains nothing, `add` joins the lists, a write is appended, `reset` takes
everything out -/
def OwnerOps.logged (o : OwnerOps H W) : OwnerOps (Logged H W) W where
  fresh p := do let f ← o.fresh p.hist; pure { hist := f, inside := [], taken := [] }
  add m h := do
    let x ← o.add m.hist h.hist
    pure { hist := x, inside := m.inside ++ h.inside, taken := m.taken ++ h.taken }
  write w p := do let x ← o.write w p.hist; pure { p with hist := x, inside := p.inside ++ [some w] }
  reset p := do let x ← o.reset p.hist; pure { hist := x, inside := [], taken := p.taken ++ p.inside }

/-- the state a `SyncHistogram` made from `h` starts in -/
def XSys.start (h : H) : XSys (Logged H W) := XSys.init { hist := h, inside := [none], taken := [] }

/-- all writes of an execution, by recorders and by the owner, in order -/
def xwrites : List (XLabel W) → List W
  | [] => []
  | .now (.write _ w) :: ls | .late (.write _ w) _ :: ls | .own w :: ls => w :: xwrites ls
  | _ :: ls => xwrites ls

/-- what is in the channel -/
def XSys.inChan (x : XSys (Logged H W)) : List (Option W) := x.sys.chan.flatMap (·.inside)

/-- what the recorders at the places allowed by `p` hold locally -/
def XSys.inLocal (p : Pc → Bool) (x : XSys (Logged H W)) : List (Option W) :=
  (x.sys.recs.filter fun r => p r.pc).flatMap (·.loc.inside)

/-- no guard returned by `idle` is leaked -/
def NoLeak (ls : List (XLabel W)) : Prop := ∀ i, XLabel.now (.forget i) ∉ ls

/-- a condition on every step of an execution -/
def XAlways (o : OwnerOps H W) (P : XSys H → XLabel W → Prop) : List (XLabel W) → XSys H → Prop
  | [], _ => True
  | l :: ls, x => P x l ∧ ∀ x', xstep o x l = some (.ok x') → XAlways o P ls x'

/-- as `Undisturbed`; the loads of writes may be outdated, those of reactivations not (a reactivation ordered after the
last refresh sees its phase); the owner may write to the merged histogram and reset it, but not drop it -/
def XUndisturbed (x : XSys H) : XLabel W → Prop
  | .now l => Undisturbed x.sys l
  | .late (.wakePhase _) _ => False
  | .close => False
  | _ => True

/-- as `NoIdleInGap` -/
def XNoIdleInGap (x : XSys H) : XLabel W → Prop
  | .now l => NoIdleInGap x.sys l
  | _ => True

/-- the refresh in progress can go on to its end by the reader's own steps alone: it returns, or panics -/
def XFinishes (o : OwnerOps H W) (x : XSys H) : Prop :=
  ∃ ls : List (Label W), (∀ l ∈ ls, l.reader = true) ∧
    ((∃ y, xexec o (ls.map .now) x = some (.ok y) ∧ y.sys.reader = .out) ∨
      ∃ p, xexec o (ls.map .now) x = some (.error p))

/-- forget what is inside -/
def Sys.map {K : Type} (f : H → K) (s : Sys H) : Sys K :=
  { merged := f s.merged, chan := s.chan.map f, recorders := s.recorders, phase := s.phase, lock := s.lock
    recs := s.recs.map fun r => { loc := f r.loc, lastPhase := r.lastPhase, pc := r.pc }, reader := s.reader }

/-- forget what is inside -/
def XSys.map {K : Type} (f : H → K) (x : XSys H) : XSys K := { sys := x.sys.map f, closed := x.closed }

end Hdr.Sync
