import Verif.Proofs.SyncExt
import Verif.Proofs.SyncHist
import Mathlib.Data.List.ReduceOption

/-!
# Outdated loads, an active owner, a dropped `SyncHistogram`: no panics, real histograms
-/

namespace Hdr.Sync

/-! ## Forgetting what is inside -/

section Map

variable {H K W : Type} {o : HistOps H W} {q : HistOps K W} {f : H → K}

/-- the operations agree -/
structure Hom (o : HistOps H W) (q : HistOps K W) (f : H → K) : Prop where
  fresh : ∀ h, q.fresh (f h) = f <$> o.fresh h
  add : ∀ a b, q.add (f a) (f b) = f <$> o.add a b
  write : ∀ w h, q.write w (f h) = f <$> o.write w h

/-- one recorder -/
def Rec.map (f : H → K) (r : Rec H) : Rec K := { loc := f r.loc, lastPhase := r.lastPhase, pc := r.pc }

theorem map_get {s : Sys H} {i : Nat} : (s.map f).recs[i]? = (s.recs[i]?).map (Rec.map f) := by
  simp only [Sys.map, List.getElem?_map]; rfl

theorem after_at {s : Sys H} {i : Nat} {pc : Pc} {k : Rec H → Option (M (Sys H))}
    {k' : Rec K → Option (M (Sys K))} (h : ∀ r, k' (r.map f) = after (k r) (Sys.map f)) :
    (s.map f).at i pc k' = after (s.at i pc k) (Sys.map f) := by
  unfold Sys.at
  rw [map_get]
  cases s.recs[i]? with
  | none => rfl
  | some r =>
    simp only [Option.map_some]
    by_cases hp : r.pc = pc
    · rw [if_pos hp, if_pos (show (r.map f).pc = pc from hp)]; exact h r
    · rw [if_neg hp, if_neg (show ¬ (r.map f).pc = pc from hp)]; rfl

theorem after_bind {x : M K} {y : M H} {k : H → M (Sys H)} {k' : K → M (Sys K)}
    (hx : x = f <$> y) (hk : ∀ a, some (k' (f a)) = after (some (k a)) (Sys.map f)) :
    some (x >>= k') = after (some (y >>= k)) (Sys.map f) := by
  subst hx
  cases y with
  | error p => rfl
  | ok a => exact hk a

theorem map_receive (hom : Hom o q f) {s : Sys H} {next : Reader} :
    receive q (s.map f) next = after (receive o s next) (Sys.map f) := by
  unfold receive
  simp only [Sys.map]
  cases s.chan with
  | nil => rfl
  | cons h rest => exact after_bind (hom.add _ _) fun a => rfl

theorem map_noMore {s : Sys H} {next : Reader} : noMore (s.map f) next = after (noMore s next) (Sys.map f) := by
  unfold noMore
  simp only [Sys.map]
  cases s.chan <;> rfl

theorem map_step (hom : Hom o q f) {s : Sys H} {l : Label W} : step q (s.map f) l = after (step o s l) (Sys.map f) := by
  cases l with
  | write i w =>
    exact after_at fun r => after_bind (hom.write _ _) fun a => by
      simp only [after, Option.map_some, M.pure_eq, M.ok_bind, Sys.put, Sys.map, List.map_set]
      rfl
  | writeSend i =>
    simp only [step, writeSend]
    rw [map_get]
    cases s.recs[i]? with
    | none => rfl
    | some r =>
      simp only [Option.map_some]
      have : (r.map f).pc = r.pc := rfl
      rw [this]
      cases r.pc with
      | send p =>
        exact after_bind (hom.fresh _) fun a => by
          simp [after, Sys.map, Sys.put, List.map_set, Rec.map]
      | _ => rfl
  | recorder =>
    simp only [step, recorder]
    by_cases hc : s.lock = none ∧ s.reader = .out
    · rw [if_pos hc, if_pos (show (s.map f).lock = none ∧ (s.map f).reader = .out from hc)]
      exact after_bind (hom.fresh _) fun a => by
        simp [after, Sys.map]
    · rw [if_neg hc, if_neg (show ¬ ((s.map f).lock = none ∧ (s.map f).reader = .out) from hc)]; rfl
  | clone i =>
    simp only [step, clone]
    rw [map_get]
    cases s.recs[i]? with
    | none => rfl
    | some r =>
      simp only [Option.map_some]
      by_cases hc : s.lock = none ∧ (r.pc = .ready ∨ r.pc = .idle)
      · rw [if_pos hc, if_pos (show (s.map f).lock = none ∧ ((r.map f).pc = .ready ∨ (r.map f).pc = .idle) from hc)]
        exact after_bind (hom.fresh _) fun a => by
          simp [after, Sys.map, Rec.map]
      · rw [if_neg hc, if_neg (show ¬ ((s.map f).lock = none ∧ ((r.map f).pc = .ready ∨ (r.map f).pc = .idle)) from hc)]
        rfl
  | drop i =>
    refine after_at fun r => ?_
    by_cases hc : s.lock = none
    · rw [if_pos hc, if_pos (show (s.map f).lock = none from hc)]
      simp only [Sys.map]
      cases subU s.recorders 1 with
      | error p => rfl
      | ok n => simp [after, Sys.map, Sys.put, List.map_set, Rec.map, bind, Except.bind, pure, Except.pure]
    · rw [if_neg hc, if_neg (show ¬ (s.map f).lock = none from hc)]; rfl
  | dropSend i =>
    exact after_at fun r => after_bind (hom.fresh _) fun a => by
      simp [after, Sys.map, Sys.put, List.map_set, Rec.map]
  | idle i =>
    refine after_at fun r => ?_
    by_cases hc : s.lock = none
    · rw [if_pos hc, if_pos (show (s.map f).lock = none from hc)]
      simp only [Sys.map]
      cases subU s.recorders 1 with
      | error p => rfl
      | ok n => simp [after, Sys.map, Sys.put, List.map_set, Rec.map, bind, Except.bind, pure, Except.pure]
    · rw [if_neg hc, if_neg (show ¬ (s.map f).lock = none from hc)]; rfl
  | idlePhase i =>
    refine after_at fun r => ?_
    by_cases hc : s.phase ≠ r.lastPhase
    · rw [if_pos hc, if_pos (show (s.map f).phase ≠ (r.map f).lastPhase from hc)]
      simp [after, Sys.map, Sys.put, List.map_set, Rec.map, pure, Except.pure, bind, Except.bind]
    · rw [if_neg hc, if_neg (show ¬ (s.map f).phase ≠ (r.map f).lastPhase from hc)]
      simp [after, Sys.map, Sys.put, List.map_set, Rec.map, pure, Except.pure, bind, Except.bind]
  | idleSend i =>
    simp only [step, idleSend]
    rw [map_get]
    cases s.recs[i]? with
    | none => rfl
    | some r =>
      simp only [Option.map_some]
      have : (r.map f).pc = r.pc := rfl
      rw [this]
      cases r.pc with
      | idleSend p =>
        exact after_bind (hom.fresh _) fun a => by
          simp [after, Sys.map, Sys.put, List.map_set, Rec.map]
      | _ => rfl
  | wake i =>
    refine after_at fun r => ?_
    by_cases hc : s.lock = none
    · rw [if_pos hc, if_pos (show (s.map f).lock = none from hc)]
      simp [after, Sys.map, Sys.put, List.map_set, Rec.map, pure, Except.pure, bind, Except.bind]
    · rw [if_neg hc, if_neg (show ¬ (s.map f).lock = none from hc)]; rfl
  | wakePhase i =>
    refine after_at fun r => ?_
    simp [after, Sys.map, Sys.put, List.map_set, Rec.map, pure, Except.pure, bind, Except.bind]
  | forget i =>
    refine after_at fun r => ?_
    simp [after, Sys.map, Sys.put, List.map_set, Rec.map, pure, Except.pure, bind, Except.bind]
  | start t =>
    simp only [step, start, Sys.map]
    cases s.reader <;> rfl
  | drain =>
    simp only [step, drain]
    have : (s.map f).reader = s.reader := rfl
    rw [this]
    cases s.reader <;> first | exact map_receive hom | rfl
  | drainEnd =>
    simp only [step, drainEnd]
    have : (s.map f).reader = s.reader := rfl
    rw [this]
    cases s.reader <;> first | exact map_noMore | rfl
  | count =>
    simp only [step, count]
    have : (s.map f).reader = s.reader := rfl
    rw [this]
    cases s.reader with
    | count t =>
      by_cases hc : s.lock = none
      · simp only [if_pos hc, if_pos (show (s.map f).lock = none from hc)]; rfl
      · simp only [if_neg hc, if_neg (show ¬ (s.map f).lock = none from hc)]; rfl
    | _ => rfl
  | bump =>
    simp only [step, bump, Sys.map]
    cases s.reader <;> rfl
  | recv =>
    simp only [step, recv]
    have : (s.map f).reader = s.reader := rfl
    rw [this]
    cases s.reader with
    | wait t n k =>
      by_cases hc : k < n
      · simp only [if_pos hc]; exact map_receive hom
      · simp only [if_neg hc]; rfl
    | _ => rfl
  | timeout =>
    simp only [step, timeout, Sys.map]
    cases s.reader with
    | wait t n k =>
      cases t with
      | false => rfl
      | true =>
        by_cases hc : k < n
        · simp only [if_pos hc]; rfl
        · simp only [if_neg hc]; rfl
    | _ => rfl
  | waitEnd =>
    simp only [step, waitEnd, Sys.map]
    cases s.reader with
    | wait t n k =>
      by_cases hc : k < n
      · simp only [if_pos hc]; rfl
      · simp only [if_neg hc]; rfl
    | _ => rfl
  | finalRecv =>
    simp only [step, finalRecv]
    have : (s.map f).reader = s.reader := rfl
    rw [this]
    cases s.reader <;> first | exact map_receive hom | rfl
  | finalEnd =>
    simp only [step, finalEnd]
    have : (s.map f).reader = s.reader := rfl
    rw [this]
    cases s.reader <;> first | exact map_noMore | rfl

theorem after_after {A B C : Type} {x : Option (M A)} {g : A → B} {k : B → C} :
    after (after x g) k = after x (k ∘ g) := by
  cases x with
  | none => rfl
  | some m => cases m <;> rfl

theorem after_congr {A B : Type} {x : Option (M A)} {g k : A → B} (h : ∀ a, g a = k a) : after x g = after x k := by
  rw [funext h]

theorem map_late (hom : Hom o q f) {s : Sys H} {l : Label W} {p : Nat} :
    lateStep q (s.map f) l p = after (lateStep o s l p) (Sys.map f) := by
  unfold lateStep
  cases l.loads with
  | none => rfl
  | some i =>
    dsimp only
    rw [map_get]
    cases s.recs[i]? with
    | none => rfl
    | some r =>
      simp only [Option.map_some]
      by_cases hc : r.lastPhase ≤ p ∧ p < s.phase
      · rw [if_pos hc, if_pos (show (r.map f).lastPhase ≤ p ∧ p < (s.map f).phase from hc)]
        have := map_step hom (s := { s with phase := p }) (l := l)
        rw [show ({ (s.map f) with phase := p } : Sys K) = Sys.map f { s with phase := p } from rfl, this, after_after,
          after_after]
        exact after_congr fun a => rfl
      · rw [if_neg hc, if_neg (show ¬ ((r.map f).lastPhase ≤ p ∧ p < (s.map f).phase) from hc)]; rfl

end Map

section MapX

variable {H K W : Type} {o : OwnerOps H W} {q : OwnerOps K W} {f : H → K}

/-- the operations agree -/
structure XHom (o : OwnerOps H W) (q : OwnerOps K W) (f : H → K) : Prop extends Hom o.toHistOps q.toHistOps f where
  reset : ∀ h, q.reset (f h) = f <$> o.reset h

theorem map_deliver {x : XSys H} {t : Sys H} : (x.map f).deliver (t.map f) = (x.deliver t).map f := by
  unfold XSys.deliver XSys.map
  cases x.closed <;> rfl

theorem map_owner {x : XSys H} {g : H → M H} {k : K → M K} (h : ∀ a, k (f a) = f <$> g a) :
    (x.map f).owner k = after (x.owner g) (XSys.map f) := by
  unfold XSys.owner
  by_cases hc : x.closed = false ∧ x.sys.reader = .out
  · rw [if_pos hc, if_pos (show (x.map f).closed = false ∧ (x.map f).sys.reader = .out from hc)]
    rw [show (x.map f).sys.merged = f x.sys.merged from rfl, h]
    cases g x.sys.merged <;> rfl
  · rw [if_neg hc, if_neg (show ¬ ((x.map f).closed = false ∧ (x.map f).sys.reader = .out) from hc)]; rfl

theorem map_xstep (hom : XHom o q f) {x : XSys H} {l : XLabel W} :
    xstep q (x.map f) l = after (xstep o x l) (XSys.map f) := by
  cases l with
  | now l =>
    simp only [xstep]
    by_cases hc : x.closed = true ∧ l.needsOwner = true
    · rw [if_pos hc, if_pos (show (x.map f).closed = true ∧ l.needsOwner = true from hc)]; rfl
    · rw [if_neg hc, if_neg (show ¬ ((x.map f).closed = true ∧ l.needsOwner = true) from hc)]
      rw [show (x.map f).sys = x.sys.map f from rfl, map_step hom.toHom, after_after, after_after]
      exact after_congr fun a => map_deliver
  | late l p =>
    simp only [xstep]
    rw [show (x.map f).sys = x.sys.map f from rfl, map_late hom.toHom, after_after, after_after]
    exact after_congr fun a => map_deliver
  | own w => exact map_owner (hom.write w)
  | reset => exact map_owner hom.reset
  | close =>
    simp only [xstep]
    by_cases hc : x.closed = false ∧ x.sys.reader = .out
    · rw [if_pos hc, if_pos (show (x.map f).closed = false ∧ (x.map f).sys.reader = .out from hc)]; rfl
    · rw [if_neg hc, if_neg (show ¬ ((x.map f).closed = false ∧ (x.map f).sys.reader = .out) from hc)]; rfl

theorem map_xexec (hom : XHom o q f) {ls : List (XLabel W)} {x : XSys H} :
    xexec q ls (x.map f) = after (xexec o ls x) (XSys.map f) := by
  induction ls generalizing x with
  | nil => rfl
  | cons l ls ih =>
    simp only [xexec]
    rw [map_xstep hom]
    cases xstep o x l with
    | none => rfl
    | some y =>
      cases y with
      | error p => rfl
      | ok t => exact ih

/-- the lists do not matter -/
theorem logged_hom : XHom o.logged o Logged.hist where
  fresh h := by simp only [OwnerOps.logged]; cases o.fresh h.hist <;> rfl
  add a b := by simp only [OwnerOps.logged]; cases o.add a.hist b.hist <;> rfl
  write w h := by simp only [OwnerOps.logged]; cases o.write w h.hist <;> rfl
  reset h := by simp only [OwnerOps.logged]; cases o.reset h.hist <;> rfl

end MapX

/-! ## No panics -/

variable {H W : Type} {o : OwnerOps H W}

/-- merged histograms satisfying `Pm` and other histograms satisfying `Pl` work without panics -/
structure XFine (o : OwnerOps H W) (okW : W → Prop) (Pm Pl : H → Prop) : Prop extends Fine o.toHistOps okW Pm Pl where
  own : ∀ w h, okW w → Pm h → ∃ x, o.write w h = .ok x ∧ Pm x
  reset : ∀ h, Pm h → ∃ x, o.reset h = .ok x ∧ Pm x

/-- the writes are allowed, and no guard is leaked -/
def okX (okW : W → Prop) : XLabel W → Prop
  | .now (.forget _) => False
  | .now l | .late l _ => okLabel okW l
  | .own w => okW w
  | _ => True

/-- the recorder count is right -/
def Counted (s : Sys H) : Prop := s.recorders = sumR countOf s.recs

theorem counted_step {o : HistOps H W} {s t : Sys H} {l : Label W} (N : Counted s) (nf : NotForget s l)
    (st : Step o s l t) : Counted t :=
  Nat.le_antisymm (count_le_step N.le st) (count_ge_step N.ge nf st)

theorem okX_now {okW : W → Prop} {l : Label W} (h : okX okW (.now l)) (s : Sys H) : okLabel okW l ∧ NotForget s l := by
  cases l <;> first | exact ⟨h, trivial⟩ | exact h.elim

theorem okX_late {okW : W → Prop} {l : Label W} {p i : Nat} (h : okX okW (.late l p)) (hl : l.loads = some i) (s : Sys H) :
    okLabel okW l ∧ NotForget s l := by
  cases l <;> first | exact ⟨h, trivial⟩ | cases hl

theorem deliver_all {Pm Pl : H → Prop} {x : XSys H} {t : Sys H} (A : AllP Pm Pl t ∧ Counted t) :
    AllP Pm Pl (x.deliver t).sys ∧ Counted (x.deliver t).sys := by
  unfold XSys.deliver
  dsimp only
  split
  · exact ⟨⟨A.1.1, by simp, A.1.2.2⟩, A.2⟩
  · exact A

theorem xfine_ok {okW : W → Prop} {Pm Pl : H → Prop} (F : XFine o okW Pm Pl) {x x' : XSys H} {l : XLabel W}
    (A : AllP Pm Pl x.sys ∧ Counted x.sys) (hl : okX okW l) (st : XStep o x l x') :
    AllP Pm Pl x'.sys ∧ Counted x'.sys := by
  cases st with
  | now l t hn st =>
    have := okX_now hl x.sys
    exact deliver_all ⟨fine_ok F.toFine A.1 this.1 st, counted_step A.2 this.2 st⟩
  | late l p i r t hi hr hp hq st =>
    have := okX_late hl hi { x.sys with phase := p }
    have h1 := fine_ok F.toFine (by exact A.1) this.1 st
    have h2 := counted_step (by exact A.2) this.2 st
    exact deliver_all (t := { t with phase := x.sys.phase }) ⟨h1, h2⟩
  | own w m hc hr hw =>
    obtain ⟨y, e, hy⟩ := F.own w x.sys.merged hl A.1.1
    rw [e] at hw; cases hw
    exact ⟨⟨hy, A.1.2.1, A.1.2.2⟩, A.2⟩
  | reset m hc hr hw =>
    obtain ⟨y, e, hy⟩ := F.reset x.sys.merged A.1.1
    rw [e] at hw; cases hw
    exact ⟨⟨hy, A.1.2.1, A.1.2.2⟩, A.2⟩
  | close => exact ⟨⟨A.1.1, by simp, A.1.2.2⟩, A.2⟩

theorem xfine_safe {okW : W → Prop} {Pm Pl : H → Prop} (F : XFine o okW Pm Pl) {x : XSys H} {l : XLabel W} {p : Panic}
    (A : AllP Pm Pl x.sys ∧ Counted x.sys) (hl : okX okW l) : xstep o x l ≠ some (.error p) := by
  intro e
  cases l with
  | now l =>
    simp only [xstep] at e
    split at e
    · cases e
    · exact fine_safe F.toFine A.1 A.2 (okX_now hl x.sys).1 (after_error e)
  | late l q =>
    obtain ⟨i, r, hi, -, -, -, h⟩ := late_some (after_error e)
    exact fine_safe F.toFine (s := { x.sys with phase := q }) A.1 A.2 (okX_late hl hi x.sys).1 (after_error h)
  | own w =>
    obtain ⟨hc, hr, h⟩ := owner_some e
    obtain ⟨y, ey, -⟩ := F.own w x.sys.merged hl A.1.1
    rw [ey] at h; cases h
  | reset =>
    obtain ⟨hc, hr, h⟩ := owner_some e
    obtain ⟨y, ey, -⟩ := F.reset x.sys.merged A.1.1
    rw [ey] at h; cases h
  | close =>
    simp only [xstep] at e
    split at e <;> cases e

theorem xfine_exec {okW : W → Prop} {Pm Pl : H → Prop} (F : XFine o okW Pm Pl) {ls : List (XLabel W)} {x : XSys H}
    (A : AllP Pm Pl x.sys ∧ Counted x.sys) (hl : ∀ l ∈ ls, okX okW l) :
    xexec o ls x = none ∨ ∃ x', xexec o ls x = some (.ok x') ∧ AllP Pm Pl x'.sys ∧ Counted x'.sys := by
  induction ls generalizing x with
  | nil => exact Or.inr ⟨x, rfl, A⟩
  | cons l ls ih =>
    have hl1 := hl l (by simp)
    simp only [xexec]
    cases e : xstep o x l with
    | none => exact Or.inl rfl
    | some y =>
      cases y with
      | error p => exact absurd e (xfine_safe F A hl1)
      | ok t => exact ih (xfine_ok F A hl1 (xstep_ok e)) (fun l' h' => hl l' (by simp [h']))

/-! ## The real histograms -/

variable {T : CounterTy} {fp : Fp}

/-- the initial contents, unless taken out -/
def baseOf (h0 : Hist T) (inside : List (Option (Write T))) (j : Nat) : Nat :=
  if inside.any Option.isNone then h0.counts.getD j 0 else 0

/-- the merged histogram is as its list says -/
def MergedOk (fp : Fp) (h0 : Hist T) (x : Logged (Hist T) (Write T)) : Prop :=
  Holds fp h0 (baseOf h0 x.inside) (x.hist, x.inside.reduceOption)

/-- a local histogram is as its list says -/
def LocalOk (fp : Fp) (h0 : Hist T) (x : Logged (Hist T) (Write T)) : Prop :=
  Local fp h0 (x.hist, x.inside.reduceOption) ∧ x.inside.any Option.isNone = false

theorem traced_fresh_ok {o : HistOps H W} {p y : H × List W} (e : o.traced.fresh p = .ok y) :
    o.fresh p.1 = .ok y.1 ∧ y.2 = [] := by
  simp only [HistOps.traced] at e
  rw [M.bind_eq_ok] at e
  obtain ⟨x, h, e⟩ := e
  cases e; exact ⟨h, rfl⟩

theorem traced_add_ok {o : HistOps H W} {m p y : H × List W} (e : o.traced.add m p = .ok y) :
    o.add m.1 p.1 = .ok y.1 ∧ y.2 = m.2 ++ p.2 := by
  simp only [HistOps.traced] at e
  rw [M.bind_eq_ok] at e
  obtain ⟨x, h, e⟩ := e
  cases e; exact ⟨h, rfl⟩

theorem traced_write_ok {o : HistOps H W} {w : W} {p y : H × List W} (e : o.traced.write w p = .ok y) :
    o.write w p.1 = .ok y.1 ∧ y.2 = p.2 ++ [w] := by
  simp only [HistOps.traced] at e
  rw [M.bind_eq_ok] at e
  obtain ⟨x, h, e⟩ := e
  cases e; exact ⟨h, rfl⟩

theorem holds_reset {h0 : Hist T} {base : Nat → Nat} {x : Hist T × List (Write T)} (h : Holds fp h0 base x) :
    Holds fp h0 (fun _ => 0) (x.1.reset, []) where
  wf := h.wf.reset
  cfg := ⟨h.cfg.auto, h.cfg.low, h.cfg.sig, h.cfg.um, h.cfg.mag⟩
  len := by simpa [Hist.reset, Hist.clear, Hist.resetMax, Hist.resetMin] using h.len
  high := h.high
  counts j := by
    have : x.1.reset.counts = x.1.counts.map fun _ => 0 := rfl
    simp only [this, samplesOf, Hist.hits]
    simp only [List.getD_eq_getElem?_getD, List.getElem?_map]
    cases x.1.counts[j]? <;> simp

theorem logged_fine {h0 : Hist T} (W : WF fp h0) :
    XFine (OwnerOps.concrete fp T).logged (Write.Plain fp h0) (MergedOk fp h0) (LocalOk fp h0) where
  freshM x hx := by
    obtain ⟨y, e, L⟩ := fresh_fine W hx
    obtain ⟨e1, e2⟩ := traced_fresh_ok e
    refine ⟨{ hist := y.1, inside := [], taken := [] }, ?_, ?_, by simp⟩
    · simp only [OwnerOps.logged]
      rw [show (OwnerOps.concrete fp T).fresh x.hist = .ok y.1 from e1]; rfl
    · rw [show y = (y.1, []) from Prod.ext rfl e2] at L
      exact L
  freshL x hx := by
    obtain ⟨y, e, L⟩ := fresh_fine W hx.1.1
    obtain ⟨e1, e2⟩ := traced_fresh_ok e
    refine ⟨{ hist := y.1, inside := [], taken := [] }, ?_, ?_, by simp⟩
    · simp only [OwnerOps.logged]
      rw [show (OwnerOps.concrete fp T).fresh x.hist = .ok y.1 from e1]; rfl
    · rw [show y = (y.1, []) from Prod.ext rfl e2] at L
      exact L
  add m x hm hx := by
    obtain ⟨y, e, L⟩ := add_fine W _ _ _ hm hx.1
    obtain ⟨e1, e2⟩ := traced_add_ok e
    refine ⟨{ hist := y.1, inside := m.inside ++ x.inside, taken := m.taken ++ x.taken }, ?_, ?_⟩
    · simp only [OwnerOps.logged]
      rw [show (OwnerOps.concrete fp T).add m.hist x.hist = .ok y.1 from e1]; rfl
    · rw [show y = (y.1, m.inside.reduceOption ++ x.inside.reduceOption) from Prod.ext rfl e2,
        ← List.reduceOption_append] at L
      have hb : baseOf h0 (m.inside ++ x.inside) = baseOf h0 m.inside := by
        funext j; unfold baseOf
        rw [List.any_append, hx.2, Bool.or_false]
      unfold MergedOk
      dsimp only
      rw [hb]; exact L
  write w x hw hx := by
    obtain ⟨y, e, L⟩ := write_fine W w _ hw hx.1
    obtain ⟨e1, e2⟩ := traced_write_ok e
    refine ⟨{ x with hist := y.1, inside := x.inside ++ [some w] }, ?_, ?_, ?_⟩
    · simp only [OwnerOps.logged]
      rw [show (OwnerOps.concrete fp T).write w x.hist = .ok y.1 from e1]; rfl
    · rw [show y = (y.1, x.inside.reduceOption ++ [w]) from Prod.ext rfl e2] at L
      dsimp only
      rw [List.reduceOption_append]
      exact L
    · dsimp only
      rw [List.any_append, hx.2]; rfl
  own w x hw hx := by
    obtain ⟨y, e, L, -⟩ := write_keeps (b := false) W w _ hw.counted (fun _ => hw) ⟨hx, fun h => by cases h⟩
    obtain ⟨e1, e2⟩ := traced_write_ok e
    refine ⟨{ x with hist := y.1, inside := x.inside ++ [some w] }, ?_, ?_⟩
    · simp only [OwnerOps.logged]
      rw [show (OwnerOps.concrete fp T).write w x.hist = .ok y.1 from e1]; rfl
    · rw [show y = (y.1, x.inside.reduceOption ++ [w]) from Prod.ext rfl e2] at L
      have hb : baseOf h0 (x.inside ++ [some w]) = baseOf h0 x.inside := by
        funext j; unfold baseOf
        rw [show (x.inside ++ [some w]).any Option.isNone = x.inside.any Option.isNone by
          rw [List.any_append]; exact Bool.or_false _]
      unfold MergedOk
      dsimp only
      rw [hb, List.reduceOption_append]; exact L
  reset x hx := by
    refine ⟨{ hist := x.hist.reset, inside := [], taken := x.taken ++ x.inside }, rfl, ?_⟩
    have := holds_reset hx
    have hb : baseOf h0 [] = fun _ => 0 := by funext j; simp [baseOf]
    unfold MergedOk
    dsimp only
    rw [hb]; exact this

theorem safe_xfine {h0 : Hist T} (W : WF fp h0) :
    XFine (OwnerOps.concrete fp T) (Write.Safe fp h0) (Base fp h0 false) (Base fp h0 true) where
  freshM _ hh := base_fresh W hh
  freshL _ hh := base_fresh W hh
  add _ _ hm hh := base_add W hm hh
  write _ _ hw hh := base_write W hw hh
  own _ _ hw hh := base_write W hw hh
  reset h hh := by
    refine ⟨h.reset, rfl, hh.wf.reset, ⟨hh.cfg.auto, hh.cfg.low, hh.cfg.sig, hh.cfg.um, hh.cfg.mag⟩, ?_, hh.high,
      fun h => by cases h⟩
    simpa [Hist.reset, Hist.clear, Hist.resetMax, Hist.resetMin] using hh.len

theorem mergedOk_init {h0 : Hist T} (W : WF fp h0) :
    MergedOk fp h0 { hist := h0, inside := [none], taken := [] } := by
  have hb : baseOf h0 [none] = fun j => h0.counts.getD j 0 := by funext j; simp [baseOf]
  unfold MergedOk
  dsimp only
  rw [hb]
  exact holds_init W

/-! ## The lock -/

/-- whoever holds the lock is inside a critical section -/
def HeldInv (s : Sys H) : Prop := ∀ i, s.lock = some i → ∃ r, s.recs[i]? = some r ∧ r.pc.holds = true

theorem held_put {s t : Sys H} {i : Nat} {r a : Rec H} (I : HeldInv s) (hr : s.recs[i]? = some r)
    (h2 : t.recs = s.recs.set i a) (h3 : t.lock = s.lock) (h : r.pc.holds = true → a.pc.holds = true) : HeldInv t := by
  intro j hj
  rw [h3] at hj
  obtain ⟨x, hx, hh⟩ := I j hj
  rw [h2, List.getElem?_set]
  split
  · subst_vars
    rw [hr] at hx; cases hx
    rw [if_pos (List.getElem?_eq_some_iff.mp hr).1]
    exact ⟨a, rfl, h hh⟩
  · exact ⟨x, hx, hh⟩

theorem held_take {s t : Sys H} {i : Nat} {r a : Rec H} (hr : s.recs[i]? = some r)
    (h2 : t.recs = s.recs.set i a) (h3 : t.lock = some i) (h : a.pc.holds = true) : HeldInv t := by
  intro j hj
  rw [h3] at hj; cases hj
  rw [h2, List.getElem?_set_self (List.getElem?_eq_some_iff.mp hr).1]
  exact ⟨a, rfl, h⟩

theorem held_append {s t : Sys H} {a : Rec H} (I : HeldInv s) (h2 : t.recs = s.recs ++ [a]) (h3 : t.lock = s.lock) :
    HeldInv t := by
  intro j hj
  rw [h3] at hj
  obtain ⟨x, hx, hh⟩ := I j hj
  rw [h2, List.getElem?_append_left (List.getElem?_eq_some_iff.mp hx).1]
  exact ⟨x, hx, hh⟩

theorem held_step {o : HistOps H W} {s s' : Sys H} {l : Label W} (I : HeldInv s) (st : Step o s l s') : HeldInv s' := by
  cases st with
  | write i w r l hr hp hw => exact held_put I hr rfl rfl fun h => by rw [hp] at h; cases h
  | writeSend i r p f hr hp hf => exact held_put I hr rfl rfl fun h => by rw [hp] at h; cases h
  | recorder f hl hrd hf => exact held_append I rfl rfl
  | clone i r f hr hl hp hf => exact held_append I rfl rfl
  | drop i r hr hp hl h1 => exact held_take hr rfl rfl rfl
  | idle i r hr hp hl h1 => exact held_take hr rfl rfl rfl
  | wake i r hr hp hl => exact held_take hr rfl rfl rfl
  | idlePhaseNew i r hr hp hne => exact held_put I hr rfl rfl fun _ => rfl
  | forget i r hr hp => exact held_put I hr rfl rfl fun h => by rw [hp] at h; cases h
  | dropSend | idlePhaseOld | idleSend | wakePhase => intro j hj; cases hj
  | start | drain | drainEnd | count | bump | recv | timeout | waitEnd | finalRecv | finalEnd => exact I

theorem held_xstep {x x' : XSys H} {l : XLabel W} (I : HeldInv x.sys) (st : XStep o x l x') : HeldInv x'.sys := by
  have del : ∀ t : Sys H, HeldInv t → HeldInv (x.deliver t).sys := by
    intro t ht; unfold XSys.deliver; dsimp only; split <;> exact ht
  cases st with
  | now l t hn st => exact del _ (held_step I st)
  | late l p i r t hi hr hp hq st => have := held_step (by exact I) st; exact del _ this
  | own | reset | close => exact I

theorem held_xexec {h : H} {ls : List (XLabel W)} {x : XSys H} (e : xexec o ls (XSys.init h) = some (.ok x)) :
    HeldInv x.sys :=
  xexec_inv (P := fun _ => True) (I := fun x => HeldInv x.sys) (fun _ _ _ I _ st => held_xstep I st)
    (fun i hi => by cases hi) (fun _ _ => trivial) e

/-- from an execution without lists to one with lists -/
theorem lift_xexec {h : H} {ls : List (XLabel W)} {y : M (XSys H)} (e : xexec o ls (XSys.init h) = some y) :
    ∃ z, xexec o.logged ls (XSys.start h) = some z ∧ after (some z) (XSys.map Logged.hist) = some y := by
  have := map_xexec (o := o.logged) (q := o) logged_hom (ls := ls) (x := XSys.start h)
  rw [show (XSys.start h : XSys (Logged H W)).map Logged.hist = XSys.init h from rfl, e] at this
  cases h' : xexec o.logged ls (XSys.start h) with
  | none => rw [h'] at this; cases this
  | some z => rw [h'] at this; exact ⟨z, rfl, this.symm⟩

end Hdr.Sync
