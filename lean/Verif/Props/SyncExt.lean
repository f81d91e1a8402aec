import Verif.Proofs.SyncExtSafe
import Verif.Proofs.SyncExtFresh
import Verif.Props.Sync

/-!
# Concurrent recording with outdated loads, an active owner and a dropped `SyncHistogram`: C65, C66
-/

namespace Hdr

open Hdr.Sync

variable {H W : Type} {o : OwnerOps H W}

/-- run an execution and check a decidable fact about the state it leads to -/
theorem xexecThen {ls : List (XLabel W)} {s0 : XSys H} {P : XSys H → Prop} [DecidablePred P]
    (h : (match xexec o ls s0 with
      | some (.ok s) => decide (P s)
      | _ => false) = true) : ∃ s, xexec o ls s0 = some (.ok s) ∧ P s := by
  split at h
  · rename_i s e; exact ⟨s, e, of_decide_eq_true h⟩
  · cases h

/-- the same, of two executions one after the other -/
theorem xexecThen2 {l1 l2 : List (XLabel W)} {s0 : XSys H} {P : XSys H → XSys H → Prop} [∀ s1 s2, Decidable (P s1 s2)]
    (h : (match xexec o l1 s0 with
      | some (.ok s1) =>
        match xexec o l2 s1 with
        | some (.ok s2) => decide (P s1 s2)
        | _ => false
      | _ => false) = true) :
    ∃ s1 s2, xexec o l1 s0 = some (.ok s1) ∧ xexec o l2 s1 = some (.ok s2) ∧ P s1 s2 := by
  split at h
  · rename_i s1 e1
    split at h
    · rename_i s2 e2; exact ⟨s1, s2, e1, e2, of_decide_eq_true h⟩
    · cases h
  · cases h

/-! ## C65 -/

/-- The lists added to the histograms do not influence an execution. -/
theorem C65_ghost (ls : List (XLabel W)) (x : XSys (Logged H W)) :
    xexec o ls (x.map Logged.hist) = after (xexec o.logged ls x) (XSys.map Logged.hist) := map_xexec logged_hom

/-- C65 (1): whatever the interleaving, whatever outdated phases the recorders see, and whatever the owner records into
the merged histogram or resets between refreshes: what the `SyncHistogram` started with and every write made so far is in
exactly one place: in the merged histogram, among what has been taken out of it by resets, in the channel, or in the local
histogram of one live recorder. -/
theorem C65_exactly_once (h : H) (ls : List (XLabel W)) (x : XSys (Logged H W)) (hc : XLabel.close ∉ ls)
    (e : xexec o.logged ls (XSys.start h) = some (.ok x)) :
    (x.sys.merged.inside ++ x.sys.merged.taken ++ x.inChan ++ x.inLocal Pc.live).Perm
      (none :: (xwrites ls).map some) := by
  classical
  rw [List.perm_iff_count]
  intro w
  rw [List.count_append, List.count_append, List.count_append]
  exact xconserved hc e w

/-- a refresh; in the meantime recorder 0 writes twice, seeing an outdated phase the first time; then the owner resets the
merged histogram, records a value, and refreshes again -/
def extDemo : List (XLabel (Write .u8)) :=
  [.now .recorder, .now (.write 0 (.recordN 5 1)), .now (.start false), .now .drainEnd, .now .count, .now .bump,
   .late (.write 0 (.recordN 3 1)) 0, .now (.write 0 (.recordN 3 1)), .now (.writeSend 0), .now .recv, .now .waitEnd,
   .now .finalEnd, .reset, .own (.recordN 17 1), .now (.write 0 (.recordN 9 1)), .now (.drop 0), .now (.dropSend 0)]

/-- the second refresh -/
def extDemoEnd : List (XLabel (Write .u8)) :=
  [.now .drain, .now .drainEnd, .now .count, .now .bump, .now .waitEnd, .now .finalEnd]

example : ∃ x, xexec (OwnerOps.concrete Fp.ideal .u8).logged extDemo (XSys.start demo) = some (.ok x) ∧
    (x.sys.merged.inside.length = 1 ∧ x.sys.merged.taken.length = 4 ∧ x.inChan.length = 1 ∧
      (xwrites extDemo).length = 5) :=
  xexecThen (by decide +kernel)

theorem xdropped_step {x x' : XSys H} {l : XLabel W}
    (I : (∀ r ∈ x.sys.recs, r.pc = .gone) ∧ (x.sys.reader = .out → x.sys.chan = []))
    (hl : l ≠ .now .recorder) (st : XStep o x l x') :
    (∀ r ∈ x'.sys.recs, r.pc = .gone) ∧ (x'.sys.reader = .out → x'.sys.chan = []) := by
  have del : ∀ t : Sys H, ((∀ r ∈ t.recs, r.pc = .gone) ∧ (t.reader = .out → t.chan = [])) →
      (∀ r ∈ (x.deliver t).sys.recs, r.pc = .gone) ∧ ((x.deliver t).sys.reader = .out → (x.deliver t).sys.chan = []) := by
    intro t ht
    unfold XSys.deliver; dsimp only; split
    · exact ⟨ht.1, fun _ => rfl⟩
    · exact ht
  cases st with
  | now l t hn st => exact del _ (dropped_step I (fun h => hl (by rw [h])) st)
  | late l p i r t hi hr hp hq st =>
    have hne : l ≠ .recorder := by intro h; subst h; cases hi
    have := dropped_step (by exact I) hne st
    exact del _ this
  | own | reset => exact I
  | close => exact ⟨I.1, fun _ => rfl⟩

/-- C65 (2): if all recorders are dropped when a refresh begins, and no new one is made, then when it has returned the
merged histogram and what has been taken out of it by resets are together what the `SyncHistogram` started with and every
write ever made: the intervals between resets share out the writes, none is lost and none is in two of them. -/
theorem C65_intervals (h : H) (ls1 ls2 : List (XLabel W)) (t : Bool) (x1 x2 : XSys (Logged H W))
    (hc : XLabel.close ∉ ls1 ++ ls2)
    (e1 : xexec o.logged ls1 (XSys.start h) = some (.ok x1)) (hgone : ∀ r ∈ x1.sys.recs, r.pc = .gone)
    (e2 : xexec o.logged (.now (.start t) :: ls2) x1 = some (.ok x2)) (hnew : XLabel.now .recorder ∉ ls2)
    (hout : x2.sys.reader = .out) :
    (x2.sys.merged.inside ++ x2.sys.merged.taken).Perm (none :: (xwrites (ls1 ++ ls2)).map some) := by
  have e := C65_exactly_once h (ls1 ++ .now (.start t) :: ls2) x2 (by simp at hc ⊢; exact hc) (xexec_trans e1 e2)
  obtain ⟨x1', e3, e4⟩ := xexec_cons e2
  have st := xstep_ok e3
  have I : (∀ r ∈ x1'.sys.recs, r.pc = .gone) ∧ (x1'.sys.reader = .out → x1'.sys.chan = []) := by
    cases st with
    | now l u hn st =>
      cases st
      unfold XSys.deliver
      dsimp only
      split
      · exact ⟨hgone, fun _ => rfl⟩
      · exact ⟨hgone, fun h => by cases h⟩
  have J := xexec_inv (P := fun l => l ≠ .now .recorder)
    (I := fun x => (∀ r ∈ x.sys.recs, r.pc = .gone) ∧ (x.sys.reader = .out → x.sys.chan = []))
    (fun s l s' I hl st => xdropped_step I hl st) I (fun l hl hc => hnew (hc ▸ hl)) e4
  have h1 : x2.inChan = [] := by unfold XSys.inChan; rw [J.2 hout]; rfl
  have h2 : x2.inLocal Pc.live = [] := by
    unfold XSys.inLocal
    rw [List.filter_eq_nil_iff.mpr]
    · rfl
    · intro r hr; rw [J.1 r hr]; simp [Pc.live]
  have h3 : xwrites (ls1 ++ .now (.start t) :: ls2) = xwrites (ls1 ++ ls2) := by
    clear e e1 e2 e3 e4 st I J hnew hc
    induction ls1 with
    | nil => rfl
    | cons l ls ih =>
      cases l with
      | now l => cases l <;> simp only [List.cons_append, xwrites, ih]
      | late l p => cases l <;> simp only [List.cons_append, xwrites, ih]
      | own | reset | close => simp only [List.cons_append, xwrites, ih]
  rw [h1, h2, List.append_nil, List.append_nil, h3] at e
  exact e

example : ∃ x1 x2, xexec (OwnerOps.concrete Fp.ideal .u8).logged extDemo (XSys.start demo) = some (.ok x1) ∧
    xexec (OwnerOps.concrete Fp.ideal .u8).logged (.now (.start true) :: extDemoEnd) x1 = some (.ok x2) ∧
    ((∀ r ∈ x1.sys.recs, r.pc = .gone) ∧ x2.sys.reader = .out ∧ x2.sys.merged.inside.length = 2 ∧
      x2.sys.merged.taken.length = 4 ∧ XLabel.close ∉ extDemo ++ extDemoEnd ∧ XLabel.now .recorder ∉ extDemoEnd) := by
  obtain ⟨x1, x2, e1, e2, h1, h2, h3, h4⟩ := xexecThen2
    (o := (OwnerOps.concrete Fp.ideal .u8).logged) (l1 := extDemo) (l2 := .now (.start true) :: extDemoEnd)
    (s0 := XSys.start demo)
    (P := fun x1 x2 => (∀ r ∈ x1.sys.recs, r.pc = .gone) ∧ x2.sys.reader = .out ∧ x2.sys.merged.inside.length = 2 ∧
      x2.sys.merged.taken.length = 4) (by decide +kernel)
  exact ⟨x1, x2, e1, e2, h1, h2, h3, h4, by simp [extDemo, extDemoEnd], by simp [extDemoEnd]⟩

/-- the writes of an execution only add samples, and stay clear of `u64::MAX`; no guard is leaked -/
def PlainX {T : CounterTy} (fp : Fp) (h : Hist T) (ls : List (XLabel (Write T))) : Prop :=
  (∀ w ∈ xwrites ls, w.Plain fp h) ∧ NoLeak ls

/-- the writes of an execution, which may be any that the recorders offer, stay clear of `u64::MAX`; no guard is leaked -/
def SafeX {T : CounterTy} (fp : Fp) (h : Hist T) (ls : List (XLabel (Write T))) : Prop :=
  (∀ w ∈ xwrites ls, w.Safe fp h) ∧ NoLeak ls

theorem xwrites_now {i : Nat} {w : W} {ls : List (XLabel W)} (h : XLabel.now (.write i w) ∈ ls) : w ∈ xwrites ls := by
  induction ls with
  | nil => cases h
  | cons x xs ih =>
    rcases List.mem_cons.mp h with h | h
    · subst h; simp [xwrites]
    · have := ih h
      cases x with
      | now l => cases l <;> simp [xwrites, this]
      | late l p => cases l <;> simp [xwrites, this]
      | own | reset | close => simp [xwrites, this]

theorem xwrites_late {i p : Nat} {w : W} {ls : List (XLabel W)} (h : XLabel.late (.write i w) p ∈ ls) :
    w ∈ xwrites ls := by
  induction ls with
  | nil => cases h
  | cons x xs ih =>
    rcases List.mem_cons.mp h with h | h
    · subst h; simp [xwrites]
    · have := ih h
      cases x with
      | now l => cases l <;> simp [xwrites, this]
      | late l p => cases l <;> simp [xwrites, this]
      | own | reset | close => simp [xwrites, this]

theorem xwrites_own {w : W} {ls : List (XLabel W)} (h : XLabel.own w ∈ ls) : w ∈ xwrites ls := by
  induction ls with
  | nil => cases h
  | cons x xs ih =>
    rcases List.mem_cons.mp h with h | h
    · subst h; simp [xwrites]
    · have := ih h
      cases x with
      | now l => cases l <;> simp [xwrites, this]
      | late l p => cases l <;> simp [xwrites, this]
      | own | reset | close => simp [xwrites, this]

theorem xrun_labels {okW : W → Prop} {ls : List (XLabel W)} (p : (∀ w ∈ xwrites ls, okW w) ∧ NoLeak ls) :
    ∀ l ∈ ls, okX okW l := by
  intro l hl
  cases l with
  | now l =>
    cases l with
    | write i w => exact p.1 w (xwrites_now hl)
    | forget i => exact absurd hl (p.2 i)
    | _ => trivial
  | late l q =>
    cases l with
    | write i w => exact p.1 w (xwrites_late hl)
    | _ => trivial
  | own w => exact p.1 w (xwrites_own hl)
  | reset | close => trivial

theorem plainX_safe {T : CounterTy} {fp : Fp} {h : Hist T} (R : Reachable fp T h) (ls : List (XLabel (Write T)))
    (hp : PlainX fp h ls) : xexec (OwnerOps.concrete fp T).logged ls (XSys.start h) = none ∨
      ∃ x, xexec (OwnerOps.concrete fp T).logged ls (XSys.start h) = some (.ok x) ∧
        AllP (MergedOk fp h) (LocalOk fp h) x.sys ∧ Counted x.sys :=
  xfine_exec (logged_fine R.wf) (x := XSys.start h)
    ⟨⟨mergedOk_init R.wf, by simp [XSys.start, XSys.init, Sys.init], by simp [XSys.start, XSys.init, Sys.init]⟩, rfl⟩
    (xrun_labels hp)

/-- what the `SyncHistogram` started with stays in the merged histogram unless it is reset -/
theorem start_inside {T : CounterTy} {fp : Fp} {h : Hist T} {ls : List (XLabel (Write T))}
    {g : XSys (Logged (Hist T) (Write T))} (ez : xexec (OwnerOps.concrete fp T).logged ls (XSys.start h) = some (.ok g))
    (hr : XLabel.reset ∉ ls) : none ∈ g.sys.merged.inside := by
  refine xexec_inv (P := fun l => l ≠ .reset) (I := fun x : XSys (Logged (Hist T) (Write T)) =>
    none ∈ x.sys.merged.inside) ?_ (by simp [XSys.start, XSys.init, Sys.init]) (fun l hl hc => hr (hc ▸ hl)) ez
  intro s l s' I hl st
  have del : ∀ t : Sys (Logged (Hist T) (Write T)), (s.deliver t).sys.merged = t.merged := by
    intro t; unfold XSys.deliver; dsimp only; split <;> rfl
  have key : ∀ (s t : Sys (Logged (Hist T) (Write T))) (l : Label (Write T)), none ∈ s.merged.inside →
      Step (OwnerOps.concrete fp T).logged.toHistOps s l t → none ∈ t.merged.inside := by
    intro s t l I st
    have ad : ∀ a b c : Logged (Hist T) (Write T), (OwnerOps.concrete fp T).logged.add a b = .ok c →
        c.inside = a.inside ++ b.inside := by
      intro a b c e
      simp only [OwnerOps.logged] at e
      rw [M.bind_eq_ok] at e
      obtain ⟨x, -, e⟩ := e
      cases e; rfl
    cases st with
    | drain t h rest m hrd he ha => dsimp only; rw [ad _ _ _ ha]; simp [I]
    | recv t n k h rest m hrd hk he ha => dsimp only; rw [ad _ _ _ ha]; simp [I]
    | finalRecv h rest m hrd he ha => dsimp only; rw [ad _ _ _ ha]; simp [I]
    | _ => exact I
  cases st with
  | now l t hn st => rw [del]; exact key _ _ _ I st
  | late l p i r t hi hr hp hq st => rw [del]; have := key _ _ _ (by exact I) st; exact this
  | own w m hcl hrd hw =>
    simp only [OwnerOps.logged] at hw
    rw [M.bind_eq_ok] at hw
    obtain ⟨x, -, hw⟩ := hw
    cases hw
    simp [I]
  | reset => exact absurd rfl hl
  | close => exact I

/-- C65 (3), in terms of counts: with the real histograms, after any execution whose writes stay clear of `u64::MAX`, the
merged histogram holds for every value the samples of certain of the writes, and what `h` held if it has not been reset;
these writes, with those taken out by resets, in the channel and in the recorders, are all the writes made, each once. -/
theorem C65_counts {T : CounterTy} {fp : Fp} {h : Hist T} (R : Reachable fp T h) (ls : List (XLabel (Write T)))
    (x : XSys (Hist T)) (hc : XLabel.close ∉ ls) (hp : PlainX fp h ls)
    (e : xexec (OwnerOps.concrete fp T) ls (XSys.init h) = some (.ok x)) :
    ∃ inside elsewhere : List (Option (Write T)), (inside ++ elsewhere).Perm (none :: (xwrites ls).map some) ∧
      (XLabel.reset ∉ ls → none ∈ inside) ∧
      ∀ v n, v ≤ U64MAX → HasCount h v n → HasCount x.sys.merged v
        (min ((if inside.any Option.isNone then n else 0) +
          recordedFor h (inside.reduceOption.flatMap (Write.samples h)) v) T.max) := by
  have W := R.wf
  obtain ⟨z, ez, eo⟩ := lift_xexec e
  cases z with
  | error p => cases eo
  | ok g =>
    cases eo
    have perm := C65_exactly_once h ls g hc ez
    refine ⟨g.sys.merged.inside, g.sys.merged.taken ++ (g.inChan ++ g.inLocal Pc.live), ?_, ?_, ?_⟩
    · simpa only [List.append_assoc] using perm
    · intro hr
      exact start_inside ez hr
    · intro v n hv hn
      rcases plainX_safe R ls hp with h1 | ⟨x', h1, A, -⟩
      · rw [ez] at h1; cases h1
      · rw [ez] at h1; cases h1
        have hm : Holds fp h _ _ := A.1
        change HasCount g.sys.merged.hist v _
        rw [hm.wf.hasCount_iff hv, hm.counts, hm.cfg.lidx]
        rw [W.hasCount_iff hv] at hn
        rw [W.recordedFor_eq _ hv]
        · unfold baseOf samplesOf
          rw [hn]
        · intro q hq
          obtain ⟨w, hwm, hpw⟩ := List.mem_flatMap.mp hq
          have hmem : some w ∈ g.sys.merged.inside := List.reduceOption_mem_iff.mp hwm
          have : some w ∈ none :: (xwrites ls).map some := perm.subset (by simp [hmem])
          have hw : w ∈ xwrites ls := by simpa using this
          exact samples_le W (hp.1 w hw) q hpw

example : Reachable Fp.ideal .u8 demo ∧ PlainX Fp.ideal demo (extDemo ++ .now (.start false) :: extDemoEnd) ∧
    XLabel.close ∉ extDemo ++ .now (.start false) :: extDemoEnd ∧
    (∃ x, xexec (OwnerOps.concrete Fp.ideal .u8) (extDemo ++ .now (.start false) :: extDemoEnd) (XSys.init demo) =
        some (.ok x) ∧ (x.sys.merged.countAt 5 = .ok 0 ∧ x.sys.merged.countAt 17 = .ok 1 ∧ x.sys.merged.countAt 9 = .ok 1)) ∧
    HasCount demo 5 0 := by
  refine ⟨.newWithBounds (by decide) demo_eq, ⟨?_, ?_⟩, by simp [extDemo, extDemoEnd], xexecThen (by decide +kernel),
    Or.inl (by decide)⟩
  · intro w hw
    simp [extDemo, extDemoEnd, xwrites] at hw
    rcases hw with rfl | rfl | rfl | rfl <;> exact ⟨by decide, by decide, Or.inr (by decide)⟩
  · intro i; simp [extDemo, extDemoEnd]

/-! ## C66 -/

/-- C66 (1): with any writes that stay clear of `u64::MAX` no thread ever panics, also when loads are outdated, when the
owner uses the merged histogram, and after the `SyncHistogram` has been dropped. -/
theorem C66_no_panic {T : CounterTy} {fp : Fp} {h : Hist T} (R : Reachable fp T h) (ls : List (XLabel (Write T)))
    (hp : SafeX fp h ls) (p : Panic) : xexec (OwnerOps.concrete fp T) ls (XSys.init h) ≠ some (.error p) := by
  intro e
  rcases xfine_exec (safe_xfine R.wf) (x := XSys.init h)
    ⟨⟨base_init R.wf, by simp [XSys.init, Sys.init], by simp [XSys.init, Sys.init]⟩, rfl⟩ (xrun_labels hp) with
    h1 | ⟨x', h1, -⟩
  · rw [e] at h1; cases h1
  · rw [e] at h1; cases h1

/-- the labels of the steps of recorder `i` -/
def ofRec (i : Nat) : XLabel W → Bool
  | .now (.write j _) | .now (.writeSend j) | .now (.drop j) | .now (.dropSend j) | .now (.idle j) | .now (.idlePhase j)
  | .now (.idleSend j) | .now (.wake j) | .now (.wakePhase j) => i = j
  | _ => false

theorem xexec_one {x y : XSys H} {l : XLabel W} (e : xstep o x l = some (.ok y)) : xexec o [l] x = some (.ok y) := by
  simp only [xexec, e]; rfl

theorem deliver_recs {x : XSys H} {t : Sys H} : (x.deliver t).sys.recs = t.recs := by
  unfold XSys.deliver; dsimp only; split <;> rfl

theorem deliver_lock {x : XSys H} {t : Sys H} : (x.deliver t).sys.lock = t.lock := by
  unfold XSys.deliver; dsimp only; split <;> rfl

/-- a possible step leads somewhere -/
theorem safeX_step {T : CounterTy} {fp : Fp} {h : Hist T} (R : Reachable fp T h) {ls : List (XLabel (Write T))}
    {x : XSys (Hist T)} (hp : SafeX fp h ls) (e : xexec (OwnerOps.concrete fp T) ls (XSys.init h) = some (.ok x))
    {l : XLabel (Write T)} (hl : SafeX fp h [l]) (hne : xstep (OwnerOps.concrete fp T) x l ≠ none) :
    ∃ y, xstep (OwnerOps.concrete fp T) x l = some (.ok y) ∧ SafeX fp h (ls ++ [l]) ∧
      xexec (OwnerOps.concrete fp T) (ls ++ [l]) (XSys.init h) = some (.ok y) := by
  have hpl : SafeX fp h (ls ++ [l]) := by
    have hw : xwrites (ls ++ [l]) = xwrites ls ++ xwrites [l] := by
      clear hp e
      induction ls with
      | nil => rfl
      | cons l ls ih =>
        cases l with
        | now l => cases l <;> simp only [List.cons_append, xwrites, ih]
        | late l p => cases l <;> simp only [List.cons_append, xwrites, ih]
        | own | reset | close => simp only [List.cons_append, xwrites, ih]
    refine ⟨fun w hw' => ?_, fun i hi => ?_⟩
    · rw [hw] at hw'
      rcases List.mem_append.mp hw' with h1 | h1
      · exact hp.1 w h1
      · exact hl.1 w h1
    · rcases List.mem_append.mp hi with h1 | h1
      · exact hp.2 i h1
      · exact hl.2 i h1
  cases hs : xstep (OwnerOps.concrete fp T) x l with
  | none => exact absurd hs hne
  | some y =>
    have e' := xexec_trans (l2 := [l]) e rfl
    simp only [xexec, hs] at e'
    cases y with
    | error p => exact absurd e' (C66_no_panic R _ hpl p)
    | ok y => exact ⟨y, rfl, hpl, e'⟩

/-- C66 (2), writes never wait: in every state reachable by such writes, whatever the other threads are doing (one
of them may hold the lock; a refresh may be waiting; the `SyncHistogram` may have been dropped), a call that writes
returns after at most two steps, both made by the writing thread. -/
theorem C66_write_returns {T : CounterTy} {fp : Fp} {h : Hist T} (R : Reachable fp T h) (ls : List (XLabel (Write T)))
    (x : XSys (Hist T)) (hp : SafeX fp h ls) (e : xexec (OwnerOps.concrete fp T) ls (XSys.init h) = some (.ok x))
    (i : Nat) (r : Rec (Hist T)) (hr : x.sys.recs[i]? = some r) (hready : r.pc = .ready) (w : Write T) (hw : w.Safe fp h) :
    ∃ more y r', (more = [] ∨ more = [XLabel.now (.writeSend i)]) ∧
      xexec (OwnerOps.concrete fp T) (.now (.write i w) :: more) x = some (.ok y) ∧
      y.sys.recs[i]? = some r' ∧ r'.pc = .ready := by
  have hi : i < x.sys.recs.length := (List.getElem?_eq_some_iff.mp hr).1
  obtain ⟨y, ey, hp', e'⟩ := safeX_step R hp e (l := .now (.write i w))
    ⟨by simpa [xwrites] using hw, by intro j; simp⟩ (by
      simp only [xstep, step, write, Sys.at]
      rw [if_neg (by simp [Label.needsOwner]), hr]
      dsimp only
      rw [if_pos hready]
      simp [after])
  have st := xstep_ok ey
  cases st with
  | now _ t hn st =>
    cases st with
    | write _ _ r0 l hr0 hp0 hw0 =>
      rw [hr] at hr0; cases hr0
      by_cases hc : x.sys.phase ≠ r.lastPhase
      · have hy : (x.deliver (x.sys.put i
            { r with loc := l, pc := if x.sys.phase ≠ r.lastPhase then .send x.sys.phase else .ready })).sys.recs[i]? =
              some { r with loc := l, pc := .send x.sys.phase } := by
          rw [deliver_recs]
          simp only [Sys.put]
          rw [List.getElem?_set_self hi, if_pos hc]
        obtain ⟨z, ez, -, -⟩ := safeX_step R hp' e' (l := .now (.writeSend i))
          ⟨by simp [xwrites], by intro j; simp⟩ (by
            simp only [xstep, step, writeSend]
            rw [if_neg (by simp [Label.needsOwner]), hy]
            simp [after])
        have st := xstep_ok ez
        cases st with
        | now _ t hn st =>
          cases st with
          | writeSend _ r1 p f hr1 hp1 hf =>
            refine ⟨[.now (.writeSend i)], _, { loc := f, lastPhase := p, pc := .ready }, Or.inr rfl,
              xexec_trans (l1 := [_]) (xexec_one ey) (xexec_one ez), ?_, rfl⟩
            · rw [deliver_recs]
              simp only [Sys.put]
              rw [List.getElem?_set_self]
              rw [deliver_recs]
              simpa [Sys.put] using hi
      · refine ⟨[], _, { r with loc := l, pc := .ready }, Or.inl rfl, xexec_one ey, ?_, rfl⟩
        rw [deliver_recs]
        simp only [Sys.put]
        rw [List.getElem?_set_self hi, if_neg hc]

/-- C66 (3), no deadlock: whenever the lock is held, the recorder holding it can release it by at most two steps of its
own, whatever the other threads are doing. -/
theorem C66_lock_released {T : CounterTy} {fp : Fp} {h : Hist T} (R : Reachable fp T h) (ls : List (XLabel (Write T)))
    (x : XSys (Hist T)) (hp : SafeX fp h ls) (e : xexec (OwnerOps.concrete fp T) ls (XSys.init h) = some (.ok x))
    (i : Nat) (hl : x.sys.lock = some i) :
    ∃ steps y, steps.length ≤ 2 ∧ (∀ l ∈ steps, ofRec i l = true) ∧
      xexec (OwnerOps.concrete fp T) steps x = some (.ok y) ∧ y.sys.lock = none := by
  obtain ⟨r, hr, hh⟩ := held_xexec e i hl
  have hi : i < x.sys.recs.length := (List.getElem?_eq_some_iff.mp hr).1
  have last : ∀ (ls : List (XLabel (Write T))) (x : XSys (Hist T)) (l : Label (Write T)) (r : Rec (Hist T)),
      SafeX fp h ls → xexec (OwnerOps.concrete fp T) ls (XSys.init h) = some (.ok x) → x.sys.recs[i]? = some r →
      (r.pc = .dropSend ∧ l = .dropSend i ∨ (∃ p, r.pc = .idleSend p) ∧ l = .idleSend i ∨
        r.pc = .wakePhase ∧ l = .wakePhase i ∨ r.pc = .idlePhase ∧ x.sys.phase = r.lastPhase ∧ l = .idlePhase i) →
      ∃ y, xstep (OwnerOps.concrete fp T) x (.now l) = some (.ok y) ∧ y.sys.lock = none := by
    intro ls x l r hp e hr hl
    have hne : xstep (OwnerOps.concrete fp T) x (.now l) ≠ none := by
      rcases hl with ⟨h1, rfl⟩ | ⟨⟨p, h1⟩, rfl⟩ | ⟨h1, rfl⟩ | ⟨h1, h2, rfl⟩
      · simp only [xstep, step, dropSend, Sys.at]
        rw [if_neg (by simp [Label.needsOwner]), hr]
        dsimp only
        rw [if_pos h1]
        simp [after]
      · simp only [xstep, step, idleSend]
        rw [if_neg (by simp [Label.needsOwner]), hr]
        dsimp only
        rw [h1]
        simp [after]
      · simp only [xstep, step, wakePhase, Sys.at]
        rw [if_neg (by simp [Label.needsOwner]), hr]
        dsimp only
        rw [if_pos h1]
        simp [after]
      · simp only [xstep, step, idlePhase, Sys.at]
        rw [if_neg (by simp [Label.needsOwner]), hr]
        dsimp only
        rw [if_pos h1]
        split <;> simp [after]
    obtain ⟨y, ey, -, -⟩ := safeX_step R hp e (l := .now l) ⟨by
        rcases hl with ⟨-, rfl⟩ | ⟨-, rfl⟩ | ⟨-, rfl⟩ | ⟨-, -, rfl⟩ <;> simp [xwrites], by
        rcases hl with ⟨-, rfl⟩ | ⟨-, rfl⟩ | ⟨-, rfl⟩ | ⟨-, -, rfl⟩ <;> (intro j; simp)⟩ hne
    refine ⟨y, ey, ?_⟩
    have st := xstep_ok ey
    cases st with
    | now _ t hn st =>
      rw [deliver_lock]
      rcases hl with ⟨-, rfl⟩ | ⟨-, rfl⟩ | ⟨-, rfl⟩ | ⟨h1, h2, rfl⟩
      · cases st; rfl
      · cases st; rfl
      · cases st; rfl
      · cases st with
        | idlePhaseNew _ r1 hr1 hp1 hne => rw [hr] at hr1; cases hr1; exact absurd h2 hne
        | idlePhaseOld => rfl
  have one : ∀ l : Label (Write T), ofRec i (.now l) = true →
      (∃ y, xstep (OwnerOps.concrete fp T) x (.now l) = some (.ok y) ∧ y.sys.lock = none) →
      ∃ steps y, steps.length ≤ 2 ∧ (∀ l ∈ steps, ofRec i l = true) ∧
        xexec (OwnerOps.concrete fp T) steps x = some (.ok y) ∧ y.sys.lock = none := by
    rintro l hl ⟨y, ey, h1⟩
    refine ⟨[.now l], y, by simp, by simpa using hl, ?_, h1⟩
    simp only [xexec, ey]; rfl
  cases hpc : r.pc with
  | dropSend => exact one (.dropSend i) (by simp [ofRec]) (last ls x _ r hp e hr (Or.inl ⟨hpc, rfl⟩))
  | idleSend p => exact one (.idleSend i) (by simp [ofRec]) (last ls x _ r hp e hr (Or.inr (Or.inl ⟨⟨p, hpc⟩, rfl⟩)))
  | wakePhase => exact one (.wakePhase i) (by simp [ofRec]) (last ls x _ r hp e hr (Or.inr (Or.inr (Or.inl ⟨hpc, rfl⟩))))
  | idlePhase =>
    by_cases hc : x.sys.phase = r.lastPhase
    · exact one (.idlePhase i) (by simp [ofRec]) (last ls x _ r hp e hr (Or.inr (Or.inr (Or.inr ⟨hpc, hc, rfl⟩))))
    · obtain ⟨y, ey, hp', e'⟩ := safeX_step R hp e (l := .now (.idlePhase i)) ⟨by simp [xwrites], by intro j; simp⟩ (by
        simp only [xstep, step, idlePhase, Sys.at]
        rw [if_neg (by simp [Label.needsOwner]), hr]
        dsimp only
        rw [if_pos hpc]
        split <;> simp [after])
      have st := xstep_ok ey
      cases st with
      | now _ t hn st =>
        cases st with
        | idlePhaseOld _ r1 hr1 hp1 he => rw [hr] at hr1; cases hr1; exact absurd he hc
        | idlePhaseNew _ r1 hr1 hp1 hne =>
          rw [hr] at hr1; cases hr1
          obtain ⟨z, ez, hz⟩ := last _ _ (.idleSend i) { r with pc := .idleSend x.sys.phase } hp' e' (by
            rw [deliver_recs]
            simp only [Sys.put]
            rw [List.getElem?_set_self hi]) (Or.inr (Or.inl ⟨⟨_, rfl⟩, rfl⟩))
          refine ⟨[.now (.idlePhase i), .now (.idleSend i)], z, by simp, by simp [ofRec], ?_, hz⟩
          simp only [xexec, ey, ez]; rfl
  | ready | send | idle | gone => rw [hpc] at hh; cases hh

/-- recorder 1 is going idle and holds the lock, recorder 0 is behind by a phase, and the `SyncHistogram` is dropped -/
def closedDemo : List (XLabel (Write .u8)) :=
  [.now .recorder, .now .recorder, .now (.write 0 (.recordN 5 1)), .now (.write 0 (.add demo3)),
   .now (.write 0 (.subtract demo3)), .now (.start true), .now .drainEnd, .now .count, .now .bump,
   .now .timeout, .now .finalEnd, .close, .now (.idle 1)]

example : Reachable Fp.ideal .u8 demo ∧ SafeX Fp.ideal demo closedDemo ∧
    ∃ x, xexec (OwnerOps.concrete Fp.ideal .u8) closedDemo (XSys.init demo) = some (.ok x) ∧
      (x.closed = true ∧ x.sys.lock = some 1 ∧ x.sys.recs.map (·.pc) = [.ready, .idlePhase] ∧
        x.sys.recs.map (·.lastPhase) = [0, 0] ∧ x.sys.phase = 1) := by
  refine ⟨.newWithBounds (by decide) demo_eq, ⟨?_, ?_⟩, xexecThen (by decide +kernel)⟩
  · intro w hw
    simp [closedDemo, xwrites] at hw
    rcases hw with rfl | rfl | rfl
    · exact ⟨by decide, by decide, Or.inr (by decide)⟩
    · exact ⟨demo3_reachable, Or.inr (by decide)⟩
    · exact demo3_reachable
  · intro i; simp [closedDemo]

/-! ## C48 and C49 with outdated loads -/

theorem subperm_of_count {A : Type} [DecidableEq A] {a b : List (Option A)}
    (h : ∀ w, a.count w ≤ b.count w) : a.Subperm b := by
  rw [List.subperm_iff_count]
  intro w
  have := h w
  rwa [show (Option.instBEq : BEq (Option A)) = instBEqOfDecidableEq from lawful_beq_subsingleton _ _] at this

/-- C48 when the loads of writes may be outdated and the owner may write to the merged histogram and reset it: when the
refresh returns, every write made before it began is in the merged histogram or has been taken out of it by a reset,
except those held by recorders that were idle. -/
theorem C48_outdated_loads_partial (h : H) (ls1 ls2 : List (XLabel W)) (t : Bool) (x1 x2 : XSys (Logged H W))
    (e1 : xexec o.logged ls1 (XSys.start h) = some (.ok x1))
    (e2 : xexec o.logged (.now (.start t) :: ls2) x1 = some (.ok x2)) (hstart : ∀ t, XLabel.now (.start t) ∉ ls2)
    (hu : XAlways o.logged XUndisturbed (ls1 ++ .now (.start t) :: ls2) (XSys.start h)) (hout : x2.sys.reader = .out) :
    ((xwrites ls1).map some).Subperm
      (x2.sys.merged.inside ++ x2.sys.merged.taken ++ x1.inLocal Pc.isIdle) := by
  classical
  refine subperm_of_count fun w => ?_
  obtain ⟨u1, u2⟩ := xalways_append hu e1
  have G1 := xexec_always (I := fun x => Good x.sys ∧ Open x) (fun s l s' G hl st => xgood_step G hl st)
    (by exact ⟨good_init, rfl⟩) u1 e1
  have T1 := xexec_inv (P := fun _ => True)
    (I := fun x : XSys (Logged H W) => (∀ h ∈ x.sys.chan, h.taken = []) ∧ ∀ r ∈ x.sys.recs, r.loc.taken = [])
    (fun _ _ _ I _ st => taken_step I st) (by simp [XSys.start, XSys.init, Sys.init]) (fun _ _ => trivial) e1
  obtain ⟨x1', e3, e4⟩ := xexec_cons e2
  have st := xstep_ok e3
  have hl : x1.sys.lock = none := u2.1
  have u3 := u2.2 x1' e3
  have G1' := xgood_step G1 u2.1 st
  have m := logged_measure (o := o) w
  have hclose : XLabel.close ∉ ls1 := by
    intro hc
    obtain ⟨a, b, rfl⟩ := List.append_of_mem hc
    obtain ⟨y, ea, eb⟩ := xexec_append e1
    exact (xalways_append u1 ea).2.1
  have hcons := xconserved hclose e1 w
  rw [count_inChan T1.1, count_inLocal T1.2, List.count_cons] at hcons
  rw [List.count_append, List.count_append, count_inLocal T1.2]
  have hrd : x1.sys.reader = .out := by
    cases st with
    | now l t hn st => cases st; assumption
  have hC : ∀ r ∈ x1.sys.recs, OutOk x1.sys.phase r := by
    have := G1.1.1
    unfold Calm at this
    rw [hrd] at this
    exact this
  have hR : ∀ r ∈ x1.sys.recs, RestOk x1.sys.phase r := fun r hr => (hC r hr).rest G1.1.2.1 hl hr
  let μ : Logged H W → Nat := fun h => h.inside.count w + h.taken.count w
  have hsum : sumR (fun r => if r.pc.live then r.loc.inside.count w + r.loc.taken.count w else 0) x1.sys.recs =
      sumR (own μ) x1.sys.recs +
        sumR (fun r => if r.pc.isIdle then r.loc.inside.count w + r.loc.taken.count w else 0) x1.sys.recs := by
    clear hcons
    generalize x1.sys.recs = l at hR
    induction l with
    | nil => rfl
    | cons x xs ih =>
      have ih := ih fun r hr => hR r (by simp [hr])
      have hx := hR x (by simp)
      simp only [sumR, List.map_cons, List.sum_cons] at ih ⊢
      have : (if x.pc.live then x.loc.inside.count w + x.loc.taken.count w else 0) =
          own μ x + (if x.pc.isIdle then x.loc.inside.count w + x.loc.taken.count w else 0) := by
        rcases hx with hx | hx | hx
        · simp [μ, own, hx.1, Pc.live, Pc.isIdle, Pc.active]
        · simp [own, hx, Pc.live, Pc.isIdle, Pc.active]
        · simp [own, hx, Pc.live, Pc.isIdle, Pc.active]
      omega
  have K1 : Coming μ (((xwrites ls1).map some).count w)
      (sumR (fun r => if r.pc.isIdle then r.loc.inside.count w + r.loc.taken.count w else 0) x1.sys.recs) x1'.sys := by
    cases st with
    | now l t hn st =>
      rw [deliver_open G1.2]
      cases st
      unfold Coming
      dsimp only
      have h1 : μ x1.sys.merged = x1.sys.merged.inside.count w + x1.sys.merged.taken.count w := rfl
      have h2 : (x1.sys.chan.map μ).sum = (x1.sys.chan.map fun h => h.inside.count w + h.taken.count w).sum := rfl
      omega
  have := xexec_always (P := fun x l => XUndisturbed x l ∧ ∀ t, l ≠ .now (.start t))
    (I := fun x => Coming μ (((xwrites ls1).map some).count w)
      (sumR (fun r => if r.pc.isIdle then r.loc.inside.count w + r.loc.taken.count w else 0) x1.sys.recs) x.sys ∧
      Good x.sys ∧ Open x)
    (fun s l s' I hl st => ⟨xcoming_step m I.1 I.2 hl.1 hl.2 st, xgood_step I.2 hl.1 st⟩)
    ⟨K1, G1'⟩ (xalways_and u3 (xalways_of_mem fun l hl _ t hc => hstart t (hc ▸ hl))) e4
  have := this.1
  unfold Coming at this
  rw [hout] at this
  exact this

/-- a condition holds at every step -/
def xalwaysB (o : OwnerOps H W) (B : XSys H → XLabel W → Bool) : List (XLabel W) → XSys H → Bool
  | [], _ => true
  | l :: ls, x =>
    B x l &&
      match xstep o x l with
      | some (.ok x') => xalwaysB o B ls x'
      | _ => true

theorem xalways_of_B {P : XSys H → XLabel W → Prop} {B : XSys H → XLabel W → Bool}
    (hB : ∀ x l, B x l = true → P x l) {ls : List (XLabel W)} {x : XSys H} (h : xalwaysB o B ls x = true) :
    XAlways o P ls x := by
  induction ls generalizing x with
  | nil => trivial
  | cons l ls ih =>
    simp only [xalwaysB, Bool.and_eq_true] at h
    refine ⟨hB x l h.1, fun x' e => ?_⟩
    rw [e] at h
    exact ih h.2

/-- a check implying `XUndisturbed` -/
def xundisturbedB (x : XSys H) : XLabel W → Bool
  | .now l => undisturbedB x.sys l
  | .late (.wakePhase _) _ => false
  | .close => false
  | _ => true

theorem xundisturbed_of_B (x : XSys H) (l : XLabel W) (h : xundisturbedB x l = true) : XUndisturbed x l := by
  cases l with
  | now l => exact undisturbed_of_B x.sys l h
  | late l p => cases l <;> trivial
  | own | reset => trivial
  | close => cases h

/-- a check implying `XNoIdleInGap` -/
def xnoIdleB (x : XSys H) : XLabel W → Bool
  | .now l => noIdleB x.sys l
  | _ => true

theorem xnoIdle_of_B (x : XSys H) (l : XLabel W) (h : xnoIdleB x l = true) : XNoIdleInGap x l := by
  cases l with
  | now l => exact noIdle_of_B x.sys l h
  | _ => trivial

/-- two recorders write, one becomes idle; a refresh begins -/
def lateFirst : List (XLabel (Write .u8)) :=
  [.now .recorder, .now (.clone 0), .now (.write 0 (.recordN 5 1)), .now (.write 1 (.recordN 3 2)), .own (.recordN 3 1),
   .now (.idle 1), .now (.idlePhase 1)]

/-- recorder 0 sees the new phase only at its second write; after the refresh the owner resets -/
def lateSecond : List (XLabel (Write .u8)) :=
  [.now .drainEnd, .now .count, .now .bump, .late (.write 0 (.recordN 7 1)) 0, .now (.write 0 (.recordN 1 1)),
   .now (.writeSend 0), .now .recv, .now .waitEnd, .now .finalEnd, .reset]

example : (∃ x1 x2, xexec (OwnerOps.concrete Fp.ideal .u8).logged lateFirst (XSys.start demo) = some (.ok x1) ∧
      xexec (OwnerOps.concrete Fp.ideal .u8).logged (.now (.start false) :: lateSecond) x1 = some (.ok x2) ∧
      x2.sys.reader = .out ∧ x2.sys.merged.taken.length = 5 ∧ (x1.inLocal Pc.isIdle).length = 1) ∧
    (∀ t, XLabel.now (.start t) ∉ lateSecond) ∧
    XAlways (OwnerOps.concrete Fp.ideal .u8).logged XUndisturbed (lateFirst ++ .now (.start false) :: lateSecond)
      (XSys.start demo) :=
  ⟨xexecThen2 (by decide +kernel), by intro t; simp [lateSecond], xalways_of_B xundisturbed_of_B (by decide +kernel)⟩

/-- C48 if the load made on reactivation is outdated: recorder 1 is reactivated after a refresh but sees the phase before
it; during the next refresh it sends two histograms, and the one of recorder 0 is not waited for. -/
theorem C48_outdated_wake_refuted : ∃ x, xexec (OwnerOps.concrete Fp.ideal .u8)
      [.now .recorder, .now .recorder, .now (.idle 1), .now (.idlePhase 1),
       .now (.start false), .now .drainEnd, .now .count, .now .bump, .now (.write 0 (.recordN 1 1)), .now (.writeSend 0),
       .now .recv, .now .waitEnd, .now .finalEnd,
       .now (.wake 1), .late (.wakePhase 1) 0, .now (.write 0 (.recordN 5 1)),
       .now (.start false), .now .drainEnd, .now (.write 1 (.recordN 1 1)), .now (.writeSend 1), .now .count, .now .bump,
       .now (.write 1 (.recordN 1 1)), .now (.writeSend 1), .now .recv, .now .recv, .now .waitEnd, .now .finalEnd]
      (XSys.init demo) = some (.ok x) ∧
    (x.sys.reader = .out ∧ x.sys.merged.countAt 5 = .ok 0) :=
  xexecThen (by decide +kernel)

/-- C49 when the loads of writes may be outdated and the owner may be active: as `C49_progress_partial`, where a write
counts if it has seen the new phase, provided the loads made by `idle` and on reactivation are not outdated. -/
theorem C49_outdated_loads_partial (h : H) (ls1 ls2 : List (XLabel W)) (x1 x2 : XSys H) (t : Bool) (n k : Nat)
    (e1 : xexec o ls1 (XSys.init h) = some (.ok x1)) (hgap : XAlways o XNoIdleInGap ls1 (XSys.init h))
    (e2 : xexec o (.now .bump :: ls2) x1 = some (.ok x2)) (hb : XLabel.now .bump ∉ ls2) (hf : NoLeak ls2)
    (hlate : ∀ i p, XLabel.late (.idlePhase i) p ∉ ls2 ∧ XLabel.late (.wakePhase i) p ∉ ls2)
    (hw : x2.sys.reader = .wait t n k)
    (hmoved : ∀ i r, x1.sys.recs[i]? = some r → r.pc.active = true →
      (∃ w, XLabel.now (.write i w) ∈ ls2) ∨ XLabel.now (.drop i) ∈ ls2 ∨ XLabel.now (.idle i) ∈ ls2)
    (hrest : ∀ r ∈ x2.sys.recs, r.pc.atRest = true) : XFinishes o x2 := by
  have I1 := xexec_always (P := XNoIdleInGap) (I := fun x => x.closed = true ∨ Before x.sys)
    (fun s l s' I hl st => before_step I hl st)
    (Or.inr ⟨(fun t n hn => by simp [XSys.init, Sys.init] at hn), lock_init, Nat.le_refl _,
      by simp [XSys.init, Sys.init]⟩) hgap e1
  have O2 : Open x2 := by
    have := xexec_inv (P := fun _ => True) (I := ClosedOut) (fun s l s' I _ st => closedOut_step I st)
      (by intro h; rfl) (fun _ _ => trivial) (xexec_trans e1 e2)
    cases hc : x2.closed with
    | false => exact hc
    | true => rw [this hc] at hw; cases hw
  obtain ⟨x1', e3, e4⟩ := xexec_cons e2
  have st := xstep_ok e3
  have O1 : Open x1 := by
    cases st with
    | now l u hn st =>
      cases hc : x1.closed with
      | false => exact hc
      | true => exact absurd ⟨hc, rfl⟩ hn
  have B1 : Before x1.sys := by
    rcases I1 with h | h
    · rw [show x1.closed = false from O1] at h; cases h
    · exact h
  obtain ⟨hr1, hx1, K0⟩ : x1'.sys.recs = x1.sys.recs ∧ Open x1' ∧ WaitInv x1.sys.recs.length x1'.sys := by
    cases st with
    | now l u hn st =>
      rw [deliver_open O1]
      exact ⟨by cases st; rfl, O1, wait_bump B1.1 B1.2.2.2 st⟩
  have lk : ∀ l ∈ ls2, ¬ LockedLate l := by
    intro l hl hc
    cases l with
    | late l p =>
      cases l <;> first | exact (hlate _ _).1 hl | exact (hlate _ _).2 hl | exact hc
    | _ => exact hc
  have nb : ∀ l ∈ ls2, l ≠ .now .bump := fun l hl hc => hb (hc ▸ hl)
  have nf : ∀ l ∈ ls2, ∀ i, l ≠ .now (.forget i) := fun l hl i hc => hf i (hc ▸ hl)
  have K : WaitInv x1.sys.recs.length x2.sys := by
    rcases xexec_inv (P := fun l => l ≠ .now .bump ∧ ¬ LockedLate l)
      (I := fun x => x.closed = true ∨ WaitInv x1.sys.recs.length x.sys) (fun s l s' I hl st => xwait_step I hl st)
      (Or.inr K0) (fun l hl => ⟨nb l hl, lk l hl⟩) e4 with h | h
    · rw [show x2.closed = false from O2] at h; cases h
    · exact h
  have settle : ∀ i (ls : List (XLabel W)) (y : XSys H), (∀ l ∈ ls, l ∈ ls2) →
      (y.closed = true ∨ (Answered i y.sys ∧ i < y.sys.recs.length)) → xexec o ls y = some (.ok x2) →
      Answered i x2.sys := by
    intro i ls y hs A e
    rcases xexec_inv (P := fun l => l ≠ .now .bump ∧ ¬ LockedLate l ∧ ∀ i, l ≠ .now (.forget i))
      (I := fun x => x.closed = true ∨ (Answered i x.sys ∧ i < x.sys.recs.length))
      (fun s l s' A hl st => xanswered_step A hl st) A
      (fun l hl => ⟨nb l (hs l hl), lk l (hs l hl), nf l (hs l hl)⟩) e with h | h
    · rw [show x2.closed = false from O2] at h; cases h
    · exact h.1
  have ans : ∀ i l, XLabel.now l ∈ ls2 → ((∃ w, l = .write i w) ∨ l = .drop i ∨ l = .idle i) → Answered i x2.sys := by
    intro i l hl hk
    obtain ⟨a, b, hab⟩ := List.append_of_mem hl
    rw [hab] at e4
    obtain ⟨u, ea, eb⟩ := xexec_append e4
    obtain ⟨v, ev, eb⟩ := xexec_cons eb
    refine settle i b v (fun l' h' => by rw [hab]; simp [h']) ?_ eb
    have st := xstep_ok ev
    cases hc : u.closed with
    | true => exact Or.inl (closed_step hc st)
    | false =>
      right
      cases st with
      | now l z hn st =>
        rw [deliver_open hc]
        exact answered_by hk st
  have done : ∀ i, i < x1.sys.recs.length → Answered i x2.sys := by
    intro i hi
    have hg : x1.sys.recs[i]? = some x1.sys.recs[i] := List.getElem?_eq_getElem hi
    by_cases ha : x1.sys.recs[i].pc.active = true
    · rcases hmoved i _ hg ha with ⟨w, hl⟩ | hl | hl
      · exact ans i _ hl (Or.inl ⟨w, rfl⟩)
      · exact ans i _ hl (Or.inr (Or.inl rfl))
      · exact ans i _ hl (Or.inr (Or.inr rfl))
    · refine settle i ls2 x1' (fun _ h => h) (Or.inr ⟨fun r hr => ?_, by rw [hr1]; exact hi⟩) e4
      rw [hr1, hg] at hr
      cases hr
      exact ⟨fun h => absurd (by rw [h]; rfl) ha, fun p h => absurd (by rw [h]; rfl) ha⟩
  have zero : sumR (owes x2.sys.phase) (x2.sys.recs.take x1.sys.recs.length) = 0 := by
    have : sumR (owes x2.sys.phase) (x2.sys.recs.take x1.sys.recs.length) =
        sumR (fun _ => 0) (x2.sys.recs.take x1.sys.recs.length) := by
      apply sumR_congr
      intro r hr
      obtain ⟨i, hi⟩ := List.getElem?_of_mem hr
      have hlt : i < x1.sys.recs.length := by
        by_contra hc
        rw [List.getElem?_take_eq_none (by omega)] at hi; cases hi
      rw [List.getElem?_take_of_lt hlt] at hi
      have h1 := hrest r (mem_of_get hi)
      have h2 := done i hlt r hi
      unfold owes
      cases hp : r.pc with
      | ready => simp [h2.1 hp]
      | idle | gone => rfl
      | send | dropSend | idlePhase | idleSend | wakePhase => simp [hp, Pc.atRest] at h1
    rw [this]
    simp [sumR]
  exact xfinishes_of O2 (wait_finishes hw (by have := K.2 t n k hw; omega))

/-- three recorders; a refresh up to its reading of the recorder count -/
def lateWaitFirst : List (XLabel (Write .u8)) :=
  [.now .recorder, .own (.recordN 5 1), .now (.clone 0), .now (.clone 0), .now (.start false), .now .drainEnd, .now .count]

/-- recorder 0 sees the new phase at its second write; the others are idled and dropped -/
def lateWaitSecond : List (XLabel (Write .u8)) :=
  [.late (.write 0 (.recordN 5 1)) 0, .now (.write 0 (.recordN 5 1)), .now (.writeSend 0), .now .recv, .now (.idle 1),
   .now (.idlePhase 1), .now (.idleSend 1), .now (.drop 2), .now (.dropSend 2)]

example : (∃ x1 x2, xexec (OwnerOps.concrete Fp.ideal .u8) lateWaitFirst (XSys.init demo) = some (.ok x1) ∧
      xexec (OwnerOps.concrete Fp.ideal .u8) (.now .bump :: lateWaitSecond) x1 = some (.ok x2) ∧
      x2.sys.reader = .wait false 3 1 ∧ (x1.sys.recs.map (·.pc)) = [.ready, .ready, .ready] ∧
      ∀ r ∈ x2.sys.recs, r.pc.atRest = true) ∧
    XAlways (OwnerOps.concrete Fp.ideal .u8) XNoIdleInGap lateWaitFirst (XSys.init demo) ∧
    XLabel.now .bump ∉ lateWaitSecond ∧ NoLeak lateWaitSecond ∧
    (∀ i p, XLabel.late (.idlePhase i) p ∉ lateWaitSecond ∧ XLabel.late (.wakePhase i) p ∉ lateWaitSecond) :=
  ⟨xexecThen2 (by decide +kernel), xalways_of_B xnoIdle_of_B (by decide +kernel), by simp [lateWaitSecond],
    by intro i; simp [lateWaitSecond], by intro i p; simp [lateWaitSecond]⟩

/-- C49 if the load made by `idle` is outdated: the only recorder becomes idle after the phase change but does not see it
and sends nothing; the refresh waits for one histogram, the channel is empty, and no step of the reader is possible. -/
theorem C49_outdated_idle_refuted : ∃ x, xexec (OwnerOps.concrete Fp.ideal .u8)
      [.now .recorder, .now (.start false), .now .drainEnd, .now .count, .now .bump, .now (.idle 0),
       .late (.idlePhase 0) 0] (XSys.init demo) = some (.ok x) ∧
    x.sys.reader = .wait false 1 0 ∧ x.sys.recorders = 0 ∧ x.sys.recs.map (·.pc) = [.idle] ∧
    ∀ l, (l.reader = true ∨ l = .timeout) → xstep (OwnerOps.concrete Fp.ideal .u8) x (.now l) = none := by
  refine ⟨{ sys := { merged := demo, chan := [], recorders := 0, phase := 1, lock := none
                     recs := [{ loc := demo, lastPhase := 0, pc := .idle }], reader := .wait false 1 0 }
            closed := false }, ?_, rfl, rfl, rfl, ?_⟩
  · rfl
  · rintro l (h | rfl)
    · cases l <;> first | rfl | cases h
    · rfl

end Hdr
