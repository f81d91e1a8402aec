import Verif.Spec.SyncExtSteps
import Verif.Props.SyncExt
import Verif.Props.SyncExact
import Verif.Props.SyncWaits

/-!
# Concurrent recording with outdated loads and an active owner, without conditions: C94
-/

namespace Hdr.Sync

variable {H W : Type} {o : OwnerOps H W}

theorem deliver_same (x : XSys H) (t : Sys H) : (x.deliver t).sys.recs = t.recs ∧ (x.deliver t).sys.recorders = t.recorders ∧
    (x.deliver t).sys.lock = t.lock := by
  unfold XSys.deliver; dsimp only; split <;> exact ⟨rfl, rfl, rfl⟩

/-! ## What a refresh misses -/

/-- every recorder holds what `acc` says -/
def XKept (recs : List (Rec (Logged H W))) (acc : Nat → List W) : Prop :=
  (∀ i r, recs[i]? = some r → r.loc.inside = (acc i).map some ∧ r.loc.taken = []) ∧ ∀ i, recs.length ≤ i → acc i = []

theorem xkept_set {recs : List (Rec (Logged H W))} {acc acc' : Nat → List W} {i : Nat} {r a : Rec (Logged H W)}
    (K : XKept recs acc) (hr : recs[i]? = some r) (ha : a.loc.inside = (acc' i).map some ∧ a.loc.taken = [])
    (ho : ∀ j, j ≠ i → acc' j = acc j) : XKept (recs.set i a) acc' := by
  have hi : i < recs.length := (List.getElem?_eq_some_iff.mp hr).1
  constructor
  · intro j x hx
    rw [List.getElem?_set] at hx
    by_cases hj : i = j
    · subst hj
      rw [if_pos rfl, if_pos hi] at hx
      cases hx; exact ha
    · rw [if_neg hj] at hx
      rw [ho j (Ne.symm hj)]
      exact K.1 j x hx
  · intro j hj
    rw [List.length_set] at hj
    rw [ho j (by omega)]
    exact K.2 j hj

theorem xkept_append {recs : List (Rec (Logged H W))} {acc : Nat → List W} {a : Rec (Logged H W)} (K : XKept recs acc)
    (ha : a.loc.inside = [] ∧ a.loc.taken = []) : XKept (recs ++ [a]) acc := by
  constructor
  · intro j x hx
    rw [List.getElem?_append] at hx
    split at hx
    · exact K.1 j x hx
    · rename_i hj
      rw [K.2 j (by omega)]
      have : x = a := by
        have := List.mem_of_getElem? hx
        simpa using this
      rw [this]; exact ha
  · intro j hj
    simp at hj
    exact K.2 j (by omega)

theorem logged_fresh {h f : Logged H W} (e : o.logged.fresh h = .ok f) : f.inside = [] ∧ f.taken = [] := by
  simp only [OwnerOps.logged] at e
  rw [M.bind_eq_ok] at e
  obtain ⟨x, -, e⟩ := e
  cases e; exact ⟨rfl, rfl⟩

theorem logged_kept {s s' : Sys (Logged H W)} {l : Label W} {acc : Nat → List W} (K : XKept s.recs acc)
    (st : Step o.logged.toHistOps s l s') : XKept s'.recs (fun i => unsentStep i (acc i) l) := by
  cases st with
  | write i w r l hr hp hw =>
    refine xkept_set K hr ?_ ?_
    · simp only [OwnerOps.logged] at hw
      rw [M.bind_eq_ok] at hw
      obtain ⟨f, -, e⟩ := hw
      cases e
      simp [unsentStep, K.1 i r hr]
    · intro j hj; simp [unsentStep, Ne.symm hj]
  | writeSend i r p f hr hp hf =>
    refine xkept_set K hr ?_ ?_
    · simp [unsentStep, logged_fresh hf]
    · intro j hj; simp [unsentStep, Ne.symm hj]
  | dropSend i r f hr hp hf =>
    refine xkept_set K hr ?_ ?_
    · simp [unsentStep, logged_fresh hf]
    · intro j hj; simp [unsentStep, Ne.symm hj]
  | idleSend i r p f hr hp hf =>
    refine xkept_set K hr ?_ ?_
    · simp [unsentStep, logged_fresh hf]
    · intro j hj; simp [unsentStep, Ne.symm hj]
  | recorder f hl hrd hf => exact xkept_append K (logged_fresh hf)
  | clone i r f hr hl hp hf => exact xkept_append K (logged_fresh hf)
  | drop i r hr | idle i r hr | idlePhaseNew i r hr | idlePhaseOld i r hr | wake i r hr | wakePhase i r hr | forget i r hr =>
    refine xkept_set K hr ?_ (fun _ _ => rfl)
    have := K.1 _ _ hr
    exact this
  | start | drain | drainEnd | count | bump | recv | timeout | waitEnd | finalRecv | finalEnd => exact K

theorem xkept_exec {ls : List (XLabel W)} {x x' : XSys (Logged H W)} {acc : Nat → List W} (K : XKept x.sys.recs acc)
    (e : xexec o.logged ls x = some (.ok x')) :
    XKept x'.sys.recs (fun i => (plainSteps ls).foldl (unsentStep i) (acc i)) := by
  induction ls generalizing x acc with
  | nil => cases e; exact K
  | cons l ls ih =>
    obtain ⟨t, e1, e2⟩ := xexec_cons e
    cases xstep_ok e1 with
    | now l u hn st => exact ih (by rw [(deliver_same _ _).1]; exact logged_kept K st) e2
    | late l p i r u hi hr hp hq st =>
      refine ih ?_ e2
      rw [(deliver_same _ _).1]
      have := logged_kept (s := { x.sys with phase := p }) K st
      exact this
    | own | reset | close => exact ih (by exact K) e2

/-! ## The recorder count -/

theorem xcount_exec {ls : List (XLabel W)} {x x' : XSys H} {k : Nat}
    (I : x.sys.recorders + k = sumR countOf x.sys.recs ∧ LockInv x.sys) (e : xexec o ls x = some (.ok x')) :
    x'.sys.recorders + (k + leaks (plainSteps ls)) = sumR countOf x'.sys.recs ∧ LockInv x'.sys := by
  induction ls generalizing x k with
  | nil => cases e; exact I
  | cons l ls ih =>
    obtain ⟨t, e1, e2⟩ := xexec_cons e
    have key : ∀ (l' : Label W) (u : Sys H), l.plain = some l' →
        (u.recorders + (k + leakOf l') = sumR countOf u.recs ∧ LockInv u) → t.sys.recs = u.recs →
        t.sys.recorders = u.recorders → t.sys.lock = u.lock →
        x'.sys.recorders + (k + leaks (plainSteps (l :: ls))) = sumR countOf x'.sys.recs ∧ LockInv x'.sys := by
      intro l' u hl J h1 h2 h3
      have := ih (k := k + leakOf l') (x := t)
        ⟨by rw [h1, h2]; exact J.1, by unfold LockInv at J ⊢; rw [h1, h3]; exact J.2⟩ e2
      unfold plainSteps at this ⊢
      rw [List.filterMap_cons_some hl, leaks_cons]
      exact ⟨by rw [← this.1]; omega, this.2⟩
    cases xstep_ok e1 with
    | now l u hn st =>
      obtain ⟨a, b, c⟩ := deliver_same x u
      exact key l u rfl ⟨count_exact_step I.1 st, lock_step I.2 st⟩ a b c
    | late l p i r u hi hr hp hq st =>
      obtain ⟨a, b, c⟩ := deliver_same x { u with phase := x.sys.phase }
      exact key l u rfl ⟨count_exact_step (s := { x.sys with phase := p }) I.1 st,
        lock_step (s := { x.sys with phase := p }) I.2 st⟩ a b c
    | own | reset | close => exact ih (by exact I) e2

/-! ## Waiting -/

theorem xwaits_exec {ls : List (XLabel W)} {x x' : XSys H} {m c : Nat} (O : Open x) (I : Waits m c x.sys)
    (hl : Label.count ∉ plainSteps ls) (hc : XLabel.close ∉ ls) (e : xexec o ls x = some (.ok x')) :
    Waits m (c + sends (plainSteps ls)) x'.sys ∧ Open x' := by
  induction ls generalizing x c with
  | nil => cases e; exact ⟨I, O⟩
  | cons l ls ih =>
    obtain ⟨t, e1, e2⟩ := xexec_cons e
    have hne : l ≠ .close := fun h => hc (by simp [h])
    have st := xstep_ok e1
    have O' := open_step O hne st
    have hc' : XLabel.close ∉ ls := fun h => hc (by simp [h])
    have key : ∀ l' : Label W, l.plain = some l' → (l' ≠ .count → Waits m (c + sendOf l') t.sys) →
        Waits m (c + sends (plainSteps (l :: ls))) x'.sys ∧ Open x' := by
      intro l' hl' J
      unfold plainSteps at hl ⊢
      rw [List.filterMap_cons_some hl'] at hl ⊢
      simp only [List.mem_cons, not_or] at hl
      have := ih (c := c + sendOf l') O' (J fun h => hl.1 h.symm) hl.2 hc' e2
      rw [sends_cons, ← Nat.add_assoc]
      exact this
    cases st with
    | now l u hn st =>
      refine key l rfl fun hl' => ?_
      rw [deliver_open O]; exact waits_step I hl' st
    | late l p i r u hi hr hp hq st =>
      refine key l rfl fun hl' => ?_
      rw [deliver_open O]
      have := waits_step (s := { x.sys with phase := p }) I hl' st
      exact this
    | own | reset => exact ih O' (by exact I) hl hc' e2
    | close => exact absurd rfl hne

end Hdr.Sync

namespace Hdr

open Hdr.Sync

variable {H W : Type} {o : OwnerOps H W}

/-- C94 (1): what a refresh misses, without conditions. Whatever the recorders do in the meantime, whatever outdated phases
they see, whatever the owner has done before, and whether or not the refresh times out: when it returns, what the
`SyncHistogram` started with and all writes are in the merged histogram or were taken out of it by resets, except exactly
those writes some recorder has made since it last sent its histogram. -/
theorem C94_missing (h : H) (ls : List (XLabel W)) (x : XSys (Logged H W)) (hc : XLabel.close ∉ ls)
    (e : xexec o.logged (ls ++ [.now .finalEnd]) (XSys.start h) = some (.ok x)) :
    (x.sys.merged.inside ++ x.sys.merged.taken ++
      ((List.range x.sys.recs.length).flatMap fun i => unsent i (plainSteps ls)).map some).Perm
      (none :: (xwrites ls).map some) := by
  classical
  have hc' : XLabel.close ∉ ls ++ [.now .finalEnd] := by simp [hc]
  have hps : plainSteps (ls ++ [XLabel.now Label.finalEnd]) = plainSteps ls ++ [.finalEnd] := by
    unfold plainSteps; rw [List.filterMap_append]; rfl
  have hw : xwrites (ls ++ [.now .finalEnd]) = xwrites ls := by
    clear e hc hc' hps
    induction ls with
    | nil => rfl
    | cons l ls ih =>
      cases l with
      | now l => cases l <;> simp only [List.cons_append, xwrites, ih]
      | late l p => cases l <;> simp only [List.cons_append, xwrites, ih]
      | own | reset | close => simp only [List.cons_append, xwrites, ih]
  have K := xkept_exec (o := o) (acc := fun _ => []) (x := XSys.start h)
    ⟨by simp [XSys.start, XSys.init, Sys.init], fun _ _ => rfl⟩ e
  rw [hps] at K
  have hch : x.sys.chan = [] := by
    obtain ⟨t, -, e2⟩ := xexec_append e
    obtain ⟨t', e3, e4⟩ := xexec_cons e2
    cases e4
    cases xstep_ok e3 with
    | now l u hn st =>
      cases st with
      | finalEnd hrd hc =>
        unfold XSys.deliver; dsimp only; split
        · rfl
        · exact hc
  have all : ((List.range x.sys.recs.length).flatMap fun i => unsent i (plainSteps ls)).map some =
      x.sys.recs.flatMap fun r => r.loc.inside := by
    rw [List.map_flatMap]
    refine (flatMap_range x.sys.recs (fun r => r.loc.inside) _ fun i a ha => ?_).symm
    have := (K.1 i a ha).1
    dsimp only at this
    rw [List.foldl_append] at this
    exact this
  rw [List.perm_iff_count]
  intro w
  have h1 := xtotal_exec (logged_measure (o := o) w) (show Open (XSys.start h) from rfl) hc' e
  rw [all, ← hw, List.count_cons, count_xwrites, List.count_append, List.count_append, List.count_flatMap]
  have h2 : sumR (fun r : Rec (Logged H W) => r.loc.inside.count w + r.loc.taken.count w) x.sys.recs =
      (x.sys.recs.map (List.count w ∘ fun r => r.loc.inside)).sum := by
    unfold sumR
    congr 1
    apply List.map_congr_left
    intro r hr
    obtain ⟨i, hi⟩ := List.getElem?_of_mem hr
    rw [(K.1 i r hi).2]; rfl
  simp only [total, hch, XSys.start, XSys.init, Sys.init, sumR_nil, List.map_nil, List.sum_nil, List.count_nil,
    Nat.add_zero, List.count_cons, Nat.zero_add] at h1
  omega

/-- recorder 0 sees the new phase only at its second write, and writes once more after having sent; the other one has
not sent anything when the refresh times out; before, the owner has written and reset -/
def lateMissDemo : List (XLabel (Write .u8)) :=
  [.now .recorder, .now (.clone 0), .own (.recordN 17 1), .reset, .own (.recordN 18 1), .now (.write 1 (.recordN 5 1)),
   .now (.start true), .now .drainEnd, .now .count, .now .bump, .late (.write 0 (.recordN 3 1)) 0,
   .now (.write 0 (.recordN 3 1)), .now (.writeSend 0), .now (.write 0 (.recordN 9 2)), .now .recv, .now .timeout]

example : (∃ x, xexec (OwnerOps.concrete Fp.ideal .u8).logged (lateMissDemo ++ [.now .finalEnd]) (XSys.start demo) =
      some (.ok x) ∧ (x.sys.merged.inside.length = 3 ∧ x.sys.merged.taken.length = 2 ∧ x.sys.recs.length = 2)) ∧
    unsent 0 (plainSteps lateMissDemo) = [.recordN 9 2] ∧ unsent 1 (plainSteps lateMissDemo) = [.recordN 5 1] ∧
    (xwrites lateMissDemo).length = 6 ∧ XLabel.close ∉ lateMissDemo :=
  ⟨xexecThen (by decide +kernel), rfl, rfl, rfl, by simp [lateMissDemo]⟩

/-- C94 (2): in every execution with outdated loads, an active owner, and also after the `SyncHistogram` was dropped, the
recorder count is, whenever the lock is free, the number of recorders that exist and are not idle, less one for every guard
that was leaked. -/
theorem C94_count (h : H) (ls : List (XLabel W)) (x : XSys H) (e : xexec o ls (XSys.init h) = some (.ok x))
    (hl : x.sys.lock = none) :
    x.sys.recorders + leaks (plainSteps ls) = (x.sys.recs.filter (·.pc.active)).length := by
  obtain ⟨hc, L⟩ := xcount_exec (o := o) (k := 0) (x := XSys.init h) ⟨rfl, lock_init⟩ e
  rw [length_filter_eq_sumR, ← Nat.zero_add (leaks (plainSteps ls)), hc]
  apply sumR_congr
  intro r hr
  obtain ⟨i, hi⟩ := List.getElem?_of_mem hr
  have := L.none_of_lock hl i r hi
  unfold countOf
  cases hp : r.pc <;> simp_all [Pc.holds, Pc.counted, Pc.active]

/-- the `SyncHistogram` is dropped after a refresh; then recorder 1 idles without seeing the new phase, and its guard is
leaked; recorder 2 is dropped -/
def leakClosed : List (XLabel (Write .u8)) :=
  [.now .recorder, .now (.clone 0), .now (.clone 0), .now (.start true), .now .drainEnd, .now .count, .now .bump,
   .now .timeout, .now .finalEnd, .close, .now (.idle 1), .late (.idlePhase 1) 0, .now (.forget 1), .now (.drop 2),
   .now (.dropSend 2)]

example : (∃ x, xexec (OwnerOps.concrete Fp.ideal .u8) leakClosed (XSys.init demo) = some (.ok x) ∧
      (x.sys.lock = none ∧ x.sys.recorders = 1 ∧ x.closed = true ∧ x.sys.recs.map (·.pc) = [.ready, .ready, .gone])) ∧
    leaks (plainSteps leakClosed) = 1 :=
  ⟨xexecThen (by decide +kernel), rfl⟩

/-- C94 (3): a refresh that waits has counted `n` recorders when it read the count. Whatever the recorders have done since,
whatever outdated phases they have seen, it can go on to its end without any of them doing anything more if at least `n`
histograms were in the channel then or have been sent since, and it cannot return if they were fewer. -/
theorem C94_waits (ls2 : List (XLabel W)) (x1 x2 : XSys H) (t : Bool) (n k : Nat) (ho : x1.closed = false)
    (e2 : xexec o (.now .count :: ls2) x1 = some (.ok x2))
    (hc : Label.count ∉ plainSteps ls2) (hcl : XLabel.close ∉ ls2) (hw : x2.sys.reader = .wait t n k) :
    n = x1.sys.recorders ∧
    (n ≤ x1.sys.chan.length + sends (plainSteps ls2) → XFinishes o x2) ∧
    (x1.sys.chan.length + sends (plainSteps ls2) < n →
      ∀ (ls : List (Label W)) x3, (∀ l ∈ ls, l.reader = true) → xexec o (ls.map .now) x2 = some (.ok x3) →
        x3.sys.reader ≠ .out) := by
  obtain ⟨u, e3, e4⟩ := xexec_cons e2
  have st := xstep_ok e3
  have Ou : Open u := open_step ho (by simp) st
  have W1 : Waits x1.sys.recorders x1.sys.chan.length u.sys := by
    cases st with
    | now l v hn st => rw [deliver_open ho]; exact waits_count st
  obtain ⟨I, O2⟩ := xwaits_exec Ou W1 hc hcl e4
  unfold Waits at I
  rw [hw] at I
  dsimp only at I
  refine ⟨I.1, fun hn => xfinishes_of O2 (wait_finishes hw (by omega)), fun hn ls x3 hr e hout => ?_⟩
  rw [xexec_now O2] at e
  obtain ⟨s3, e', rfl⟩ := after_ok e
  have := returns_needs hr hw e' hout
  omega

example : (∃ x1 x2, xexec (OwnerOps.concrete Fp.ideal .u8) lateWaitFirst.dropLast (XSys.init demo) = some (.ok x1) ∧
      xexec (OwnerOps.concrete Fp.ideal .u8) (.now .count :: .now .bump :: lateWaitSecond) x1 = some (.ok x2) ∧
      (x1.closed = false ∧ x2.sys.reader = .wait false 3 1)) ∧
    Label.count ∉ plainSteps (.now .bump :: lateWaitSecond) ∧ XLabel.close ∉ .now .bump :: lateWaitSecond ∧
    sends (plainSteps (.now .bump :: lateWaitSecond)) = 3 ∧
    sends (plainSteps ((.now .bump :: lateWaitSecond).take 5)) = 1 :=
  ⟨xexecThen2 (by decide +kernel), by simp [plainSteps, XLabel.plain, lateWaitSecond], by simp [lateWaitSecond], rfl, rfl⟩

/-- C94 (4): when the `SyncHistogram` has been dropped, the merged histogram it had never changes again, and nothing is
ever waiting in the channel: what recorders send is lost. No refresh runs. -/
theorem C94_closed (ls : List (XLabel W)) (x x' : XSys H) (hx : x.closed = true) (hch : x.sys.chan = [])
    (ho : x.sys.reader = .out) (e : xexec o ls x = some (.ok x')) :
    x'.closed = true ∧ x'.sys.merged = x.sys.merged ∧ x'.sys.chan = [] ∧ x'.sys.reader = .out ∧
      x'.sys.phase = x.sys.phase := by
  have mer : ∀ {s s' : Sys H} {l : Label W}, l.needsOwner = false → Step o.toHistOps s l s' →
      s'.merged = s.merged ∧ s'.reader = s.reader ∧ s'.phase = s.phase := by
    intro s s' l hl st
    cases st <;> first | exact ⟨rfl, rfl, rfl⟩ | cases hl
  induction ls generalizing x with
  | nil => cases e; exact ⟨hx, rfl, hch, ho, rfl⟩
  | cons l ls ih =>
    obtain ⟨t, e1, e2⟩ := xexec_cons e
    have del : ∀ t : Sys H, (x.deliver t).sys = { t with chan := [] } := by
      intro t; unfold XSys.deliver; dsimp only; rw [if_pos hx]
    cases xstep_ok e1 with
    | now l u hn st =>
      have hl : l.needsOwner = false := by by_contra h; exact hn ⟨hx, by simpa using h⟩
      obtain ⟨a, b, c⟩ := mer hl st
      have := ih (x.deliver u) hx (by rw [del]) (by rw [del]; exact b.trans ho) e2
      rw [del] at this
      exact ⟨this.1, this.2.1.trans a, this.2.2.1, this.2.2.2.1, this.2.2.2.2.trans c⟩
    | late l p i r u hi hr hp hq st =>
      obtain ⟨a, b, c⟩ := mer (loads_free hi) st
      have := ih (x.deliver { u with phase := x.sys.phase }) hx (by rw [del]) (by rw [del]; exact b.trans ho) e2
      rw [del] at this
      exact ⟨this.1, this.2.1.trans a, this.2.2.1, this.2.2.2.1, this.2.2.2.2⟩
    | own w m hc | reset m hc | close hc => rw [hx] at hc; cases hc

example : ∃ x1 x2, xexec (OwnerOps.concrete Fp.ideal .u8) (leakClosed.take 10) (XSys.init demo) = some (.ok x1) ∧
    xexec (OwnerOps.concrete Fp.ideal .u8) [.now (.write 0 (.recordN 5 1)), .now (.writeSend 0)] x1 = some (.ok x2) ∧
    (x1.closed = true ∧ x1.sys.chan = [] ∧ x1.sys.reader = .out ∧ x2.sys.recs.map (·.pc) = [.ready, .ready, .ready] ∧
      x2.sys.recs.map (·.loc.totalCount) = [0, 0, 0]) :=
  xexecThen2 (by decide +kernel)

end Hdr
