import Verif.Spec.Pipeline
import Verif.Props.SyncTotal
import Verif.Props.LogTotal
import Verif.Props.SameSamples

/-!
# C105: from the threads that record, through an interval log, to a quantile
-/

namespace Hdr

namespace Sync

variable {H W : Type} {o : OwnerOps H W} {T : CounterTy} {fp : Fp}

theorem atResets_cons {l : XLabel W} {ls : List (XLabel W)} {x y : XSys H} (e : xstep o x l = some (.ok y)) :
    atResets o (l :: ls) x = l.takes x.sys.merged ++ atResets o ls y := by
  simp only [atResets, e]

/-- what was there at a reset was there after a part of the execution -/
theorem atResets_mem {ls : List (XLabel W)} {x z : XSys H} (e : xexec o ls x = some (.ok z)) {g : H}
    (hg : g ∈ atResets o ls x) : ∃ pre post y, ls = pre ++ .reset :: post ∧ xexec o pre x = some (.ok y) ∧ g = y.sys.merged := by
  induction ls generalizing x with
  | nil => cases hg
  | cons l ls ih =>
    obtain ⟨y, e1, e2⟩ := xexec_cons e
    rw [atResets_cons e1] at hg
    rcases List.mem_append.mp hg with hg | hg
    · cases l with
      | reset => simp [XLabel.takes] at hg; exact ⟨[], ls, x, rfl, rfl, hg⟩
      | now | late | own | close => cases hg
    · obtain ⟨pre, post, w, rfl, h2, h3⟩ := ih e2 hg
      exact ⟨l :: pre, post, w, rfl, by simp only [xexec, e1]; exact h2, h3⟩

theorem atResets_map {ls : List (XLabel W)} {x z : XSys (Logged H W)} (e : xexec o.logged ls x = some (.ok z)) :
    atResets o ls (x.map Logged.hist) = (atResets o.logged ls x).map Logged.hist := by
  induction ls generalizing x with
  | nil => rfl
  | cons l ls ih =>
    obtain ⟨y, e1, e2⟩ := xexec_cons e
    have e3 : xstep o (x.map Logged.hist) l = some (.ok (y.map Logged.hist)) := by
      rw [map_xstep (logged_hom (o := o)), e1]; rfl
    rw [atResets_cons e1, atResets_cons e3, ih e2, List.map_append]
    cases l <;> rfl

/-- what has been taken out is what was there at the resets -/
theorem atResets_taken {ls : List (XLabel W)} {x z : XSys (Logged H W)}
    (I : (∀ h ∈ x.sys.chan, h.taken = []) ∧ ∀ r ∈ x.sys.recs, r.loc.taken = []) (e : xexec o.logged ls x = some (.ok z)) :
    z.sys.merged.taken = x.sys.merged.taken ++ (atResets o.logged ls x).flatMap (·.inside) := by
  induction ls generalizing x with
  | nil => cases e; simp [atResets]
  | cons l ls ih =>
    obtain ⟨y, e1, e2⟩ := xexec_cons e
    have st := xstep_ok e1
    rw [ih (taken_step I st) e2, atResets_cons e1, List.flatMap_append, ← List.append_assoc]
    congr 1
    have del : ∀ t : Sys (Logged H W), (x.deliver t).sys.merged = t.merged := by
      intro t; unfold XSys.deliver; dsimp only; split <;> rfl
    have ad : ∀ a b c : Logged H W, b.taken = [] → o.logged.add a b = .ok c → c.taken = a.taken := by
      intro a b c hb e
      simp only [OwnerOps.logged] at e
      rw [M.bind_eq_ok] at e
      obtain ⟨x, -, e⟩ := e
      cases e; simp [hb]
    have key : ∀ (s t : Sys (Logged H W)) (l : Label W), (∀ h ∈ s.chan, h.taken = []) →
        Step o.logged.toHistOps s l t → t.merged.taken = s.merged.taken := by
      intro s t l I st
      cases st with
      | drain t h rest m hrd he ha => exact ad _ _ _ (I h (by rw [he]; simp)) ha
      | recv t n k h rest m hrd hk he ha => exact ad _ _ _ (I h (by rw [he]; simp)) ha
      | finalRecv h rest m hrd he ha => exact ad _ _ _ (I h (by rw [he]; simp)) ha
      | _ => rfl
    cases st with
    | now l t hn st => rw [del, key _ _ _ I.1 st]; simp [XLabel.takes]
    | late l p i r t hi hr hp hq st =>
      rw [del]; have := key _ _ _ (by exact I.1) st; simpa [XLabel.takes] using this
    | own w m hcl hrd hw =>
      simp only [OwnerOps.logged] at hw
      rw [M.bind_eq_ok] at hw
      obtain ⟨x, -, hw⟩ := hw
      cases hw
      simp [XLabel.takes]
    | reset m hcl hrd hw =>
      simp only [OwnerOps.logged] at hw
      rw [M.bind_eq_ok] at hw
      obtain ⟨x, -, hw⟩ := hw
      cases hw
      simp [XLabel.takes]
    | close => simp [XLabel.takes]

/-- the samples of an entry: what the histogram started with, or the samples of a write -/
def entrySamples (h : Hist T) (l0 : List (Nat × Nat)) : Option (Write T) → List (Nat × Nat)
  | none => l0
  | some w => w.samples h

theorem entrySamples_part (h : Hist T) (l0 : List (Nat × Nat)) (i : List (Option (Write T))) (hn : i.countP Option.isNone ≤ 1) :
    (startOf l0 i ++ samplesOf h i.reduceOption).Perm (i.flatMap (entrySamples h l0)) := by
  have none_case : ∀ i : List (Option (Write T)), i.countP Option.isNone = 0 → startOf l0 i = [] := by
    intro i hi
    unfold startOf
    rw [if_neg]
    rw [List.any_eq_true]
    rintro ⟨a, ha, hs⟩
    exact List.countP_eq_zero.mp hi a ha hs
  induction i with
  | nil => simp [startOf, samplesOf, List.reduceOption]
  | cons a i ih =>
    cases a with
    | none =>
      have h0 : i.countP Option.isNone = 0 := by
        rw [List.countP_cons] at hn; simp at hn; rw [List.countP_eq_zero]; simpa using hn
      have ih := ih (by omega)
      rw [none_case i h0, List.nil_append] at ih
      rw [List.reduceOption_cons_of_none, List.flatMap_cons]
      rw [show startOf l0 (none :: i) = l0 by simp [startOf]]
      exact ih.append_left l0
    | some w =>
      have ih := ih (by rw [List.countP_cons] at hn; simpa using hn)
      rw [List.reduceOption_cons_of_some, List.flatMap_cons]
      rw [show startOf l0 (some w :: i) = startOf l0 i by unfold startOf; rw [List.any_cons]; rfl]
      rw [show samplesOf h (w :: i.reduceOption) = w.samples h ++ samplesOf h i.reduceOption by
        unfold samplesOf; rw [List.flatMap_cons]]
      exact (List.perm_append_comm_assoc _ _ _).trans (ih.append_left _)

theorem Fits.part {h : Hist T} {parts : List (List (Nat × Nat))} (f : Fits h parts.flatten) : ∀ l ∈ parts, Fits h l := by
  induction parts with
  | nil => simp
  | cons p ps ih =>
    rw [List.flatten_cons] at f
    intro l hl
    rcases List.mem_cons.mp hl with rfl | hl
    · exact f.left
    · exact ih f.right l hl

/-- C105 (1): Let a `SyncHistogram` made from a histogram that holds the samples `l0` be used by any number of threads that
record, with refreshes, resets and recordings by the owner in between. When all recorders are dropped, and a refresh has
returned, the samples `l0` and those recorded by all threads can be shared out among the histograms as they were at each
reset, and the one at the end, such that each sample is in one share, and each histogram holds exactly its share, unless that
is too much for a counter. All have the configuration of the first histogram. -/
theorem C105_shares {h : Hist T} (R : Reachable fp T h) {l0 : List (Nat × Nat)} (H : Contains h l0)
    {ls1 ls2 : List (XLabel (Write T))} {t : Bool} {x1 x2 : XSys (Hist T)}
    (hc : XLabel.close ∉ ls1 ++ ls2) (hp : PlainX fp h (ls1 ++ .now (.start t) :: ls2))
    (hr : ∀ w ∈ xwrites (ls1 ++ .now (.start t) :: ls2), w.Recording)
    (e1 : xexec (OwnerOps.concrete fp T) ls1 (XSys.init h) = some (.ok x1)) (hgone : ∀ r ∈ x1.sys.recs, r.pc = .gone)
    (e2 : xexec (OwnerOps.concrete fp T) (.now (.start t) :: ls2) x1 = some (.ok x2)) (hnew : XLabel.now .recorder ∉ ls2)
    (hout : x2.sys.reader = .out) :
    ∃ parts : List (List (Nat × Nat)),
      List.Forall₂ (fun g l => Reachable fp T g ∧ (Fits h l → Contains g l) ∧ g.low = h.low ∧ g.sigfig = h.sigfig)
        (atResets (OwnerOps.concrete fp T) (ls1 ++ .now (.start t) :: ls2) (XSys.init h) ++ [x2.sys.merged]) parts ∧
      parts.flatten.Perm (l0 ++ (xwrites (ls1 ++ ls2)).flatMap (Write.samples h)) := by
  have W := R.wf
  obtain ⟨z, ez, eo⟩ := lift_xexec (xexec_trans e1 e2)
  cases z with
  | error p => cases eo
  | ok g2 =>
    cases eo
    obtain ⟨g1, f1, f2⟩ := xexec_append ez
    have hg1 : g1.map Logged.hist = x1 := by
      have := C65_ghost (o := OwnerOps.concrete fp T) ls1 (XSys.start h)
      rw [show (XSys.start h : XSys (Logged (Hist T) (Write T))).map Logged.hist = XSys.init h from rfl, e1, f1] at this
      cases this; rfl
    have perm := C65_intervals h ls1 ls2 t g1 g2 hc f1 (fun r hr => hgone (r.map Logged.hist) (by
      rw [← hg1]; exact List.mem_map.mpr ⟨r, hr, rfl⟩)) f2 hnew hout
    have ht := atResets_taken (o := OwnerOps.concrete fp T) (x := XSys.start h) (by simp [XSys.start, XSys.init, Sys.init]) ez
    have hm := atResets_map (o := OwnerOps.concrete fp T) ez
    rw [show (XSys.start h : XSys (Logged (Hist T) (Write T))).map Logged.hist = XSys.init h from rfl] at hm
    rw [show (XSys.start h : XSys (Logged (Hist T) (Write T))).sys.merged.taken = [] from rfl, List.nil_append] at ht
    have fine : ∀ (pre : List (XLabel (Write T))) (y : XSys (Logged (Hist T) (Write T))),
        (∀ l ∈ pre, l ∈ ls1 ++ .now (.start t) :: ls2) →
        xexec (OwnerOps.concrete fp T).logged pre (XSys.start h) = some (.ok y) → MergedSums fp h l0 y.sys.merged := by
      intro pre y hpre ey
      have := xfine_exec (logged_sums R (l0 := l0) fun p hp => H.le W hp) (x := XSys.start h)
        ⟨⟨⟨mergedOk_init W, R, by simp [XSys.start, XSys.init, Sys.init, samplesOf, List.reduceOption],
            fun _ => by simpa [XSys.start, XSys.init, Sys.init, samplesOf, List.reduceOption, startOf] using H⟩,
          by simp [XSys.start, XSys.init, Sys.init], by simp [XSys.start, XSys.init, Sys.init]⟩, rfl⟩
        (ls := pre) fun l hl => xrun_labels (okW := fun w => w.Plain fp h ∧ w.Recording)
          ⟨fun w hw => ⟨hp.1 w hw, hr w hw⟩, hp.2⟩ l (hpre l hl)
      rcases this with h1 | ⟨x', h1, A, -⟩
      · rw [ey] at h1; cases h1
      · rw [ey] at h1; cases h1
        exact A.1
    generalize hS : atResets (OwnerOps.concrete fp T).logged (ls1 ++ .now (.start t) :: ls2) (XSys.start h) = S at hm ht
    have hall : ∀ g ∈ S ++ [g2.sys.merged], MergedSums fp h l0 g := by
      intro g hg
      rcases List.mem_append.mp hg with hg | hg
      · rw [← hS] at hg
        obtain ⟨pre, post, y, h1, h2, rfl⟩ := atResets_mem ez hg
        exact fine pre y (fun l hl => by rw [h1]; simp [hl]) h2
      · simp at hg; subst hg
        exact fine _ g2 (fun _ h => h) ez
    have hperm : ((S ++ [g2.sys.merged]).flatMap (·.inside)).Perm (none :: (xwrites (ls1 ++ ls2)).map some) := by
      rw [List.flatMap_append, ← ht]
      simpa using List.perm_append_comm.trans perm
    let part : Logged (Hist T) (Write T) → List (Nat × Nat) := fun g => startOf l0 g.inside ++ samplesOf h g.inside.reduceOption
    have hcount : ∀ g ∈ S ++ [g2.sys.merged], g.inside.countP Option.isNone ≤ 1 := by
      intro g hg
      have h1 := hperm.countP_eq Option.isNone
      rw [List.countP_cons_of_pos (by rfl), show ((xwrites (ls1 ++ ls2)).map some).countP Option.isNone = 0 from List.countP_eq_zero.mpr (by simp)] at h1
      rw [List.countP_flatMap] at h1
      have := List.single_le_sum (l := (S ++ [g2.sys.merged]).map (List.countP Option.isNone ∘ (·.inside))) (by simp)
        (g.inside.countP Option.isNone) (List.mem_map.mpr ⟨g, hg, rfl⟩)
      omega
    have hflat : ((S ++ [g2.sys.merged]).map part).flatten.Perm
        (l0 ++ (xwrites (ls1 ++ ls2)).flatMap (Write.samples h)) := by
      have h1 : ((S ++ [g2.sys.merged]).map part).flatten.Perm
          ((S ++ [g2.sys.merged]).flatMap fun g => g.inside.flatMap (entrySamples h l0)) := by
        rw [← List.flatMap_def]
        exact List.Perm.flatMap_left _ fun g hg => entrySamples_part h l0 g.inside (hcount g hg)
      refine h1.trans ?_
      rw [← List.flatMap_assoc]
      refine (hperm.flatMap_right _).trans ?_
      rw [List.flatMap_cons, List.flatMap_map]
      exact List.Perm.refl _
    refine ⟨(S ++ [g2.sys.merged]).map part, ?_, hflat⟩
    rw [show ((XSys.map Logged.hist g2).sys.merged) = g2.sys.merged.hist from rfl, hm,
      show S.map Logged.hist ++ [g2.sys.merged.hist] = (S ++ [g2.sys.merged]).map Logged.hist by simp]
    rw [List.forall₂_map_left_iff, List.forall₂_map_right_iff, List.forall₂_same]
    intro g hg
    have A := hall g hg
    exact ⟨A.2.reach, A.2.held, A.1.cfg.low, A.1.cfg.sig⟩

/-- the execution `extDemo`, with its last refresh: the histogram at the reset holds three samples, the one at the end one -/
example : Contains demo [] ∧ PlainX Fp.ideal demo (extDemo ++ .now (.start false) :: extDemoEnd) ∧
    (∃ x1 x2, xexec (OwnerOps.concrete Fp.ideal .u8) extDemo (XSys.init demo) = some (.ok x1) ∧
      xexec (OwnerOps.concrete Fp.ideal .u8) (.now (.start false) :: extDemoEnd) x1 = some (.ok x2) ∧
      ((∀ r ∈ x1.sys.recs, r.pc = .gone) ∧ x2.sys.reader = .out ∧ x2.sys.merged.len = 1)) ∧
    (atResets (OwnerOps.concrete Fp.ideal .u8) (extDemo ++ .now (.start false) :: extDemoEnd) (XSys.init demo)).map
      (·.len) = [3] ∧ XLabel.close ∉ extDemo ++ extDemoEnd ∧ XLabel.now .recorder ∉ extDemoEnd := by
  refine ⟨C71_empty demo_reachable rfl, ⟨?_, ?_⟩, xexecThen2 (by decide +kernel), by decide +kernel,
    by simp [extDemo, extDemoEnd], by simp [extDemoEnd]⟩
  · intro w hw
    simp [extDemo, extDemoEnd, xwrites] at hw
    rcases hw with rfl | rfl | rfl | rfl <;> exact ⟨by decide, by decide, Or.inr (by decide)⟩
  · intro i; simp [extDemo, extDemoEnd]

end Sync

namespace Log

open Sync

variable {T T' : CounterTy} {fp : Fp}

theorem unit_of_low {h g : Hist T} (e : g.low = h.low) : unit fp g = unit fp h := by
  unfold unit
  rw [e]

/-- what a sequence of calls writes, when it writes histograms that hold known samples -/
theorem written_of {h : Hist T} {acc : Hist T'} (Ra : Reachable fp T' acc)
    (hu : unit fp h ≤ unit fp acc) (hs : acc.sigfig ≤ h.sigfig) {ops : List Op} {gs : List (Hist T)}
    (hg : histsOf ops = gs.map fun g => ⟨T, g⟩) {parts : List (List (Nat × Nat))}
    (H : List.Forall₂ (fun g l => Reachable fp T g ∧ Contains g l ∧ g.low = h.low ∧ g.sigfig = h.sigfig) gs parts)
    (hn : ∀ l ∈ parts, ∀ p ∈ l, p.2 ≠ 0) : Written fp acc (fun _ => true) ops parts.flatten := by
  induction ops generalizing gs parts with
  | nil =>
    cases gs with
    | nil => cases H; exact .nil
    | cons g gs => cases hg
  | cons op ops ih =>
    cases op with
    | comment s => exact .comment (ih hg H hn)
    | @hist T1 g start duration tag =>
      cases gs with
      | nil => cases hg
      | cons g' gs =>
        rw [List.map_cons] at hg
        simp only [histsOf, List.cons.injEq, Sigma.mk.injEq] at hg
        obtain ⟨⟨rfl, hg1⟩, hg2⟩ := hg
        cases hg1
        cases H with
        | @cons _ l _ ps a b =>
          obtain ⟨Rg, Hg, h1, h2⟩ := a
          refine Written.hist (l' := l) (l := ps.flatten) Rg Hg (hn l (by simp)) ?_
            (ih hg2 b fun l hl => hn l (by simp [hl]))
          intro x y hx hy
          exact C104_nested Ra Rg (by rw [unit_of_low h1]; exact hu) (by rw [h2]; exact hs) hx hy

theorem pipeline_written {h : Hist T} (R : Reachable fp T h) {l0 : List (Nat × Nat)} (H : Contains h l0)
    (hl0 : ∀ p ∈ l0, p.2 ≠ 0) {ls1 ls2 : List (XLabel (Write T))} {t : Bool} {x1 x2 : XSys (Hist T)}
    (hc : XLabel.close ∉ ls1 ++ ls2) (hp : PlainX fp h (ls1 ++ .now (.start t) :: ls2))
    (hr : ∀ w ∈ xwrites (ls1 ++ .now (.start t) :: ls2), w.Recording)
    (e1 : xexec (OwnerOps.concrete fp T) ls1 (XSys.init h) = some (.ok x1)) (hgone : ∀ r ∈ x1.sys.recs, r.pc = .gone)
    (e2 : xexec (OwnerOps.concrete fp T) (.now (.start t) :: ls2) x1 = some (.ok x2)) (hnew : XLabel.now .recorder ∉ ls2)
    (hout : x2.sys.reader = .out) (hfit : Fits h (l0 ++ (xwrites (ls1 ++ ls2)).flatMap (Write.samples h)))
    {acc : Hist T'} (Ra : Reachable fp T' acc) (hu : unit fp h ≤ unit fp acc) (hs : acc.sigfig ≤ h.sigfig) {ops : List Op}
    (hops : histsOf ops = (atResets (OwnerOps.concrete fp T) (ls1 ++ .now (.start t) :: ls2) (XSys.init h) ++
      [x2.sys.merged]).map fun g => ⟨T, g⟩) :
    ∃ l, Written fp acc (fun _ => true) ops l ∧ l.Perm (l0 ++ (xwrites (ls1 ++ ls2)).flatMap (Write.samples h)) := by
  obtain ⟨parts, h1, h2⟩ := C105_shares R H hc hp hr e1 hgone e2 hnew hout
  have hf := Fits.part (Fits.perm h2.symm hfit)
  have hw : ∀ w ∈ xwrites (ls1 ++ ls2), w ∈ xwrites (ls1 ++ .now (.start t) :: ls2) := by
    clear h1 h2 hf hops hfit e1 e2 hr hp hc hnew
    intro w
    induction ls1 with
    | nil => exact id
    | cons l ls ih =>
      intro hw
      cases l with
      | now l => cases l <;> simp only [List.cons_append, xwrites, List.mem_cons] at hw ⊢ <;>
          first | exact ih hw | exact hw.imp_right ih
      | late l p => cases l <;> simp only [List.cons_append, xwrites, List.mem_cons] at hw ⊢ <;>
          first | exact ih hw | exact hw.imp_right ih
      | own w => simp only [List.cons_append, xwrites, List.mem_cons] at hw ⊢; exact hw.imp_right ih
      | reset | close => simp only [List.cons_append, xwrites] at hw ⊢; exact ih hw
  have hn : ∀ p ∈ parts.flatten, p.2 ≠ 0 := by
    intro p hp'
    rcases List.mem_append.mp (h2.subset hp') with hp' | hp'
    · exact hl0 p hp'
    · obtain ⟨w, hw1, hw2⟩ := List.mem_flatMap.mp hp'
      exact (samples_valid R.wf (hp.1 w (hw w hw1)) (hr w (hw w hw1)) p hw2).2.2
  refine ⟨parts.flatten, written_of Ra hu hs hops ?_ ?_, h2⟩
  · have : ∀ gs ps, (∀ l ∈ ps, Fits h l) →
        List.Forall₂ (fun g l => Reachable fp T g ∧ (Fits h l → Contains g l) ∧ g.low = h.low ∧ g.sigfig = h.sigfig) gs ps →
        List.Forall₂ (fun g l => Reachable fp T g ∧ Contains g l ∧ g.low = h.low ∧ g.sigfig = h.sigfig) gs ps := by
      intro gs ps hf F
      induction F with
      | nil => exact .nil
      | cons a b ih => exact .cons ⟨a.1, a.2.1 (hf _ (by simp)), a.2.2⟩ (ih fun l hl => hf l (by simp [hl]))
    exact this _ _ hf h1
  · intro l hl p hp'
    exact hn p (List.mem_flatten.mpr ⟨l, hl, hp'⟩)

/-- C105 (2): Let such a program write the histogram of every interval to an interval log just before it resets it, and the
last one at the end, with whatever times, tags and comments. Another program that parses the log and adds up the
histograms then holds exactly what the first one started with and what all its threads recorded, every sample once. Up to
2^53 samples, `value_at_quantile` of what it holds answers for all of them: with a value equivalent to the one of the rank
asked for, within the precision of the second program's histogram. (The
conditions on comments and times are those of C43; no counter may overflow; the second program's histogram resizes itself,
and has no finer unit and no more significant digits than the first one's.) -/
theorem C105_pipeline {D : Dbl} (L : D.Lawful) {f : Fmt} {b : Builder} {junk : Nat → UInt8} (z : V2.Zlib) (checks : Bool)
    {h : Hist T} (R : Reachable fp T h) {l0 : List (Nat × Nat)} (H : Contains h l0)
    (hl0 : ∀ p ∈ l0, p.2 ≠ 0) {ls1 ls2 : List (XLabel (Write T))} {t : Bool} {x1 x2 : XSys (Hist T)}
    (hc : XLabel.close ∉ ls1 ++ ls2) (hp : PlainX fp h (ls1 ++ .now (.start t) :: ls2))
    (hr : ∀ w ∈ xwrites (ls1 ++ .now (.start t) :: ls2), w.Recording)
    (e1 : xexec (OwnerOps.concrete fp T) ls1 (XSys.init h) = some (.ok x1)) (hgone : ∀ r ∈ x1.sys.recs, r.pc = .gone)
    (e2 : xexec (OwnerOps.concrete fp T) (.now (.start t) :: ls2) x1 = some (.ok x2)) (hnew : XLabel.now .recorder ∉ ls2)
    (hout : x2.sys.reader = .out) {l : List (Nat × Nat)} (hl : l = l0 ++ (xwrites (ls1 ++ ls2)).flatMap (Write.samples h))
    (hfit : Fits h l) {ops : List Op}
    (hops : histsOf ops = (atResets (OwnerOps.concrete fp T) (ls1 ++ .now (.start t) :: ls2) (XSys.init h) ++
      [x2.sys.merged]).map fun g => ⟨T, g⟩)
    {st bt : Option Dur} {out : Bytes} (hcs : ∀ s ∈ b.comments, Plain s)
    (hst : b.startTime = st.map fun d => systemTimeAsFpSeconds (.afterEpoch d))
    (hbt : b.baseTime = bt.map fun d => systemTimeAsFpSeconds (.afterEpoch d))
    (hs : ∀ d, st = some d → d.Loggable) (hb : ∀ d, bt = some d → d.Loggable)
    (hlog : ∀ op ∈ ops, op.Loggable b.maxValueDivisor) (hw : writeLog f b (v2Ser junk) ops = .ok (.ok out))
    {acc : Hist T'} (Ra : Reachable fp T' acc) (ha : acc.isAutoResize = true) (h0 : acc.len = 0)
    (hu : unit fp h ≤ unit fp acc) (hsig : acc.sigfig ≤ h.sigfig) (hfit' : Fits acc l) :
    ∃ es acc', Yields D (Iter.new out) (es.map .ok) ∧ addUp fp z checks T' (fun _ => true) es acc = .ok (some acc') ∧
      Contains acc' l ∧ acc'.low = acc.low ∧ acc'.sigfig = acc.sigfig ∧
      (0 < numberAll l → numberAll l ≤ 2 ^ 53 → ∀ (q : F64) (y : Nat), KthSmallest l (specRank (numberAll l) q) y →
        ∃ v, acc'.valueAtQuantile q = .ok v ∧ Equiv acc' v y ∧ Precise fp acc' v y) := by
  subst hl
  obtain ⟨l, h1, h2⟩ := pipeline_written R H hl0 hc hp hr e1 hgone e2 hnew hout hfit Ra hu hsig hops
  have f' := Fits.perm h2.symm hfit'
  obtain ⟨es, acc', a1, a2, a3, a4, a5⟩ := C89_adds_up L z checks hcs hst hbt hs hb hlog hw Ra ha (C71_empty Ra h0) h1
    (by simpa using f'.1) (by simpa using f'.2)
  have H' : Contains acc' (l0 ++ (xwrites (ls1 ++ ls2)).flatMap (Write.samples h)) := Contains.perm h2 (by simpa using a4)
  refine ⟨es, acc', a1, a2, H', a5.1, a5.2, fun n0 n1 q y hy => ?_⟩
  obtain ⟨v, v1, v2, v3, -⟩ := C72_quantile a3 H' n0 n1 q hy
  exact ⟨v, v1, v2, v3⟩

/-- C105 (3): The same with the V2+DEFLATE serializer, given a correct zlib. -/
theorem C105_pipeline_deflate {D : Dbl} (L : D.Lawful) {f : Fmt} {b : Builder} {junk : Nat → UInt8} {z : V2.Zlib} (hz : z.Lawful) (checks : Bool)
    {h : Hist T} (R : Reachable fp T h) {l0 : List (Nat × Nat)} (H : Contains h l0)
    (hl0 : ∀ p ∈ l0, p.2 ≠ 0) {ls1 ls2 : List (XLabel (Write T))} {t : Bool} {x1 x2 : XSys (Hist T)}
    (hc : XLabel.close ∉ ls1 ++ ls2) (hp : PlainX fp h (ls1 ++ .now (.start t) :: ls2))
    (hr : ∀ w ∈ xwrites (ls1 ++ .now (.start t) :: ls2), w.Recording)
    (e1 : xexec (OwnerOps.concrete fp T) ls1 (XSys.init h) = some (.ok x1)) (hgone : ∀ r ∈ x1.sys.recs, r.pc = .gone)
    (e2 : xexec (OwnerOps.concrete fp T) (.now (.start t) :: ls2) x1 = some (.ok x2)) (hnew : XLabel.now .recorder ∉ ls2)
    (hout : x2.sys.reader = .out) {l : List (Nat × Nat)} (hl : l = l0 ++ (xwrites (ls1 ++ ls2)).flatMap (Write.samples h))
    (hfit : Fits h l) {ops : List Op}
    (hops : histsOf ops = (atResets (OwnerOps.concrete fp T) (ls1 ++ .now (.start t) :: ls2) (XSys.init h) ++
      [x2.sys.merged]).map fun g => ⟨T, g⟩)
    {st bt : Option Dur} {out : Bytes} (hcs : ∀ s ∈ b.comments, Plain s)
    (hst : b.startTime = st.map fun d => systemTimeAsFpSeconds (.afterEpoch d))
    (hbt : b.baseTime = bt.map fun d => systemTimeAsFpSeconds (.afterEpoch d))
    (hs : ∀ d, st = some d → d.Loggable) (hb : ∀ d, bt = some d → d.Loggable)
    (hlog : ∀ op ∈ ops, op.Loggable b.maxValueDivisor) (hw : writeLog f b (deflateSer z junk) ops = .ok (.ok out))
    {acc : Hist T'} (Ra : Reachable fp T' acc) (ha : acc.isAutoResize = true) (h0 : acc.len = 0)
    (hu : unit fp h ≤ unit fp acc) (hsig : acc.sigfig ≤ h.sigfig) (hfit' : Fits acc l) :
    ∃ es acc', Yields D (Iter.new out) (es.map .ok) ∧ addUp fp z checks T' (fun _ => true) es acc = .ok (some acc') ∧
      Contains acc' l ∧ acc'.low = acc.low ∧ acc'.sigfig = acc.sigfig ∧
      (0 < numberAll l → numberAll l ≤ 2 ^ 53 → ∀ (q : F64) (y : Nat), KthSmallest l (specRank (numberAll l) q) y →
        ∃ v, acc'.valueAtQuantile q = .ok v ∧ Equiv acc' v y ∧ Precise fp acc' v y) := by
  subst hl
  obtain ⟨l, h1, h2⟩ := pipeline_written R H hl0 hc hp hr e1 hgone e2 hnew hout hfit Ra hu hsig hops
  have f' := Fits.perm h2.symm hfit'
  obtain ⟨es, acc', a1, a2, a3, a4, a5⟩ := C89_adds_up_deflate L hz checks hcs hst hbt hs hb hlog hw Ra ha (C71_empty Ra h0) h1
    (by simpa using f'.1) (by simpa using f'.2)
  have H' : Contains acc' (l0 ++ (xwrites (ls1 ++ ls2)).flatMap (Write.samples h)) := Contains.perm h2 (by simpa using a4)
  refine ⟨es, acc', a1, a2, H', a5.1, a5.2, fun n0 n1 q y hy => ?_⟩
  obtain ⟨v, v1, v2, v3, -⟩ := C72_quantile a3 H' n0 n1 q hy
  exact ⟨v, v1, v2, v3⟩

/-- the histograms of `extDemo`, one per interval -/
def pipeHists : List (Hist .u8) :=
  atResets (OwnerOps.concrete Fp.ideal .u8) (extDemo ++ .now (.start false) :: extDemoEnd) (XSys.init demo) ++
    (match xexec (OwnerOps.concrete Fp.ideal .u8) (extDemo ++ .now (.start false) :: extDemoEnd) (XSys.init demo) with
      | some (.ok x) => [x.sys.merged]
      | _ => [])

/-- the log of `extDemo` -/
def pipeOps : List Op := pipeHists.map fun g => .hist g ⟨1, 0⟩ ⟨2, 0⟩ none

/-- the hypotheses of C105 about the log, for the execution `extDemo`, whose other hypotheses are met above: the samples are
5, 3, 3 (in the first interval) and 9 (in the second) -/
example : (∃ x1 x2, xexec (OwnerOps.concrete Fp.ideal .u8) extDemo (XSys.init demo) = some (.ok x1) ∧
      xexec (OwnerOps.concrete Fp.ideal .u8) (.now (.start false) :: extDemoEnd) x1 = some (.ok x2) ∧
      pipeHists = atResets (OwnerOps.concrete Fp.ideal .u8) (extDemo ++ .now (.start false) :: extDemoEnd) (XSys.init demo) ++
        [x2.sys.merged]) ∧
    histsOf pipeOps = pipeHists.map (fun g => ⟨.u8, g⟩) ∧
    [] ++ (xwrites (extDemo ++ extDemoEnd)).flatMap (Write.samples demo) = [(5, 1), (3, 1), (3, 1), (9, 1)] ∧
    Fits demo [(5, 1), (3, 1), (3, 1), (9, 1)] ∧ Fits (demo.auto true) [(5, 1), (3, 1), (3, 1), (9, 1)] ∧
    (∀ op ∈ pipeOps, op.Loggable (.fin 1)) ∧ Builder.new.maxValueDivisor = .fin 1 ∧
    (∃ out, writeLog Fmt.halfUp Builder.new (v2Ser fun _ => 0) pipeOps = .ok (.ok out)) ∧
    (demo.auto true).isAutoResize = true ∧ (demo.auto true).len = 0 ∧ unit Fp.ideal demo ≤ unit Fp.ideal (demo.auto true) ∧
    (demo.auto true).sigfig ≤ demo.sigfig := by
  refine ⟨xexecThen2 (by decide +kernel), ?_, by decide +kernel, Fits.few (by decide), Fits.few (by decide), ?_, rfl, ?_, rfl,
    rfl, le_refl _, le_refl _⟩
  · unfold pipeOps
    generalize pipeHists = gs
    induction gs with
    | nil => rfl
    | cons g gs ih => simp only [List.map_cons, histsOf, ih]
  · have key : (pipeHists.all fun g => match g.max with
        | .ok m => (match F64.div (F64.ofNat m) (.fin 1) with | .fin _ => true | _ => false)
        | _ => false) = true := by decide +kernel
    intro op hop
    obtain ⟨g, hg, rfl⟩ := List.mem_map.mp hop
    have := List.all_eq_true.mp key g hg
    split at this
    · rename_i m e1
      split at this
      · rename_i q e2
        exact ⟨by unfold Dur.Loggable Dur.Valid; decide, by unfold Dur.Loggable Dur.Valid; decide, by simp, m, q, e1, e2⟩
      · cases this
    · cases this
  · have key : (match writeLog Fmt.halfUp Builder.new (v2Ser fun _ => 0) pipeOps with
      | .ok (.ok _) => true
      | _ => false) = true := by decide +kernel
    split at key
    · exact ⟨_, by assumption⟩
    · cases key

end Log

end Hdr
