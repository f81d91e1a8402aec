import Verif.Props.Sum
import Verif.Props.Ops
import Verif.Props.Quantile

/-!
# C53 without conditions: the counts of any sum, when a sum panics, and its `len()`
-/

namespace Hdr

variable {T : CounterTy} {fp : Fp}

/-- `g` holds, class by class, the counts of the histograms in `l`; all of them have lowest value `low` and `sigfig` digits -/
structure CntOf (fp : Fp) (low sigfig : Nat) (l : List (Hist T)) (g : Hist T) : Prop where
  reach : Reachable fp T g
  low : g.low = low
  sigfig : g.sigfig = sigfig
  cnt : ∀ j, g.counts.getD j 0 = min (sumCnt l j) T.max

theorem CntOf.one {low sigfig : Nat} {x : Hist T} (R : Reachable fp T x) (hl : x.low = low) (hs : x.sigfig = sigfig) :
    CntOf fp low sigfig [x] x := by
  refine ⟨R, hl, hs, fun j => ?_⟩
  have := R.wf.getD_le j
  simp only [sumCnt, List.map_cons, List.map_nil, List.sum_cons, List.sum_nil]; omega

theorem CntOf.add {low sigfig : Nat} {l1 l2 : List (Hist T)} {a b g : Hist T} (A : CntOf fp low sigfig l1 a)
    (B : CntOf fp low sigfig l2 b) (e : a.addAssign b = .ok g) : CntOf fp low sigfig (l1 ++ l2) g := by
  have W := A.reach.wf
  have Ws := B.reach.wf
  obtain ⟨hum, hmag⟩ := W.same_layout Ws (A.low.trans B.low.symm) (A.sigfig.trans B.sigfig.symm)
  obtain ⟨g', r, e', W', hr⟩ := W.add_spec Ws
  unfold Hist.addAssign at e
  rw [e', M.ok_bind] at e
  cases r with
  | error x => cases e
  | ok u =>
    cases e
    have Rg : Reachable fp T g := .add A.reach B.reach e'
    rcases hr with ⟨hz, rfl⟩ | ⟨hnz, -, hcfg, hlen, hhigh, hcnt, -⟩
    · refine ⟨Rg, A.low, A.sigfig, fun j => ?_⟩
      have h3 := B.cnt j
      rw [Ws.getD_zero_of_empty hz] at h3
      have : 0 < T.max := T_max_pos T
      rw [A.cnt, sumCnt_append]; omega
    · refine ⟨Rg, hcfg.low.trans A.low, hcfg.sig.trans A.sigfig, fun j => ?_⟩
      rw [hcnt, moved_same hum hmag, A.cnt, B.cnt, sumCnt_append]; omega

theorem CntOf.tree {low sigfig : Nat} (t : MergeTree T)
    (hx : ∀ x ∈ t.leaves, Reachable fp T x ∧ x.low = low ∧ x.sigfig = sigfig) :
    ∀ {g : Hist T}, t.eval = .ok g → CntOf fp low sigfig t.leaves g := by
  induction t with
  | leaf h =>
    intro g e
    obtain rfl : h = g := Except.ok.inj e
    obtain ⟨h1, h2, h3⟩ := hx h (by simp [MergeTree.leaves])
    exact .one h1 h2 h3
  | node l r ihl ihr =>
    intro g e
    unfold MergeTree.eval at e
    rw [M.bind_eq_ok] at e
    obtain ⟨a, ea, e⟩ := e
    rw [M.bind_eq_ok] at e
    obtain ⟨b, eb, e⟩ := e
    exact (ihl (fun x h => hx x (by simp [MergeTree.leaves, h])) ea).add
      (ihr (fun x h => hx x (by simp [MergeTree.leaves, h])) eb) e

/-- C53, the counts, without conditions: however a sum of histograms of equal lowest value and precision is parenthesised
and ordered, if it does not panic then every class holds the sum of the counts, cut off at the counter's maximum. -/
theorem C53_counts {low sigfig : Nat} (t : MergeTree T)
    (hx : ∀ x ∈ t.leaves, Reachable fp T x ∧ x.low = low ∧ x.sigfig = sigfig) {g : Hist T} (e : t.eval = .ok g)
    {v : Nat} (hv : v ≤ U64MAX) {f : Hist T → Nat} (hf : ∀ x ∈ t.leaves, HasCount x v (f x)) :
    HasCount g v (min (t.leaves.map f).sum T.max) := by
  have G := CntOf.tree t hx e
  have Wg := G.reach.wf
  rw [Wg.hasCount_iff hv, G.cnt]
  unfold sumCnt
  congr 2
  apply List.map_congr_left
  intro x h
  obtain ⟨h1, h2, h3⟩ := hx x h
  obtain ⟨hum, hmag⟩ := Wg.same_layout h1.wf (G.low.trans h2.symm) (G.sigfig.trans h3.symm)
  rw [(h1.wf.hasCount_iff hv).mp (hf x h)]
  unfold Hist.lidx
  rw [hum, hmag]

/-- the sum of a list, from the left -/
def leftTree : MergeTree T → List (Hist T) → MergeTree T
  | t, [] => t
  | t, x :: xs => leftTree (.node t (.leaf x)) xs

theorem leftTree_leaves (t : MergeTree T) (xs : List (Hist T)) : (leftTree t xs).leaves = t.leaves ++ xs := by
  induction xs generalizing t with
  | nil => simp [leftTree]
  | cons x xs ih => simp [leftTree, ih, MergeTree.leaves]

theorem leftTree_eval (t : MergeTree T) (xs : List (Hist T)) :
    (leftTree t xs).eval = (do let a ← t.eval; a.sumLoop xs) := by
  induction xs generalizing t with
  | nil => simp only [leftTree, Hist.sumLoop]; cases t.eval <;> rfl
  | cons x xs ih =>
    simp only [leftTree, ih, MergeTree.eval, Hist.sumLoop]
    cases t.eval <;> rfl

/-- C53, the counts, for `iter::Sum` -/
theorem C53_counts_sum {low sigfig : Nat} {xs : List (Hist T)} (hne : xs ≠ [])
    (hx : ∀ x ∈ xs, Reachable fp T x ∧ x.low = low ∧ x.sigfig = sigfig) {g : Hist T} (e : Hist.sum fp xs = .ok g)
    {v : Nat} (hv : v ≤ U64MAX) {f : Hist T → Nat} (hf : ∀ x ∈ xs, HasCount x v (f x)) :
    HasCount g v (min (xs.map f).sum T.max) := by
  cases xs with
  | nil => exact absurd rfl hne
  | cons x xs =>
    have h1 := leftTree_leaves (.leaf x) xs
    have h2 := leftTree_eval (.leaf x) xs
    have h3 : (leftTree (.leaf x) xs).leaves = x :: xs := h1
    have := C53_counts (leftTree (.leaf x) xs) (by rw [h3]; exact hx) (h2.trans e) hv (by rw [h3]; exact hf)
    rwa [h3] at this

/-! ## When a sum panics, and its `len()` -/

/-- `len()` of the sum: that of the first summand with samples, and the counts of those after it -/
def sumLenSpec : List (Hist T) → Nat
  | [] => 0
  | x :: xs => if x.len = 0 then sumLenSpec xs else min (x.len + (xs.map fun y => y.counts.sum).sum) U64MAX

/-- the state of the loop: the settings are those of the first, and `len()` is as specified -/
theorem sumLoop_exact {h0 : Hist T} (xs : List (Hist T)) (hx : ∀ x ∈ xs, Reachable fp T x ∧ SameSettings h0 x) :
    ∀ {a : Hist T}, Reachable fp T a → SameSettings h0 a → a.isAutoResize = false →
      ((∃ y ∈ xs, y.len ≠ 0 ∧ y.max = .ok U64MAX) ∧ a.sumLoop xs = .error .expect) ∨
      ((¬ ∃ y ∈ xs, y.len ≠ 0 ∧ y.max = .ok U64MAX) ∧ ∃ g, a.sumLoop xs = .ok g ∧ g.len = sumLenSpec (a :: xs)) := by
  induction xs with
  | nil =>
    intro a R S ha
    right
    refine ⟨by simp, a, rfl, ?_⟩
    have := R.wf.tot
    have h1 : a.len = a.totalCount := rfl
    simp only [sumLenSpec, List.map_nil, List.sum_nil]
    split <;> omega
  | cons x xs ih =>
    intro a R S ha
    have ih := @ih fun y hy => hx y (by simp [hy])
    obtain ⟨Rx, Sx⟩ := hx x (by simp)
    have W := R.wf
    have Ws := Rx.wf
    have SS : SameSettings a x := S.symm.trans Sx
    have hm := W.same_matching Ws SS.low SS.high SS.sigfig
    obtain ⟨g, r, e, W', hr⟩ := W.add_spec Ws
    have htop := W.same_ltop Ws SS.low SS.high SS.sigfig
    have hmax : x.max = .ok U64MAX ↔ x.lmax = U64MAX := by rw [Ws.max_eq]; simp
    have Rg : Reachable fp T g := .add R Rx e
    unfold Hist.sumLoop Hist.addAssign
    rw [e, M.ok_bind]
    cases r with
    | error y =>
      left
      cases y with
      | ResizeFailedUsizeTypeTooSmall => exact hr.elim
      | OtherAddendValueExceedsRange =>
        exact ⟨⟨x, by simp, hr.1, hmax.mpr (htop.mp hr.2.2.1)⟩, rfl⟩
    | ok u =>
      have hno : ¬ (x.len ≠ 0 ∧ x.max = .ok U64MAX) := by
        rintro ⟨h1, h2⟩
        have h3 := htop.mpr (hmax.mp h2)
        rcases hr with ⟨hz, -⟩ | ⟨-, hauto, -⟩
        · exact h1 hz
        · have := hauto h3
          have h4 : a.autoResize = false := ha
          rw [h4] at this; cases this
      have hcond : (∃ y ∈ x :: xs, y.len ≠ 0 ∧ y.max = .ok U64MAX) ↔ ∃ y ∈ xs, y.len ≠ 0 ∧ y.max = .ok U64MAX := by
        constructor
        · rintro ⟨y, hy, h1⟩
          rcases List.mem_cons.mp hy with rfl | hy
          · exact absurd h1 hno
          · exact ⟨y, hy, h1⟩
        · rintro ⟨y, hy, h1⟩; exact ⟨y, by simp [hy], h1⟩
      show _ ∧ g.sumLoop xs = _ ∨ _ ∧ ∃ g', g.sumLoop xs = .ok g' ∧ _
      rw [hcond]
      have key : SameSettings h0 g ∧ g.isAutoResize = false ∧ sumLenSpec (g :: xs) = sumLenSpec (a :: x :: xs) := by
        have hxl : x.len = x.totalCount := rfl
        have hal : a.len = a.totalCount := rfl
        have hgl : g.len = g.totalCount := rfl
        have hzero : x.totalCount = 0 → x.counts.sum = 0 := fun h => Ws.sum_zero_of_empty h
        rcases hr with ⟨hz, rfl⟩ | ⟨hnz, -, hcfg, hlen, hhigh, hcnt, hcopy, htot, hstat⟩
        · refine ⟨S, ha, ?_⟩
          simp only [sumLenSpec, List.map_cons, List.sum_cons, hxl, hz, hzero hz, Nat.zero_add, if_true]
        · have hgrow : a.addGrown x = a := by
            unfold Hist.addGrown
            rw [if_neg fun hc => hno ⟨hnz, hmax.mpr (htop.mp hc)⟩]
          rw [hgrow] at hhigh
          refine ⟨S.trans ⟨hcfg.low.symm, hhigh.symm, hcfg.sig.symm⟩, hcfg.auto.trans ha, ?_⟩
          by_cases hz : a.totalCount = 0
          · have h1 := (hcopy ⟨hm.1, hz⟩).2.1
            simp only [sumLenSpec, List.map_cons, List.sum_cons, hal, hgl, hxl, hz, h1, if_true]
          · have h1 := htot fun hc => hz hc.2
            have h2 := W.tot
            have hU : U64MAX = 18446744073709551615 := rfl
            simp only [sumLenSpec, List.map_cons, List.sum_cons, hal, hgl]
            rw [if_neg hz, if_neg (by rw [h1]; omega), h1]
            omega
      rw [← key.2.2]
      exact ih Rg key.1 key.2.1

/-- C53, without conditions on the summands: `iter::Sum` of histograms of equal configuration, the first of which does not
resize, panics exactly if one after the first holds samples and has `max() = u64::MAX`; otherwise `len()` of the sum is
that of the first summand with samples plus the counts of all summands after it, saturating. -/
theorem C53_exact {x : Hist T} {xs : List (Hist T)} (R : Reachable fp T x) (ha : x.isAutoResize = false)
    (hx : ∀ y ∈ xs, Reachable fp T y ∧ SameSettings x y) :
    ((∃ y ∈ xs, y.len ≠ 0 ∧ y.max = .ok U64MAX) ∧ Hist.sum fp (x :: xs) = .error .expect) ∨
    ((¬ ∃ y ∈ xs, y.len ≠ 0 ∧ y.max = .ok U64MAX) ∧
      ∃ g, Hist.sum fp (x :: xs) = .ok g ∧ g.len = sumLenSpec (x :: xs)) :=
  sumLoop_exact xs hx R ⟨rfl, rfl, rfl⟩ ha

/-- three summands, the first empty, the second with a saturated counter: `len()` is that of the second plus the counts of
the third; the counts of 9 add up to 255 -/
example : (∀ y ∈ [demoSat, demo3], SameSettings demo y) ∧ demo.isAutoResize = false ∧
    sumLenSpec [demo, demoSat, demo3] = 400 + 204 ∧ demoSat.len = 400 ∧ demo3.counts.sum = 204 ∧
    ∃ g, Hist.sum Fp.ideal [demo, demoSat, demo3] = .ok g ∧ (g.len = 604 ∧ g.countAt 9 = .ok 255) :=
  ⟨by simp only [List.forall_mem_cons]; exact ⟨⟨rfl, rfl, rfl⟩, ⟨rfl, rfl, rfl⟩, by simp⟩, rfl, by decide +kernel,
    by decide +kernel, by decide +kernel, okSat (by decide +kernel)⟩

end Hdr
