import Verif.Spec.Api
import Verif.Props.Query
import Verif.Props.Wire

/-!
# C51: no panics on the safe API
-/

namespace Hdr
namespace Api

variable {T : CounterTy} {fp : Fp}

/-- all histograms of the program are reachable -/
def Good (fp : Fp) (st : List AnyHist) : Prop := ∀ x ∈ st, Reachable fp x.T x.h

theorem Good.append {st : List AnyHist} (G : Good fp st) {x : AnyHist} (R : Reachable fp x.T x.h) : Good fp (st ++ [x]) := by
  intro y hy
  rcases List.mem_append.mp hy with hy | hy
  · exact G y hy
  · rw [List.mem_singleton] at hy; subst hy; exact R

theorem Good.set {st : List AnyHist} (G : Good fp st) {i : Nat} {x : AnyHist} (R : Reachable fp x.T x.h) :
    Good fp (st.set i x) := by
  intro y hy
  rcases List.mem_or_eq_of_mem_set hy with hy | rfl
  · exact G y hy
  · exact R

theorem Good.get {st : List AnyHist} (G : Good fp st) {i : Nat} {x : AnyHist} (e : st[i]? = some x) : Reachable fp x.T x.h :=
  G x (List.mem_of_getElem? e)

theorem create_ok {st : List AnyHist} (G : Good fp st) {c : Create} (hf : (Call.create c).Fits st) :
    ∃ st', c.run fp st = .ok st' ∧ Good fp st' := by
  cases c with
  | newWithBounds T low high sigfig =>
    have hh : high ≤ U64MAX := hf
    simp only [Create.run]
    rw [newWithBounds_eq fp T hh, M.ok_bind]
    split
    · rename_i x hx
      exact ⟨_, rfl, G.append (.newWithBounds hh ((newWithBounds_eq fp T hh).trans (by rw [hx])))⟩
    · exact ⟨_, rfl, G⟩
  | newWithMax T high sigfig =>
    have hh : high ≤ U64MAX := hf
    simp only [Create.run, Hist.newWithMax]
    rw [newWithBounds_eq fp T hh, M.ok_bind]
    split
    · rename_i x hx
      exact ⟨_, rfl, G.append (.newWithBounds hh ((newWithBounds_eq fp T hh).trans (by rw [hx])))⟩
    · exact ⟨_, rfl, G⟩
  | new T sigfig =>
    simp only [Create.run]
    cases e : Hist.new fp T sigfig with
    | error x =>
      exfalso
      unfold Hist.new at e
      rw [newWithBounds_eq fp T (by decide), M.ok_bind] at e
      split at e <;> cases e
    | ok y =>
      rw [M.ok_bind]
      cases y with
      | error x => exact ⟨_, rfl, G⟩
      | ok h => exact ⟨_, rfl, G.append (.new e)⟩
  | newFrom T i =>
    simp only [Create.run]
    cases e : st[i]? with
    | none => exact ⟨_, rfl, G⟩
    | some x =>
      obtain ⟨g, e1, -⟩ := (G.get e).wf.newFrom_eq (T := T)
      simp only [e1, M.ok_bind]
      exact ⟨_, rfl, G.append (.newFrom (G.get e) e1)⟩
  | clone i =>
    simp only [Create.run]
    cases e : st[i]? with
    | none => exact ⟨_, rfl, G⟩
    | some x => exact ⟨_, rfl, G.append (G.get e)⟩
  | cloneCorrect i interval =>
    simp only [Create.run]
    cases e : st[i]? with
    | none => exact ⟨_, rfl, G⟩
    | some x =>
      obtain ⟨c, h', -, -, e1, -⟩ := (G.get e).wf.cloneCorrect_spec interval
      simp only [e1, M.ok_bind]
      have R' := Reachable.cloneCorrect (G.get e) e1
      exact ⟨_, rfl, G.append R'⟩

theorem fst_ok {ε : Type} {m : M (Hist T × Except ε Unit)} {h' : Hist T} {r : Except ε Unit} (e : m = .ok (h', r)) :
    (·.1) <$> m = .ok h' := by rw [e]; rfl

theorem one_le_max (T : CounterTy) : 1 ≤ T.max := by cases T <;> decide

theorem update_ok {h : Hist T} (R : Reachable fp T h) {u : Update} (hf : u.Fits T) :
    ∃ h', u.run h = .ok h' ∧ Reachable fp T h' := by
  have W := R.wf
  have hrec : ∀ {v c}, v ≤ U64MAX → c ≤ T.max → ∃ h', (·.1) <$> h.recordN v c = .ok h' ∧ Reachable fp T h' := by
    intro v c hv hc
    obtain ⟨h', r, e, -⟩ := C10_record_fails R hv hc
    exact ⟨h', fst_ok e, .recordN R hv hc e⟩
  have hsat : ∀ {v c}, v ≤ U64MAX → c ≤ T.max → ∃ h', h.saturatingRecordN v c = .ok h' ∧ Reachable fp T h' := by
    intro v c hv hc
    obtain ⟨h', e, -⟩ := C12_saturating R hv hc
    exact ⟨h', e, .saturatingRecordN R hv hc e⟩
  have hcor : ∀ {v c i}, v ≤ U64MAX → c ≤ T.max → ∃ h', (·.1) <$> h.recordNCorrect v c i = .ok h' ∧ Reachable fp T h' := by
    intro v c i hv hc
    obtain ⟨h', r, e, -⟩ := C15_outcome (interval := i) R hv hc
    exact ⟨h', fst_ok e, .recordNCorrect R hv hc e⟩
  cases u with
  | record v => exact hrec hf (one_le_max T)
  | recordN v c => exact hrec hf.1 hf.2
  | saturatingRecord v => exact hsat hf (one_le_max T)
  | saturatingRecordN v c => exact hsat hf.1 hf.2
  | recordCorrect v i => exact hcor hf (one_le_max T)
  | recordNCorrect v c i => exact hcor hf.1 hf.2
  | reset => exact ⟨_, rfl, .reset R⟩
  | clear => exact ⟨_, rfl, .clear R⟩
  | auto b => exact ⟨_, rfl, .auto b R⟩

theorem combine_ok {h s : Hist T} (R : Reachable fp T h) (Rs : Reachable fp T s) (c : Combine) :
    ∃ h', c.run h s = .ok h' ∧ Reachable fp T h' := by
  have W := R.wf
  have Ws := Rs.wf
  cases c with
  | add =>
    obtain ⟨h', r, e, -⟩ := W.add_spec Ws
    exact ⟨h', fst_ok e, .add R Rs e⟩
  | subtract =>
    obtain ⟨h', r, e, -⟩ := W.subtract_spec Ws
    exact ⟨h', fst_ok e, .subtract R Rs e⟩
  | setTo =>
    obtain ⟨h', r, e, -⟩ := (Reachable.reset R).wf.add_spec Ws
    exact ⟨h', fst_ok e, .setTo R Rs e⟩
  | addCorrect i =>
    obtain ⟨h', r, e, -⟩ := W.recordSeq_spec _ (Ws.corrected_valid i)
    rw [← Ws.addCorrect_eq] at e
    exact ⟨h', fst_ok e, .addCorrect R Rs e⟩
  | setToCorrected i =>
    obtain ⟨h', r, e, -⟩ := (Reachable.reset R).wf.recordSeq_spec _ (Ws.corrected_valid i)
    rw [← Ws.addCorrect_eq] at e
    exact ⟨h', fst_ok e, .setToCorrected R Rs e⟩

theorem forget_ok {α : Type} {m : M α} {x : α} (e : m = .ok x) : forget m = .ok () := by rw [e]; rfl

theorem query_ok {h : Hist T} (R : Reachable fp T h) {q : Query} (hf : q.Fits) : q.run h = .ok () := by
  have W := R.wf
  have L := W.toLayoutOK
  cases q with
  | min => exact forget_ok W.min_eq
  | max => exact forget_ok W.max_eq
  | minNz => exact forget_ok W.minNz_eq
  | countAt v => exact forget_ok (W.countAt_eq hf)
  | countBetween v w => exact forget_ok (W.countBetween_eq hf.1 hf.2)
  | lowestEquivalent v => exact forget_ok (lowestEquivalent_eq L hf)
  | highestEquivalent v => exact forget_ok (highestEquivalent_eq L hf)
  | medianEquivalent v => exact forget_ok (medianEquivalent_eq L hf)
  | nextNonEquivalent v => exact forget_ok (nextNonEquivalent_eq L hf)
  | equivalentRange v => exact forget_ok (equivalentRange_eq L hf)
  | equivalent v w => exact forget_ok (equivalent_eq L hf.1 hf.2)
  | iterRecorded => exact forget_ok (W.iterRecorded_eq (Nat.lt_succ_self _))
  | iterAll => exact forget_ok (W.iterAll_eq (Nat.lt_succ_self _))
  | serialize junk =>
    obtain ⟨r, -, e⟩ := V2.serialize_spec W
    exact forget_ok (e junk)

theorem call_ok {st : List AnyHist} (G : Good fp st) {c : Call} (hf : c.Fits st) :
    ∃ st', c.run fp st = .ok st' ∧ Good fp st' := by
  cases c with
  | create c => exact create_ok G hf
  | update i u =>
    obtain ⟨x, e, hu⟩ := hf
    obtain ⟨h', e1, R'⟩ := update_ok (G.get e) hu
    simp only [Call.run]
    simp only [e, e1, M.ok_bind]
    exact ⟨_, rfl, G.set R'⟩
  | combine i j c =>
    obtain ⟨⟨T, h⟩, ⟨T', s⟩, e, e', ht⟩ := hf
    simp only at ht
    subst ht
    have R1 := G.get e
    have R2 := G.get e'
    obtain ⟨h', e1, R'⟩ := combine_ok R1 R2 c
    simp only [Call.run]
    simp only [e, e', dite_true]
    rw [e1, M.ok_bind]
    exact ⟨_, rfl, G.set R'⟩
  | query i q =>
    obtain ⟨hi, hq⟩ := hf
    have e : st[i]? = some st[i] := List.getElem?_eq_getElem hi
    simp only [Call.run]
    simp only [e, query_ok (G.get e) hq, M.ok_bind]
    exact ⟨_, rfl, G⟩
  | compare i j =>
    obtain ⟨⟨T, h⟩, ⟨T', s⟩, e, e', ht⟩ := hf
    simp only at ht
    subst ht
    obtain ⟨b, e1, -⟩ := (G.get e).wf.eq_spec (G.get e').wf
    simp only at e1
    simp only [Call.run]
    simp only [e, e', dite_true, e1, M.ok_bind]
    exact ⟨_, rfl, G⟩

end Api

open Api in
/-- C51: a program that starts with no histogram and makes any finite number of API calls on any number of histograms of
any counter types, each call chosen with full knowledge of everything so far, never panics, never overflows an
arithmetic operation, never indexes out of bounds and never loops; and every histogram it holds is one the other
theorems speak of. The calls: all constructors, `clone`, `clone_correct`, all recording calls, `reset`, `clear`, `auto`,
`add`, `subtract`, `set_to`, `add_correct`, `set_to_corrected`, every integer query, `iter_recorded`, `iter_all`, `==`
and V2 serialization. -/
theorem C51_no_panic (fp : Fp) (p : Program) (hp : ∀ st c, p st = some c → c.Fits st) (n : Nat) :
    ∃ st, runProgram fp p n [] = .ok st ∧ ∀ x ∈ st, Reachable fp x.T x.h := by
  have : ∀ (n : Nat) (st : List AnyHist), Good fp st → ∃ st', runProgram fp p n st = .ok st' ∧ Good fp st' := by
    intro n
    induction n with
    | zero => intro st G; exact ⟨st, rfl, G⟩
    | succ n ih =>
      intro st G
      unfold runProgram
      cases e : p st with
      | none => exact ⟨st, rfl, G⟩
      | some c =>
        obtain ⟨st', e1, G'⟩ := call_ok G (hp st c e)
        obtain ⟨st2, e2, G2⟩ := ih st' G'
        exact ⟨st2, by simp only [e1, M.ok_bind]; exact e2, G2⟩
  exact this n [] (by intro x hx; cases hx)

open Api in
/-- C51, one call made in any state whose histograms are all reachable. -/
theorem C51_call (fp : Fp) {st : List AnyHist} (G : ∀ x ∈ st, Reachable fp x.T x.h) {c : Call}
    (hf : c.Fits st) : ∃ st', c.run fp st = .ok st' ∧ ∀ x ∈ st', Reachable fp x.T x.h := call_ok G hf

/-- a program whose next call depends on the state -/
example : let p : Api.Program := fun st => match st with
      | [] => some (.create (.newWithBounds .u8 1 15 0))
      | [_] => some (.create (.clone 0))
      | x :: _ => some (if x.h.len = 0 then .update 0 (.recordN 5 0) else .combine 0 1 .subtract)
    (Api.runProgram Fp.ideal p 6 []).toOption.isSome = true := by decide +kernel

end Hdr
