import Verif.Spec.Vocab

/-!
# Specification vocabulary: programs calling the histogram API

A program holds any number of histograms, of any counter types, and makes one call after the other. Returned errors
are ignored: the program carries on with whatever state the failed call left.
-/

namespace Hdr

/-- a histogram together with its counter type -/
structure AnyHist where
  T : CounterTy
  h : Hist T

namespace Api

/-- calls that create a histogram; `src` is the number of an existing histogram -/
inductive Create where
  | newWithBounds (T : CounterTy) (low high sigfig : Nat)
  | newWithMax (T : CounterTy) (high sigfig : Nat)
  | new (T : CounterTy) (sigfig : Nat)
  | newFrom (T : CounterTy) (src : Nat)
  | clone (src : Nat)
  | cloneCorrect (src interval : Nat)

/-- calls that change one histogram -/
inductive Update where
  | record (v : Nat)
  | recordN (v c : Nat)
  | saturatingRecord (v : Nat)
  | saturatingRecordN (v c : Nat)
  | recordCorrect (v interval : Nat)
  | recordNCorrect (v c interval : Nat)
  | reset
  | clear
  | auto (b : Bool)

/-- calls that change one histogram using another of the same counter type -/
inductive Combine where
  | add | subtract | setTo
  | addCorrect (interval : Nat)
  | setToCorrected (interval : Nat)

/-- calls that leave the histogram alone -/
inductive Query where
  | min | max | minNz
  | countAt (v : Nat) | countBetween (lo hi : Nat)
  | lowestEquivalent (v : Nat) | highestEquivalent (v : Nat) | medianEquivalent (v : Nat)
  | nextNonEquivalent (v : Nat) | equivalentRange (v : Nat) | equivalent (v w : Nat)
  | iterRecorded | iterAll
  | serialize (junk : Nat → UInt8)

inductive Call where
  | create (c : Create)
  | update (i : Nat) (u : Update)
  | combine (i j : Nat) (c : Combine)
  | query (i : Nat) (q : Query)
  | compare (i j : Nat)

/-- the integer arguments are values of their Rust types (`sigfig: u8` needs no bound: all larger ones are refused) -/
def Create.Fits : Create → Prop
  | .newWithBounds _ _ high _ => high ≤ U64MAX
  | .newWithMax _ high _ => high ≤ U64MAX
  | _ => True

def Update.Fits (T : CounterTy) : Update → Prop
  | .record v | .saturatingRecord v | .recordCorrect v _ => v ≤ U64MAX
  | .recordN v c | .saturatingRecordN v c | .recordNCorrect v c _ => v ≤ U64MAX ∧ c ≤ T.max
  | _ => True

def Query.Fits : Query → Prop
  | .countAt v | .lowestEquivalent v | .highestEquivalent v | .medianEquivalent v | .nextNonEquivalent v
  | .equivalentRange v => v ≤ U64MAX
  | .countBetween v w | .equivalent v w => v ≤ U64MAX ∧ w ≤ U64MAX
  | _ => True

/-- In program state `st`, the call type-checks and its histogram arguments exist. -/
def Call.Fits (st : List AnyHist) : Call → Prop
  | .create (.newFrom _ i) | .create (.clone i) | .create (.cloneCorrect i _) => i < st.length
  | .create c => c.Fits
  | .update i u => ∃ x, st[i]? = some x ∧ u.Fits x.T
  | .combine i j _ => ∃ x y, st[i]? = some x ∧ st[j]? = some y ∧ x.T = y.T
  | .query i q => i < st.length ∧ q.Fits
  | .compare i j => ∃ x y, st[i]? = some x ∧ st[j]? = some y ∧ x.T = y.T

/-- drop the result value -/
def forget {α : Type} (m : M α) : M Unit := m.map fun _ => ()

def Create.run (fp : Fp) (st : List AnyHist) : Create → M (List AnyHist)
  | .newWithBounds T low high sigfig => do
    match ← Hist.newWithBounds fp T low high sigfig with
    | .ok h => pure (st ++ [⟨T, h⟩])
    | .error _ => pure st
  | .newWithMax T high sigfig => do
    match ← Hist.newWithMax fp T high sigfig with
    | .ok h => pure (st ++ [⟨T, h⟩])
    | .error _ => pure st
  | .new T sigfig => do
    match ← Hist.new fp T sigfig with
    | .ok h => pure (st ++ [⟨T, h⟩])
    | .error _ => pure st
  | .newFrom T i =>
    match st[i]? with
    | none => pure st
    | some x => do
      let h ← Hist.newFrom fp T x.h
      pure (st ++ [⟨T, h⟩])
  | .clone i =>
    match st[i]? with
    | none => pure st
    | some x => pure (st ++ [x])
  | .cloneCorrect i interval =>
    match st[i]? with
    | none => pure st
    | some x => do
      let h ← Hist.cloneCorrect fp x.h interval
      pure (st ++ [⟨x.T, h⟩])

def Update.run {T : CounterTy} (h : Hist T) : Update → M (Hist T)
  | .record v => (·.1) <$> h.record v
  | .recordN v c => (·.1) <$> h.recordN v c
  | .saturatingRecord v => h.saturatingRecord v
  | .saturatingRecordN v c => h.saturatingRecordN v c
  | .recordCorrect v i => (·.1) <$> h.recordCorrect v i
  | .recordNCorrect v c i => (·.1) <$> h.recordNCorrect v c i
  | .reset => .ok h.reset
  | .clear => .ok h.clear
  | .auto b => .ok (h.auto b)

def Combine.run {T : CounterTy} (h s : Hist T) : Combine → M (Hist T)
  | .add => (·.1) <$> h.add s
  | .subtract => (·.1) <$> h.subtract s
  | .setTo => (·.1) <$> h.setTo s
  | .addCorrect i => (·.1) <$> h.addCorrect s i
  | .setToCorrected i => (·.1) <$> h.setToCorrected s i

def Query.run {T : CounterTy} (h : Hist T) : Query → M Unit
  | .min => forget h.min
  | .max => forget h.max
  | .minNz => forget h.minNz
  | .countAt v => forget (h.countAt v)
  | .countBetween v w => forget (h.countBetween v w)
  | .lowestEquivalent v => forget (h.lowestEquivalent v)
  | .highestEquivalent v => forget (h.highestEquivalent v)
  | .medianEquivalent v => forget (h.medianEquivalent v)
  | .nextNonEquivalent v => forget (h.nextNonEquivalent v)
  | .equivalentRange v => forget (h.equivalentRange v)
  | .equivalent v w => forget (h.equivalent v w)
  | .iterRecorded => forget (h.iterRecorded (h.distinctValues + 1))
  | .iterAll => forget (h.iterAll (h.distinctValues + 1))
  | .serialize junk => forget (V2.serialize junk h)

/-- one call; a panic is an error of the `M` monad, and so are arithmetic overflow, out-of-bounds access and a loop that
does not end -/
def Call.run (fp : Fp) (st : List AnyHist) : Call → M (List AnyHist)
  | .create c => c.run fp st
  | .update i u =>
    match st[i]? with
    | none => pure st
    | some x => do
      let h ← u.run x.h
      pure (st.set i ⟨x.T, h⟩)
  | .combine i j c =>
    match st[i]?, st[j]? with
    | some x, some y =>
      if e : y.T = x.T then do
        let h ← c.run x.h (e ▸ y.h)
        pure (st.set i ⟨x.T, h⟩)
      else pure st
    | _, _ => pure st
  | .query i q =>
    match st[i]? with
    | none => pure st
    | some x => do
      q.run x.h
      pure st
  | .compare i j =>
    match st[i]?, st[j]? with
    | some x, some y =>
      if e : y.T = x.T then do
        let _ ← x.h.eq (e ▸ y.h)
        pure st
      else pure st
    | _, _ => pure st

/-- A program: each call may depend on the state (and so on all answers so far); `none` ends it. -/
abbrev Program := List AnyHist → Option Call

/-- the first `n` calls of a program -/
def runProgram (fp : Fp) (p : Program) : Nat → List AnyHist → M (List AnyHist)
  | 0, st => pure st
  | n + 1, st =>
    match p st with
    | none => pure st
    | some c => do
      let st ← c.run fp st
      runProgram fp p n st

end Api
end Hdr
