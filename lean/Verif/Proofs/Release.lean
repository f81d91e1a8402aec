import Verif.Model.Release
import Mathlib.Tactic.Common

/-!
# A release build agrees with a debug build that does not panic
-/

namespace Hdr

/-- if `a` ends without a panic, `b` ends with the same result -/
structure Agrees {α : Type} (a b : M α) : Prop where
  out : ∀ r, a = .ok r → b = .ok r

namespace Agrees

variable {α β : Type}

theorem rfl {a : M α} : Agrees a a := ⟨fun _ h => h⟩

theorem err {e : Panic} {b : M α} : Agrees (.error e) b := ⟨fun _ h => by cases h⟩

theorem bind {a a' : M α} {f f' : α → M β} (h : Agrees a a') (hf : ∀ x, Agrees (f x) (f' x)) :
    Agrees (a >>= f) (a' >>= f') := by
  refine ⟨fun r hr => ?_⟩
  cases ha : a with
  | error e => rw [ha] at hr; cases hr
  | ok x =>
    rw [ha] at hr
    rw [h.out x ha]
    exact (hf x).out r hr

theorem dropAssert {c : Bool} {f : Unit → M β} {b : M β} (h : Agrees (f ()) b) : Agrees (assertM c >>= f) b := by
  refine ⟨fun r hr => ?_⟩
  cases c with
  | false => cases hr
  | true => exact h.out r hr

theorem map {a a' : M α} {f : α → β} (h : Agrees a a') : Agrees (f <$> a) (f <$> a') := by
  refine ⟨fun r hr => ?_⟩
  cases ha : a with
  | error e => rw [ha] at hr; cases hr
  | ok x => rw [ha] at hr; rw [h.out x ha]; exact hr

theorem exceptMap {a a' : M α} {f : α → β} (h : Agrees a a') : Agrees (Except.map f a) (Except.map f a') := by
  refine ⟨fun r hr => ?_⟩
  cases ha : a with
  | error e => rw [ha] at hr; cases hr
  | ok x => rw [ha] at hr; rw [h.out x ha]; exact hr

theorem ite {c : Prop} [Decidable c] {a a' b b' : M α} (ha : Agrees a a') (hb : Agrees b b') :
    Agrees (if c then a else b) (if c then a' else b') := by
  by_cases h : c
  · rw [if_pos h, if_pos h]; exact ha
  · rw [if_neg h, if_neg h]; exact hb

end Agrees

/-- one step of an agreement proof; extended by each lemma below -/
syntax "agree_step" : tactic

macro_rules | `(tactic| agree_step) => `(tactic| with_reducible exact Agrees.rfl)
macro_rules | `(tactic| agree_step) => `(tactic| with_reducible exact Agrees.err)
macro_rules | `(tactic| agree_step) => `(tactic| with_reducible apply Agrees.bind)
macro_rules | `(tactic| agree_step) => `(tactic| with_reducible apply Agrees.map)
macro_rules | `(tactic| agree_step) => `(tactic| with_reducible apply Agrees.ite)

/-- both sides have the same structure -/
macro "agree" : tactic => `(tactic| repeat' (first | agree_step | assumption | intro _ | (split <;> dsimp only) ))

namespace Release

theorem addU8_le (a b : Nat) : Agrees (Hdr.addU8 a b) (addU8 a b) := by
  refine ⟨fun r hr => ?_⟩
  unfold Hdr.addU8 at hr
  split at hr
  · cases hr; unfold addU8; rw [Nat.mod_eq_of_lt (by omega)]
  · cases hr

theorem addU32_le (a b : Nat) : Agrees (Hdr.addU32 a b) (addU32 a b) := by
  refine ⟨fun r hr => ?_⟩
  unfold Hdr.addU32 at hr
  split at hr
  · cases hr; unfold addU32; rw [Nat.mod_eq_of_lt (by omega)]
  · cases hr

theorem mulU32_le (a b : Nat) : Agrees (Hdr.mulU32 a b) (mulU32 a b) := by
  refine ⟨fun r hr => ?_⟩
  unfold Hdr.mulU32 at hr
  split at hr
  · cases hr; unfold mulU32; rw [Nat.mod_eq_of_lt (by omega)]
  · cases hr

theorem addU64_le (a b : Nat) : Agrees (Hdr.addU64 a b) (addU64 a b) := by
  refine ⟨fun r hr => ?_⟩
  have hU : U64MAX = 18446744073709551615 := rfl
  unfold Hdr.addU64 at hr
  split at hr
  · cases hr; unfold addU64; rw [Nat.mod_eq_of_lt (by omega)]
  · cases hr

theorem mulU64_le (a b : Nat) : Agrees (Hdr.mulU64 a b) (mulU64 a b) := by
  refine ⟨fun r hr => ?_⟩
  have hU : U64MAX = 18446744073709551615 := rfl
  unfold Hdr.mulU64 at hr
  split at hr
  · cases hr; unfold mulU64; rw [Nat.mod_eq_of_lt (by omega)]
  · cases hr

theorem subU8_le (a b : Nat) : Agrees (Hdr.subU a b) (subU8 a b) := by
  refine ⟨fun r hr => ?_⟩
  unfold Hdr.subU at hr
  split at hr
  case isTrue h => cases hr; unfold subU8 wrapSub; rw [if_pos h]
  case isFalse => cases hr

theorem subU32_le (a b : Nat) : Agrees (Hdr.subU a b) (subU32 a b) := by
  refine ⟨fun r hr => ?_⟩
  unfold Hdr.subU at hr
  split at hr
  case isTrue h => cases hr; unfold subU32 wrapSub; rw [if_pos h]
  case isFalse => cases hr

theorem subU64_le (a b : Nat) : Agrees (Hdr.subU a b) (subU64 a b) := by
  refine ⟨fun r hr => ?_⟩
  unfold Hdr.subU at hr
  split at hr
  case isTrue h => cases hr; unfold subU64 wrapSub; rw [if_pos h]
  case isFalse => cases hr

theorem shlU64_le (a n : Nat) : Agrees (Hdr.shlU64 a n) (shlU64 a n) := by
  refine ⟨fun r hr => ?_⟩
  unfold Hdr.shlU64 at hr
  split at hr
  · cases hr; unfold shlU64; rw [Nat.mod_eq_of_lt (show n < 64 by omega)]
  · cases hr

theorem shrU64_le (a n : Nat) : Agrees (Hdr.shrU64 a n) (shrU64 a n) := by
  refine ⟨fun r hr => ?_⟩
  unfold Hdr.shrU64 at hr
  split at hr
  · cases hr; unfold shrU64; rw [Nat.mod_eq_of_lt (show n < 64 by omega)]
  · cases hr

theorem shlU32_le (a n : Nat) : Agrees (Hdr.shlU32 a n) (shlU32 a n) := by
  refine ⟨fun r hr => ?_⟩
  unfold Hdr.shlU32 at hr
  split at hr
  · cases hr; unfold shlU32; rw [Nat.mod_eq_of_lt (show n < 32 by omega)]
  · cases hr

theorem shlI32_le (a : Int) (n : Nat) : Agrees (Hdr.shlI32 a n) (shlI32 a n) := by
  refine ⟨fun r hr => ?_⟩
  unfold Hdr.shlI32 at hr
  split at hr
  · cases hr; unfold shlI32; rw [Nat.mod_eq_of_lt (show n < 32 by omega)]
  · cases hr

theorem chkI32_le (x : Int) : Agrees (Hdr.chkI32 x) (wrapI32M x) := by
  refine ⟨fun r hr => ?_⟩
  unfold Hdr.chkI32 at hr
  split at hr
  · cases hr; unfold wrapI32M wrapI32; congr 1; omega
  · cases hr

theorem chkI64_le (x : Int) : Agrees (Hdr.chkI64 x) (wrapI64M x) := by
  refine ⟨fun r hr => ?_⟩
  unfold Hdr.chkI64 at hr
  split at hr
  · cases hr; unfold wrapI64M; congr 1; omega
  · cases hr

macro_rules | `(tactic| agree_step) => `(tactic| with_reducible apply addU8_le)
macro_rules | `(tactic| agree_step) => `(tactic| with_reducible apply addU32_le)
macro_rules | `(tactic| agree_step) => `(tactic| with_reducible apply mulU32_le)
macro_rules | `(tactic| agree_step) => `(tactic| with_reducible apply addU64_le)
macro_rules | `(tactic| agree_step) => `(tactic| with_reducible apply mulU64_le)
macro_rules | `(tactic| agree_step) => `(tactic| with_reducible apply subU8_le)
macro_rules | `(tactic| agree_step) => `(tactic| with_reducible apply subU32_le)
macro_rules | `(tactic| agree_step) => `(tactic| with_reducible apply subU64_le)
macro_rules | `(tactic| agree_step) => `(tactic| with_reducible apply shlU64_le)
macro_rules | `(tactic| agree_step) => `(tactic| with_reducible apply shrU64_le)
macro_rules | `(tactic| agree_step) => `(tactic| with_reducible apply shlU32_le)
macro_rules | `(tactic| agree_step) => `(tactic| with_reducible apply shlI32_le)
macro_rules | `(tactic| agree_step) => `(tactic| with_reducible apply chkI32_le)
macro_rules | `(tactic| agree_step) => `(tactic| with_reducible apply chkI64_le)

variable {T : CounterTy} {P : Type}

namespace Hist

theorem bucketFor_le (h : Hdr.Hist T) (value : Nat) :
    Agrees (Hdr.Hist.bucketFor h value) (bucketFor h value) := by
  unfold Hdr.Hist.bucketFor bucketFor
  agree

macro_rules | `(tactic| agree_step) => `(tactic| with_reducible apply Hist.bucketFor_le)

theorem subBucketFor_le (h : Hdr.Hist T) (value bucketIndex : Nat) :
    Agrees (Hdr.Hist.subBucketFor h value bucketIndex) (subBucketFor h value bucketIndex) := by
  unfold Hdr.Hist.subBucketFor subBucketFor
  agree

macro_rules | `(tactic| agree_step) => `(tactic| with_reducible apply Hist.subBucketFor_le)

theorem valueFromLoc_le (h : Hdr.Hist T) (bucketIndex subBucketIndex : Nat) :
    Agrees (Hdr.Hist.valueFromLoc h bucketIndex subBucketIndex) (valueFromLoc h bucketIndex subBucketIndex) := by
  unfold Hdr.Hist.valueFromLoc valueFromLoc
  agree

macro_rules | `(tactic| agree_step) => `(tactic| with_reducible apply Hist.valueFromLoc_le)

theorem indexFor_le (h : Hdr.Hist T) (value : Nat) : Agrees (Hdr.Hist.indexFor h value) (indexFor h value) := by
  unfold Hdr.Hist.indexFor indexFor
  refine Agrees.bind (bucketFor_le ..) fun b => Agrees.bind (subBucketFor_le ..) fun s => ?_
  refine Agrees.dropAssert (Agrees.dropAssert ?_)
  refine Agrees.bind (chkI32_le ..) fun b1 => Agrees.bind (shlI32_le ..) fun base => ?_
  refine Agrees.bind (chkI32_le ..) fun off => Agrees.bind (chkI32_le ..) fun i => ?_
  exact Agrees.dropAssert Agrees.rfl

macro_rules | `(tactic| agree_step) => `(tactic| with_reducible apply Hist.indexFor_le)

theorem indexForOrLast_le (h : Hdr.Hist T) (value : Nat) :
    Agrees (Hdr.Hist.indexForOrLast h value) (indexForOrLast h value) := by
  unfold Hdr.Hist.indexForOrLast indexForOrLast
  agree

macro_rules | `(tactic| agree_step) => `(tactic| with_reducible apply Hist.indexForOrLast_le)

theorem mutAt_le (h : Hdr.Hist T) (value : Nat) :
    Agrees (Hdr.Hist.mutAt h value) (mutAt h value) := by
  unfold Hdr.Hist.mutAt mutAt
  agree

macro_rules | `(tactic| agree_step) => `(tactic| with_reducible apply Hist.mutAt_le)

theorem valueFor_le (h : Hdr.Hist T) (index : Nat) :
    Agrees (Hdr.Hist.valueFor h index) (valueFor h index) := by
  unfold Hdr.Hist.valueFor valueFor
  agree

macro_rules | `(tactic| agree_step) => `(tactic| with_reducible apply Hist.valueFor_le)

theorem lowestEquivalent_le (h : Hdr.Hist T) (value : Nat) :
    Agrees (Hdr.Hist.lowestEquivalent h value) (lowestEquivalent h value) := by
  unfold Hdr.Hist.lowestEquivalent lowestEquivalent
  agree

macro_rules | `(tactic| agree_step) => `(tactic| with_reducible apply Hist.lowestEquivalent_le)

theorem equivalentRange_le (h : Hdr.Hist T) (value : Nat) :
    Agrees (Hdr.Hist.equivalentRange h value) (equivalentRange h value) := by
  unfold Hdr.Hist.equivalentRange equivalentRange
  agree

macro_rules | `(tactic| agree_step) => `(tactic| with_reducible apply Hist.equivalentRange_le)

theorem nextNonEquivalent_le (h : Hdr.Hist T) (value : Nat) :
    Agrees (Hdr.Hist.nextNonEquivalent h value) (nextNonEquivalent h value) := by
  unfold Hdr.Hist.nextNonEquivalent nextNonEquivalent
  agree

macro_rules | `(tactic| agree_step) => `(tactic| with_reducible apply Hist.nextNonEquivalent_le)

theorem highestEquivalent_le (h : Hdr.Hist T) (value : Nat) :
    Agrees (Hdr.Hist.highestEquivalent h value) (highestEquivalent h value) := by
  unfold Hdr.Hist.highestEquivalent highestEquivalent
  agree

macro_rules | `(tactic| agree_step) => `(tactic| with_reducible apply Hist.highestEquivalent_le)

theorem medianEquivalent_le (h : Hdr.Hist T) (value : Nat) :
    Agrees (Hdr.Hist.medianEquivalent h value) (medianEquivalent h value) := by
  unfold Hdr.Hist.medianEquivalent medianEquivalent
  agree

macro_rules | `(tactic| agree_step) => `(tactic| with_reducible apply Hist.medianEquivalent_le)

theorem equivalent_le (h : Hdr.Hist T) (value1 value2 : Nat) :
    Agrees (Hdr.Hist.equivalent h value1 value2) (equivalent h value1 value2) := by
  unfold Hdr.Hist.equivalent equivalent
  agree

macro_rules | `(tactic| agree_step) => `(tactic| with_reducible apply Hist.equivalent_le)

theorem bucketsLoop_le (value : Nat) : ∀ fuel s n, Agrees (Hdr.Hist.bucketsLoop value fuel s n) (bucketsLoop value fuel s n) := by
  intro fuel
  induction fuel with
  | zero => intro s n; exact Agrees.err
  | succ fuel ih =>
    intro s n
    unfold Hdr.Hist.bucketsLoop bucketsLoop
    agree
    exact ih _ _

macro_rules | `(tactic| agree_step) => `(tactic| with_reducible apply Hist.bucketsLoop_le)

theorem bucketsToCover_le (h : Hdr.Hist T) (value : Nat) :
    Agrees (Hdr.Hist.bucketsToCover h value) (bucketsToCover h value) := by
  unfold Hdr.Hist.bucketsToCover bucketsToCover
  agree

macro_rules | `(tactic| agree_step) => `(tactic| with_reducible apply Hist.bucketsToCover_le)

theorem numBins_le (h : Hdr.Hist T) (numberOfBuckets : Nat) :
    Agrees (Hdr.Hist.numBins h numberOfBuckets) (numBins h numberOfBuckets) := by
  unfold Hdr.Hist.numBins numBins
  agree

macro_rules | `(tactic| agree_step) => `(tactic| with_reducible apply Hist.numBins_le)

theorem resize_le (h : Hdr.Hist T) (high : Nat) :
    Agrees (Hdr.Hist.resize h high) (resize h high) := by
  unfold Hdr.Hist.resize resize
  agree

macro_rules | `(tactic| agree_step) => `(tactic| with_reducible apply Hist.resize_le)

theorem max_le (h : Hdr.Hist T) :
    Agrees (Hdr.Hist.max h) (max h) := by
  unfold Hdr.Hist.max max
  agree

macro_rules | `(tactic| agree_step) => `(tactic| with_reducible apply Hist.max_le)

theorem minNz_le (h : Hdr.Hist T) :
    Agrees (Hdr.Hist.minNz h) (minNz h) := by
  unfold Hdr.Hist.minNz minNz
  agree

macro_rules | `(tactic| agree_step) => `(tactic| with_reducible apply Hist.minNz_le)

theorem min_le (h : Hdr.Hist T) :
    Agrees (Hdr.Hist.min h) (min h) := by
  unfold Hdr.Hist.min min
  agree

macro_rules | `(tactic| agree_step) => `(tactic| with_reducible apply Hist.min_le)

theorem applyMaxIndex_le (h : Hdr.Hist T) (o : Option Nat) : Agrees (Hdr.Hist.applyMaxIndex h o) (applyMaxIndex h o) := by
  cases o with
  | none => exact Agrees.rfl
  | some i =>
    simp only [Hdr.Hist.applyMaxIndex, applyMaxIndex]
    agree

macro_rules | `(tactic| agree_step) => `(tactic| with_reducible apply Hist.applyMaxIndex_le)

theorem applyMinIndex_le (h : Hdr.Hist T) (o : Option Nat) : Agrees (Hdr.Hist.applyMinIndex h o) (applyMinIndex h o) := by
  cases o with
  | none => exact Agrees.rfl
  | some i =>
    simp only [Hdr.Hist.applyMinIndex, applyMinIndex]
    agree

macro_rules | `(tactic| agree_step) => `(tactic| with_reducible apply Hist.applyMinIndex_le)

theorem updateHistogram_le (s : Hdr.Hist.RestatState) (h : Hdr.Hist T) :
    Agrees (Hdr.Hist.RestatState.updateHistogram s h) (updateHistogram s h) := by
  unfold Hdr.Hist.RestatState.updateHistogram updateHistogram
  agree

macro_rules | `(tactic| agree_step) => `(tactic| with_reducible apply Hist.updateHistogram_le)

theorem restat_le (h : Hdr.Hist T) (lengthToScan : Nat) :
    Agrees (Hdr.Hist.restat h lengthToScan) (restat h lengthToScan) := by
  unfold Hdr.Hist.restat restat
  agree

macro_rules | `(tactic| agree_step) => `(tactic| with_reducible apply Hist.restat_le)

theorem newUnsized_le (fp : Fp) (T : CounterTy) (low high sigfig : Nat) :
    Agrees (Hdr.Hist.newUnsized fp T low high sigfig) (newUnsized fp T low high sigfig) := by
  unfold Hdr.Hist.newUnsized newUnsized
  agree

macro_rules | `(tactic| agree_step) => `(tactic| with_reducible apply Hist.newUnsized_le)

theorem newWithBounds_le (fp : Fp) (T : CounterTy) (low high sigfig : Nat) :
    Agrees (Hdr.Hist.newWithBounds fp T low high sigfig) (newWithBounds fp T low high sigfig) := by
  unfold Hdr.Hist.newWithBounds newWithBounds
  agree

macro_rules | `(tactic| agree_step) => `(tactic| with_reducible apply Hist.newWithBounds_le)

theorem new_le (fp : Fp) (T : CounterTy) (sigfig : Nat) :
    Agrees (Hdr.Hist.new fp T sigfig) (new fp T sigfig) := by
  unfold Hdr.Hist.new new
  agree

macro_rules | `(tactic| agree_step) => `(tactic| with_reducible apply Hist.new_le)

theorem newWithMax_le (fp : Fp) (T : CounterTy) (high sigfig : Nat) :
    Agrees (Hdr.Hist.newWithMax fp T high sigfig) (newWithMax fp T high sigfig) := by
  unfold Hdr.Hist.newWithMax newWithMax
  agree

macro_rules | `(tactic| agree_step) => `(tactic| with_reducible apply Hist.newWithMax_le)

theorem newFrom_le {F : CounterTy} (fp : Fp) (T : CounterTy) (source : Hdr.Hist F) :
    Agrees (Hdr.Hist.newFrom fp T source) (newFrom fp T source) := by
  unfold Hdr.Hist.newFrom newFrom
  agree

macro_rules | `(tactic| agree_step) => `(tactic| with_reducible apply Hist.newFrom_le)

theorem recordAfterResize_le (h : Hdr.Hist T) (value count : Nat) :
    Agrees (Hdr.Hist.recordAfterResize h value count) (recordAfterResize h value count) := by
  unfold Hdr.Hist.recordAfterResize recordAfterResize
  agree

macro_rules | `(tactic| agree_step) => `(tactic| with_reducible apply Hist.recordAfterResize_le)

theorem recordNInner_le (h : Hdr.Hist T) (value count : Nat) (clamp : Bool) :
    Agrees (Hdr.Hist.recordNInner h value count clamp) (recordNInner h value count clamp) := by
  unfold Hdr.Hist.recordNInner recordNInner
  agree

macro_rules | `(tactic| agree_step) => `(tactic| with_reducible apply Hist.recordNInner_le)

theorem recordN_le (h : Hdr.Hist T) (value count : Nat) :
    Agrees (Hdr.Hist.recordN h value count) (recordN h value count) := by
  unfold Hdr.Hist.recordN recordN
  agree

macro_rules | `(tactic| agree_step) => `(tactic| with_reducible apply Hist.recordN_le)

theorem record_le (h : Hdr.Hist T) (value : Nat) :
    Agrees (Hdr.Hist.record h value) (record h value) := by
  unfold Hdr.Hist.record record
  agree

macro_rules | `(tactic| agree_step) => `(tactic| with_reducible apply Hist.record_le)

theorem saturatingRecordN_le (h : Hdr.Hist T) (value count : Nat) :
    Agrees (Hdr.Hist.saturatingRecordN h value count) (saturatingRecordN h value count) := by
  unfold Hdr.Hist.saturatingRecordN saturatingRecordN
  agree

macro_rules | `(tactic| agree_step) => `(tactic| with_reducible apply Hist.saturatingRecordN_le)

theorem saturatingRecord_le (h : Hdr.Hist T) (value : Nat) :
    Agrees (Hdr.Hist.saturatingRecord h value) (saturatingRecord h value) := by
  unfold Hdr.Hist.saturatingRecord saturatingRecord
  agree

macro_rules | `(tactic| agree_step) => `(tactic| with_reducible apply Hist.saturatingRecord_le)

theorem correctLoop_le (count interval : Nat) : ∀ fuel (h : Hdr.Hist T) m,
    Agrees (Hdr.Hist.correctLoop count interval fuel h m) (correctLoop count interval fuel h m) := by
  intro fuel
  induction fuel with
  | zero => intro h m; exact Agrees.err
  | succ fuel ih =>
    intro h m
    unfold Hdr.Hist.correctLoop correctLoop
    agree
    all_goals exact ih _ _

macro_rules | `(tactic| agree_step) => `(tactic| with_reducible apply Hist.correctLoop_le)

theorem recordNCorrect_le (h : Hdr.Hist T) (value count interval : Nat) :
    Agrees (Hdr.Hist.recordNCorrect h value count interval) (recordNCorrect h value count interval) := by
  unfold Hdr.Hist.recordNCorrect recordNCorrect
  agree

macro_rules | `(tactic| agree_step) => `(tactic| with_reducible apply Hist.recordNCorrect_le)

theorem recordCorrect_le (h : Hdr.Hist T) (value interval : Nat) :
    Agrees (Hdr.Hist.recordCorrect h value interval) (recordCorrect h value interval) := by
  unfold Hdr.Hist.recordCorrect recordCorrect
  agree

macro_rules | `(tactic| agree_step) => `(tactic| with_reducible apply Hist.recordCorrect_le)

theorem addRecordLoop_le (source : Hdr.Hist T) : ∀ is (h : Hdr.Hist T),
    Agrees (Hdr.Hist.addRecordLoop source is h) (addRecordLoop source is h) := by
  intro is
  induction is with
  | nil => intro h; exact Agrees.rfl
  | cons i is ih =>
    intro h
    unfold Hdr.Hist.addRecordLoop addRecordLoop
    agree
    all_goals exact ih _

macro_rules | `(tactic| agree_step) => `(tactic| with_reducible apply Hist.addRecordLoop_le)

theorem addBody_le (h source : Hdr.Hist T) :
    Agrees (Hdr.Hist.addBody h source) (addBody h source) := by
  unfold Hdr.Hist.addBody addBody
  agree

macro_rules | `(tactic| agree_step) => `(tactic| with_reducible apply Hist.addBody_le)

theorem add_le (h source : Hdr.Hist T) :
    Agrees (Hdr.Hist.add h source) (add h source) := by
  unfold Hdr.Hist.add add
  agree

macro_rules | `(tactic| agree_step) => `(tactic| with_reducible apply Hist.add_le)

theorem setTo_le (h source : Hdr.Hist T) :
    Agrees (Hdr.Hist.setTo h source) (setTo h source) := by
  unfold Hdr.Hist.setTo setTo
  agree

macro_rules | `(tactic| agree_step) => `(tactic| with_reducible apply Hist.setTo_le)

theorem subtractLoop_le (s : Hdr.Hist T) (a b : Nat) : ∀ is (h : Hdr.Hist T) r,
    Agrees (Hdr.Hist.subtractLoop s a b is h r) (subtractLoop s a b is h r) := by
  intro is
  induction is with
  | nil => intro h r; exact Agrees.rfl
  | cons i is ih =>
    intro h r
    unfold Hdr.Hist.subtractLoop subtractLoop
    agree
    · generalize checkedSub _ _ = o
      cases o with
      | none => exact Agrees.rfl
      | some c =>
        refine Agrees.ite (ih _ _) (Agrees.bind Agrees.rfl fun _ => ih _ _)
    · exact ih _ _

macro_rules | `(tactic| agree_step) => `(tactic| with_reducible apply Hist.subtractLoop_le)

theorem subtract_le (h subtrahend : Hdr.Hist T) :
    Agrees (Hdr.Hist.subtract h subtrahend) (subtract h subtrahend) := by
  unfold Hdr.Hist.subtract subtract
  agree

macro_rules | `(tactic| agree_step) => `(tactic| with_reducible apply Hist.subtract_le)

theorem countBetween_le (h : Hdr.Hist T) (low high : Nat) :
    Agrees (Hdr.Hist.countBetween h low high) (countBetween h low high) := by
  unfold Hdr.Hist.countBetween countBetween
  agree

macro_rules | `(tactic| agree_step) => `(tactic| with_reducible apply Hist.countBetween_le)

theorem countAt_le (h : Hdr.Hist T) (value : Nat) :
    Agrees (Hdr.Hist.countAt h value) (countAt h value) := by
  unfold Hdr.Hist.countAt countAt
  agree

macro_rules | `(tactic| agree_step) => `(tactic| with_reducible apply Hist.countAt_le)

theorem eq_le (h other : Hdr.Hist T) :
    Agrees (Hdr.Hist.eq h other) (eq h other) := by
  unfold Hdr.Hist.eq eq
  agree

macro_rules | `(tactic| agree_step) => `(tactic| with_reducible apply Hist.eq_le)

theorem addAssign_le (h source : Hdr.Hist T) :
    Agrees (Hdr.Hist.addAssign h source) (addAssign h source) := by
  unfold Hdr.Hist.addAssign addAssign
  agree

macro_rules | `(tactic| agree_step) => `(tactic| with_reducible apply Hist.addAssign_le)

theorem subAssign_le (h source : Hdr.Hist T) :
    Agrees (Hdr.Hist.subAssign h source) (subAssign h source) := by
  unfold Hdr.Hist.subAssign subAssign
  agree

macro_rules | `(tactic| agree_step) => `(tactic| with_reducible apply Hist.subAssign_le)

theorem addAssignValue_le (h : Hdr.Hist T) (value : Nat) :
    Agrees (Hdr.Hist.addAssignValue h value) (addAssignValue h value) := by
  unfold Hdr.Hist.addAssignValue addAssignValue
  agree

macro_rules | `(tactic| agree_step) => `(tactic| with_reducible apply Hist.addAssignValue_le)

theorem sumLoop_le : ∀ (xs : List (Hdr.Hist T)) (h : Hdr.Hist T), Agrees (Hdr.Hist.sumLoop h xs) (sumLoop h xs) := by
  intro xs
  induction xs with
  | nil => intro h; exact Agrees.rfl
  | cons x xs ih =>
    intro h
    unfold Hdr.Hist.sumLoop sumLoop
    agree

macro_rules | `(tactic| agree_step) => `(tactic| with_reducible apply Hist.sumLoop_le)

theorem sum_le (fp : Fp) (xs : List (Hdr.Hist T)) : Agrees (Hdr.Hist.sum fp xs) (sum fp xs) := by
  cases xs with
  | nil =>
    simp only [Hdr.Hist.sum, sum]
    agree
  | cons x xs => exact sumLoop_le xs x

macro_rules | `(tactic| agree_step) => `(tactic| with_reducible apply Hist.sum_le)

theorem iterNew_le (h : Hdr.Hist T) (picker : P) :
    Agrees (Hdr.Hist.iterNew h picker) (iterNew h picker) := by
  unfold Hdr.Hist.iterNew iterNew
  agree

macro_rules | `(tactic| agree_step) => `(tactic| with_reducible apply Hist.iterNew_le)

theorem iterEmit_le (h : Hdr.Hist T) (s : IterState P) (m : PickMeta) :
    Agrees (Hdr.Hist.iterEmit h s m) (iterEmit h s m) := by
  obtain ⟨q, v⟩ := m
  unfold Hdr.Hist.iterEmit iterEmit
  cases v
  · dsimp only; agree
  · dsimp only; agree

macro_rules | `(tactic| agree_step) => `(tactic| with_reducible apply Hist.iterEmit_le)

--nomacro
/-- the two pickers agree -/
def PickersAgree (pk pk' : Picker P) : Prop :=
  (∀ p i t c, Agrees (pk.pick p i t c) (pk'.pick p i t c)) ∧ ∀ p i, Agrees (pk.more p i) (pk'.more p i)

theorem iterPick_le (h : Hdr.Hist T) {pk pk' : Picker P} (hp : PickersAgree pk pk') (s : IterState P) :
    Agrees (Hdr.Hist.iterPick h pk s) (iterPick h pk' s) := by
  unfold Hdr.Hist.iterPick iterPick
  refine Agrees.bind (hp.1 _ _ _ _) ?_
  agree

--nomacro
theorem iterPass_le (h : Hdr.Hist T) {pk pk' : Picker P} (hp : PickersAgree pk pk') (s : IterState P) :
    Agrees (Hdr.Hist.iterPass h pk s) (iterPass h pk' s) := by
  unfold Hdr.Hist.iterPass iterPass
  refine Agrees.ite Agrees.rfl (Agrees.ite ?_ ?_)
  · refine Agrees.bind (hp.2 _ _) ?_
    rintro ⟨p, more⟩
    exact Agrees.ite (iterPick_le h hp _) Agrees.rfl
  · refine Agrees.bind Agrees.rfl fun _ => Agrees.bind Agrees.rfl fun s => ?_
    exact iterPick_le h hp s

--nomacro
theorem iterNextLoop_le (h : Hdr.Hist T) {pk pk' : Picker P} (hp : PickersAgree pk pk') : ∀ n (s : IterState P),
    Agrees (Hdr.Hist.iterNextLoop h pk n s) (iterNextLoop h pk' n s) := by
  intro n
  induction n with
  | zero => intro s; exact Agrees.err
  | succ n ih =>
    intro s
    unfold Hdr.Hist.iterNextLoop iterNextLoop
    refine Agrees.ite Agrees.rfl (Agrees.bind (iterPass_le h hp s) ?_)
    rintro (s | ⟨s, v⟩ | s)
    · exact Agrees.rfl
    · exact Agrees.rfl
    · exact ih s

--nomacro
theorem iterNext_le (h : Hdr.Hist T) {pk pk' : Picker P} (hp : PickersAgree pk pk') (s : IterState P) :
    Agrees (Hdr.Hist.iterNext h pk s) (iterNext h pk' s) := iterNextLoop_le h hp _ s

--nomacro
theorem iterCollect_le (h : Hdr.Hist T) {pk pk' : Picker P} (hp : PickersAgree pk pk') : ∀ n (s : IterState P),
    Agrees (Hdr.Hist.iterCollect h pk n s) (iterCollect h pk' n s) := by
  intro n
  induction n with
  | zero => intro s; exact Agrees.err
  | succ n ih =>
    intro s
    unfold Hdr.Hist.iterCollect iterCollect
    refine Agrees.bind (iterNext_le h hp s) ?_
    rintro ⟨s, _ | v⟩
    · exact Agrees.rfl
    · exact Agrees.bind (ih s) fun _ => Agrees.rfl

theorem iterAll_le (h : Hdr.Hist T) (fuel : Nat) : Agrees (Hdr.Hist.iterAll h fuel) (iterAll h fuel) := by
  unfold Hdr.Hist.iterAll iterAll
  exact Agrees.bind (iterNew_le h _) fun s => iterCollect_le h ⟨fun _ _ _ _ => Agrees.rfl, fun _ _ => Agrees.rfl⟩ _ s

macro_rules | `(tactic| agree_step) => `(tactic| with_reducible apply Hist.iterAll_le)

theorem iterRecorded_le (h : Hdr.Hist T) (fuel : Nat) : Agrees (Hdr.Hist.iterRecorded h fuel) (iterRecorded h fuel) := by
  unfold Hdr.Hist.iterRecorded iterRecorded
  exact Agrees.bind (iterNew_le h _) fun s => iterCollect_le h ⟨fun _ _ _ _ => Agrees.rfl, fun _ _ => Agrees.rfl⟩ _ s

macro_rules | `(tactic| agree_step) => `(tactic| with_reducible apply Hist.iterRecorded_le)

theorem linearPick_le (h : Hdr.Hist T) (p : Hdr.Hist.LinearState) (index : Nat) :
    Agrees (Hdr.Hist.linearPick h p index) (linearPick h p index) := by
  unfold Hdr.Hist.linearPick linearPick
  agree

macro_rules | `(tactic| agree_step) => `(tactic| with_reducible apply Hist.linearPick_le)

theorem linearMore_le (h : Hdr.Hist T) (p : Hdr.Hist.LinearState) (indexToPick : Nat) :
    Agrees (Hdr.Hist.linearMore h p indexToPick) (linearMore h p indexToPick) := by
  unfold Hdr.Hist.linearMore linearMore
  agree

macro_rules | `(tactic| agree_step) => `(tactic| with_reducible apply Hist.linearMore_le)

--nomacro
theorem linearPicker_le (h : Hdr.Hist T) : PickersAgree (Hdr.Hist.linearPicker h) (linearPicker h) :=
  ⟨fun p i _ _ => linearPick_le h p i, fun p i => linearMore_le h p i⟩

theorem linearNew_le (h : Hdr.Hist T) (step : Nat) :
    Agrees (Hdr.Hist.linearNew h step) (linearNew h step) := by
  unfold Hdr.Hist.linearNew linearNew
  agree

macro_rules | `(tactic| agree_step) => `(tactic| with_reducible apply Hist.linearNew_le)

theorem iterLinear_le (h : Hdr.Hist T) (step fuel : Nat) : Agrees (Hdr.Hist.iterLinear h step fuel) (iterLinear h step fuel) := by
  unfold Hdr.Hist.iterLinear iterLinear
  exact Agrees.bind (linearNew_le h step) fun s => iterCollect_le h (linearPicker_le h) _ s

macro_rules | `(tactic| agree_step) => `(tactic| with_reducible apply Hist.iterLinear_le)

theorem logPick_le (h : Hdr.Hist T) (p : Hdr.Hist.LogState) (index : Nat) :
    Agrees (Hdr.Hist.logPick h p index) (logPick h p index) := by
  unfold Hdr.Hist.logPick logPick
  agree

macro_rules | `(tactic| agree_step) => `(tactic| with_reducible apply Hist.logPick_le)

theorem logMore_le (h : Hdr.Hist T) (p : Hdr.Hist.LogState) (indexToPick : Nat) :
    Agrees (Hdr.Hist.logMore h p indexToPick) (logMore h p indexToPick) := by
  unfold Hdr.Hist.logMore logMore
  agree

macro_rules | `(tactic| agree_step) => `(tactic| with_reducible apply Hist.logMore_le)

--nomacro
theorem logPicker_le (h : Hdr.Hist T) : PickersAgree (Hdr.Hist.logPicker h) (logPicker h) :=
  ⟨fun p i _ _ => logPick_le h p i, fun p i => logMore_le h p i⟩

theorem logNew_le (h : Hdr.Hist T) (start : Nat) (base : F64) :
    Agrees (Hdr.Hist.logNew h start base) (logNew h start base) := by
  unfold Hdr.Hist.logNew logNew
  agree

macro_rules | `(tactic| agree_step) => `(tactic| with_reducible apply Hist.logNew_le)

theorem iterLog_le (h : Hdr.Hist T) (start : Nat) (base : F64) (fuel : Nat) :
    Agrees (Hdr.Hist.iterLog h start base fuel) (iterLog h start base fuel) := by
  unfold Hdr.Hist.iterLog iterLog
  exact Agrees.bind (logNew_le h start base) fun s => iterCollect_le h (logPicker_le h) _ s

macro_rules | `(tactic| agree_step) => `(tactic| with_reducible apply Hist.iterLog_le)

theorem quantileStep_le (lg : F64 → Nat) (ticks : Nat) (q : F64) :
    Agrees (Hdr.Hist.quantileStep lg ticks q) (quantileStep lg ticks q) := by
  unfold Hdr.Hist.quantileStep quantileStep
  agree

macro_rules | `(tactic| agree_step) => `(tactic| with_reducible apply Hist.quantileStep_le)

theorem quantilePick_le (lg : F64 → Nat) (h : Hdr.Hist T) (p : Hdr.Hist.QuantileState) (runningTotal countAtIndex : Nat) :
    Agrees (Hdr.Hist.quantilePick lg h p runningTotal countAtIndex) (quantilePick lg h p runningTotal countAtIndex) := by
  unfold Hdr.Hist.quantilePick quantilePick
  agree

macro_rules | `(tactic| agree_step) => `(tactic| with_reducible apply Hist.quantilePick_le)

--nomacro
theorem quantilePicker_le (lg : F64 → Nat) (h : Hdr.Hist T) :
    PickersAgree (Hdr.Hist.quantilePicker lg h) (quantilePicker lg h) :=
  ⟨fun p _ t c => quantilePick_le lg h p t c, fun _ _ => Agrees.rfl⟩

theorem quantileNew_le (h : Hdr.Hist T) (ticks : Nat) :
    Agrees (Hdr.Hist.quantileNew h ticks) (quantileNew h ticks) := by
  unfold Hdr.Hist.quantileNew quantileNew
  agree

macro_rules | `(tactic| agree_step) => `(tactic| with_reducible apply Hist.quantileNew_le)

theorem iterQuantiles_le (lg : F64 → Nat) (h : Hdr.Hist T) (ticks fuel : Nat) :
    Agrees (Hdr.Hist.iterQuantiles lg h ticks fuel) (iterQuantiles lg h ticks fuel) := by
  unfold Hdr.Hist.iterQuantiles iterQuantiles
  exact Agrees.bind (quantileNew_le h ticks) fun s => iterCollect_le h (quantilePicker_le lg h) _ s

macro_rules | `(tactic| agree_step) => `(tactic| with_reducible apply Hist.iterQuantiles_le)

theorem addCorrectLoop_le (interval : Nat) : ∀ vs (h : Hdr.Hist T),
    Agrees (Hdr.Hist.addCorrectLoop interval vs h) (addCorrectLoop interval vs h) := by
  intro vs
  induction vs with
  | nil => intro h; exact Agrees.rfl
  | cons v vs ih =>
    intro h
    unfold Hdr.Hist.addCorrectLoop addCorrectLoop
    agree
    all_goals exact ih _

macro_rules | `(tactic| agree_step) => `(tactic| with_reducible apply Hist.addCorrectLoop_le)

theorem addCorrect_le (h source : Hdr.Hist T) (interval : Nat) :
    Agrees (Hdr.Hist.addCorrect h source interval) (addCorrect h source interval) := by
  unfold Hdr.Hist.addCorrect addCorrect
  agree

macro_rules | `(tactic| agree_step) => `(tactic| with_reducible apply Hist.addCorrect_le)

theorem cloneCorrect_le (fp : Fp) (h : Hdr.Hist T) (interval : Nat) :
    Agrees (Hdr.Hist.cloneCorrect fp h interval) (cloneCorrect fp h interval) := by
  unfold Hdr.Hist.cloneCorrect cloneCorrect
  agree

macro_rules | `(tactic| agree_step) => `(tactic| with_reducible apply Hist.cloneCorrect_le)

theorem setToCorrected_le (h source : Hdr.Hist T) (interval : Nat) :
    Agrees (Hdr.Hist.setToCorrected h source interval) (setToCorrected h source interval) := by
  unfold Hdr.Hist.setToCorrected setToCorrected
  agree

macro_rules | `(tactic| agree_step) => `(tactic| with_reducible apply Hist.setToCorrected_le)

theorem quantileLoop_le (h : Hdr.Hist T) (target : Nat) (z : Bool) : ∀ cs i t,
    Agrees (Hdr.Hist.quantileLoop h target z cs i t) (quantileLoop h target z cs i t) := by
  intro cs
  induction cs with
  | nil => intro i t; exact Agrees.rfl
  | cons c cs ih =>
    intro i t
    unfold Hdr.Hist.quantileLoop quantileLoop
    agree
    all_goals exact ih _ _

macro_rules | `(tactic| agree_step) => `(tactic| with_reducible apply Hist.quantileLoop_le)

theorem valueAtQuantile_le (h : Hdr.Hist T) (quantile : F64) :
    Agrees (Hdr.Hist.valueAtQuantile h quantile) (valueAtQuantile h quantile) := by
  unfold Hdr.Hist.valueAtQuantile valueAtQuantile
  agree

macro_rules | `(tactic| agree_step) => `(tactic| with_reducible apply Hist.valueAtQuantile_le)

theorem valueAtPercentile_le (h : Hdr.Hist T) (percentile : F64) :
    Agrees (Hdr.Hist.valueAtPercentile h percentile) (valueAtPercentile h percentile) := by
  unfold Hdr.Hist.valueAtPercentile valueAtPercentile
  agree

macro_rules | `(tactic| agree_step) => `(tactic| with_reducible apply Hist.valueAtPercentile_le)

theorem sumChecked_le : ∀ cs t, Agrees (Hdr.Hist.sumChecked cs t) (sumChecked cs t) := by
  intro cs
  induction cs with
  | nil => intro t; exact Agrees.rfl
  | cons c cs ih =>
    intro t
    unfold Hdr.Hist.sumChecked sumChecked
    agree

macro_rules | `(tactic| agree_step) => `(tactic| with_reducible apply Hist.sumChecked_le)

theorem quantileBelowSum_le (h : Hdr.Hist T) (slice : List Nat) :
    Agrees (Hdr.Hist.quantileBelowSum h slice) (quantileBelowSum h slice) := by
  unfold Hdr.Hist.quantileBelowSum quantileBelowSum
  agree

macro_rules | `(tactic| agree_step) => `(tactic| with_reducible apply Hist.quantileBelowSum_le)

theorem quantileBelow_le (h : Hdr.Hist T) (value : Nat) :
    Agrees (Hdr.Hist.quantileBelow h value) (quantileBelow h value) := by
  unfold Hdr.Hist.quantileBelow quantileBelow
  agree

macro_rules | `(tactic| agree_step) => `(tactic| with_reducible apply Hist.quantileBelow_le)

theorem percentileBelow_le (h : Hdr.Hist T) (value : Nat) :
    Agrees (Hdr.Hist.percentileBelow h value) (percentileBelow h value) := by
  unfold Hdr.Hist.percentileBelow percentileBelow
  agree

macro_rules | `(tactic| agree_step) => `(tactic| with_reducible apply Hist.percentileBelow_le)

theorem meanLoop_le (h : Hdr.Hist T) : ∀ vs t, Agrees (Hdr.Hist.meanLoop h vs t) (meanLoop h vs t) := by
  intro vs
  induction vs with
  | nil => intro t; exact Agrees.rfl
  | cons v vs ih =>
    intro t
    unfold Hdr.Hist.meanLoop meanLoop
    agree
    all_goals exact ih _

macro_rules | `(tactic| agree_step) => `(tactic| with_reducible apply Hist.meanLoop_le)

theorem mean_le (h : Hdr.Hist T) :
    Agrees (Hdr.Hist.mean h) (mean h) := by
  unfold Hdr.Hist.mean mean
  agree

macro_rules | `(tactic| agree_step) => `(tactic| with_reducible apply Hist.mean_le)

theorem stdevLoop_le (h : Hdr.Hist T) (m : F64) : ∀ vs t, Agrees (Hdr.Hist.stdevLoop h m vs t) (stdevLoop h m vs t) := by
  intro vs
  induction vs with
  | nil => intro t; exact Agrees.rfl
  | cons v vs ih =>
    intro t
    unfold Hdr.Hist.stdevLoop stdevLoop
    agree
    all_goals exact ih _

macro_rules | `(tactic| agree_step) => `(tactic| with_reducible apply Hist.stdevLoop_le)

theorem variance_le (h : Hdr.Hist T) :
    Agrees (Hdr.Hist.variance h) (variance h) := by
  unfold Hdr.Hist.variance variance
  agree

macro_rules | `(tactic| agree_step) => `(tactic| with_reducible apply Hist.variance_le)

theorem stdev_le (h : Hdr.Hist T) :
    Agrees (Hdr.Hist.stdev h) (stdev h) := by
  unfold Hdr.Hist.stdev stdev
  agree

macro_rules | `(tactic| agree_step) => `(tactic| with_reducible apply Hist.stdev_le)

end Hist

namespace V2

theorem maxEncodedSize_le (h : Hdr.Hist T) :
    Agrees (Hdr.V2.maxEncodedSize h) (maxEncodedSize h) := by
  unfold Hdr.V2.maxEncodedSize maxEncodedSize
  agree

macro_rules | `(tactic| agree_step) => `(tactic| with_reducible apply V2.maxEncodedSize_le)

theorem encodeLoop_le (h : Hdr.Hist T) (limit : Nat) : ∀ fuel i buf w,
    Agrees (Hdr.V2.encodeLoop h limit fuel i buf w) (encodeLoop h limit fuel i buf w) := by
  intro fuel
  induction fuel with
  | zero => intro i buf w; exact Agrees.err
  | succ fuel ih =>
    intro i buf w
    unfold Hdr.V2.encodeLoop encodeLoop
    agree
    all_goals exact ih _ _ _

macro_rules | `(tactic| agree_step) => `(tactic| with_reducible apply V2.encodeLoop_le)

theorem encodeCounts_le (h : Hdr.Hist T) (buf : List UInt8) :
    Agrees (Hdr.V2.encodeCounts h buf) (encodeCounts h buf) := by
  unfold Hdr.V2.encodeCounts encodeCounts
  agree

macro_rules | `(tactic| agree_step) => `(tactic| with_reducible apply V2.encodeCounts_le)

theorem serialize_le (junk : Nat → UInt8) (h : Hdr.Hist T) : Agrees (Hdr.V2.serialize junk h) (serialize junk h) := by
  unfold Hdr.V2.serialize serialize
  refine Agrees.bind (maxEncodedSize_le h) ?_
  rintro (_ | n)
  · exact Agrees.rfl
  · refine Agrees.dropAssert ?_
    agree

macro_rules | `(tactic| agree_step) => `(tactic| with_reducible apply V2.serialize_le)

theorem negI64_le (checks : Bool) (x : Int) : Agrees (Hdr.V2.negI64 checks x) (Hdr.V2.negI64 false x) := by
  unfold Hdr.V2.negI64
  refine Agrees.ite ?_ Agrees.rfl
  cases checks
  · exact Agrees.rfl
  · exact Agrees.err

theorem onDecodedNum_le (checks : Bool) (s : Hdr.V2.DecodeState T) (n : Int) :
    Agrees (Hdr.V2.onDecodedNum checks s n) (Hdr.V2.onDecodedNum false s n) := by
  unfold Hdr.V2.onDecodedNum
  exact Agrees.ite (Agrees.bind (negI64_le checks n) fun _ => Agrees.rfl) Agrees.rfl

theorem fastLoop_le (checks : Bool) (payload : List UInt8) : ∀ fuel i (s : Hdr.V2.DecodeState T),
    Agrees (Hdr.V2.fastLoop checks payload fuel i s) (Hdr.V2.fastLoop false payload fuel i s) := by
  intro fuel
  induction fuel with
  | zero => intro i s; exact Agrees.err
  | succ fuel ih =>
    intro i s
    unfold Hdr.V2.fastLoop
    refine Agrees.ite (Agrees.bind Agrees.rfl ?_) Agrees.rfl
    rintro ⟨zz, n⟩
    refine Agrees.bind (onDecodedNum_le checks s _) ?_
    rintro (e | s)
    · exact Agrees.rfl
    · exact ih _ _

theorem slowLoop_le (checks : Bool) : ∀ fuel r (s : Hdr.V2.DecodeState T),
    Agrees (Hdr.V2.slowLoop checks fuel r s) (Hdr.V2.slowLoop false fuel r s) := by
  intro fuel
  induction fuel with
  | zero => intro i s; exact Agrees.err
  | succ fuel ih =>
    intro r s
    unfold Hdr.V2.slowLoop
    refine Agrees.ite Agrees.rfl ?_
    cases Hdr.V2.varintRead r with
    | none => exact Agrees.rfl
    | some x =>
      obtain ⟨zz, r⟩ := x
      refine Agrees.bind (onDecodedNum_le checks s _) ?_
      rintro (e | s)
      · exact Agrees.rfl
      · exact ih _ _

theorem decodePayload_le (checks : Bool) (h : Hdr.Hist T) (payload : List UInt8) :
    Agrees (Hdr.V2.decodePayload checks h payload) (decodePayload false h payload) := by
  unfold Hdr.V2.decodePayload decodePayload
  refine Agrees.bind (fastLoop_le checks payload _ _ _) ?_
  rintro (e | ⟨i, s⟩)
  · exact Agrees.rfl
  refine Agrees.bind (slowLoop_le checks _ _ _) ?_
  rintro (e | s)
  · exact Agrees.rfl
  exact Agrees.bind (Hist.updateHistogram_le _ _) fun _ => Agrees.rfl

macro_rules | `(tactic| agree_step) => `(tactic| with_reducible apply V2.decodePayload_le)

theorem deserV2_le (fp : Fp) (T : CounterTy) (checks : Bool) (r : List UInt8) :
    Agrees (Hdr.V2.deserV2 fp T checks r) (deserV2 fp T false r) := by
  unfold Hdr.V2.deserV2 deserV2
  cases Hdr.V2.readHeader r with
  | error e => exact Agrees.rfl
  | ok hd =>
    refine Agrees.bind (Hist.newWithBounds_le ..) ?_
    rintro (e | h)
    · exact Agrees.rfl
    cases Hdr.V2.readN hd.payloadLen hd.rest with
    | none => exact Agrees.rfl
    | some p => exact Agrees.bind (decodePayload_le checks h _) fun x => by cases x <;> exact Agrees.rfl

macro_rules | `(tactic| agree_step) => `(tactic| with_reducible apply V2.deserV2_le)

theorem deserV2Compressed_le (fp : Fp) (z : Hdr.V2.Zlib) (T : CounterTy) (checks : Bool) (r : List UInt8) :
    Agrees (Hdr.V2.deserV2Compressed fp z T checks r) (deserV2Compressed fp z T false r) := by
  unfold Hdr.V2.deserV2Compressed deserV2Compressed
  cases Hdr.V2.readBE 4 r with
  | none => exact Agrees.rfl
  | some p =>
    dsimp only
    cases Hdr.V2.readBE 4 (z.inflate (p.2.take p.1)) with
    | none => exact Agrees.rfl
    | some q =>
      dsimp only
      refine Agrees.ite Agrees.rfl (Agrees.bind (deserV2_le fp T checks q.2) ?_)
      rintro (e | x) <;> exact Agrees.rfl

macro_rules | `(tactic| agree_step) => `(tactic| with_reducible apply V2.deserV2Compressed_le)

theorem deserialize_le (fp : Fp) (z : Hdr.V2.Zlib) (T : CounterTy) (checks : Bool) (r : List UInt8) :
    Agrees (Hdr.V2.deserialize fp z T checks r) (deserialize fp z T false r) := by
  unfold Hdr.V2.deserialize deserialize
  cases Hdr.V2.readBE 4 r with
  | none => exact Agrees.rfl
  | some p => exact Agrees.ite (deserV2_le ..) (Agrees.ite (deserV2Compressed_le ..) Agrees.rfl)

macro_rules | `(tactic| agree_step) => `(tactic| with_reducible apply V2.deserialize_le)

theorem serializeDeflate_le (z : Hdr.V2.Zlib) (junk : Nat → UInt8) (h : Hdr.Hist T) :
    Agrees (Hdr.V2.serializeDeflate z junk h) (serializeDeflate z junk h) := by
  unfold Hdr.V2.serializeDeflate serializeDeflate
  refine Agrees.bind (serialize_le junk h) ?_
  rintro (_ | ⟨raw, n⟩)
  · exact Agrees.rfl
  · refine Agrees.dropAssert ?_
    agree

macro_rules | `(tactic| agree_step) => `(tactic| with_reducible apply V2.serializeDeflate_le)

end V2
end Release
end Hdr
