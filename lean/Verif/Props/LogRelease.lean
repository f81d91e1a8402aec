import Verif.Spec.LogRelease
import Verif.Spec.LogTotal
import Verif.Proofs.Release
import Verif.Props.Log
import Verif.Props.Cli

/-!
# The interval log and the command line tool in a release build (C99)
-/

namespace Hdr

open Log

namespace Release
namespace Log

variable {T : CounterTy} {ε : Type}

theorem nanosOf_le (s : Str) : Agrees (Hdr.Log.nanosOf s) (nanosOf s) := by
  unfold Hdr.Log.nanosOf nanosOf
  refine Agrees.ite Agrees.rfl (Agrees.ite Agrees.rfl ?_)
  cases parseUnsigned 4294967295 s with
  | none => exact Agrees.rfl
  | some n =>
    refine ⟨fun r hr => ?_⟩
    dsimp only at hr ⊢
    obtain ⟨e, he, hr⟩ := M.bind_eq_ok.mp hr
    have h9 : s.bytes.length ≤ 9 := by
      unfold subU at he
      by_contra c
      rw [if_neg c] at he
      cases he
    rw [(subU32_le _ _).out _ he, M.ok_bind]
    have : e ≤ 9 := by
      unfold subU at he
      rw [if_pos h9] at he
      cases he
      omega
    have : 10 ^ e % 2 ^ 32 = 10 ^ e := by
      refine Nat.mod_eq_of_lt (lt_of_le_of_lt (Nat.pow_le_pow_right (by decide) this) (by decide))
    rw [this]
    exact (Agrees.bind (mulU32_le n (10 ^ e)) fun _ => Agrees.rfl).out r hr

macro_rules | `(tactic| agree_step) => `(tactic| with_reducible apply Log.nanosOf_le)

theorem fractSecDuration_le (i : Bytes) : Agrees (Hdr.Log.fractSecDuration i) (fractSecDuration i) := by
  unfold Hdr.Log.fractSecDuration fractSecDuration
  generalize fractSecTuple i = o
  cases o <;> agree

macro_rules | `(tactic| agree_step) => `(tactic| with_reducible apply Log.fractSecDuration_le)

theorem headerTime_le (t : Str) (i : Bytes) : Agrees (Hdr.Log.headerTime t i) (headerTime t i) := by
  unfold Hdr.Log.headerTime headerTime
  generalize tagP t.bytes i = o
  cases o with
  | none => exact Agrees.rfl
  | some i => exact Agrees.bind (fractSecDuration_le i) fun _ => Agrees.rfl

macro_rules | `(tactic| agree_step) => `(tactic| with_reducible apply Log.headerTime_le)

theorem durComma_le (i : Bytes) : Agrees (Hdr.Log.durComma i) (durComma i) := by
  unfold Hdr.Log.durComma durComma
  exact Agrees.bind (fractSecDuration_le i) fun _ => Agrees.rfl

macro_rules | `(tactic| agree_step) => `(tactic| with_reducible apply Log.durComma_le)

theorem intervalHist_le (D : Dbl) (i : Bytes) : Agrees (Hdr.Log.intervalHist D i) (intervalHist D i) := by
  unfold Hdr.Log.intervalHist intervalHist
  refine Agrees.bind (durComma_le _) fun x => ?_
  cases x with
  | none => exact Agrees.rfl
  | some p => exact Agrees.bind (durComma_le _) fun _ => Agrees.rfl

macro_rules | `(tactic| agree_step) => `(tactic| with_reducible apply Log.intervalHist_le)

theorem logEntry_le (D : Dbl) (i : Bytes) : Agrees (Hdr.Log.logEntry D i) (logEntry D i) := by
  unfold Hdr.Log.logEntry logEntry
  agree

macro_rules | `(tactic| agree_step) => `(tactic| with_reducible apply Log.logEntry_le)

theorem nextLoop_le (D : Dbl) : ∀ n it, Agrees (Iter.nextLoop D n it) (nextLoop D n it)
  | 0, _ => Agrees.rfl
  | n + 1, it => by
    have ih := nextLoop_le D n
    unfold Iter.nextLoop nextLoop
    refine Agrees.ite Agrees.rfl (Agrees.ite Agrees.rfl (Agrees.bind (logEntry_le D _) fun x => ?_))
    cases x with
    | some p => exact Agrees.rfl
    | none =>
      dsimp only
      cases ignoredLine it.input with
      | some rest => exact ih _
      | none => exact Agrees.bind (subU64_le _ _) fun _ => Agrees.rfl

theorem next_le (D : Dbl) (it : Iter) : Agrees (it.next D) (next D it) := nextLoop_le D _ it

theorem yields_le {D : Dbl} {it : Iter} {xs : List (Except Nat Entry)} (h : Hdr.Log.Yields D it xs) : Yields D it xs := by
  induction h with
  | done h1 h2 => exact .done ((next_le D _).out _ h1) ((next_le D _).out _ h2)
  | item h1 _ ih => exact .item ((next_le D _).out _ h1) ih

theorem yields_unique {D : Dbl} {it : Iter} {xs ys : List (Except Nat Entry)} (h : Yields D it xs) (h' : Yields D it ys) :
    xs = ys := by
  induction h generalizing ys with
  | done h1 h2 =>
    cases h' with
    | done => rfl
    | item h3 _ => rw [h1] at h3; cases h3
  | item h1 _ ih =>
    cases h' with
    | done h3 => rw [h1] at h3; cases h3
    | item h3 h4 => rw [h1] at h3; cases h3; rw [ih h4]

theorem writeHistogram_le {ser ser' : Hist T → M (Except ε Bytes)} (hs : ∀ h, Agrees (ser h) (ser' h)) (f : Fmt) (x : F64)
    (h : Hist T) (s d : Dur) (t : Option Tag) :
    Agrees (Hdr.Log.writeHistogram f x ser h s d t) (writeHistogram f x ser' h s d t) := by
  unfold Hdr.Log.writeHistogram writeHistogram
  refine Agrees.bind (Hist.max_le h) fun m => Agrees.bind (hs h) fun r => ?_
  cases r <;> exact Agrees.rfl

theorem opRun_le {ser ser' : Ser ε} (hs : ∀ {T : CounterTy} (h : Hist T), Agrees (ser h) (ser' h)) (f : Fmt) (x : F64) (op : Op) :
    Agrees (op.run f x ser) (opRun f x ser' op) := by
  cases op with
  | comment s => exact Agrees.rfl
  | hist h s d t => exact writeHistogram_le hs f x h s d t

theorem runOps_le {ser ser' : Ser ε} (hs : ∀ {T : CounterTy} (h : Hist T), Agrees (ser h) (ser' h)) (f : Fmt) (x : F64) :
    ∀ ops, Agrees (Hdr.Log.runOps f x ser ops) (runOps f x ser' ops)
  | [] => Agrees.rfl
  | op :: ops => by
    unfold Hdr.Log.runOps runOps
    refine Agrees.bind (opRun_le hs f x op) ?_
    rintro ⟨b, (e | ⟨⟩)⟩
    · exact Agrees.rfl
    · refine Agrees.bind (runOps_le hs f x ops) ?_
      rintro (e | bs) <;> exact Agrees.rfl

theorem v2Ser_le (junk : Nat → UInt8) (h : Hist T) : Agrees (Hdr.Log.v2Ser junk h) (v2Ser junk h) := by
  unfold Hdr.Log.v2Ser v2Ser
  refine Agrees.bind (V2.serialize_le junk h) ?_
  rintro (e | ⟨b, n⟩) <;> exact Agrees.rfl

theorem deflateSer_le (z : V2.Zlib) (junk : Nat → UInt8) (h : Hist T) :
    Agrees (Hdr.Log.deflateSer z junk h) (deflateSer z junk h) := by
  unfold Hdr.Log.deflateSer deflateSer
  refine Agrees.bind (V2.serializeDeflate_le z junk h) ?_
  rintro (e | ⟨b, n⟩) <;> exact Agrees.rfl

theorem writeLog_le {ser ser' : Ser ε} (hs : ∀ {T : CounterTy} (h : Hist T), Agrees (ser h) (ser' h)) (f : Fmt) (b : Builder)
    (ops : List Op) : Agrees (Hdr.Log.writeLog f b ser ops) (writeLog f b ser' ops) := by
  unfold Hdr.Log.writeLog writeLog
  refine Agrees.bind (runOps_le hs f _ ops) ?_
  rintro (e | bs) <;> exact Agrees.rfl

end Log

namespace Cli

open Hdr.Cli

theorem recordLines_le : ∀ ls (h : Hist .u64), Agrees (Hdr.Cli.recordLines h ls) (recordLines h ls)
  | [], _ => Agrees.rfl
  | l :: ls, h => by
    unfold Hdr.Cli.recordLines recordLines
    refine Agrees.bind Agrees.rfl fun n => Agrees.bind (Hist.record_le h n) ?_
    rintro ⟨g, (e | ⟨⟩)⟩
    · exact Agrees.rfl
    · exact recordLines_le ls g

theorem serialize_le (z : V2.Zlib) (junk : Nat → UInt8) (h : Hist .u64) (c : Bool) (input : Bytes) :
    Agrees (Hdr.Cli.serialize z junk h c input) (serialize z junk h c input) := by
  unfold Hdr.Cli.serialize serialize
  refine Agrees.bind (recordLines_le _ h) ?_
  rintro ⟨g, (e | ⟨⟩)⟩
  · exact Agrees.rfl
  · refine Agrees.ite (Agrees.bind (V2.serializeDeflate_le z junk g) ?_) (Agrees.bind (V2.serialize_le junk g) ?_)
    · rintro (e | ⟨b, n⟩) <;> exact Agrees.rfl
    · rintro (e | ⟨b, n⟩) <;> exact Agrees.rfl

theorem serializeCmd_le (fp : Fp) (z : V2.Zlib) (junk : Nat → UInt8) (a : SerializeArgs) (input : Bytes) :
    Agrees (Hdr.Cli.serializeCmd fp z junk a input) (serializeCmd fp z junk a input) := by
  unfold Hdr.Cli.serializeCmd serializeCmd
  refine Agrees.bind (Hist.newWithBounds_le ..) ?_
  rintro (e | h)
  · exact Agrees.rfl
  · exact serialize_le z junk _ _ input

theorem rows_le : ∀ vs sum, Agrees (Hdr.Cli.rows sum vs) (rows sum vs)
  | [], _ => Agrees.rfl
  | v :: vs, sum => by
    unfold Hdr.Cli.rows rows
    exact Agrees.bind (addU64_le _ _) fun s => Agrees.bind (rows_le vs s) fun _ => Agrees.rfl

theorem quantiles_le (fp : Fp) (z : V2.Zlib) (lg : F64 → Nat) (checks : Bool) (fuel ticks : Nat) (input : Bytes) :
    Agrees (Hdr.Cli.quantiles fp z lg checks fuel ticks input) (quantiles fp z lg fuel ticks input) := by
  unfold Hdr.Cli.quantiles quantiles
  refine Agrees.bind (V2.deserialize_le ..) ?_
  rintro (e | ⟨h, rest⟩)
  · exact Agrees.rfl
  · exact Agrees.bind (Hist.iterQuantiles_le ..) fun vs => Agrees.bind (rows_le vs 0) fun rs =>
      Agrees.bind (Hist.mean_le h) fun m => Agrees.bind (Hist.stdev_le h) fun s => Agrees.bind (Hist.max_le h) fun x => Agrees.rfl

end Cli
end Release


open Release

/-! ## Logs -/

/-- C99 (1): whatever bytes a log consists of, the iterator yields in a release build (no overflow checks) exactly the items it
yields in a build with them. -/
theorem C99_read {D : Dbl} (L : D.Lawful) (i : Bytes) (xs : List (Except Nat Entry)) :
    Release.Log.Yields D (Iter.new i) xs ↔ Yields D (Iter.new i) xs := by
  constructor
  · intro h
    obtain ⟨es, tail, h1, -⟩ := C44_total L i
    rw [Release.Log.yields_unique h (Release.Log.yields_le h1)]
    exact h1
  · exact Release.Log.yields_le

theorem writeLog_release {fp : Fp} {ε : Type} {ser ser' : Ser ε} (hs : ∀ {T : CounterTy} (h : Hist T), Agrees (ser h) (ser' h))
    (ht : ∀ {T : CounterTy} {h : Hist T}, Reachable fp T h → ∃ r, ser h = .ok r) (f : Fmt) (b : Builder) {ops : List Op}
    (hr : ∀ {T : CounterTy} (h : Hist T) (s d : Dur) (tag : Option Tag), Op.hist h s d tag ∈ ops → Reachable fp T h) :
    ∃ r, writeLog f b ser ops = .ok r ∧ Release.Log.writeLog f b ser' ops = .ok r := by
  suffices ∃ r, writeLog f b ser ops = .ok r by
    obtain ⟨r, h⟩ := this
    exact ⟨r, h, (Release.Log.writeLog_le (fun h => hs h) f b ops).out r h⟩
  suffices ∃ r, runOps f b.maxValueDivisor ser ops = .ok r by
    obtain ⟨r, h⟩ := this
    unfold writeLog
    rw [h, M.ok_bind]
    cases r <;> exact ⟨_, rfl⟩
  generalize b.maxValueDivisor = x
  induction ops with
  | nil => exact ⟨_, rfl⟩
  | cons op ops ih =>
    obtain ⟨r, h2⟩ := ih fun h s d tag hm => hr h s d tag (List.mem_cons_of_mem _ hm)
    have h1 : ∃ r, op.run f x ser = .ok r := by
      cases op with
      | comment s => exact ⟨_, rfl⟩
      | @hist T h s d tag =>
        have R := hr h s d tag List.mem_cons_self
        obtain ⟨y, hy⟩ := ht R
        show ∃ r, writeHistogram f x ser h s d tag = .ok r
        unfold writeHistogram
        rw [R.wf.max_eq, M.ok_bind, hy, M.ok_bind]
        cases y <;> exact ⟨_, rfl⟩
    obtain ⟨⟨bs, y⟩, h1⟩ := h1
    unfold runOps
    rw [h1, M.ok_bind]
    cases y with
    | error e => exact ⟨_, rfl⟩
    | ok u =>
      dsimp only
      rw [h2, M.ok_bind]
      cases r <;> exact ⟨_, rfl⟩

/-- C99 (2): and a writer given histograms produced through the API writes the same bytes, or fails with the same error. -/
theorem C99_write {fp : Fp} (f : Fmt) (b : Builder) (junk : Nat → UInt8) {ops : List Op}
    (hr : ∀ {T : CounterTy} (h : Hist T) (s d : Dur) (tag : Option Tag), Op.hist h s d tag ∈ ops → Reachable fp T h) :
    ∃ r, writeLog f b (v2Ser junk) ops = .ok r ∧ Release.Log.writeLog f b (Release.Log.v2Ser junk) ops = .ok r :=
  writeLog_release (fun h => Release.Log.v2Ser_le junk h) (fun R => by
    obtain ⟨y, -, hs⟩ := V2.serialize_spec R.wf
    unfold v2Ser
    rw [hs junk, M.ok_bind]
    cases y <;> exact ⟨_, rfl⟩) f b hr

/-- C99 (2), with the V2+DEFLATE serializer. -/
theorem C99_write_deflate {fp : Fp} {z : V2.Zlib} (hz : z.Lawful) (f : Fmt) (b : Builder) (junk : Nat → UInt8) {ops : List Op}
    (hr : ∀ {T : CounterTy} (h : Hist T) (s d : Dur) (tag : Option Tag), Op.hist h s d tag ∈ ops → Reachable fp T h) :
    ∃ r, writeLog f b (deflateSer z junk) ops = .ok r ∧
      Release.Log.writeLog f b (Release.Log.deflateSer z junk) ops = .ok r :=
  writeLog_release (fun h => Release.Log.deflateSer_le z junk h) (fun R => by
    obtain ⟨y, -, -, hs⟩ := V2.serializeDeflate_spec R.wf hz
    unfold deflateSer
    rw [hs junk, M.ok_bind]
    cases y <;> exact ⟨_, rfl⟩) f b hr

/-! ## The command line tool -/

namespace Cli

variable {fp : Fp} {lg : F64 → Nat}

theorem number_le_max {l : Bytes} {n : Nat} (h : number l = .ok n) : n ≤ U64MAX := by
  obtain ⟨S, h1⟩ := number_eq.mp h
  exact h1.2.2.2.1

theorem recordLines_release : ∀ ls {h : Hist .u64}, Reachable fp .u64 h →
    Release.Cli.recordLines h ls = recordLines h ls ∧ ∀ r, recordLines h ls = .ok r → Reachable fp .u64 r.1
  | [], h, R => ⟨rfl, fun r e => by cases e; exact R⟩
  | l :: ls, h, R => by
    unfold Release.Cli.recordLines recordLines
    cases hn : number l with
    | error e => exact ⟨(show (Except.error e : M _) = Except.error e from rfl), fun r e => by cases e⟩
    | ok n =>
      rw [M.ok_bind, M.ok_bind]
      have hn := number_le_max hn
      have h1 : (1 : Nat) ≤ CounterTy.max .u64 := by show 1 ≤ 2 ^ 64 - 1; omega
      obtain ⟨⟨g, r⟩, h2⟩ : ∃ r, h.record n = .ok r := by
        unfold Hist.record
        have := R.wf.recordN_eq hn h1
        rw [this]
        split <;> exact ⟨_, rfl⟩
      rw [(Release.Hist.record_le h n).out _ h2, h2, M.ok_bind, M.ok_bind]
      have R' : Reachable fp .u64 g := .recordN R hn h1 h2
      cases r with
      | error e => exact ⟨rfl, fun r e => by cases e; exact R'⟩
      | ok u => exact recordLines_release ls R'

/-- C99 (3): the subcommand `serialize` does the same in both builds, whatever its arguments and input are. -/
theorem C99_tool_serialize {z : V2.Zlib} (hz : z.Lawful) (junk : Nat → UInt8) {a : SerializeArgs} (ha : a.max ≤ U64MAX)
    (input : Bytes) : Release.Cli.serializeCmd fp z junk a input = serializeCmd fp z junk a input := by
  unfold Release.Cli.serializeCmd serializeCmd
  obtain ⟨r, h1, -⟩ := C01_constructor fp .u64 (low := a.min) (sigfig := a.sigfig) ha
  rw [h1, (Release.Hist.newWithBounds_le ..).out _ h1, M.ok_bind, M.ok_bind]
  cases r with
  | error e => rfl
  | ok h =>
    dsimp only
    have R : Reachable fp .u64 (start a h) := (start_spec ha h1).1
    change Release.Cli.serialize z junk (start a h) _ _ = serialize z junk (start a h) _ _
    unfold Release.Cli.serialize serialize
    obtain ⟨h2, h3⟩ := recordLines_release (lines input) R
    rw [h2]
    cases h4 : recordLines (start a h) (lines input) with
    | error e => rfl
    | ok p =>
      obtain ⟨g, r⟩ := p
      rw [M.ok_bind, M.ok_bind]
      cases r with
      | error e => rfl
      | ok u =>
        dsimp only
        obtain ⟨y, -, h5, h6⟩ := V2.serializeDeflate_spec (h3 _ h4).wf hz
        rw [(Release.V2.serialize_le junk g).out _ (h5 junk), (Release.V2.serializeDeflate_le z junk g).out _ (h6 junk), h5 junk,
          h6 junk]
        rfl

/-- C99 (4): and what `iter-quantiles` prints in a build with overflow checks (and with or without debug assertions), it prints
in a release build. -/
theorem C99_tool_table {z : V2.Zlib} {checks : Bool} {fuel ticks : Nat} {input : Bytes} {r : Except CliError Table}
    (h : quantiles fp z lg checks fuel ticks input = .ok r) : Release.Cli.quantiles fp z lg fuel ticks input = .ok r :=
  (Release.Cli.quantiles_le fp z lg checks fuel ticks input).out r h

/-- C99 (5): so the two subcommands, one after the other, print the table of the numbers listed in a release build, too. -/
theorem C99_pipeline {z : V2.Zlib} (hz : z.Lawful) (junk : Nat → UInt8) {a : SerializeArgs} (ha : a.max ≤ U64MAX) {h0 : Hist .u64}
    (e0 : Hist.newWithBounds fp .u64 a.min a.max a.sigfig = .ok (.ok h0)) {xs : List Nat} {input : Bytes}
    (hl : Listing xs input) (hc : a.resize = true ∨ ∀ x ∈ xs, h0.Covers x) (hx : xs ≠ []) (hn : xs.length ≤ 2 ^ 53)
    (L : Log2Law lg) {ticks : Nat} (ht : 0 < ticks) (ht32 : ticks < 2 ^ 32) {fuel : Nat} (hf : 2 ^ 53 + 2 ≤ fuel) :
    ∃ bytes t g, Release.Cli.serializeCmd fp z junk a input = .ok (.ok bytes) ∧
      Release.Cli.quantiles fp z lg fuel ticks bytes = .ok (.ok t) ∧
      g.low = a.min ∧ g.sigfig = a.sigfig ∧ TableOf fp (g : Hist .u64) xs t ∧
      ∃ r, t.rows.getLast? = some r ∧ r.total = xs.length ∧ ∀ x ∈ xs, x ≤ r.value ∨ Equiv g x r.value := by
  obtain ⟨bytes, t, g, h1, h2, h3⟩ := C85_pipeline hz junk ha e0 hl hc hx hn L ht ht32 hf true
  exact ⟨bytes, t, g, (C99_tool_serialize hz junk ha input).trans h1, C99_tool_table h2, h3⟩

theorem rows_totals : ∀ vs sum, ∃ rs, Release.Cli.rows sum vs = .ok rs ∧ rs.length = vs.length ∧
    ∀ i r, rs[i]? = some r → r.total = (sum + ((vs.take (i + 1)).map (·.countSinceLastIteration)).sum) % 2 ^ 64
  | [], _ => ⟨[], rfl, rfl, fun i r e => by simp at e⟩
  | v :: vs, sum => by
    obtain ⟨rs, h1, h2, h3⟩ := rows_totals vs ((sum + v.countSinceLastIteration) % 2 ^ 64)
    refine ⟨row v ((sum + v.countSinceLastIteration) % 2 ^ 64) :: rs, ?_, by simp [h2], fun i r e => ?_⟩
    · unfold Release.Cli.rows Release.addU64
      rw [M.ok_bind, h1, M.ok_bind]
    · cases i with
      | zero =>
        simp only [List.getElem?_cons_zero, Option.some.injEq] at e
        subst e
        simp [row]
      | succ i =>
        rw [List.getElem?_cons_succ] at e
        rw [h3 i r e]
        simp only [List.take_succ_cons, List.map_cons, List.sum_cons]
        rw [Nat.mod_add_mod, Nat.add_assoc]

/-- C99 (6): only the running sum differs: whatever the items, a release build prints it modulo `2 ^ 64`. -/
theorem C99_totals (items : List IterValue) : ∃ rs, Release.Cli.rows 0 items = .ok rs ∧ rs.length = items.length ∧
    ∀ i r, rs[i]? = some r → r.total = ((items.take (i + 1)).map (·.countSinceLastIteration)).sum % 2 ^ 64 := by
  obtain ⟨rs, h1, h2, h3⟩ := rows_totals items 0
  exact ⟨rs, h1, h2, fun i r e => by rw [h3 i r e, Nat.zero_add]⟩

/-- C99 (7): the histogram of `C85_overflow`, for which a build with overflow checks panics: a release build prints a table whose
running sum goes up to `2 ^ 63 + 2 ^ 62 - 1` and then down to `2 ^ 62 - 2`, for `2 ^ 64 + 2 ^ 62 - 2` samples. -/
theorem C99_overflow : recordSeq [(4, 2 ^ 63 - 1), (8, 2 ^ 62), (16, 2 ^ 63 - 1)] demoU = .ok (demoOver, .ok ()) ∧
    ∃ bytes n, V2.serialize (fun _ => 0) demoOver = .ok (.ok (bytes, n)) ∧ ∀ fuel, 20 ≤ fuel →
      quantiles Fp.ideal V2.Zlib.stored floorLog2 true fuel 1 bytes = .error .overflow ∧
      ∃ t, Release.Cli.quantiles Fp.ideal V2.Zlib.stored floorLog2 fuel 1 bytes = .ok (.ok t) ∧
        t.rows.map (·.total) = [2 ^ 63 - 1, 2 ^ 63 - 1, 2 ^ 63 + 2 ^ 62 - 1, 2 ^ 62 - 2, 2 ^ 62 - 2] := by
  obtain ⟨h0, bytes, n, h1, h2⟩ := C85_overflow
  refine ⟨h0, bytes, n, h1, fun fuel hf => ⟨h2 fuel hf, ?_⟩⟩
  have h3 : V2.serialize (fun _ => 0) demoOver = .ok (.ok (demoOverBytes, 68)) := by decide +kernel
  rw [h3] at h1
  cases h1
  have h4 : Release.V2.deserialize Fp.ideal V2.Zlib.stored .u64 false demoOverBytes = .ok (.ok (demoOver', [])) := by
    decide +kernel
  have h5 : Hist.iterQuantiles floorLog2 demoOver' 1 20 = .ok demoOverItems := by decide +kernel
  have h6 : Hist.iterQuantiles floorLog2 demoOver' 1 fuel = .ok demoOverItems := by
    unfold Hist.iterQuantiles at h5 ⊢
    obtain ⟨s, hs, h5⟩ := M.bind_eq_ok.mp h5
    rw [hs, M.ok_bind]
    exact iterCollect_more 20 s h5 fuel hf
  obtain ⟨rs, h7, h8⟩ : ∃ rs, Release.Cli.rows 0 demoOverItems = .ok rs ∧
      rs.map (·.total) = [2 ^ 63 - 1, 2 ^ 63 - 1, 2 ^ 63 + 2 ^ 62 - 1, 2 ^ 62 - 2, 2 ^ 62 - 2] := by
    have h : (match Release.Cli.rows 0 demoOverItems with
      | .ok rs => decide (rs.map (·.total) = [2 ^ 63 - 1, 2 ^ 63 - 1, 2 ^ 63 + 2 ^ 62 - 1, 2 ^ 62 - 2, 2 ^ 62 - 2])
      | .error _ => false) = true := by decide +kernel
    cases hr : Release.Cli.rows 0 demoOverItems with
    | error e => rw [hr] at h; cases h
    | ok rs => rw [hr] at h; exact ⟨rs, rfl, of_decide_eq_true h⟩
  obtain ⟨m, hm⟩ : ∃ m, Release.Hist.mean demoOver' = .ok m := by
    have h : (Release.Hist.mean demoOver').toOption.isSome = true := by decide +kernel
    cases hr : Release.Hist.mean demoOver' with
    | error e => rw [hr] at h; cases h
    | ok m => exact ⟨m, rfl⟩
  obtain ⟨sd, hsd⟩ : ∃ m, Release.Hist.stdev demoOver' = .ok m := by
    have h : (Release.Hist.stdev demoOver').toOption.isSome = true := by decide +kernel
    cases hr : Release.Hist.stdev demoOver' with
    | error e => rw [hr] at h; cases h
    | ok m => exact ⟨m, rfl⟩
  have hx : Release.Hist.max demoOver' = .ok 31 := by decide +kernel
  refine ⟨⟨rs, m, sd, 31, demoOver'.len, demoOver'.buckets, demoOver'.distinctValues⟩, ?_, h8⟩
  unfold Release.Cli.quantiles
  rw [h4, M.ok_bind]
  simp only
  rw [(Release.Hist.iterQuantiles_le ..).out _ h6, M.ok_bind, h7, M.ok_bind, hm, M.ok_bind, hsd, M.ok_bind, hx, M.ok_bind]
  rfl

/-! ## Examples -/

/-- instance of `C99_read`: a log with a start time, a comment, an interval and a broken line -/
example (xs : List (Except Nat Entry)) : Release.Log.Yields Dbl.decimal (Iter.new logSample) xs ↔ Yields Dbl.decimal (Iter.new logSample) xs :=
  C99_read Dbl.decimal_lawful _ _

/-- instance of `C99_tool_serialize` -/
example (compression : Bool) : Release.Cli.serializeCmd Fp.ideal V2.Zlib.stored (fun _ => 0) (demoArgs compression) demoInput =
    serializeCmd Fp.ideal V2.Zlib.stored (fun _ => 0) (demoArgs compression) demoInput :=
  C99_tool_serialize ⟨fun _ => rfl, fun _ => rfl, fun bs => by show bs.length ≤ _; omega⟩ _ (show 200 ≤ U64MAX by decide) _

end Cli

/-- instance of `C99_write`: a comment and a histogram -/
example : ∃ r, writeLog Fmt.halfUp Builder.new (v2Ser fun _ => 0) [.comment ['x'], .hist demo3 ⟨1, 0⟩ ⟨2, 500⟩ none] = .ok r ∧
    Release.Log.writeLog Fmt.halfUp Builder.new (Release.Log.v2Ser fun _ => 0)
      [.comment ['x'], .hist demo3 ⟨1, 0⟩ ⟨2, 500⟩ none] = .ok r :=
  C99_write (fp := Fp.ideal) _ _ _ fun h s d tag hm => by
    simp only [List.mem_cons, reduceCtorEq, List.not_mem_nil, or_false, false_or] at hm
    cases hm
    exact demo3_reachable

end Hdr
