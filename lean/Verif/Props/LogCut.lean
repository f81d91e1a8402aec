import Verif.Props.LogExact
import Verif.Props.Io

/-!
# Logs that were cut off, and logs one after the other (C98)
-/

namespace Hdr

open Log

variable {ε : Type}

namespace Log

/-- a text split into lines and a rest that does not begin with a line -/
structure Split (D : Dbl) (i : Bytes) (ls : List (Bytes × Option Entry)) (rest : Bytes) : Prop where
  lines : ∀ l ∈ ls, Line D l.1 l.2
  text : i = ls.flatMap Prod.fst ++ rest
  rest : ∀ l e r, Line D l e → rest ≠ l ++ r

theorem Line.ne_nil {D : Dbl} {l : Bytes} {e : Option Entry} (h : Line D l e) : l ≠ [] := by
  obtain ⟨l, rfl, -⟩ := line_iff.mp h
  simp

theorem Split.unique {D : Dbl} (L : D.Lawful) : ∀ {ls ls' : List (Bytes × Option Entry)} {i rest rest' : Bytes},
    Split D i ls rest → Split D i ls' rest' → ls' = ls ∧ rest' = rest
  | [], [], _, _, _, h, h' => ⟨rfl, h'.text.symm.trans h.text⟩
  | [], (l, e) :: ls', i, rest, rest', h, h' => by
    refine absurd (h.text.symm.trans h'.text) ?_
    rw [List.flatMap_nil, List.nil_append, List.flatMap_cons, List.append_assoc]
    exact h.rest _ _ _ (h'.lines (l, e) (by simp))
  | (l, e) :: ls, [], i, rest, rest', h, h' => by
    refine absurd (h'.text.symm.trans h.text) ?_
    rw [List.flatMap_nil, List.nil_append, List.flatMap_cons, List.append_assoc]
    exact h'.rest _ _ _ (h.lines (l, e) (by simp))
  | (l, e) :: ls, (l', e') :: ls', i, rest, rest', h, h' => by
    have t := h'.text.symm.trans h.text
    rw [List.flatMap_cons, List.append_assoc, List.flatMap_cons, List.append_assoc] at t
    obtain ⟨a, b, c⟩ := C69_unambiguous L (h'.lines (l', e') (by simp)) (h.lines (l, e) (by simp)) t
    obtain ⟨p, q⟩ := Split.unique L (i := ls.flatMap Prod.fst ++ rest)
      ⟨fun k hk => h.lines k (List.mem_cons_of_mem _ hk), rfl, h.rest⟩
      ⟨fun k hk => h'.lines k (List.mem_cons_of_mem _ hk), c.symm, h'.rest⟩
    dsimp only at a b
    rw [a, b, p, q]
    exact ⟨rfl, rfl⟩

theorem Split.yields {D : Dbl} (L : D.Lawful) {ls : List (Bytes × Option Entry)} {i rest : Bytes} (h : Split D i ls rest) :
    Yields D (Iter.new i) ((ls.filterMap Prod.snd).map .ok ++
      if rest = [] then [] else [.error (ls.flatMap Prod.fst).length]) := by
  obtain ⟨ls', rest', h1, h2, h3, h4⟩ := C69_reads L i
  obtain ⟨rfl, rfl⟩ := h.unique L ⟨h1, h2, h3⟩
  have : i.length - rest'.length = (ls'.flatMap Prod.fst).length := by
    have := congrArg List.length h2
    rw [List.length_append] at this
    omega
  rw [this] at h4
  exact h4

theorem Split.exists {D : Dbl} (L : D.Lawful) (i : Bytes) : ∃ ls rest, Split D i ls rest := by
  obtain ⟨ls, rest, h1, h2, h3, -⟩ := C69_reads L i
  exact ⟨ls, rest, h1, h2, h3⟩

/-- a part of a line, from its beginning, does not begin with a line -/
theorem Line.part {D : Dbl} (L : D.Lawful) {l p q : Bytes} {e : Option Entry} (h : Line D l e) (hp : l = p ++ q) (hq : q ≠ []) :
    ∀ l' e' r, Line D l' e' → p ≠ l' ++ r := by
  rintro l' e' r h' rfl
  obtain ⟨a, -, b⟩ := C69_unambiguous L h h' (r := []) (r' := r ++ q) (by rw [List.append_nil, hp, List.append_assoc])
  exact hq (List.append_eq_nil_iff.mp b.symm).2

/-- the split of a text that was cut -/
theorem Split.cut {D : Dbl} (L : D.Lawful) : ∀ {ls : List (Bytes × Option Entry)} {i rest : Bytes}, Split D i ls rest →
    ∀ n ≤ i.length, ∃ k ≤ ls.length, ((ls.take k).flatMap Prod.fst).length ≤ n ∧
      (k < ls.length → n < ((ls.take (k + 1)).flatMap Prod.fst).length) ∧
      Split D (i.take n) (ls.take k) ((i.take n).drop ((ls.take k).flatMap Prod.fst).length)
  | [], i, rest, h, n, hn => by
    refine ⟨0, le_rfl, Nat.zero_le _, fun h => absurd h (Nat.lt_irrefl _), ⟨fun l hl => (List.not_mem_nil hl).elim, by simp, ?_⟩⟩
    rintro l e r hl hh
    have ht : i = rest := h.text
    rw [List.take_zero, List.flatMap_nil, List.length_nil, List.drop_zero] at hh
    refine h.rest l e (r ++ i.drop n) hl ?_
    rw [← List.append_assoc, ← hh, List.take_append_drop, ht]
  | (l, e) :: ls, i, rest, h, n, hn => by
    have hl : Line D l e := h.lines (l, e) (by simp)
    have ht : i = l ++ (ls.flatMap Prod.fst ++ rest) := by rw [h.text, List.flatMap_cons, List.append_assoc]
    by_cases c : n < l.length
    · have e1 : i.take n = l.take n := by rw [ht, List.take_append_of_le_length (by omega)]
      refine ⟨0, Nat.zero_le _, Nat.zero_le _, fun _ => ?_, ⟨fun l hl => (List.not_mem_nil hl).elim, by simp, ?_⟩⟩
      · simpa using c
      · rw [List.take_zero, List.flatMap_nil, List.length_nil, List.drop_zero, e1]
        refine hl.part L (List.take_append_drop n l).symm ?_
        rw [Ne, List.drop_eq_nil_iff]
        omega
    · have S : Split D (ls.flatMap Prod.fst ++ rest) ls rest :=
        ⟨fun k hk => h.lines k (List.mem_cons_of_mem _ hk), rfl, h.rest⟩
      have hlen := congrArg List.length ht
      rw [List.length_append] at hlen
      obtain ⟨k, k1, k2, k3, K⟩ := S.cut L (n - l.length) (by omega)
      have e1 : i.take n = l ++ (ls.flatMap Prod.fst ++ rest).take (n - l.length) := by
        rw [ht, List.take_append]
        rw [List.take_of_length_le (by omega)]
      refine ⟨k + 1, by simpa using k1, ?_, ?_, ?_⟩
      · rw [List.take_succ_cons, List.flatMap_cons, List.length_append]; dsimp only; omega
      · intro hk
        have := k3 (by simpa using hk)
        rw [List.take_succ_cons, List.flatMap_cons, List.length_append]
        dsimp only
        omega
      · have e2 : (i.take n).drop (((l, e) :: ls).take (k + 1) |>.flatMap Prod.fst).length =
            ((ls.flatMap Prod.fst ++ rest).take (n - l.length)).drop ((ls.take k).flatMap Prod.fst).length := by
          rw [List.take_succ_cons, List.flatMap_cons, List.length_append, e1, ← List.drop_drop]
          congr 1
          simp
        rw [e2]
        refine ⟨?_, ?_, K.rest⟩
        · intro x hx
          rw [List.take_succ_cons] at hx
          rcases List.mem_cons.mp hx with rfl | hx
          · exact hl
          · exact K.lines x hx
        · rw [List.take_succ_cons, List.flatMap_cons, e1, List.append_assoc, ← K.text]

end Log

/-- C98 (1): A log that was cut off after `n` bytes, at any place. Let `ls` be the lines of the whole log. The `k` lines that
are wholly within the first `n` bytes are read as in the whole log; if the log was not cut at the end of a line, one error
follows, at the position where the incomplete line begins. No entry is changed, added or lost but those cut. -/
theorem C98_cut {D : Dbl} (L : D.Lawful) (i : Bytes) : ∃ (ls : List (Bytes × Option Entry)) (rest : Bytes),
    (∀ l ∈ ls, Line D l.1 l.2) ∧ i = ls.flatMap Prod.fst ++ rest ∧
    Yields D (Iter.new i) ((ls.filterMap Prod.snd).map .ok ++
      if rest = [] then [] else [.error (ls.flatMap Prod.fst).length]) ∧
    ∀ n ≤ i.length, ∃ k ≤ ls.length, ((ls.take k).flatMap Prod.fst).length ≤ n ∧
      (k < ls.length → n < ((ls.take (k + 1)).flatMap Prod.fst).length) ∧
      Yields D (Iter.new (i.take n)) (((ls.take k).filterMap Prod.snd).map .ok ++
        if ((ls.take k).flatMap Prod.fst).length = n then [] else [.error ((ls.take k).flatMap Prod.fst).length]) := by
  obtain ⟨ls, rest, S⟩ := Split.exists L i
  refine ⟨ls, rest, S.lines, S.text, S.yields L, fun n hn => ?_⟩
  obtain ⟨k, k1, k2, k3, K⟩ := S.cut L n hn
  refine ⟨k, k1, k2, k3, ?_⟩
  have := K.yields L
  have e : (i.take n).drop ((ls.take k).flatMap Prod.fst).length = [] ↔ ((ls.take k).flatMap Prod.fst).length = n := by
    rw [List.drop_eq_nil_iff, List.length_take, Nat.min_eq_left hn]
    omega
  rw [if_congr e rfl rfl] at this
  exact this

/-- C98 (2): in short: from the beginning of a log, entries of the log are read, the first ones, in order; and then at most
one error. -/
theorem C98_initial {D : Dbl} (L : D.Lawful) {i p : Bytes} {es : List Entry} {tail : List (Except Nat Entry)}
    (h : Yields D (Iter.new i) (es.map .ok ++ tail)) (ht : ∀ e, .ok e ∉ tail) (hp : p <+: i) :
    ∃ k tail', Yields D (Iter.new p) ((es.take k).map .ok ++ tail') ∧
      (tail' = [] ∨ ∃ o, o < p.length ∧ tail' = [.error o]) := by
  obtain ⟨ls, rest, -, -, h1, h2⟩ := C98_cut L i
  have e := C44_determined h h1
  have hes : es = ls.filterMap Prod.snd := by
    have : ∀ (xs ys : List Entry) (s t : List (Except Nat Entry)), (∀ e, .ok e ∉ s) → (∀ e, .ok e ∉ t) →
        xs.map Except.ok ++ s = ys.map Except.ok ++ t → xs = ys := by
      intro xs
      induction xs with
      | nil =>
        intro ys s t hs _ e
        cases ys with
        | nil => rfl
        | cons y ys =>
          rw [List.map_nil, List.nil_append] at e
          exact absurd (by rw [e]; simp) (hs y)
      | cons x xs ih =>
        intro ys s t hs ht e
        cases ys with
        | nil =>
          rw [List.map_nil, List.nil_append] at e
          exact absurd (by rw [← e]; simp) (ht x)
        | cons y ys =>
          rw [List.map_cons, List.map_cons, List.cons_append, List.cons_append] at e
          obtain ⟨e1, e2⟩ := List.cons.inj e
          rw [Except.ok.inj e1, ih ys s t hs ht e2]
    refine this es _ tail _ ht ?_ e
    intro x
    split <;> simp
  obtain ⟨k, -, k2, -, K⟩ := h2 p.length hp.length_le
  rw [← List.prefix_iff_eq_take.mp hp] at K
  have ep : (ls.take k).filterMap Prod.snd <+: es := by
    rw [hes]
    exact (List.take_prefix k ls).filterMap _
  refine ⟨((ls.take k).filterMap Prod.snd).length,
    if ((ls.take k).flatMap Prod.fst).length = p.length then [] else [.error ((ls.take k).flatMap Prod.fst).length], ?_, ?_⟩
  · rw [← List.prefix_iff_eq_take.mp ep]; exact K
  · by_cases c : ((ls.take k).flatMap Prod.fst).length = p.length
    · rw [if_pos c]; exact .inl rfl
    · rw [if_neg c]; exact .inr ⟨_, by omega, rfl⟩

/-- an item read from a log that begins `n` bytes later -/
def later (n : Nat) : Except Nat Entry → Except Nat Entry
  | .ok e => .ok e
  | .error o => .error (n + o)

/-- C98 (3): A log that is read without an error can be continued by any other text, for example another log: first its own
entries are read, then what is read from the other text; errors have their position in the whole. -/
theorem C98_concat {D : Dbl} (L : D.Lawful) {a b : Bytes} {es : List Entry} {ys : List (Except Nat Entry)}
    (ha : Yields D (Iter.new a) (es.map .ok)) (hb : Yields D (Iter.new b) ys) :
    Yields D (Iter.new (a ++ b)) (es.map .ok ++ ys.map (later a.length)) := by
  obtain ⟨la, ra, A⟩ := Split.exists L a
  obtain ⟨lb, rb, B⟩ := Split.exists L b
  have ea := C44_determined ha (A.yields L)
  have eb := C44_determined hb (B.yields L)
  have hra : ra = [] := by
    by_contra hc
    rw [if_neg hc] at ea
    have : Except.error (la.flatMap Prod.fst).length ∈ es.map (Except.ok (ε := Nat)) := by rw [ea]; simp
    simp at this
  subst hra
  rw [if_pos rfl, List.append_nil] at ea
  have ta : a = la.flatMap Prod.fst := by have := A.text; rwa [List.append_nil] at this
  have S : Split D (a ++ b) (la ++ lb) rb := by
    refine ⟨?_, ?_, B.rest⟩
    · intro l hl
      rcases List.mem_append.mp hl with hl | hl
      · exact A.lines l hl
      · exact B.lines l hl
    · rw [List.flatMap_append, List.append_assoc, ← B.text, ← ta]
  have := S.yields L
  rw [List.filterMap_append, List.map_append, List.append_assoc, ← ea, List.flatMap_append, List.length_append, ← ta] at this
  have e2 : ys.map (later a.length) = (lb.filterMap Prod.snd).map .ok ++
      if rb = [] then [] else [.error (a.length + (lb.flatMap Prod.fst).length)] := by
    rw [eb, List.map_append, List.map_map]
    congr 1
    split <;> rfl
  rw [e2]
  exact this

/-- C98 (4): what was once written and is read without an error is read whatever follows it, for example the beginning of a
line whose write failed. -/
theorem C98_kept {D : Dbl} (L : D.Lawful) {a p : Bytes} {es : List Entry} (ha : Yields D (Iter.new a) (es.map .ok)) (hp : a <+: p) :
    ∃ ys, Yields D (Iter.new p) (es.map .ok ++ ys) := by
  obtain ⟨b, rfl⟩ := hp
  obtain ⟨es', tail, h, -⟩ := C44_total L b
  exact ⟨_, C98_concat L ha h⟩

open Io in
/-- C98 (5): A log written to a writer that may fail at any moment (with headers and calls that would succeed on an in-memory
writer, giving the log `out`), nothing being written after the first failed call. Reading what the writer has taken gives
the entries of `out`, if all calls succeeded; else the first ones of them, and then at most one error. -/
theorem C98_failing_writer {D : Dbl} (L : D.Lawful) {sink : Sink} {received : sink.State → List UInt8}
    {left : sink.State → Nat} (K : sink.Takes received left) (f : Fmt) (b : Builder) (ser : Ser ε) (ops : List Op)
    {out : Bytes} (h : Log.writeLog f b ser ops = .ok (.ok out)) {es : List Entry} (hes : Yields D (Iter.new out) (es.map .ok))
    {s : sink.State} (h0 : received s = []) :
    ∃ good s', Ev (fun fuel => Io.writeLog f b ser sink fuel s ops) (.ok (if good then .ok () else .error .io, s')) ∧
      (good = true → Yields D (Iter.new (received s')) (es.map .ok)) ∧
      ∃ k tail, Yields D (Iter.new (received s')) ((es.take k).map .ok ++ tail) ∧
        (tail = [] ∨ ∃ o, o < (received s').length ∧ tail = [.error o]) := by
  obtain ⟨good, s', h1, h2⟩ := C63_log K f b ser ops h s
  refine ⟨good, s', h1, ?_, ?_⟩
  · rintro rfl
    have : received s' = received s ++ out := h2
    rw [this, h0, List.nil_append]
    exact hes
  · have hp : received s' <+: out := by
      cases good with
      | true =>
        have : received s' = received s ++ out := h2
        rw [this, h0, List.nil_append]
      | false =>
        obtain ⟨p, hp, -, e⟩ := h2
        rw [e, h0, List.nil_append]
        exact hp
    exact C98_initial L (tail := []) (by rw [List.append_nil]; exact hes) (by simp) hp

/-- all items read -/
def itemsOf (i : Bytes) : Option (List (Except Nat Entry)) := go i.length (Iter.new i)
where
  go : Nat → Iter → Option (List (Except Nat Entry))
    | 0, _ => none
    | n + 1, it => match it.next Dbl.decimal with
      | .ok (none, _) => some []
      | .ok (some x, it) => (go n it).map (x :: ·)
      | .error _ => none

/-- a log of a start time, a comment and two intervals -/
def logPair : Bytes := Str.bytes "#[StartTime: 12.500 s]\n#x\nTag=a,1.000,2.000,3.000,QUJD\n4.000,1.000,2.000,QUJD\n".toList

/-- cut within the payload of the second interval, and at the end of the first -/
example : (itemsOf logPair).map List.length = some 3 ∧
    itemsOf (logPair.take 71) = some [.ok (.startTime ⟨12, 500000000⟩),
      .ok (.interval ⟨some ['a'], ⟨1, 0⟩, ⟨2, 0⟩, Str.bytes "3.000".toList, "QUJD".toList⟩), .error 55] ∧
    itemsOf (logPair.take 55) = some [.ok (.startTime ⟨12, 500000000⟩),
      .ok (.interval ⟨some ['a'], ⟨1, 0⟩, ⟨2, 0⟩, Str.bytes "3.000".toList, "QUJD".toList⟩)] := by
  decide +kernel

/-- two logs, the second with a line that cannot be read -/
example : (itemsOf logPair).isSome ∧ itemsOf logSample = some [.ok (.startTime ⟨12, 500000000⟩),
      .ok (.interval ⟨none, ⟨1, 0⟩, ⟨2, 500000000⟩, Str.bytes "3.000".toList, "AB".toList⟩), .error 43] ∧
    (itemsOf (logPair ++ logSample)).map (fun l => l.drop 3) = some [.ok (.startTime ⟨12, 500000000⟩),
      .ok (.interval ⟨none, ⟨1, 0⟩, ⟨2, 500000000⟩, Str.bytes "3.000".toList, "AB".toList⟩), .error 121] := by
  decide +kernel

/-- a writer that keeps the contract, and fails after 30 bytes of a log with a comment and an interval -/
example : Io.scriptedSink.Takes Prod.snd (fun s => s.1.count none) ∧
    (Io.writeLog Fmt.halfUp (Builder.new.addComment ['x']) (v2Ser fun _ => 0) Io.scriptedSink 20
      ([some 3, some 27], []) [.hist demo3 ⟨1, 0⟩ ⟨2, 0⟩ none]).toOption.map
      (fun r => (r.1.toOption, itemsOf (show List (Option Nat) × List UInt8 from r.2).2)) =
      some (none, some [.error 3]) :=
  ⟨Io.scriptedSink_takes, by decide +kernel⟩

end Hdr
