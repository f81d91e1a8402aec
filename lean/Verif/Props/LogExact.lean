import Verif.Spec.LogExact
import Verif.Props.LogText
import Verif.Props.Log

/-!
# C43, C45: what a written log is read as, in every case
-/

namespace Hdr

open Log

variable {ε : Type} {T : CounterTy}

namespace Log

/-! ### comments -/

theorem reads_lines {D : Dbl} {ls : List (Bytes × Option Entry)} (h : ∀ l ∈ ls, Line D l.1 l.2) :
    Reads D (ls.flatMap Prod.fst) (ls.filterMap Prod.snd) none := by
  induction ls with
  | nil => exact .nil
  | cons a ls ih =>
    obtain ⟨k, o⟩ := a
    have ih := ih fun l hl => h l (by simp [hl])
    obtain ⟨l, rfl, g⟩ := line_iff.mp (h (k, o) (by simp))
    rw [List.flatMap_cons]
    rcases g with ⟨e, rfl, he⟩ | ⟨rfl, hs, hn⟩
    · simpa using Reads.entry he ih
    · simpa using Reads.skip hs hn ih

theorem comment_line_any (D : Dbl) {l : Str} (h : '\n' ∉ l) : ∃ o, Line D (Str.bytes ('#' :: l ++ ['\n'])) o := by
  have e : Str.bytes ('#' :: l ++ ['\n']) = Str.bytes ('#' :: l) ++ [10] := by
    rw [bytes_append]; congr 1
  rw [e]
  by_cases hh : ∃ en, EntryText D (Str.bytes ('#' :: l)) en
  · obtain ⟨en, he⟩ := hh
    exact ⟨some en, line_iff.mpr ⟨_, rfl, Or.inl ⟨en, rfl, he⟩⟩⟩
  · refine ⟨none, line_iff.mpr ⟨_, rfl, Or.inr ⟨rfl, ⟨?_, Or.inl ?_⟩, fun en he => hh ⟨en, he⟩⟩⟩⟩
    · exact bytes_not_mem (c := '\n') (by decide) (by simp [h])
    · rw [bytes_cons]; exact List.prefix_append _ _

theorem comment_reads_any (D : Dbl) (s : Str) : ∃ es, CommentRead D s es ∧ Reads D (commentBytes s) es none := by
  have key : ∀ xs : List Str, (∀ l ∈ xs, '\n' ∉ l) → ∃ ls : List (Bytes × Option Entry), (∀ l ∈ ls, Line D l.1 l.2) ∧
      (xs.flatMap fun l => Str.bytes ('#' :: l ++ ['\n'])) = ls.flatMap Prod.fst := by
    intro xs
    induction xs with
    | nil => intro _; exact ⟨[], by simp, rfl⟩
    | cons x xs ih =>
      intro h
      obtain ⟨ls, h1, h2⟩ := ih fun l hl => h l (by simp [hl])
      obtain ⟨o, ho⟩ := comment_line_any D (h x (by simp))
      refine ⟨(_, o) :: ls, ?_, by rw [List.flatMap_cons, List.flatMap_cons, h2]⟩
      intro l hl
      rcases List.mem_cons.mp hl with rfl | hl
      · exact ho
      · exact h1 l hl
  obtain ⟨ls, h1, h2⟩ := key (splitLines s) (splitLines_no_lf s)
  refine ⟨_, ⟨ls, h1, ?_, rfl⟩, ?_⟩
  · rw [← commentBytes_eq]; exact h2
  · have := reads_lines h1
    rw [← h2] at this
    exact this

theorem comments_read_any (D : Dbl) (cs : List Str) : ∃ es, List.Forall₂ (CommentRead D) cs es ∧
    Reads D (cs.flatMap commentBytes) es.flatten none := by
  induction cs with
  | nil => exact ⟨[], .nil, .nil⟩
  | cons c cs ih =>
    obtain ⟨es, h1, h2⟩ := ih
    obtain ⟨e, h3, h4⟩ := comment_reads_any D c
    exact ⟨e :: es, .cons h3 h1, reads_append h4 h2⟩

/-! ### headers -/

theorem loggable_iff {d : Dur} (hd : d.Valid) : ¬ d.Loggable ↔ 2 ^ 64 - 1024 ≤ d.secs := by
  unfold Dur.Loggable
  constructor
  · intro h; by_contra hc; exact h ⟨hd, by omega⟩
  · rintro h ⟨-, h2⟩; omega

theorem header_read (D : Dbl) (f : Fmt) {t : Str} {mk : Dur → Entry}
    (ht : t = startTimeTag ∧ mk = Entry.startTime ∨ t = baseTimeTag ∧ mk = Entry.baseTime) {o : Option SysTime}
    (hv : ∀ x, o = some x → x.Valid) :
    ∃ es, HeaderRead mk o es ∧ Reads D (headerBytes f t (o.map systemTimeAsFpSeconds)) es none := by
  have ht' : t = startTimeTag ∨ t = baseTimeTag := by
    rcases ht with ⟨h, -⟩ | ⟨h, -⟩
    · exact Or.inl h
    · exact Or.inr h
  cases o with
  | none => exact ⟨[], .absent, .nil⟩
  | some x =>
    have hx := hv x rfl
    cases x with
    | afterEpoch d =>
      by_cases hl : d.Loggable
      · obtain ⟨d', h1, h2⟩ := time_text f hl
        obtain ⟨l, h3, h4⟩ := header_text f (t := t) h1
        refine ⟨[mk d'], .read hl h2, ?_⟩
        show Reads D (headerBytes f t (some (durationAsFpSeconds d))) _ _
        rw [h4]
        rcases ht with ⟨rfl, rfl⟩ | ⟨rfl, rfl⟩
        · exact .entry (e := .startTime d') h3 .nil
        · exact .entry (e := .baseTime d') h3 .nil
      · obtain ⟨h1, h2⟩ := late_text f hx ((loggable_iff hx).mp hl)
        exact ⟨[], .late hl, header_lost_reads ht' h1 (fixed3_no_lf f _) h2⟩
    | beforeEpoch d =>
      obtain ⟨h1, h2⟩ := before_text f hx.1 hx.2
      exact ⟨[], .before, header_lost_reads ht' h1 (fixed3_no_lf f _) h2⟩

/-! ### lines that cannot be read -/

theorem split44 {a b c d : Bytes} (ha : 44 ∉ a) (hc : 44 ∉ c) (h : a ++ 44 :: b = c ++ 44 :: d) : a = c ∧ b = d := by
  have h1 := takeUntil_some.mpr ⟨ha, b, rfl, rfl⟩
  have h2 := takeUntil_some.mpr ⟨hc, d, rfl, rfl⟩
  rw [h, h2] at h1
  simp only [Option.some.injEq, Prod.mk.injEq, List.cons.injEq, true_and] at h1
  exact ⟨h1.1.symm, h1.2.symm⟩

theorem digits_comma {a : Str} (h : Digits a) : ',' ∉ a := fun hc => absurd (h _ hc) (by decide)

theorem milli_no_comma (n : Nat) : ',' ∉ milli n := by
  obtain ⟨h1, -, -⟩ := decimal_spec (n / 1000)
  obtain ⟨h4, -, -⟩ := pad3_spec (n := n % 1000) (by omega)
  unfold milli
  have a := digits_comma h1
  have b := digits_comma h4
  simp [a, b]

theorem fixed3_no_comma (f : Fmt) (x : F64) : ',' ∉ f.fixed3 x := by
  cases x with
  | nan => simp [Fmt.fixed3]
  | pinf => simp [Fmt.fixed3]
  | ninf => simp [Fmt.fixed3]
  | fin q =>
    simp only [Fmt.fixed3]
    split
    · simp [milli_no_comma]
    · exact milli_no_comma _

/-- the text of a duration begins with a digit -/
theorem fixed3_head (f : Fmt) {d : Dur} (hd : d.Valid) :
    ∃ b y, Str.bytes (f.fixed3 (durationAsFpSeconds d)) = b :: y ∧ isDigit b = true := by
  obtain ⟨q, e, h0, -⟩ := fpSeconds hd
  have ef : f.fixed3 (durationAsFpSeconds d) = milli (f.ms q) := by
    rw [e]
    simp only [Fmt.fixed3]
    rw [if_neg (by linarith)]
  obtain ⟨h1, h2, -⟩ := decimal_spec (f.ms q / 1000)
  rw [ef]
  unfold milli
  rw [bytes_append]
  have h3 := h1.isDigit
  have h4 : Str.bytes (decimal (f.ms q / 1000)) ≠ [] := by
    intro h
    have := digits_bytes_length h1.ascii
    rw [h] at this
    exact h2 (List.length_eq_zero_iff.mp this.symm)
  obtain ⟨b, y, hb⟩ := List.exists_cons_of_ne_nil h4
  rw [hb] at h3 ⊢
  exact ⟨b, _, rfl, h3 b (by simp)⟩

theorem tagParser_digit {b : UInt8} {y : Bytes} (hb : isDigit b = true) : tagParser (b :: y) = none := by
  cases h : tagParser (b :: y) with
  | none => rfl
  | some p =>
    obtain ⟨t, r⟩ := p
    obtain ⟨z, h1, h2, h3⟩ := tagParser_some.mp h
    rw [show tagTag.bytes = 84 :: [97, 103, 61] by decide] at h3
    simp at h3
    rw [h3.1] at hb
    exact absurd hb (by decide)

/-- an interval line is read only if its times and its maximum can be read -/
theorem line_stuck {D : Dbl} {a x y z e r : Bytes} {tag : Option Str} (hT : TagText a tag) (hx : 44 ∉ x) (hy : 44 ∉ y)
    (hz : 44 ∉ z) (hd : ∃ b x', x = b :: x' ∧ isDigit b = true)
    (hno : ¬ ((∃ d, DurText x d) ∧ (∃ d, DurText y d) ∧ DblText D z)) :
    Reads D ((a ++ (x ++ 44 :: (y ++ 44 :: (z ++ 44 :: e)))) ++ 10 :: r) []
      (some ((a ++ (x ++ 44 :: (y ++ 44 :: (z ++ 44 :: e)))) ++ 10 :: r)) := by
  obtain ⟨b, x', rfl, hb⟩ := hd
  have hhead : ∃ c w, (a ++ (b :: x' ++ 44 :: (y ++ 44 :: (z ++ 44 :: e)))) ++ 10 :: r = c :: w ∧ c ≠ 35 ∧ c ≠ 34 := by
    cases tag with
    | none =>
      have : a = [] := hT
      subst this
      refine ⟨b, _, rfl, ?_, ?_⟩
      · rintro rfl; revert hb; decide
      · rintro rfl; revert hb; decide
    | some t =>
      obtain ⟨u, -, -, rfl⟩ := hT
      exact ⟨84, _, rfl, by decide, by decide⟩
  obtain ⟨c, w, hcw, hc1, hc2⟩ := hhead
  refine .stuck (by simp) ?_
  intro l r' heq
  constructor
  · rintro ⟨-, ⟨u, rfl⟩ | ⟨u, rfl⟩⟩
    · rw [hcw] at heq; simp at heq; exact hc1 heq.1
    · rw [hcw, show legendTag.bytes = 34 :: Str.bytes legendTag.tail by decide] at heq
      simp at heq; exact hc2 heq.1
  · intro en he
    cases en with
    | startTime d =>
      obtain ⟨u, v, -, -, rfl⟩ := he
      rw [hcw, startTag_bytes] at heq; simp at heq; exact hc1 heq.1
    | baseTime d =>
      obtain ⟨u, v, -, -, rfl⟩ := he
      rw [hcw, baseTag_bytes] at heq; simp at heq; exact hc1 heq.1
    | interval iv =>
      obtain ⟨x1, x2, x3, x5, s, h1, h2, h3, h4, h5, h6, h7, rfl⟩ := he
      have e1 := optTag_of_text (r := (b :: x' ++ 44 :: (y ++ 44 :: (z ++ 44 :: e))) ++ 10 :: r) hT
        (fun _ => tagParser_digit hb)
      have e2 := optTag_of_text (r := (x2 ++ 44 :: (x3 ++ 44 :: (iv.max ++ 44 :: x5))) ++ 10 :: r') h1
        (fun _ => by rw [List.append_assoc]; exact tagParser_dur h2)
      rw [← List.append_assoc, heq, List.append_assoc, e2] at e1
      simp only [Prod.mk.injEq, List.append_assoc, List.cons_append] at e1
      obtain ⟨-, e3⟩ := e1
      obtain ⟨k1, k2⟩ := split44 (h2.not_mem (by decide) (by decide) (by decide)) hx e3
      obtain ⟨k3, k4⟩ := split44 (h3.not_mem (by decide) (by decide) (by decide)) hy k2
      obtain ⟨k5, -⟩ := split44 h4.1 hz k4
      exact hno ⟨⟨_, k1 ▸ h2⟩, ⟨_, k3 ▸ h3⟩, k5 ▸ h4⟩

theorem time_read_iff (f : Fmt) {d : Dur} (hd : d.Valid) :
    (∃ d', DurText (Str.bytes (f.fixed3 (durationAsFpSeconds d))) d') ↔ d.Loggable := by
  constructor
  · rintro ⟨d', h⟩
    by_contra hl
    exact (late_text f hd ((loggable_iff hd).mp hl)).2 d' h
  · intro h
    obtain ⟨d', h1, -⟩ := time_text f h
    exact ⟨d', h1⟩

theorem number_read_iff {D : Dbl} (L : D.Lawful) (f : Fmt) (x : F64) : DblText D (Str.bytes (f.fixed3 x)) ↔ NumberRead D x := by
  constructor
  · intro h
    exact Or.inr ⟨_, fixed3_shows f x, h.2⟩
  · intro h
    cases x with
    | fin q => exact dbl_text L f q
    | nan =>
      rcases h with ⟨q, h⟩ | ⟨z, hz, h⟩
      · cases h
      · cases hz; exact ⟨bytes_not_mem (c := ',') (by decide) (fixed3_no_comma f _), h⟩
    | pinf =>
      rcases h with ⟨q, h⟩ | ⟨z, hz, h⟩
      · cases h
      · cases hz; exact ⟨bytes_not_mem (c := ',') (by decide) (fixed3_no_comma f _), h⟩
    | ninf =>
      rcases h with ⟨q, h⟩ | ⟨z, hz, h⟩
      · cases h
      · cases hz; exact ⟨bytes_not_mem (c := ',') (by decide) (fixed3_no_comma f _), h⟩

/-! ### histograms -/

theorem hist_read {D : Dbl} (L : D.Lawful) {f : Fmt} {divisor : F64} {ser : Ser ε} {h : Hist T} {start duration : Dur}
    {tag : Option Tag} (hst : start.Valid) (hdu : duration.Valid) (htag : ∀ t, tag = some t → ∃ s, Tag.new s = some t)
    {b : Bytes} (hw : writeHistogram f divisor ser h start duration tag = .ok (b, .ok ())) :
    ((Op.hist h start duration tag).Readable D divisor →
      ∃ es, OpRead D divisor ser (.hist h start duration tag) es ∧ Reads D b es none) ∧
    (¬ (Op.hist h start duration tag).Readable D divisor → ∀ r, Reads D (b ++ r) [] (some (b ++ r)) ∧ b ≠ []) := by
  have h5 := tag_text htag
  unfold writeHistogram at hw
  rw [M.bind_eq_ok] at hw
  obtain ⟨m, hm, hw⟩ := hw
  rw [M.bind_eq_ok] at hw
  obtain ⟨o, h6, h7⟩ := hw
  cases o with
  | error e => cases h7
  | ok buf =>
    simp only [Except.ok.injEq, Prod.mk.injEq, and_true] at h7
    have e : ∀ x1 x2 x3 x4 x5 : Str, Str.bytes (x1 ++ x2 ++ [','] ++ x3 ++ [','] ++ x4 ++ [',']) ++ Str.bytes x5 ++ [10] =
        (Str.bytes x1 ++ (Str.bytes x2 ++ 44 :: (Str.bytes x3 ++ 44 :: (Str.bytes x4 ++ 44 :: Str.bytes x5)))) ++ 10 :: [] := by
      intro x1 x2 x3 x4 x5
      simp only [bytes_append, show Str.bytes [','] = [44] by decide]
      simp
    rw [e] at h7
    subst h7
    constructor
    · rintro ⟨l1, l2, m', hm', hn⟩
      rw [hm] at hm'
      cases hm'
      obtain ⟨s', h1, h2⟩ := time_text f l1
      obtain ⟨d', h3, h4⟩ := time_text f l2
      refine ⟨_, .hist hm h6 h2 h4 (fixed3_shows f _) (b64_decode_encode buf), ?_⟩
      refine .entry (e := .interval _) ⟨_, _, _, _, _, h5, h1, h3, (number_read_iff L f _).mpr hn, ?_, fromUtf8_bytes _, ?_, rfl⟩
        .nil
      · exact bytes_not_mem (c := '\n') (by decide) (b64_not_mem (by decide) (by decide) buf)
      · exact (trimCr_of_not_mem (b64_not_mem (by decide) (by decide) buf)).symm
    · intro hn r
      have hc : ∀ x, 44 ∉ Str.bytes (f.fixed3 x) := fun x => bytes_not_mem (c := ',') (by decide) (fixed3_no_comma f x)
      refine ⟨?_, by simp⟩
      rw [List.append_assoc, List.cons_append, List.nil_append]
      refine line_stuck h5 (hc _) (hc _) (hc _) (fixed3_head f hst) ?_
      rintro ⟨k1, k2, k3⟩
      exact hn ⟨(time_read_iff f hst).mp k1, (time_read_iff f hdu).mp k2, m, hm, (number_read_iff L f _).mp k3⟩

/-- the tags in the calls are tags -/
def Op.Tagged : Op → Prop
  | .comment _ => True
  | .hist _ _ _ tag => ∀ t, tag = some t → ∃ s, Tag.new s = some t

theorem ops_read {D : Dbl} (L : D.Lawful) {f : Fmt} {divisor : F64} {ser : Ser ε} {ops : List Op} : ∀ {b : Bytes},
    (∀ op ∈ ops, op.Valid ∧ op.Tagged) → runOps f divisor ser ops = .ok (.ok b) →
    ∃ ok rest es p q, ops = ok ++ rest ∧ (∀ op ∈ ok, op.Readable D divisor) ∧ (∀ op, rest.head? = some op → ¬ op.Readable D divisor) ∧
      List.Forall₂ (OpRead D divisor ser) ok es ∧ runOps f divisor ser ok = .ok (.ok p) ∧ b = p ++ q ∧ (q = [] ↔ rest = []) ∧
      Reads D b es.flatten (if rest = [] then none else some q) := by
  induction ops with
  | nil =>
    intro b _ h
    cases h
    exact ⟨[], [], [], [], [], rfl, by simp, by simp, .nil, rfl, rfl, by simp, .nil⟩
  | cons op ops ih =>
    intro b hv h
    simp only [runOps] at h
    rw [M.bind_eq_ok] at h
    obtain ⟨⟨b1, r1⟩, h1, h2⟩ := h
    cases r1 with
    | error e => cases h2
    | ok u =>
      simp only at h2
      rw [M.bind_eq_ok] at h2
      obtain ⟨o, h3, h4⟩ := h2
      cases o with
      | error e => cases h4
      | ok bs =>
        simp only [Except.ok.injEq] at h4
        subst h4
        obtain ⟨ok, rest, es, p, q, i1, i2, i3, i4, i5, i6, i7, i8⟩ := ih (fun op h => hv op (by simp [h])) h3
        have key : op.Readable D divisor → (∃ e, OpRead D divisor ser op e ∧ Reads D b1 e none) →
            ∃ ok rest es p q, op :: ops = ok ++ rest ∧ (∀ op ∈ ok, op.Readable D divisor) ∧
              (∀ op, rest.head? = some op → ¬ op.Readable D divisor) ∧
              List.Forall₂ (OpRead D divisor ser) ok es ∧ runOps f divisor ser ok = .ok (.ok p) ∧ b1 ++ bs = p ++ q ∧
              (q = [] ↔ rest = []) ∧ Reads D (b1 ++ bs) es.flatten (if rest = [] then none else some q) := by
          rintro hr ⟨e, j1, j2⟩
          refine ⟨op :: ok, rest, e :: es, b1 ++ p, q, by rw [i1]; rfl, ?_, i3, .cons j1 i4, ?_, by rw [i6, List.append_assoc],
            i7, reads_append j2 i8⟩
          · intro x hx
            rcases List.mem_cons.mp hx with rfl | hx
            · exact hr
            · exact i2 x hx
          · simp only [runOps, h1, M.ok_bind, i5]
        obtain ⟨v1, v2⟩ := hv op (by simp)
        cases op with
        | comment s =>
          simp only [Op.run, Except.ok.injEq, Prod.mk.injEq] at h1
          obtain ⟨rfl, -⟩ := h1
          obtain ⟨e, j1, j2⟩ := comment_reads_any D s
          exact key trivial ⟨e, .comment j1, j2⟩
        | hist h start duration tag =>
          obtain ⟨k1, k2⟩ := hist_read L v1.1 v1.2 v2 h1
          by_cases hr : (Op.hist h start duration tag).Readable D divisor
          · exact key hr (k1 hr)
          · obtain ⟨k3, k4⟩ := k2 hr bs
            refine ⟨[], _ :: ops, [], [], b1 ++ bs, rfl, by simp, ?_, .nil, rfl, rfl, by simp [k4], ?_⟩
            · intro op ho
              simp only [List.head?_cons, Option.some.injEq] at ho
              subst ho
              exact hr
            · simpa using k3

end Log

/-- C43 (4), for every log that was written without an error, whatever its comments, times, divisor and maxima: the calls
are read in order, up to the first histogram whose line cannot be read (a time within 1024 seconds of 2^64, or a quotient of
maximum and divisor that is no number to the parser). Up to there, every comment yields what its lines are (nothing, or
the time headers they look like), the two headers the times set last unless these are before the epoch or within 1024
seconds of 2^64, and every histogram one interval with its tag, its times, the text of its maximum and its payload. If
there is such a line, an error with its position follows, and nothing else. -/
theorem C43_every_log {D : Dbl} (L : D.Lawful) {f : Fmt} {ss : List Setting} {ser : Ser ε} {ops : List Op} {out : Bytes}
    (hs : ∀ t, .startTime t ∈ ss → t.Valid) (hb : ∀ t, .baseTime t ∈ ss → t.Valid) (hv : ∀ op ∈ ops, op.Valid ∧ op.Tagged)
    (h : writeLog f (configure ss) ser ops = .ok (.ok out)) :
    ∃ (ok rest : List Op) (before : Bytes) (cs es : List (List Entry)) (st bt : List Entry),
      ops = ok ++ rest ∧ (∀ op ∈ ok, op.Readable D (divisorOf ss)) ∧
      (∀ op, rest.head? = some op → ¬ op.Readable D (divisorOf ss)) ∧
      writeLog f (configure ss) ser ok = .ok (.ok before) ∧
      List.Forall₂ (CommentRead D) (ss.filterMap Setting.comment?) cs ∧
      HeaderRead .startTime (ss.filterMap Setting.start?).getLast? st ∧
      HeaderRead .baseTime (ss.filterMap Setting.base?).getLast? bt ∧
      List.Forall₂ (OpRead D (divisorOf ss) ser) ok es ∧
      Yields D (Iter.new out) ((cs.flatten ++ st ++ bt ++ es.flatten).map .ok ++
        if rest = [] then [] else [.error before.length]) := by
  obtain ⟨c1, c2, c3, c4⟩ := configure_eq ss
  unfold writeLog at h
  rw [M.bind_eq_ok] at h
  obtain ⟨r, h1, h⟩ := h
  cases r with
  | error e => cases h
  | ok bs =>
    cases h
    rw [c4] at h1
    have mem : ∀ {α : Type} {g : Setting → Option α} {x : α}, (ss.filterMap g).getLast? = some x → ∃ s ∈ ss, g s = some x :=
      fun e => List.mem_filterMap.mp (List.mem_of_getLast? e)
    obtain ⟨ok, rest, es, p, q, i1, i2, i3, i4, i5, i6, i7, i8⟩ := ops_read L hv h1
    obtain ⟨cs, j1, j2⟩ := comments_read_any D (ss.filterMap Setting.comment?)
    obtain ⟨st, k1, k2⟩ := header_read D f (t := startTimeTag) (mk := .startTime) (Or.inl ⟨rfl, rfl⟩)
      (o := (ss.filterMap Setting.start?).getLast?) (by
        intro x e
        obtain ⟨s, hs1, hs2⟩ := mem e
        cases s <;> cases hs2
        exact hs _ hs1)
    obtain ⟨bt, l1, l2⟩ := header_read D f (t := baseTimeTag) (mk := .baseTime) (Or.inr ⟨rfl, rfl⟩)
      (o := (ss.filterMap Setting.base?).getLast?) (by
        intro x e
        obtain ⟨s, hs1, hs2⟩ := mem e
        cases s <;> cases hs2
        exact hb _ hs1)
    have h5 : Reads D (if !F64.feq (divisorOf ss) (.fin 1) then
        Str.bytes (divisorTag ++ f.fixed3 (divisorOf ss) ++ [']', '\n']) else []) [] none := by
      split
      · exact divisor_reads D f _
      · exact .nil
    have hbegin : Reads D ((configure ss).beginBytes f) (cs.flatten ++ st ++ bt) none := by
      unfold Builder.beginBytes
      rw [c1, c2, c3, c4]
      have := reads_append (reads_append (reads_append j2 k2) l2) h5
      simpa using this
    refine ⟨ok, rest, (configure ss).beginBytes f ++ p, cs, es, st, bt, i1, i2, i3, ?_, j1, k1, l1, i4, ?_⟩
    · unfold writeLog
      rw [c4, i5]
      rfl
    · have := reads_yields_new L (reads_append hbegin i8)
      by_cases hr : rest = []
      · rw [if_pos hr] at this ⊢; exact this
      · rw [if_neg hr] at this ⊢
        rw [show ((configure ss).beginBytes f ++ p).length = ((configure ss).beginBytes f ++ bs).length - q.length by
          rw [i6]; simp only [List.length_append]; omega]
        exact this

/-- C45 (4), for every line written: it is read back as one interval, with the tag it was written with, exactly if its
times and its maximum can be read (see `Op.Readable`); otherwise reading it is an error, and gives no other tag. -/
theorem C45_readback_exact {D : Dbl} (L : D.Lawful) {f : Fmt} {divisor : F64} {ser : Ser ε} {h : Hist T} {start duration : Dur}
    {s : Str} {t : Tag} (ht : Tag.new s = some t) (hst : start.Valid) (hdu : duration.Valid) {b : Bytes}
    (hw : writeHistogram f divisor ser h start duration (some t) = .ok (b, .ok ())) :
    ((Op.hist h start duration (some t)).Readable D divisor →
      ∃ iv : Interval, Yields D (Iter.new b) [.ok (.interval iv)] ∧ iv.tag = some s) ∧
    (¬ (Op.hist h start duration (some t)).Readable D divisor → Yields D (Iter.new b) [.error 0]) := by
  obtain ⟨h1, h2⟩ := hist_read L hst hdu (fun t' h' => ⟨s, by cases h'; exact ht⟩) hw
  constructor
  · intro hr
    obtain ⟨es, h3, h4⟩ := h1 hr
    cases h3 with
    | hist =>
      refine ⟨_, by simpa [errs] using reads_yields_new L h4, ?_⟩
      show some (Tag.asStr t) = some s
      rw [(C45_new s).2 t ht]
  · intro hr
    have := reads_yields_new L (h2 hr []).1
    simpa [errs] using this

/-- settings: a comment that looks like a header, a start time before the epoch, a base time -/
def oddSettings : List Setting :=
  [.comment "[StartTime: 1.0 x".toList, .startTime (.beforeEpoch ⟨5, 0⟩), .baseTime (.afterEpoch ⟨7, 0⟩)]

/-- calls: the second histogram has a time that cannot be read back -/
def oddOps : List Op :=
  [.hist demo ⟨1, 0⟩ ⟨2, 0⟩ (some ⟨"x".toList⟩), .comment "c".toList, .hist demo ⟨U64MAX, 0⟩ ⟨1, 0⟩ none, .hist demo ⟨3, 0⟩ ⟨4, 0⟩ none]

example : (match writeLog Fmt.halfUp (configure oddSettings) (v2Ser fun _ => 0) oddOps with
    | .ok (.ok b) => decide (b = Str.bytes ("#[StartTime: 1.0 x\n#[StartTime: -5.000 (seconds since epoch)]\n" ++
      "#[BaseTime: 7.000 (seconds since epoch)]\nTag=x,1.000,2.000,0.000," ++
      "HISTEwAAAAEAAAAAAAAAAAAAAAAAAAABAAAAAAAAAA8/8AAAAAAAAAA=\n#c\n18446744073709551616.000,1.000,0.000," ++
      "HISTEwAAAAEAAAAAAAAAAAAAAAAAAAABAAAAAAAAAA8/8AAAAAAAAAA=\n3.000,4.000,0.000," ++
      "HISTEwAAAAEAAAAAAAAAAAAAAAAAAAABAAAAAAAAAA8/8AAAAAAAAAA=\n").toList)
    | _ => false) = true := by decide +kernel

/-- the hypotheses hold, and the third call is the first that cannot be read -/
example : (∀ t, .startTime t ∈ oddSettings → t.Valid) ∧ (∀ t, .baseTime t ∈ oddSettings → t.Valid) ∧
    (∀ op ∈ oddOps, op.Valid ∧ op.Tagged) ∧
    (∀ op ∈ oddOps.take 2, op.Readable Dbl.decimal (divisorOf oddSettings)) ∧
    ∀ op, (oddOps.drop 2).head? = some op → ¬ op.Readable Dbl.decimal (divisorOf oddSettings) := by
  refine ⟨?_, ?_, ?_, ?_, ?_⟩
  · intro t ht
    simp [oddSettings] at ht
    subst ht
    exact ⟨by unfold Dur.Valid; decide, by unfold Dur.val; norm_num⟩
  · intro t ht
    simp [oddSettings] at ht
    subst ht
    show Dur.Valid _
    unfold Dur.Valid; decide
  · intro op ho
    simp only [oddOps, List.mem_cons, List.not_mem_nil, or_false] at ho
    rcases ho with rfl | rfl | rfl | rfl
    · exact ⟨by unfold Op.Valid Dur.Valid; decide, fun t h => ⟨"x".toList, by cases h; decide⟩⟩
    · exact ⟨trivial, trivial⟩
    · exact ⟨by unfold Op.Valid Dur.Valid; decide, fun t h => by cases h⟩
    · exact ⟨by unfold Op.Valid Dur.Valid; decide, fun t h => by cases h⟩
  · intro op ho
    simp only [oddOps, List.take_succ_cons, List.take_zero, List.mem_cons, List.not_mem_nil, or_false] at ho
    rcases ho with rfl | rfl
    · exact ⟨by unfold Dur.Loggable Dur.Valid; decide, by unfold Dur.Loggable Dur.Valid; decide, 0, by decide,
        Or.inl ⟨0, by decide +kernel⟩⟩
    · trivial
  · intro op ho
    simp only [oddOps, List.drop_succ_cons, List.drop_zero, List.head?_cons, Option.some.injEq] at ho
    subst ho
    rintro ⟨⟨-, h⟩, -⟩
    revert h
    decide

end Hdr
