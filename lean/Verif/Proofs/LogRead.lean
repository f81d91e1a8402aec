import Verif.Proofs.LogParse

/-!
# Whole logs
-/

namespace Hdr.Log

open Hdr

/-- a line that is passed over, without its line feed -/
def Skippable (l : Bytes) : Prop := 10 ∉ l ∧ ([35] <+: l ∨ legendTag.bytes <+: l)

theorem lineFrom_some {t : Str} {i r : Bytes} (ht : 10 ∉ t.bytes) :
    lineFrom t i = some r ↔ ∃ l, 10 ∉ l ∧ t.bytes <+: l ∧ i = l ++ 10 :: r := by
  unfold lineFrom
  rw [Option.bind_eq_bind, Option.bind_eq_some_iff]
  constructor
  · rintro ⟨j, h1, h2⟩
    rw [tagP_some] at h1
    obtain ⟨x, h3, rfl⟩ := skipLine_some.mp h2
    exact ⟨t.bytes ++ x, by simp [ht, h3], List.prefix_append _ _, by rw [h1]; simp⟩
  · rintro ⟨l, h1, ⟨x, rfl⟩, rfl⟩
    refine ⟨x ++ 10 :: r, tagP_some.mpr (by simp), skipLine_some.mpr ⟨x, ?_, rfl⟩⟩
    intro hx; exact h1 (by simp [hx])

theorem ignoredLine_some {i r : Bytes} : ignoredLine i = some r ↔ ∃ l, Skippable l ∧ i = l ++ 10 :: r := by
  have e1 : Str.bytes ['#'] = [35] := by decide
  unfold ignoredLine
  constructor
  · intro h
    split at h
    · rename_i r' h1
      cases h
      obtain ⟨l, h2, h3, h4⟩ := (lineFrom_some (by decide)).mp h1
      exact ⟨l, ⟨h2, Or.inl (e1 ▸ h3)⟩, h4⟩
    · obtain ⟨l, h2, h3, h4⟩ := (lineFrom_some (by decide)).mp h
      exact ⟨l, ⟨h2, Or.inr h3⟩, h4⟩
  · rintro ⟨l, ⟨h1, h2⟩, h3⟩
    rcases h2 with h2 | h2
    · rw [(lineFrom_some (t := ['#']) (by decide)).mpr ⟨l, h1, e1 ▸ h2, h3⟩]
    · have h4 : lineFrom ['#'] i = none := by
        cases h5 : lineFrom ['#'] i with
        | none => rfl
        | some q =>
          exfalso
          obtain ⟨l', -, ⟨y, rfl⟩, h7⟩ := (lineFrom_some (by decide)).mp h5
          obtain ⟨x, rfl⟩ := h2
          rw [e1, h3, show legendTag.bytes = 34 :: Str.bytes legendTag.tail by decide] at h7
          simp at h7
      rw [h4]
      exact (lineFrom_some (by decide)).mpr ⟨l, h1, h2, h3⟩

/-- reading a log: the entries, and what is left if it stops at something that is no line of a log -/
inductive Reads (D : Dbl) : Bytes → List Entry → Option Bytes → Prop
  | nil : Reads D [] [] none
  | entry {l r : Bytes} {e : Entry} {es : List Entry} {x : Option Bytes} :
      EntryText D l e → Reads D r es x → Reads D (l ++ 10 :: r) (e :: es) x
  | skip {l r : Bytes} {es : List Entry} {x : Option Bytes} :
      Skippable l → (∀ e, ¬ EntryText D l e) → Reads D r es x → Reads D (l ++ 10 :: r) es x
  | stuck {r : Bytes} : r ≠ [] → (∀ l r', r = l ++ 10 :: r' → ¬ Skippable l ∧ ∀ e, ¬ EntryText D l e) → Reads D r [] (some r)

theorem reads_exists (D : Dbl) (i : Bytes) : ∃ es x, Reads D i es x := by
  induction hn : i.length using Nat.strong_induction_on generalizing i with
  | _ n ih =>
    by_cases hi : i = []
    · subst hi; exact ⟨[], none, .nil⟩
    · by_cases h1 : ∃ l e r, EntryText D l e ∧ i = l ++ 10 :: r
      · obtain ⟨l, e, r, h2, rfl⟩ := h1
        obtain ⟨es, x, h3⟩ := ih r.length (by rw [← hn]; simp; omega) r rfl
        exact ⟨e :: es, x, .entry h2 h3⟩
      · by_cases h4 : ∃ l r, Skippable l ∧ i = l ++ 10 :: r
        · obtain ⟨l, r, h2, rfl⟩ := h4
          obtain ⟨es, x, h3⟩ := ih r.length (by rw [← hn]; simp; omega) r rfl
          exact ⟨es, x, .skip h2 (fun e he => h1 ⟨l, e, r, he, rfl⟩) h3⟩
        · exact ⟨[], some i, .stuck hi fun l r h => ⟨fun hs => h4 ⟨l, r, hs, h⟩, fun e he => h1 ⟨l, e, r, he, h⟩⟩⟩

theorem reads_append {D : Dbl} {a b : Bytes} {es fs : List Entry} {x : Option Bytes} (ha : Reads D a es none)
    (hb : Reads D b fs x) : Reads D (a ++ b) (es ++ fs) x := by
  generalize hy : (none : Option Bytes) = y at ha
  induction ha with
  | nil => exact hb
  | entry h1 _ ih => rw [List.append_assoc]; exact .entry h1 (ih hy)
  | skip h1 h2 _ ih => rw [List.append_assoc]; exact .skip h1 h2 (ih hy)
  | stuck => cases hy

theorem reads_split {D : Dbl} {i r : Bytes} {es : List Entry} (h : Reads D i es (some r)) :
    ∃ p, i = p ++ r ∧ Reads D p es none ∧ Reads D r [] (some r) := by
  generalize hy : some r = y at h
  induction h with
  | nil => cases hy
  | entry h1 _ ih =>
    obtain ⟨p, rfl, h3, h4⟩ := ih hy
    exact ⟨_ ++ 10 :: p, by simp, .entry h1 h3, h4⟩
  | skip h1 h2 _ ih =>
    obtain ⟨p, rfl, h3, h4⟩ := ih hy
    exact ⟨_ ++ 10 :: p, by simp, .skip h1 h2 h3, h4⟩
  | stuck h1 h2 => cases hy; exact ⟨[], rfl, .nil, .stuck h1 h2⟩

/-- a line that is not an entry is the same whatever follows, if it is skippable -/
theorem skip_no_entry {D : Dbl} {l r : Bytes} (hs : Skippable l) (h : ∀ e, ¬ EntryText D l e) {l' r' : Bytes} {e : Entry}
    (he : EntryText D l' e) : l ++ 10 :: r ≠ l' ++ 10 :: r' := by
  intro heq
  have hh : ∀ t : Str, ∀ d, HeaderText t l' d → 10 ∉ t.bytes → l' = l := by
    rintro t d ⟨x, y, h1, h2, rfl⟩ ht
    have h3 : 10 ∉ t.bytes ++ (x ++ 32 :: y) := by
      have := h1.not_mem (c := 10) (by decide) (by decide) (by decide)
      simp [this, ht, h2]
    have e1 := takeUntil_some.mpr ⟨hs.1, r, rfl, rfl⟩
    have e2 := takeUntil_some.mpr ⟨h3, r', rfl, rfl⟩
    rw [heq, e2] at e1
    simp at e1
    simpa using e1.1
  cases e with
  | startTime d => exact h (.startTime d) (hh _ _ he (by decide) ▸ he)
  | baseTime d => exact h (.baseTime d) (hh _ _ he (by decide) ▸ he)
  | interval d =>
    obtain ⟨b, y, rfl, hb⟩ := IntervalText.head he
    rcases hs.2 with ⟨x, rfl⟩ | ⟨x, rfl⟩
    · simp at heq
      rw [← heq.1] at hb
      revert hb; decide
    · rw [show legendTag.bytes = 34 :: Str.bytes legendTag.tail by decide] at heq
      simp at heq
      rw [← heq.1] at hb
      revert hb; decide

theorem logEntry_none {D : Dbl} (L : D.Lawful) {i : Bytes} (h : ∀ l e r, EntryText D l e → i ≠ l ++ 10 :: r) :
    logEntry D i = .ok none := by
  obtain ⟨o, ho⟩ := logEntry_ok D i
  cases o with
  | none => exact ho
  | some p =>
    obtain ⟨e, r⟩ := p
    obtain ⟨l, h1, h2⟩ := (logEntry_some L).mp ho
    exact absurd h2 (h l e r h1)

theorem nextLoop_succ (D : Dbl) (n : Nat) (it : Iter) : it.nextLoop D (n + 1) =
    (if it.ended then .ok (none, it)
    else if it.input = [] then .ok (none, { it with ended := true })
    else do
      match ← logEntry D it.input with
      | some (e, rest) => .ok (some (.ok e), { it with input := rest })
      | none =>
        match ignoredLine it.input with
        | some rest => Iter.nextLoop D n { it with input := rest }
        | none => do
          let offset ← subU it.origLen it.input.length
          .ok (some (.error offset), { it with ended := true })) := rfl

/-- what the iterator yields besides entries -/
def errs (n : Nat) : Option Bytes → List (Except Nat Entry)
  | none => []
  | some r => [.error (n - r.length)]

theorem append_ne_nil' {l r : Bytes} : ¬ (l ++ 10 :: r = []) := by simp

theorem reads_next {D : Dbl} (L : D.Lawful) {i : Bytes} {es : List Entry} {x : Option Bytes} (h : Reads D i es x) {n : Nat}
    (hn : i.length ≤ n) : ∀ k, i.length < k →
    (es = [] ∧ x = none ∧ Iter.nextLoop D k ⟨n, i, false⟩ = .ok (none, ⟨n, [], true⟩)) ∨
    (∃ e es' r, es = e :: es' ∧ r.length ≤ n ∧ Reads D r es' x ∧
      Iter.nextLoop D k ⟨n, i, false⟩ = .ok (some (.ok e), ⟨n, r, false⟩)) ∨
    (∃ r, es = [] ∧ x = some r ∧ Iter.nextLoop D k ⟨n, i, false⟩ = .ok (some (.error (n - r.length)), ⟨n, r, true⟩)) := by
  induction h with
  | nil =>
    intro k hk
    obtain ⟨k, rfl⟩ : ∃ m, k = m + 1 := ⟨k - 1, by omega⟩
    left
    refine ⟨rfl, rfl, ?_⟩
    rw [nextLoop_succ]
    simp
  | @entry l r e es x h1 h2 ih =>
    intro k hk
    obtain ⟨k, rfl⟩ : ∃ m, k = m + 1 := ⟨k - 1, by omega⟩
    right; left
    refine ⟨e, es, r, rfl, by simp at hn; omega, h2, ?_⟩
    rw [nextLoop_succ]
    simp only [Bool.false_eq_true, if_false, if_neg append_ne_nil']
    rw [(logEntry_some L).mpr ⟨l, h1, rfl⟩, M.ok_bind]
  | @skip l r es x h1 h2 h3 ih =>
    intro k hk
    obtain ⟨k, rfl⟩ : ∃ m, k = m + 1 := ⟨k - 1, by omega⟩
    have e : Iter.nextLoop D (k + 1) ⟨n, l ++ 10 :: r, false⟩ = Iter.nextLoop D k ⟨n, r, false⟩ := by
      rw [nextLoop_succ]
      simp only [Bool.false_eq_true, if_false, if_neg append_ne_nil']
      rw [logEntry_none L (fun l' e r' he => skip_no_entry h1 h2 he), M.ok_bind]
      simp only
      rw [ignoredLine_some.mpr ⟨l, h1, rfl⟩]
    rw [e]
    simp at hn hk
    exact ih (by omega) k (by omega)
  | @stuck r h1 h2 =>
    intro k hk
    obtain ⟨k, rfl⟩ : ∃ m, k = m + 1 := ⟨k - 1, by omega⟩
    right; right
    refine ⟨r, rfl, rfl, ?_⟩
    rw [nextLoop_succ]
    simp only [Bool.false_eq_true, if_false, if_neg h1]
    rw [logEntry_none L (fun l' e r' he heq => (h2 l' r' heq).2 e he), M.ok_bind]
    have : ignoredLine r = none := by
      cases hh : ignoredLine r with
      | none => rfl
      | some q =>
        obtain ⟨l, h3, h4⟩ := ignoredLine_some.mp hh
        exact absurd h3 (h2 l q h4).1
    simp only
    rw [this]
    simp only
    unfold subU
    rw [if_pos hn, M.ok_bind]

theorem next_ended (D : Dbl) (n : Nat) (i : Bytes) : (⟨n, i, true⟩ : Iter).next D = .ok (none, ⟨n, i, true⟩) := by
  unfold Iter.next
  rw [nextLoop_succ]
  simp

theorem reads_yields {D : Dbl} (L : D.Lawful) {es : List Entry} : ∀ {i : Bytes} {x : Option Bytes}, Reads D i es x →
    ∀ {n : Nat}, i.length ≤ n → Yields D ⟨n, i, false⟩ (es.map .ok ++ errs n x) := by
  induction es with
  | nil =>
    intro i x h n hn
    rcases reads_next L h hn (i.length + 1) (by omega) with ⟨-, rfl, h3⟩ | ⟨e, es', r, h1, -⟩ | ⟨r, -, rfl, h3⟩
    · exact .done h3 (next_ended D n [])
    · cases h1
    · exact .item h3 (.done (next_ended D n r) (next_ended D n r))
  | cons e es ih =>
    intro i x h n hn
    rcases reads_next L h hn (i.length + 1) (by omega) with ⟨h1, -⟩ | ⟨e', es', r, h1, h2, h3, h4⟩ | ⟨r, h1, -⟩
    · cases h1
    · cases h1
      exact .item h4 (ih h3 h2)
    · cases h1

theorem reads_yields_new {D : Dbl} (L : D.Lawful) {es : List Entry} {i : Bytes} {x : Option Bytes} (h : Reads D i es x) :
    Yields D (Iter.new i) (es.map .ok ++ errs i.length x) := reads_yields L h le_rfl

theorem yields_unique {D : Dbl} {it : Iter} {xs ys : List (Except Nat Entry)} (h : Yields D it xs) (h' : Yields D it ys) :
    xs = ys := by
  induction h generalizing ys with
  | done h1 h2 =>
    cases h' with
    | done => rfl
    | item h3 => rw [h1] at h3; cases h3
  | item h1 _ ih =>
    cases h' with
    | done h3 => rw [h1] at h3; cases h3
    | item h3 h4 => rw [h1] at h3; cases h3; rw [ih h4]

/-- entries take at least a line feed each -/
theorem reads_length {D : Dbl} {i : Bytes} {es : List Entry} {x : Option Bytes} (h : Reads D i es x) :
    es.length + (x.map List.length).getD 0 ≤ i.length := by
  induction h with
  | nil => simp
  | entry _ _ ih => simp at ih ⊢; omega
  | skip _ _ _ ih => simp at ih ⊢; omega
  | stuck => simp

end Hdr.Log
