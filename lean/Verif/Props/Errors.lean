import Verif.Model.Errors

/-!
# C88: what the text of an error says
-/

namespace Hdr.Err

open Function

/-- `s` begins with `p` -/
def Begins (p s : String) : Prop := ∃ t, s = p ++ t

theorem append_inj {p s t : String} (h : p ++ s = p ++ t) : s = t := by
  have := congrArg String.toList h
  rw [String.toList_append, String.toList_append] at this
  exact String.toList_inj.mp (List.append_cancel_left this)

/-- texts that begin differently are different -/
theorem ne_of_take {s t : String} (n : Nat) (h : s.toList.take n ≠ t.toList.take n) : s ≠ t := fun e => h (by rw [e])

theorem ne_append {s p t : String} (h : s.toList.take p.toList.length ≠ p.toList) : s ≠ p ++ t := by
  rintro rfl
  apply h
  rw [String.toList_append, List.take_left']
  rfl

/-- C88: each of these errors is told from the others of its type by its text. -/
theorem C88_distinct : Injective creation ∧ Injective addition ∧ Injective subtraction ∧ Injective record := by
  refine ⟨?_, ?_, ?_, ?_⟩ <;> intro a b <;> cases a <;> cases b <;> decide +kernel

/-- C88: so are those that may wrap an I/O error, whatever its text is. -/
theorem C88_distinct_io : Injective deserialize ∧ Injective v2 := by
  constructor
  · intro a b h
    cases a <;> cases b <;> first
      | rfl
      | exact congrArg _ (append_inj h)
      | exact absurd h (by decide)
      | exact absurd h (ne_append (by decide))
      | exact absurd h.symm (ne_append (by decide))
  · intro a b h
    rcases a with (_ | _) | a <;> rcases b with (_ | _) | b <;> first
      | rfl
      | exact congrArg _ (append_inj h)
      | exact absurd h (by decide)
      | exact absurd h (ne_append (by decide))
      | exact absurd h.symm (ne_append (by decide))

theorem differ {p q s t : String} (n : Nat) (hp : n ≤ p.toList.length) (hq : n ≤ q.toList.length)
    (h : p.toList.take n ≠ q.toList.take n) : p ++ s ≠ q ++ t := by
  apply ne_of_take n
  rw [String.toList_append, String.toList_append, List.take_append_of_le_length hp, List.take_append_of_le_length hq]
  exact h

/-- C88: and those of the log writer, if those of the serializer are. -/
theorem C88_distinct_log {ε : Type} {disp : ε → String} (hd : Injective disp) : Injective (logWriter disp) := by
  intro a b h
  rcases a with a | a <;> rcases b with b | b
  · exact congrArg _ (hd (append_inj h))
  · exact absurd h (differ 1 (by decide) (by decide) (by decide))
  · exact absurd h (differ 1 (by decide) (by decide) (by decide))
  · exact congrArg _ (append_inj h)

/-- C88: an I/O error is reported as one, followed by its own text; no other error is reported like that. -/
theorem C88_io_named : (∀ e, Begins "An i/o operation failed: " (deserialize e) ↔ ∃ t, e = .io t) ∧
    (∀ e, Begins "An i/o operation failed: " (v2 e) ↔ ∃ t, e = .io t) ∧
    (∀ (ε : Type) (disp : ε → String) e, Begins "An i/o error occurred: " (logWriter disp e) ↔ ∃ t, e = .io t) := by
  refine ⟨fun e => ⟨?_, ?_⟩, fun e => ⟨?_, ?_⟩, fun ε disp e => ⟨?_, ?_⟩⟩
  · rintro ⟨t, h⟩
    cases e <;> first
      | exact ⟨_, rfl⟩
      | exact absurd h (ne_append (by decide))
  · rintro ⟨t, rfl⟩; exact ⟨t, rfl⟩
  · rintro ⟨t, h⟩
    rcases e with (_ | _) | e <;> first
      | exact ⟨_, rfl⟩
      | exact absurd h (ne_append (by decide))
  · rintro ⟨t, rfl⟩; exact ⟨t, rfl⟩
  · rintro ⟨t, h⟩
    rcases e with e | e
    · exact absurd h (differ 1 (by decide) (by decide) (by decide))
    · exact ⟨_, rfl⟩
  · rintro ⟨t, rfl⟩; exact ⟨t, rfl⟩

/-- C88: an error with a source ends with the text of the source. -/
theorem C88_source : (∀ e t, deserializeSource e = some t → ∃ p, deserialize e = p ++ t) ∧
    (∀ e t, v2Source e = some t → ∃ p, v2 e = p ++ t) ∧
    (∀ e t, deflateSource e = some t → ∃ p, deflate e = p ++ t) ∧
    (∀ (ε : Type) (disp : ε → String) e t, logWriterSource disp e = some t → ∃ p, logWriter disp e = p ++ t) := by
  refine ⟨?_, ?_, ?_, ?_⟩
  · intro e t h; cases e <;> cases h; exact ⟨_, rfl⟩
  · intro e t h; cases e <;> cases h; exact ⟨_, rfl⟩
  · intro e t h; cases e <;> cases h <;> exact ⟨_, rfl⟩
  · intro ε disp e t h; cases e <;> cases h <;> exact ⟨_, rfl⟩

/-- C88: the source is there exactly if the error wraps another one. -/
theorem C88_has_source : (∀ e, (deserializeSource e).isSome ↔ ∃ t, e = .io t) ∧
    (∀ e, (v2Source e).isSome ↔ ∃ t, e = .io t) ∧ (∀ e, (deflateSource e).isSome) ∧
    (∀ (ε : Type) (disp : ε → String) e, (logWriterSource disp e).isSome) := by
  refine ⟨?_, ?_, ?_, ?_⟩
  · intro e; cases e <;> simp [deserializeSource]
  · intro e; cases e <;> simp [v2Source]
  · intro e; cases e <;> rfl
  · intro ε disp e; cases e <;> rfl

/-- C88 fails for `V2DeflateSerializeError`: an I/O error is not reported as one but as a failure of the underlying
serialization, and the same text may stand for either. -/
theorem C88_deflate_refuted : (∀ t, ¬ Begins "An i/o" (deflate (.io t))) ∧
    (∀ t, Begins "The underlying serialization failed: " (deflate (.io t))) ∧
    ∃ a b, a ≠ b ∧ deflate a = deflate b ∧ a = .internal (.io "disk full") ∧
      b = .io "An i/o operation failed: disk full" := by
  refine ⟨?_, fun t => ⟨t, rfl⟩, _, _, ?_, ?_, rfl, rfl⟩
  · rintro t ⟨u, h⟩
    exact absurd h (differ 1 (by decide) (by decide) (by decide))
  · intro h; cases h
  · decide

/-- C88 (partial): apart from that, its texts are told apart. -/
theorem C88_deflate_partial {a b : Deflate} (h : deflate a = deflate b) : a = b ∨
    (∃ e, (a = .internal e ∧ b = .io (v2 e)) ∨ (b = .internal e ∧ a = .io (v2 e))) := by
  rcases a with a | a <;> rcases b with b | b
  · exact .inl (congrArg _ (C88_distinct_io.2 (append_inj h)))
  · have : v2 a = b := append_inj h
    exact .inr ⟨a, .inl ⟨rfl, by rw [this]⟩⟩
  · have : a = v2 b := append_inj h
    exact .inr ⟨b, .inr ⟨rfl, by rw [this]⟩⟩
  · exact .inl (congrArg _ (append_inj h))

example : deserialize (.io "early eof") = "An i/o operation failed: early eof" ∧
    logWriter v2 (.err (.io "disk full")) = "Histogram serialization failed: An i/o operation failed: disk full" := by decide

end Hdr.Err
