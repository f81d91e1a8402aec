import Verif.Proofs.Bridge
import Verif.Spec.Format

/-!
# What the deserializer accepts
-/

namespace Hdr.V2

variable {T : CounterTy} {fp : Fp}

theorem readLeb_eq (k : Nat) (r : List UInt8) : Format.readLeb k r = unleb k r := by
  induction r generalizing k with
  | nil => cases k <;> rfl
  | cons b r ih =>
    cases k with
    | zero => rfl
    | succ k =>
      simp only [Format.readLeb, unleb, ih]
      split
      · rfl
      · have := toNat_lt b
        have e : b.toNat - 128 = b.toNat % 128 := by omega
        rw [e]

theorem unzigzag_eq {u : Nat} (hu : u < 2 ^ 64) : zigZagDecode u = Format.unzigzag u := zigZagDecode_eq hu

/-- the decoded numbers, one after the other -/
def steps (checks : Bool) : List Int → DecodeState T → M (Except DeserializeError (DecodeState T))
  | [], s => .ok (.ok s)
  | t :: ts, s => onDecodedNum checks s t >>= fun x => match x with
    | .error e => pure (.error e)
    | .ok s => steps checks ts s

theorem slow_steps (checks : Bool) {r : List UInt8} {ts : List Int} (N : Format.Numbers r ts) :
    ∀ {f : Nat} (s : DecodeState T), r.length < f → slowLoop checks f r s = steps checks ts s := by
  induction N with
  | nil =>
    intro f s hf
    obtain ⟨f, rfl⟩ : ∃ k, f = k + 1 := ⟨f - 1, by omega⟩
    rw [slowLoop_succ, if_pos rfl]; rfl
  | @cons bs r u ts h N ih =>
    intro f s hf
    obtain ⟨f, rfl⟩ : ∃ k, f = k + 1 := ⟨f - 1, by omega⟩
    rw [readLeb_eq] at h
    have hne : bs ≠ [] := by rintro rfl; cases h
    obtain ⟨hu, p, hp, hp1, -⟩ := unleb_bound _ _ _ _ h
    rw [slowLoop_succ, if_neg hne, varintRead_eq, h]
    simp only [steps]
    rw [unzigzag_eq (by norm_num at hu ⊢; omega)]
    have hl : r.length < f := by rw [hp] at hf; simp at hf; omega
    congr 1
    funext x
    cases x with
    | error e => rfl
    | ok s => exact ih s hl

theorem slow_numbers (checks : Bool) : ∀ {f : Nat} {r : List UInt8} {s s' : DecodeState T},
    slowLoop checks f r s = .ok (.ok s') → ∃ ts, Format.Numbers r ts := by
  intro f
  induction f with
  | zero => intro r s s' e; cases e
  | succ f ih =>
    intro r s s' e
    rw [slowLoop_succ] at e
    split at e
    · rename_i h; subst h; exact ⟨[], .nil⟩
    · rw [varintRead_eq] at e
      cases h : unleb 8 r with
      | none => rw [h] at e; cases e
      | some p =>
        obtain ⟨u, r'⟩ := p
        rw [h] at e
        simp only at e
        rw [M.bind_eq_ok] at e
        obtain ⟨x, -, e⟩ := e
        cases x with
        | error q => cases e
        | ok s1 =>
          obtain ⟨ts, N⟩ := ih e
          exact ⟨_, .cons (by rw [readLeb_eq]; exact h) N⟩

theorem expand_cons (t : Int) (ts : List Int) : Format.expand (t :: ts) =
    (if t < 0 then List.replicate (-t).toNat 0 else [t.toNat]) ++ Format.expand ts := by
  unfold Format.expand; rw [List.flatMap_cons]

/-- one number is accepted exactly under these conditions, and then has this effect -/
theorem onDecodedNum_iff (checks : Bool) {s : DecodeState T} (t : Int) (s' : DecodeState T) :
    onDecodedNum checks s t = .ok (.ok s') ↔
      if t < 0 then t ≠ -9223372036854775808 ∧ s.destIndex + (-t).toNat ≤ U64MAX ∧
        s' = { s with destIndex := s.destIndex + (-t).toNat }
      else t ≤ T.max ∧ s.destIndex + 1 ≤ U64MAX ∧
        if t = 0 then s' = { s with destIndex := s.destIndex + 1 }
        else s.destIndex < s.h.counts.length ∧ s' = { s with
          destIndex := s.destIndex + 1, restat := s.restat.onNonzeroCount s.destIndex t.toNat
          h := { s.h with counts := s.h.counts.set s.destIndex t.toNat } } := by
  unfold onDecodedNum
  by_cases h : t < 0
  · rw [if_pos h, if_pos h]
    unfold negI64
    by_cases hm : t = -9223372036854775808
    · subst hm
      refine iff_of_false ?_ (by simp)
      cases checks
      · rw [if_pos rfl, if_neg (by simp), M.ok_bind]
        unfold toUsize
        rw [if_neg (by omega)]
        intro e; cases e
      · rw [if_pos rfl, if_pos rfl]
        intro e; cases e
    · rw [if_neg hm, M.ok_bind]
      unfold toUsize
      rw [if_pos (by omega)]
      simp only [M.pure_eq, Except.ok.injEq]
      unfold advance
      split
      · rename_i hle
        simp only [Except.ok.injEq]
        constructor
        · intro e; exact ⟨hm, hle, e.symm⟩
        · intro e; exact e.2.2.symm
      · rename_i hle
        refine iff_of_false (by intro e; cases e) (fun e => hle e.2.1)
  · rw [if_neg h, if_neg h]
    simp only [M.pure_eq, Except.ok.injEq]
    unfold onCount
    by_cases hm : t ≤ (T.max : Int)
    · rw [if_pos hm]
      by_cases h0 : t = 0
      · subst h0
        rw [if_neg (by omega), if_pos rfl]
        unfold advance
        split
        · rename_i hle
          simp only [Except.ok.injEq]
          exact ⟨fun e => ⟨hm, hle, e.symm⟩, fun e => e.2.2.symm⟩
        · rename_i hle
          exact iff_of_false (by intro e; cases e) (fun e => hle e.2.1)
      · rw [if_pos (by omega), if_neg h0]
        unfold setCountAtIndex
        by_cases hd : s.destIndex < s.h.counts.length
        · rw [if_pos hd]
          simp only
          unfold advance
          simp only
          split
          · rename_i hle
            simp only [Except.ok.injEq]
            exact ⟨fun e => ⟨hm, hle, hd, e.symm⟩, fun e => e.2.2.2.symm⟩
          · rename_i hle
            exact iff_of_false (by intro e; cases e) (fun e => hle e.2.1)
        · rw [if_neg hd]
          exact iff_of_false (by intro e; cases e) (fun e => hd e.2.2.1)
    · rw [if_neg hm]
      exact iff_of_false (by intro e; cases e) (fun e => hm e.1)

/-- what the numbers do to a state -/
structure Placed (ts : List Int) (s s' : DecodeState T) : Prop where
  dest : s'.destIndex = s.destIndex + (Format.expand ts).length
  len : s'.h.counts.length = s.h.counts.length
  counts : ∀ j, s'.h.counts.getD j 0 =
    if j < s.destIndex then s.h.counts.getD j 0 else (Format.expand ts).getD (j - s.destIndex) 0

/-- when they can be placed -/
structure Ok (ts : List Int) (s : DecodeState T) : Prop where
  range : ∀ t ∈ ts, t ≠ -9223372036854775808 ∧ t ≤ T.max
  length : s.destIndex + (Format.expand ts).length ≤ U64MAX
  zeros : ∀ i, s.h.counts.length ≤ s.destIndex + i → (Format.expand ts).getD i 0 = 0

theorem step_placed {h0 : Hist T} {s s1 : DecodeState T} (I : DInv h0 s) {checks : Bool} {t : Int}
    (e : onDecodedNum checks s t = .ok (.ok s1)) : Placed [t] s s1 ∧ DInv h0 s1 := by
  have I1 : DInv h0 s1 := by
    cases checks with
    | false =>
      obtain ⟨r, h1, h2⟩ := onDecodedNum_spec false I t (by simp)
      rw [e] at h1; cases h1
      exact h2 s1 rfl
    | true =>
      obtain ⟨r, h1, h2⟩ := onDecodedNum_spec true I t (by
        rintro - rfl
        unfold onDecodedNum negI64 at e
        rw [if_pos (by omega), if_pos rfl, if_pos rfl] at e
        cases e)
      rw [e] at h1; cases h1
      exact h2 s1 rfl
  refine ⟨?_, I1⟩
  rw [onDecodedNum_iff checks] at e
  have hx := expand_cons t []
  by_cases h : t < 0
  · rw [if_pos h] at e hx
    obtain ⟨-, -, rfl⟩ := e
    rw [show Format.expand [] = [] from rfl, List.append_nil] at hx
    refine ⟨?_, rfl, fun j => ?_⟩
    · rw [hx]; simp
    · dsimp only
      split
      · rfl
      · rename_i hj
        rw [I.zero j (by omega), hx, List.getD_eq_getElem?_getD, List.getElem?_replicate]
        split <;> rfl
  · rw [if_neg h] at e hx
    rw [show Format.expand [] = [] from rfl, List.append_nil] at hx
    obtain ⟨hm, hle, e⟩ := e
    by_cases h0' : t = 0
    · rw [if_pos h0'] at e
      subst e h0'
      refine ⟨by rw [hx]; rfl, rfl, fun j => ?_⟩
      dsimp only
      split
      · rfl
      · rename_i hj
        rw [I.zero j (by omega), hx]
        cases hk : j - s.destIndex with
        | zero => rfl
        | succ k => rfl
    · rw [if_neg h0'] at e
      obtain ⟨hd, rfl⟩ := e
      refine ⟨by rw [hx]; rfl, by simp, fun j => ?_⟩
      dsimp only
      rw [getD_set]
      by_cases hj : s.destIndex = j
      · subst hj
        rw [if_pos ⟨rfl, hd⟩, if_neg (by omega), hx, Nat.sub_self]; rfl
      · rw [if_neg (fun h => hj h.1)]
        split
        · rfl
        · rename_i hj'
          rw [I.zero j (by omega), hx]
          obtain ⟨k, hk⟩ : ∃ k, j - s.destIndex = k + 1 := ⟨j - s.destIndex - 1, by omega⟩
          rw [hk]; rfl

theorem getD_append (l1 l2 : List Nat) (j : Nat) :
    (l1 ++ l2).getD j 0 = if j < l1.length then l1.getD j 0 else l2.getD (j - l1.length) 0 := by
  simp only [List.getD_eq_getElem?_getD]
  split
  · rename_i h; rw [List.getElem?_append_left h]
  · rename_i h; rw [List.getElem?_append_right (by omega)]

theorem expand_nil : Format.expand [] = [] := rfl

theorem expand_one (t : Int) :
    Format.expand [t] = if t < 0 then List.replicate (-t).toNat 0 else [t.toNat] := by
  rw [expand_cons, expand_nil, List.append_nil]

theorem step_ok_iff {s : DecodeState T} (checks : Bool) (t : Int) :
    (∃ s1, onDecodedNum checks s t = .ok (.ok s1)) ↔ Ok [t] s := by
  simp only [onDecodedNum_iff checks]
  have hx := expand_one t
  have hT : (0 : Int) ≤ T.max := by omega
  constructor
  · rintro ⟨s1, e⟩
    by_cases h : t < 0
    · rw [if_pos h] at e hx
      obtain ⟨h1, h2, -⟩ := e
      refine ⟨?_, ?_, ?_⟩
      · intro x hm; rw [List.mem_singleton] at hm; subst hm; omega
      · rw [hx, List.length_replicate]; exact h2
      · intro i hi
        rw [hx, List.getD_eq_getElem?_getD, List.getElem?_replicate]
        split <;> rfl
    · rw [if_neg h] at e hx
      obtain ⟨h1, h2, e⟩ := e
      refine ⟨?_, ?_, ?_⟩
      · intro x hm; rw [List.mem_singleton] at hm; subst hm; omega
      · rw [hx]; exact h2
      · intro i hi
        rw [hx]
        cases i with
        | succ k => rfl
        | zero =>
          by_cases hz : t = 0
          · subst hz; rfl
          · rw [if_neg hz] at e; omega
  · rintro ⟨h1, h2, h3⟩
    have h1 := h1 t (List.mem_singleton.mpr rfl)
    by_cases h : t < 0
    · simp only [if_pos h]
      rw [if_pos h] at hx
      rw [hx, List.length_replicate] at h2
      exact ⟨_, by omega, h2, rfl⟩
    · simp only [if_neg h]
      rw [if_neg h] at hx
      rw [hx] at h2 h3
      by_cases hz : t = 0
      · simp only [if_pos hz]
        exact ⟨_, h1.2, h2, rfl⟩
      · simp only [if_neg hz]
        refine ⟨_, h1.2, h2, ?_, rfl⟩
        by_contra hc
        have := h3 0 (by omega)
        simp at this
        omega

theorem ok_cons {t : Int} {ts : List Int} {s s1 : DecodeState T} (P : Placed [t] s s1) :
    Ok (t :: ts) s ↔ Ok [t] s ∧ Ok ts s1 := by
  have hx : Format.expand (t :: ts) = Format.expand [t] ++ Format.expand ts := by
    rw [expand_cons, expand_one]
  constructor
  · rintro ⟨h1, h2, h3⟩
    rw [hx, List.length_append] at h2
    rw [hx] at h3
    refine ⟨⟨?_, by omega, ?_⟩, ?_, ?_, ?_⟩
    · intro x hm; rw [List.mem_singleton] at hm; subst hm; exact h1 x (List.mem_cons_self ..)
    · intro i hi
      have := h3 i hi
      rw [getD_append] at this
      split at this
      · exact this
      · rename_i hl
        rw [List.getD_eq_getElem?_getD, List.getElem?_eq_none (by omega)]; rfl
    · intro x hm; exact h1 x (List.mem_cons_of_mem _ hm)
    · rw [P.dest]; omega
    · intro i hi
      rw [P.dest, P.len] at hi
      have := h3 ((Format.expand [t]).length + i) (by omega)
      rw [getD_append, if_neg (by omega), Nat.add_sub_cancel_left] at this
      exact this
  · rintro ⟨⟨h1, h2, h3⟩, g1, g2, g3⟩
    rw [P.dest] at g2
    refine ⟨?_, ?_, ?_⟩
    · intro x hm
      rcases List.mem_cons.mp hm with rfl | hm
      · exact h1 x (List.mem_singleton.mpr rfl)
      · exact g1 x hm
    · rw [hx, List.length_append]; omega
    · intro i hi
      rw [hx, getD_append]
      split
      · exact h3 i hi
      · rename_i hl
        refine g3 _ ?_
        rw [P.dest, P.len]; omega

theorem placed_cons {t : Int} {ts : List Int} {s s1 s2 : DecodeState T} (P : Placed [t] s s1) (Q : Placed ts s1 s2) :
    Placed (t :: ts) s s2 := by
  have hx : Format.expand (t :: ts) = Format.expand [t] ++ Format.expand ts := by
    rw [expand_cons, expand_one]
  refine ⟨?_, Q.len.trans P.len, fun j => ?_⟩
  · rw [Q.dest, P.dest, hx, List.length_append]; omega
  · rw [Q.counts, P.counts, P.dest, hx, getD_append]
    by_cases h1 : j < s.destIndex
    · rw [if_pos (by omega), if_pos h1, if_pos h1]
    · rw [if_neg h1, if_neg h1]
      by_cases h2 : j < s.destIndex + (Format.expand [t]).length
      · rw [if_pos h2, if_pos (by omega)]
      · rw [if_neg h2, if_neg (by omega), Nat.sub_add_eq]

theorem steps_iff (checks : Bool) {h0 : Hist T} (ts : List Int) : ∀ {s : DecodeState T}, DInv h0 s →
    s.destIndex ≤ U64MAX →
    (Ok ts s → ∃ s', steps checks ts s = .ok (.ok s')) ∧
    ∀ s', steps checks ts s = .ok (.ok s') → Ok ts s ∧ Placed ts s s' ∧ DInv h0 s' := by
  induction ts with
  | nil =>
    intro s I hs
    refine ⟨fun _ => ⟨s, rfl⟩, ?_⟩
    intro s' e
    cases e
    refine ⟨⟨by simp, by rw [expand_nil]; exact hs, fun i _ => rfl⟩, ⟨rfl, rfl, fun j => ?_⟩, I⟩
    split
    · rfl
    · rw [I.zero j (by omega)]; rfl
  | cons t ts ih =>
    intro s I hs
    constructor
    · intro O
      have O1 : Ok [t] s := by
        refine ⟨?_, ?_, ?_⟩
        · intro x hm; rw [List.mem_singleton] at hm; subst hm; exact O.range x (List.mem_cons_self ..)
        · have := O.length
          rw [expand_cons, List.length_append] at this
          rw [expand_one]; omega
        · intro i hi
          have := O.zeros i hi
          rw [expand_cons, ← expand_one, getD_append] at this
          split at this
          · exact this
          · rename_i hl
            rw [List.getD_eq_getElem?_getD, List.getElem?_eq_none (by omega)]; rfl
      obtain ⟨s1, e⟩ := (step_ok_iff checks t).mpr O1
      obtain ⟨P, I1⟩ := step_placed I e
      obtain ⟨s', e'⟩ := (ih I1 (by rw [P.dest]; exact O1.length)).1 ((ok_cons P).mp O).2
      exact ⟨s', by simp only [steps, e, M.ok_bind]; exact e'⟩
    · intro s' e
      simp only [steps] at e
      rw [M.bind_eq_ok] at e
      obtain ⟨x, e1, e⟩ := e
      cases x with
      | error q => cases e
      | ok s1 =>
        have O1 := (step_ok_iff checks t).mp ⟨s1, e1⟩
        obtain ⟨P, I1⟩ := step_placed I e1
        obtain ⟨O2, Q, I2⟩ := (ih I1 (by rw [P.dest]; exact O1.length)).2 s' e
        exact ⟨(ok_cons P).mpr ⟨O1, O2⟩, placed_cons P Q, I2⟩

/-- `h` with the counts meant by the numbers -/
def filled (h : Hist T) (ts : List Int) : Hist T :=
  { h with counts := (List.range h.counts.length).map fun i => (Format.expand ts).getD i 0 }

theorem getD_eq_of_length {l : List Nat} {n : Nat} {f : Nat → Nat} (hl : l.length = n)
    (h : ∀ j, j < n → l.getD j 0 = f j) : l = (List.range n).map f := by
  refine List.ext_getElem (by simp [hl]) fun i h1 h2 => ?_
  have := h i (by omega)
  rw [List.getD_eq_getElem?_getD, List.getElem?_eq_getElem h1, Option.getD_some] at this
  rw [this]; simp

theorem numbers_range {r : List UInt8} {ts : List Int} (N : Format.Numbers r ts) :
    ∀ t ∈ ts, -9223372036854775808 ≤ t := by
  induction N with
  | nil => simp
  | @cons bs r u ts h N ih =>
    intro t ht
    rw [readLeb_eq] at h
    obtain ⟨hu, -⟩ := unleb_bound _ _ _ _ h
    norm_num at hu
    rcases List.mem_cons.mp ht with rfl | ht
    · unfold Format.unzigzag
      split <;> omega
    · exact ih t ht

theorem decodePayload_iff (checks : Bool) {h : Hist T} (W : WF fp h) (hz : ∀ i, h.counts.getD i 0 = 0)
    (hmax : h.maxValue = 0) (hmin : h.minNonZero = U64MAX) (payload : List UInt8) (h' : Hist T) :
    decodePayload checks h payload = .ok (.ok h') ↔
      ∃ ts, Format.Numbers payload ts ∧ Format.Fits T.max h.counts.length ts ∧ h' = decoded (filled h ts) := by
  have hU : U64MAX = 18446744073709551615 := rfl
  rw [decodePayload_eq checks h payload (payload.length + 1) (by omega)]
  have I := dinv_init W hz
  have key : ∀ (ts : List Int), Format.Numbers payload ts →
      (Ok ts (⟨0, Hist.RestatState.new, h⟩ : DecodeState T) ↔ Format.Fits T.max h.counts.length ts) := by
    intro ts N
    have hr := numbers_range N
    constructor
    · rintro ⟨h1, h2, h3⟩
      refine ⟨fun t ht => ?_, ?_, fun i hi => h3 i (by simpa using hi)⟩
      · have := hr t ht
        have := h1 t ht
        norm_num
        omega
      · simp only [Nat.zero_add] at h2
        norm_num; omega
    · rintro ⟨h1, h2, h3⟩
      refine ⟨fun t ht => ?_, ?_, fun i hi => h3 i (by simpa using hi)⟩
      · have := h1 t ht
        norm_num at this
        omega
      · simp only [Nat.zero_add]
        norm_num at h2; omega
  have fin : ∀ ts s', Placed ts (⟨0, Hist.RestatState.new, h⟩ : DecodeState T) s' → DInv h s' → s'.h = filled h ts := by
    intro ts s' P J
    rw [J.cfg]
    unfold filled
    congr 1
    refine getD_eq_of_length P.len fun j hj => ?_
    rw [P.counts]; simp
  constructor
  · intro e
    rw [M.bind_eq_ok] at e
    obtain ⟨x, e1, e⟩ := e
    cases x with
    | error q => cases e
    | ok s' =>
      obtain ⟨ts, N⟩ := slow_numbers checks e1
      rw [slow_steps checks N _ (by omega)] at e1
      obtain ⟨O, P, J⟩ := (steps_iff checks ts I (by simp)).2 s' e1
      refine ⟨ts, N, (key ts N).mp O, ?_⟩
      simp only at e
      rw [(decode_finish W hmax hmin J).1, M.ok_bind] at e
      cases e
      rw [fin ts s' P J]
  · rintro ⟨ts, N, F, rfl⟩
    obtain ⟨s', e1⟩ := (steps_iff checks ts I (by simp)).1 ((key ts N).mpr F)
    obtain ⟨O, P, J⟩ := (steps_iff checks ts I (by simp)).2 s' e1
    rw [slow_steps checks N _ (by omega), e1, M.ok_bind]
    simp only
    rw [(decode_finish W hmax hmin J).1, M.ok_bind, fin ts s' P J]
    rfl

theorem deserV2_iff (checks : Bool) (r rest : List UInt8) (h : Hist T) :
    deserV2 fp T checks r = .ok (.ok (h, rest)) ↔
      ∃ hd h0 payload ts, readHeader r = .ok hd ∧ Hist.newWithBounds fp T hd.low hd.high hd.digits = .ok (.ok h0) ∧
        hd.rest = payload ++ rest ∧ payload.length = hd.payloadLen ∧ Format.Numbers payload ts ∧
        Format.Fits T.max h0.counts.length ts ∧ h = decoded (filled h0 ts) := by
  unfold deserV2
  constructor
  · intro e
    cases hh : readHeader r with
    | error q => rw [hh] at e; cases e
    | ok hd =>
      rw [hh] at e
      simp only at e
      rw [M.bind_eq_ok] at e
      obtain ⟨x, e1, e⟩ := e
      cases x with
      | error q => cases e
      | ok h0 =>
        obtain ⟨-, -, b3, -⟩ := readHeader_ok hh
        obtain ⟨W, e0, -⟩ := newWithBounds_wf b3 e1
        simp only at e
        cases hrn : readN hd.payloadLen hd.rest with
        | none => rw [hrn] at e; cases e
        | some q =>
          obtain ⟨payload, rest'⟩ := q
          rw [hrn] at e
          simp only at e
          rw [M.bind_eq_ok] at e
          obtain ⟨y, e2, e⟩ := e
          cases y with
          | error q => cases e
          | ok h' =>
            cases e
            rw [decodePayload_iff checks W (by rw [e0]; exact fresh_getD _ _ _) (by rw [e0]; rfl) (by rw [e0]; rfl)] at e2
            obtain ⟨ts, N, F, rfl⟩ := e2
            unfold readN at hrn
            split at hrn
            swap
            · cases hrn
            cases hrn
            rename_i hle
            exact ⟨hd, h0, _, ts, rfl, e1, (List.take_append_drop _ _).symm, by simp [hle], N, F, rfl⟩
  · rintro ⟨hd, h0, payload, ts, hh, e1, hp, hl, N, F, rfl⟩
    obtain ⟨-, -, b3, -⟩ := readHeader_ok hh
    obtain ⟨W, e0, -⟩ := newWithBounds_wf b3 e1
    rw [hh]
    simp only
    rw [e1, M.ok_bind]
    simp only
    have hrn : readN hd.payloadLen hd.rest = some (payload, rest) := by
      unfold readN
      rw [if_pos (by rw [hp, ← hl]; simp), hp, List.take_left' hl, List.drop_left' hl]
    rw [hrn]
    simp only
    rw [(decodePayload_iff checks W (by rw [e0]; exact fresh_getD _ _ _) (by rw [e0]; rfl) (by rw [e0]; rfl) _ _).mpr
      ⟨ts, N, F, rfl⟩, M.ok_bind]
    rfl

theorem readHeader_be {n d low high : Nat} (hn : n < 2 ^ 32) (hd : d ≤ 255) (hlow : low < 2 ^ 64) (hhigh : high < 2 ^ 64)
    (tail : List UInt8) :
    readHeader (be32 n ++ (be32 0 ++ (be32 d ++ (be64 low ++ (be64 high ++ (be64 ONE_BITS ++ tail)))))) =
      .ok ⟨n, d, low, high, tail⟩ := by
  norm_num at hn hlow hhigh
  unfold readHeader be32 be64
  rw [readBE_be 4 _ _ (by norm_num; omega)]
  simp only
  rw [readBE_be 4 _ _ (by norm_num)]
  simp only
  rw [if_neg (by simp), readBE_be 4 _ _ (by norm_num; omega)]
  simp only
  rw [if_neg (by omega), readBE_be 8 _ _ (by norm_num; omega)]
  simp only
  rw [readBE_be 8 _ _ (by norm_num; omega)]
  simp only
  rw [readBE_be 8 _ _ (by norm_num [ONE_BITS])]
  simp

theorem numbers_unique {r : List UInt8} {ts us : List Int} (N : Format.Numbers r ts) (M : Format.Numbers r us) : ts = us := by
  induction N generalizing us with
  | nil =>
    cases M with
    | nil => rfl
    | cons h _ => cases h
  | cons h N ih =>
    cases M with
    | nil => cases h
    | cons h' N' =>
      rw [h] at h'
      cases h'
      rw [ih N']

end Hdr.V2
