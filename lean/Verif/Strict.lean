import Verif.Spec

/-!
# Programs that report the errors they see

A program is *strict* if, whenever an interface call fails, it stops and returns an error.  The three generic facts
(trailing data is ignored, truncation is reported, sink faults are reported) hold for all strict programs.
-/

namespace Verif

/-- Strict reader programs. -/
inductive RStrict {α : Type} : RM (Except Err α) → Prop
  | pure (a : Except Err α) : RStrict (.pure a)
  | op (o : ROp) (k : Except Err o.Res → RM (Except Err α)) :
      (∀ e, ∃ e', k (.error e) = .pure (.error e')) → (∀ r, RStrict (k (.ok r))) → RStrict (.op o k)

/-- A read function that reports the errors it sees. -/
def Rd.Strict {α : Type} (p : Rd α) : Prop := RStrict (ExceptT.run p)

theorem Rd.Strict.pure {α : Type} (a : α) : Rd.Strict (Pure.pure a : Rd α) := RStrict.pure (.ok a)

theorem Rd.Strict.throw {α : Type} (e : Err) : Rd.Strict (MonadExcept.throw e : Rd α) := RStrict.pure (.error e)

theorem Rd.Strict.call (o : ROp) : Rd.Strict (Rd.call o) :=
  RStrict.op o _ (fun e => ⟨e, rfl⟩) (fun r => RStrict.pure (.ok r))

theorem Rd.Strict.bind {α β : Type} {p : Rd α} {f : α → Rd β} (hp : p.Strict) (hf : ∀ a, (f a).Strict) :
    (p >>= f : Rd β).Strict := by
  show RStrict (RM.bind (ExceptT.run p) (ExceptT.bindCont f))
  have hp' : RStrict (ExceptT.run p) := hp
  generalize ExceptT.run p = q at hp'
  induction hp' with
  | pure a =>
    cases a with
    | ok a => exact hf a
    | error e => exact RStrict.pure (.error e)
  | op o k he hk ih =>
    refine RStrict.op o _ ?_ ?_
    · intro e
      obtain ⟨e', h⟩ := he e
      refine ⟨e', ?_⟩
      rw [h]; rfl
    · intro r; exact ih r

theorem Rd.Strict.lift {α : Type} (x : Except Err α) : Rd.Strict (liftM x : ExceptT Err RM α) := by
  cases x with
  | ok a => exact RStrict.pure (.ok a)
  | error e => exact RStrict.pure (.error e)

theorem Rd.Strict.ite {α : Type} {c : Prop} [Decidable c] {p q : Rd α} (hp : p.Strict) (hq : q.Strict) :
    (if c then p else q).Strict := by split <;> assumption

/-- A successful strict run consumes a prefix, advances the position by its length, and behaves the same with more
input behind. -/
theorem Rd.Strict.extend {α : Type} {p : Rd α} (hp : p.Strict) {l rest : List Bool} {pos pos' : Nat} {v : α}
    (h : rrun p ⟨l, pos⟩ = (.ok v, ⟨rest, pos'⟩)) :
    ∃ used, l = used ++ rest ∧ pos' = pos + used.length ∧
      ∀ t, rrun p ⟨l ++ t, pos⟩ = (.ok v, ⟨rest ++ t, pos'⟩) := by
  unfold rrun at *
  have hp' : RStrict (ExceptT.run p) := hp
  generalize ExceptT.run p = q at hp' h
  induction hp' generalizing l pos with
  | pure a =>
    simp only [RM.run, Prod.mk.injEq, RState.mk.injEq] at h
    obtain ⟨rfl, rfl, rfl⟩ := h
    exact ⟨[], by simp, by simp, fun t => rfl⟩
  | op o k he hk ih =>
    simp only [RM.run] at h
    by_cases hn : o.need ≤ l.length
    · rw [if_pos hn] at h
      obtain ⟨used, h1, h2, h3⟩ := ih _ h
      refine ⟨l.take o.need ++ used, ?_, ?_, ?_⟩
      · rw [List.append_assoc, ← h1, List.take_append_drop]
      · rw [h2, List.length_append, List.length_take, Nat.min_eq_left hn]; omega
      · intro t
        simp only [RM.run]
        rw [if_pos (by rw [List.length_append]; omega), List.take_append_of_le_length hn,
          List.drop_append_of_le_length hn]
        exact h3 t
    · rw [if_neg hn] at h
      obtain ⟨e', h'⟩ := he (o.fail ⟨l, pos⟩).1
      rw [h'] at h
      simp [RM.run] at h

/-- Strict writer programs. -/
inductive WStrict {α : Type} : WM (Except Err α) → Prop
  | pure (a : Except Err α) : WStrict (.pure a)
  | op (o : WOp) (k : Except Err Nat → WM (Except Err α)) :
      (∀ e, ∃ e', k (.error e) = .pure (.error e')) → (∀ r, WStrict (k (.ok r))) → WStrict (.op o k)

/-- A write function that reports the errors it sees. -/
def Wr.Strict {α : Type} (p : Wr α) : Prop := WStrict (ExceptT.run p)

theorem Wr.Strict.pure {α : Type} (a : α) : Wr.Strict (Pure.pure a : Wr α) := WStrict.pure (.ok a)

theorem Wr.Strict.throw {α : Type} (e : Err) : Wr.Strict (MonadExcept.throw e : Wr α) := WStrict.pure (.error e)

theorem Wr.Strict.call (o : WOp) : Wr.Strict (Wr.call o) :=
  WStrict.op o _ (fun e => ⟨e, rfl⟩) (fun r => WStrict.pure (.ok r))

theorem Wr.Strict.bind {α β : Type} {p : Wr α} {f : α → Wr β} (hp : p.Strict) (hf : ∀ a, (f a).Strict) :
    (p >>= f : Wr β).Strict := by
  show WStrict (WM.bind (ExceptT.run p) (ExceptT.bindCont f))
  have hp' : WStrict (ExceptT.run p) := hp
  generalize ExceptT.run p = q at hp'
  induction hp' with
  | pure a =>
    cases a with
    | ok a => exact hf a
    | error e => exact WStrict.pure (.error e)
  | op o k he hk ih =>
    refine WStrict.op o _ ?_ ?_
    · intro e
      obtain ⟨e', h⟩ := he e
      refine ⟨e', ?_⟩
      rw [h]; rfl
    · intro r; exact ih r

theorem Wr.Strict.lift {α : Type} (x : Except Err α) : Wr.Strict (liftM x : ExceptT Err WM α) := by
  cases x with
  | ok a => exact WStrict.pure (.ok a)
  | error e => exact WStrict.pure (.error e)

theorem Wr.Strict.ite {α : Type} {c : Prop} [Decidable c] {p q : Wr α} (hp : p.Strict) (hq : q.Strict) :
    (if c then p else q).Strict := by split <;> assumption

theorem Wr.Strict.bits (v : BitVec 64) (n : Nat) : (Wr.bits v n).Strict :=
  .bind (.call _) fun _ => .pure ()
theorem Wr.Strict.bitsUnsafe (v : BitVec 64) (n : Nat) : (Wr.bitsUnsafe v n).Strict :=
  .bind (.call _) fun _ => .pure ()
theorem Wr.Strict.bool (b : Bool) : (Wr.bool b).Strict := .bind (.call _) fun _ => .pure ()
theorem Wr.Strict.byte (b : BitVec 8) : (Wr.byte b).Strict := .bind (.call _) fun _ => .pure ()
theorem Wr.Strict.bytes (b : List (BitVec 8)) : (Wr.bytes b).Strict := .bind (.call _) fun _ => .pure ()
theorem Wr.Strict.pos : Wr.Strict Wr.pos := .call _

/-- Result and state of a write function on the machine with faults. -/
def wrunF {α : Type} (fault : Nat → Bool) (p : Wr α) (s : List Bool) (i : Nat) :
    Except Err α × (List Bool × Nat) := WM.runF fault (ExceptT.run p) (s, i)

/-- If a strict program succeeds on a faulty sink, then none of the operations it performed failed, and it wrote
exactly what it writes on a perfect sink. -/
theorem Wr.Strict.no_fault {α : Type} {p : Wr α} (hp : p.Strict) (fault : Nat → Bool) {s s' : List Bool} {i i' : Nat}
    {v : α} (h : wrunF fault p s i = (.ok v, (s', i'))) :
    i ≤ i' ∧ (∀ j, i ≤ j → j < i' → fault j = false) ∧ wrun p s = (.ok v, s') := by
  unfold wrunF at h
  unfold wrun
  have hp' : WStrict (ExceptT.run p) := hp
  generalize ExceptT.run p = q at hp' h
  induction hp' generalizing s i with
  | pure a =>
    simp only [WM.runF, Prod.mk.injEq] at h
    obtain ⟨rfl, rfl, rfl⟩ := h
    exact ⟨Nat.le_refl _, fun j a b => by omega, rfl⟩
  | op o k he hk ih =>
    have key : ∀ out : List Bool,
        ((if fault i then (k (.error .sink)).runF fault (s, i + 1) else (k (.ok 0)).runF fault (s ++ out, i + 1)) =
          (Except.ok v, (s', i'))) →
        i ≤ i' ∧ (∀ j, i ≤ j → j < i' → fault j = false) ∧ (k (.ok 0)).run (s ++ out) = (.ok v, s') := by
      intro out h
      split at h
      · obtain ⟨e', h'⟩ := he .sink
        rw [h'] at h
        simp [WM.runF] at h
      · rename_i hf
        obtain ⟨a, b, c⟩ := ih _ h
        refine ⟨by omega, ?_, c⟩
        intro j h1 h2
        rcases Nat.eq_or_lt_of_le h1 with h3 | h3
        · subst h3; simpa using hf
        · exact b j h3 h2
    cases o with
    | pos => exact ih _ h
    | bits v n => exact key _ h
    | bitsUnsafe v n => exact key _ h
    | bool b => exact key _ h
    | byte b => exact key _ h
    | bytes b => exact key _ h

/-- A fault-free sink behaves like the plain machine. -/
theorem wrunF_none {α : Type} (p : Wr α) (s : List Bool) (i : Nat) :
    ∃ i', wrunF (fun _ => false) p s i = ((wrun p s).1, ((wrun p s).2, i')) := by
  unfold wrunF wrun
  generalize ExceptT.run p = q
  induction q generalizing s i with
  | pure a => exact ⟨i, rfl⟩
  | op o k ih =>
    cases o <;> simp only [WM.runF, WM.run, Bool.false_eq_true, if_false] <;> exact ih _ _ _

end Verif
