import Verif.Concurrent
import Mathlib.Data.List.Basic

/-!
# C95: traits for bit fields may be obtained by several goroutines
-/

namespace Verif

/-- A call that has not ended can go on. -/
theorem C95_progress (split : Bool) (calls : List Call) (tab : TraitsTable) (i : Nat) (c : Call) (h : calls[i]? = some c)
    (hs : ∀ e, c.state ≠ .over e) : ∃ s tab', Calling.Step split ⟨calls, tab⟩ ⟨calls.set i { c with state := s }, tab'⟩ := by
  obtain ⟨ty, n, s⟩ := c
  have key : ∃ s' tab', CallStep split ty n s tab s' tab' := by
    cases s with
    | begin =>
      by_cases hn : n < 64
      · exact ⟨_, _, .read hn⟩
      · exact ⟨_, _, .range (by omega)⟩
    | readType t => exact ⟨_, _, .thenPtr⟩
    | readPtr p => exact ⟨_, _, .thenType⟩
    | read t p =>
      cases t with
      | none => exact ⟨_, _, .make⟩
      | some t =>
        by_cases ht : t = ty
        · subst ht
          exact ⟨_, _, .found⟩
        · exact ⟨_, _, .mismatch ht⟩
    | made => exact ⟨_, _, .write⟩
    | wroteType => exact ⟨_, _, .finishPtr⟩
    | wrotePtr => exact ⟨_, _, .finishType⟩
    | over e => exact absurd rfl (hs e)
  obtain ⟨s', tab', hst⟩ := key
  exact ⟨s', tab', .mk h hst⟩

/-- How many steps a call has ahead of it, at most. -/
def CallState.ahead : CallState → Nat
  | .begin => 5
  | .readType _ | .readPtr _ => 4
  | .read _ _ => 3
  | .made => 2
  | .wroteType | .wrotePtr => 1
  | .over _ => 0

theorem CallStep.ahead {split : Bool} {ty n : Nat} {s s' : CallState} {tab tab' : TraitsTable} (h : CallStep split ty n s tab s' tab') :
    s'.ahead < s.ahead := by
  cases h <;> simp [CallState.ahead]

theorem sum_set (calls : List Call) : ∀ (i : Nat) (c : Call) (s : CallState), calls[i]? = some c →
    ((calls.set i { c with state := s }).map fun c => c.state.ahead).sum + c.state.ahead = (calls.map fun c => c.state.ahead).sum + s.ahead := by
  induction calls with
  | nil => intro i c s h; simp at h
  | cons d calls ih =>
    rintro (_ | i) c s h
    · cases h
      simp only [List.set_cons_zero, List.map_cons, List.sum_cons]
      omega
    · have := ih i c s (by simpa using h)
      simp only [List.set_cons_succ, List.map_cons, List.sum_cons]
      omega

theorem Calling.Step.ahead {split : Bool} {s t : Calling} (h : Calling.Step split s t) :
    (t.calls.map fun c => c.state.ahead).sum < (s.calls.map fun c => c.state.ahead).sum := by
  obtain @⟨calls, tab, tab', i, c, s', hc, hst⟩ := h
  have h1 := sum_set calls i c s' hc
  have h2 := hst.ahead
  dsimp only
  omega

/-- `n` steps lead from one state to another one. -/
inductive StepsIn (split : Bool) : Nat → Calling → Calling → Prop
  | refl (s : Calling) : StepsIn split 0 s s
  | step {n : Nat} {s t u : Calling} : StepsIn split n s t → Calling.Step split t u → StepsIn split (n + 1) s u

/-- **C95**: whatever the goroutines do to each other, all calls end: a program with `n` calls makes at most `5 * n` steps. -/
theorem C95_ends (split : Bool) (calls : List (Nat × Nat)) (k : Nat) (t : Calling) (h : StepsIn split k (Calling.initial calls) t) :
    k ≤ 5 * calls.length := by
  have key : ∀ (k : Nat) (s t : Calling), StepsIn split k s t →
      (t.calls.map fun c => c.state.ahead).sum + k ≤ (s.calls.map fun c => c.state.ahead).sum := by
    intro k s t h
    induction h with
    | refl => exact Nat.le_refl _
    | step _ hs ih =>
      have := hs.ahead
      omega
  have h1 := key k _ _ h
  have h2 : ((Calling.initial calls).calls.map fun c => c.state.ahead).sum = 5 * calls.length := by
    clear h h1 key
    induction calls with
    | nil => rfl
    | cons c calls ih =>
      simp only [Calling.initial, List.map_cons, List.sum_cons, List.length_cons] at ih ⊢
      rw [ih]
      simp only [CallState.ahead]
      omega
  omega

/-- The calls of a run are those of the start. -/
theorem runs_calls {split : Bool} {s t : Calling} (h : Calling.Runs split s t) : t.calls.map (fun c => (c.type, c.bits)) = s.calls.map fun c => (c.type, c.bits) := by
  induction h with
  | refl => rfl
  | step _ hs ih =>
    rw [← ih]
    obtain ⟨hc, -⟩ := hs
    dsimp only
    apply List.ext_getElem?
    intro j
    rw [List.getElem?_map, List.getElem?_map, List.getElem?_set]
    split
    · rename_i hij
      subst hij
      split
      · rw [hc]; rfl
      · rename_i hlt
        rw [List.getElem?_eq_none (by omega)]
    · rfl

/-- What holds in between: entries are empty or have the traits that some call asked for, and calls have read such entries. -/
structure Orderly (ask : Nat → Nat → Prop) (s : Calling) : Prop where
  table : ∀ n, s.table n = ⟨none, none⟩ ∨ ∃ ty, ask ty n ∧ s.table n = ⟨some ty, some (ty, n)⟩
  states : ∀ c ∈ s.calls, ask c.type c.bits ∧ (c.state = .begin ∨ c.state = .made ∨ c.state = .read none none ∨
    (∃ ty, ask ty c.bits ∧ c.state = .read (some ty) (some (ty, c.bits))) ∨ c.state = .over (.returned (some (c.type, c.bits))) ∨
    c.state = .over .panicked ∧ (64 ≤ c.bits ∨ ∃ ty, ask ty c.bits ∧ ty ≠ c.type))

theorem Orderly.step {ask : Nat → Nat → Prop} {s t : Calling} (h : Orderly ask s) (hs : Calling.Step false s t) : Orderly ask t := by
  obtain @⟨calls, tab, tab', i, c, s', hc, hst⟩ := hs
  have hm := List.mem_of_getElem? hc
  obtain ⟨hask, hcs⟩ := h.states c hm
  have fin : (∀ n, tab' n = ⟨none, none⟩ ∨ ∃ ty, ask ty n ∧ tab' n = ⟨some ty, some (ty, n)⟩) →
      (s' = .begin ∨ s' = .made ∨ s' = .read none none ∨ (∃ ty, ask ty c.bits ∧ s' = .read (some ty) (some (ty, c.bits))) ∨
        s' = .over (.returned (some (c.type, c.bits))) ∨ s' = .over .panicked ∧ (64 ≤ c.bits ∨ ∃ ty, ask ty c.bits ∧ ty ≠ c.type)) →
      Orderly ask ⟨calls.set i { c with state := s' }, tab'⟩ := by
    intro h1 h2
    refine ⟨h1, fun d hd => ?_⟩
    rcases List.mem_or_eq_of_mem_set hd with hd | rfl
    · exact h.states d hd
    · exact ⟨hask, h2⟩
  have ht := h.table
  dsimp only at ht
  obtain ⟨ty, n, st⟩ := c
  dsimp only at *
  cases hst with
  | range hn => exact fin ht (by simp [hn])
  | read hn =>
    refine fin ht ?_
    rcases ht n with e | ⟨ty', h1, e⟩
    · simp [e]
    · rw [e]
      exact .inr (.inr (.inr (.inl ⟨ty', h1, rfl⟩)))
  | typeFirst h => cases h
  | ptrFirst h => cases h
  | thenPtr => simp at hcs
  | thenType => simp at hcs
  | make => exact fin ht (by simp)
  | write =>
    refine fin (fun k => ?_) (by simp)
    unfold TraitsTable.set
    split
    · rename_i e
      subst e
      exact .inr ⟨ty, hask, rfl⟩
    · exact ht k
  | writeType h => cases h
  | writePtr h => cases h
  | finishPtr => simp at hcs
  | finishType => simp at hcs
  | found =>
    refine fin ht ?_
    simp only [reduceCtorEq, CallState.read.injEq, Option.some.injEq, false_or, false_and, or_false] at hcs
    obtain ⟨ty', -, rfl, rfl⟩ := hcs
    simp
  | mismatch hne =>
    refine fin ht ?_
    simp only [reduceCtorEq, CallState.read.injEq, Option.some.injEq, false_or, false_and, or_false] at hcs
    obtain ⟨ty', h1, rfl, rfl⟩ := hcs
    exact .inr (.inr (.inr (.inr (.inr ⟨rfl, .inr ⟨_, h1, hne⟩⟩))))

theorem orderly_runs {calls : List (Nat × Nat)} {t : Calling} (h : Calling.Runs false (Calling.initial calls) t) :
    Orderly (fun ty n => (ty, n) ∈ calls) t := by
  induction h with
  | refl =>
    refine ⟨fun n => .inl rfl, fun c hc => ?_⟩
    obtain ⟨d, hd, rfl⟩ := List.mem_map.1 hc
    exact ⟨hd, .inl rfl⟩
  | step _ hs ih => exact ih.step hs

/-- **C95**, if interface values are read and written at once: however the calls of several goroutines take turns, each call that ends returns traits of
its type and width, or it panics, because the width is 64 or more or as some call uses the width with another type (C42).
Missing: accesses word by word, see `C95_violated_race`. -/
theorem C95_interleaved_partial {calls : List (Nat × Nat)} {t : Calling} (h : Calling.Runs false (Calling.initial calls) t) {i : Nat} {c : Call}
    (hc : t.calls[i]? = some c) {e : CallEnd} (he : c.state = .over e) :
    calls[i]? = some (c.type, c.bits) ∧ (e = .returned (some (c.type, c.bits)) ∨
      e = .panicked ∧ (64 ≤ c.bits ∨ ∃ ty, (ty, c.bits) ∈ calls ∧ ty ≠ c.type)) := by
  constructor
  · have := congrArg (·[i]?) (runs_calls h)
    simp only [List.getElem?_map, hc, Calling.initial, List.map_map, Option.map_some] at this
    rw [this]
    cases calls[i]? <;> rfl
  · have := ((orderly_runs h).states c (List.mem_of_getElem? hc)).2
    rw [he] at this
    simpa using this

/-- **C95**, as above: with widths below 64, each used with one type, all calls succeed. -/
theorem C95_one_type_partial {calls : List (Nat × Nat)} (hn : ∀ c ∈ calls, c.2 < 64) (ht : ∀ c ∈ calls, ∀ d ∈ calls, c.2 = d.2 → c.1 = d.1) {t : Calling}
    (h : Calling.Runs false (Calling.initial calls) t) {i : Nat} {c : Call} (hc : t.calls[i]? = some c) {e : CallEnd} (he : c.state = .over e) :
    calls[i]? = some (c.type, c.bits) ∧ e = .returned (some (c.type, c.bits)) := by
  obtain ⟨h1, h2⟩ := C95_interleaved_partial h hc he
  refine ⟨h1, ?_⟩
  rcases h2 with h2 | ⟨-, h2 | ⟨ty, h2, h3⟩⟩
  · exact h2
  · have := hn _ (List.mem_of_getElem? h1)
    dsimp only at this
    omega
  · exact absurd (ht _ h2 _ (List.mem_of_getElem? h1) rfl) h3

/-- Two goroutines ask for 5 bits of the same type: both get the traits. -/
example : ∃ t, Calling.Runs false (Calling.initial [(8, 5), (8, 5)]) t ∧ t.calls.map Call.state =
    [.over (.returned (some (8, 5))), .over (.returned (some (8, 5)))] :=
  ⟨_, .step (.step (.step (.step (.step (.refl _)
    (.mk (i := 0) rfl (.read (by decide)))) (.mk (i := 0) rfl .make)) (.mk (i := 0) rfl .write)) (.mk (i := 1) rfl (.read (by decide))))
    (.mk (i := 1) rfl .found), rfl⟩

/-- **C95, violated**: two goroutines ask for 5 bits of the same type.  One has written the type of the entry and not yet the pointer, when the other one
reads both: it gets a nil pointer, without an error. -/
theorem C95_violated_race : ∃ t, Calling.Runs true (Calling.initial [(8, 5), (8, 5)]) t ∧
    t.calls.map Call.state = [.over (.returned (some (8, 5))), .over (.returned none)] :=
  ⟨_, .step (.step (.step (.step (.step (.step (.refl _)
    (.mk (i := 0) rfl (.read (by decide)))) (.mk (i := 0) rfl .make)) (.mk (i := 0) rfl (.writeType rfl))) (.mk (i := 1) rfl (.read (by decide))))
    (.mk (i := 1) rfl .found)) (.mk (i := 0) rfl .finishPtr), rfl⟩

/-- **C95, violated**: with two types for a width it depends on who is faster whether a call succeeds: both do, or one panics. -/
theorem C95_violated_order : (∃ t, Calling.Runs false (Calling.initial [(8, 5), (16, 5)]) t ∧
      t.calls.map Call.state = [.over (.returned (some (8, 5))), .over (.returned (some (16, 5)))]) ∧
    ∃ t, Calling.Runs false (Calling.initial [(8, 5), (16, 5)]) t ∧ t.calls.map Call.state = [.over (.returned (some (8, 5))), .over .panicked] :=
  ⟨⟨_, .step (.step (.step (.step (.step (.step (.refl _)
    (.mk (i := 0) rfl (.read (by decide)))) (.mk (i := 1) rfl (.read (by decide)))) (.mk (i := 0) rfl .make)) (.mk (i := 1) rfl .make))
    (.mk (i := 0) rfl .write)) (.mk (i := 1) rfl .write), rfl⟩,
  ⟨_, .step (.step (.step (.step (.step (.refl _)
    (.mk (i := 0) rfl (.read (by decide)))) (.mk (i := 0) rfl .make)) (.mk (i := 0) rfl .write)) (.mk (i := 1) rfl (.read (by decide))))
    (.mk (i := 1) rfl (.mismatch (by decide))), rfl⟩⟩

end Verif
