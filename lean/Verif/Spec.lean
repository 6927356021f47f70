import Verif.Stream

/-!
# Specification vocabulary

What it means to append bits, to read them back, and to round-trip.  These notions only mention the flat machine, none
of the helpers of the modelled code.
-/

namespace Verif

/-- Started on a stream with contents `s`, `w` succeeds and appends exactly `out`. -/
def Writes (w : Wr Unit) (s out : List Bool) : Prop := wrun w s = (.ok (), s ++ out)

/-- `w` fails with `e` and leaves the stream as it was. -/
def Rejects (w : Wr Unit) (s : List Bool) (e : Err) : Prop := wrun w s = (.error e, s)

/-- Started at bit position `pos` on an input that begins with `out`, `r` succeeds with `v` having consumed exactly
`out`, whatever follows. -/
def Reads {α : Type} (r : Rd α) (out : List Bool) (pos : Nat) (v : α) : Prop :=
  ∀ rest, rrun r ⟨out ++ rest, pos⟩ = (.ok v, ⟨rest, pos + out.length⟩)

/-- Writing with `w` at any position succeeds and reading with `r` at the same position gives `v` back. -/
def RoundTrip {α : Type} (w : Wr Unit) (r : Rd α) (v : α) : Prop :=
  ∀ s, ∃ out, Writes w s out ∧ Reads r out s.length v

/-- Like `RoundTrip`, with the exact number of bits. -/
def RoundTripLen {α : Type} (w : Wr Unit) (r : Rd α) (v : α) (n : Nat) : Prop :=
  ∀ s, ∃ out, out.length = n ∧ Writes w s out ∧ Reads r out s.length v

theorem RoundTripLen.rt {α : Type} {w : Wr Unit} {r : Rd α} {v : α} {n : Nat} (h : RoundTripLen w r v n) :
    RoundTrip w r v := fun s => let ⟨o, _, a, b⟩ := h s; ⟨o, a, b⟩

theorem Writes.pure (s : List Bool) : Writes (Pure.pure ()) s [] := by simp [Writes, wrun_pure]

theorem Writes.bind {w : Wr Unit} {k : Unit → Wr Unit} {s a b : List Bool} (h1 : Writes w s a)
    (h2 : Writes (k ()) (s ++ a) b) : Writes (w >>= k) s (a ++ b) := by
  unfold Writes at *
  rw [wrun_bind, h1]
  simp only [h2, List.append_assoc]

theorem Reads.pure {α : Type} (v : α) (pos : Nat) : Reads (Pure.pure v) [] pos v := by
  intro rest; simp [rrun_pure]

theorem Reads.bind {α β : Type} {r : Rd α} {k : α → Rd β} {a b : List Bool} {pos : Nat} {v : α} {u : β}
    (h1 : Reads r a pos v) (h2 : Reads (k v) b (pos + a.length) u) : Reads (r >>= k) (a ++ b) pos u := by
  intro rest
  rw [rrun_bind, List.append_assoc, h1]
  simp only [h2 rest, List.length_append, Nat.add_assoc]

theorem Reads.map {α β : Type} {r : Rd α} {f : α → β} {a : List Bool} {pos : Nat} {v : α}
    (h : Reads r a pos v) : Reads (do let x ← r; Pure.pure (f x)) a pos (f v) := by
  have := Reads.bind (k := fun x => Pure.pure (f x)) h (Reads.pure (f v) (pos + a.length))
  simpa using this

theorem Writes.unique {w : Wr Unit} {s a b : List Bool} (h1 : Writes w s a) (h2 : Writes w s b) : a = b := by
  unfold Writes at *
  rw [h1] at h2
  simpa using h2

end Verif
