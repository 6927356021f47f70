import Verif.Fixed

/-!
# Alignment: /repo/zstream/reader.go, /repo/zstream/writer.go, /repo/ztype/bit_alignment.go
-/

namespace Verif

/-- /repo/zstream/reader.go:65-71 `discard`; `boundary` is a uint8, a zero boundary is a division by zero panic. -/
def discard (count boundary : Nat) : Except Err Nat :=
  if boundary = 0 then .error (.panic "integer divide by zero")
  else
    let misaligned := (count % boundary) % 256
    if misaligned ≠ 0 then .ok (boundary - misaligned) else .ok 0

/-- /repo/zstream/writer.go:70-82 `BitWriter.Align`.  The wrapping of the error by `fmt.Errorf("discard: %w")` is left
out: `errors.Is` sees the same error. -/
def alignW (boundary : Nat) : Wr Nat := do
  let count ← Wr.pos
  let d ← (discard count boundary : ExceptT Err WM Nat)
  if d = 0 then pure count else do
    Wr.bits 0#64 d
    Wr.pos

/-- /repo/zstream/reader.go:51-63 `BitReader.Align`. -/
def alignR (boundary : Nat) : Rd Nat := do
  let count ← Rd.pos
  let d ← (discard count boundary : ExceptT Err RM Nat)
  if d = 0 then pure count else do
    let _ ← Rd.bits d
    Rd.pos

/-- /repo/ztype/bit_alignment.go:5-11 `CountAlignBits`; Go's `%` on a non-negative position. -/
def countAlignBits (bitPosition boundary : Nat) : Except Err Nat :=
  if boundary = 0 then .error (.panic "integer divide by zero")
  else
    let misaligned := bitPosition % boundary
    if misaligned ≠ 0 then .ok (boundary - misaligned) else .ok 0

/-- /repo/ztype/bit_alignment.go:13-19 `alignTo`, positions as integers (Go's `/` truncates, here applied to a
non-negative number). -/
def alignTo (alignmentValue bitPosition : Int) : Int :=
  if bitPosition ≤ 0 ∨ alignmentValue = 0 then bitPosition
  else ((bitPosition - 1) / alignmentValue + 1) * alignmentValue

/-- Number of padding bits, as a specification: the least number that makes the position a multiple. -/
def padBits (pos b : Nat) : Nat := (b - pos % b) % b

theorem padBits_spec {pos b : Nat} (hb : 0 < b) :
    b ∣ pos + padBits pos b ∧ padBits pos b < b ∧ ∀ k, b ∣ pos + k → padBits pos b ≤ k := by
  have hlt := Nat.mod_lt pos hb
  have hdm := Nat.div_add_mod pos b
  refine ⟨?_, Nat.mod_lt _ hb, ?_⟩
  · unfold padBits
    by_cases h0 : pos % b = 0
    · rw [h0, Nat.sub_zero, Nat.mod_self]; exact Nat.dvd_of_mod_eq_zero h0
    · rw [Nat.mod_eq_of_lt (by omega)]
      have : pos + (b - pos % b) = b * (pos / b + 1) := by rw [Nat.mul_add, Nat.mul_one]; omega
      rw [this]; exact Nat.dvd_mul_right _ _
  · intro k hk
    unfold padBits
    by_cases h0 : pos % b = 0
    · rw [h0, Nat.sub_zero, Nat.mod_self]; exact Nat.zero_le _
    · rw [Nat.mod_eq_of_lt (by omega)]
      by_contra hc
      have h1 : (pos + k) % b = pos % b + k := by
        rw [Nat.add_mod, Nat.mod_eq_of_lt (show k < b by omega), Nat.mod_eq_of_lt (by omega)]
      have := Nat.mod_eq_zero_of_dvd hk
      omega

theorem discard_eq {count b : Nat} (hb : 0 < b) (hb8 : b < 256) : discard count b = .ok (padBits count b) := by
  unfold discard padBits
  have hlt := Nat.mod_lt count hb
  rw [if_neg (by omega)]
  dsimp only
  rw [Nat.mod_eq_of_lt (show count % b < 256 by omega)]
  by_cases h0 : count % b = 0
  · rw [if_neg (by omega), h0, Nat.sub_zero, Nat.mod_self]
  · rw [if_pos h0, Nat.mod_eq_of_lt (show b - count % b < b by omega)]

theorem countAlignBits_eq {count b : Nat} (hb : 0 < b) : countAlignBits count b = .ok (padBits count b) := by
  unfold countAlignBits padBits
  have hlt := Nat.mod_lt count hb
  rw [if_neg (by omega)]
  dsimp only
  by_cases h0 : count % b = 0
  · rw [if_neg (by omega), h0, Nat.sub_zero, Nat.mod_self]
  · rw [if_pos h0, Nat.mod_eq_of_lt (show b - count % b < b by omega)]

theorem wrun_liftExcept {α : Type} (x : Except Err α) (s : List Bool) :
    wrun (liftM x : ExceptT Err WM α) s = (x, s) := by
  cases x <;> rfl

theorem rrun_liftExcept {α : Type} (x : Except Err α) (s : RState) :
    rrun (liftM x : ExceptT Err RM α) s = (x, s) := by
  cases x <;> rfl

theorem wrun_alignW {b : Nat} (hb : 0 < b) (hb8 : b < 256) (s : List Bool) :
    wrun (alignW b) s = (.ok (s.length + padBits s.length b), s ++ List.replicate (padBits s.length b) false) := by
  unfold alignW
  rw [wrun_bind, wrun_pos]
  dsimp only
  rw [wrun_bind, wrun_liftExcept, discard_eq hb hb8]
  dsimp only
  by_cases h0 : padBits s.length b = 0
  · rw [if_pos h0, wrun_pure, h0]; simp
  · rw [if_neg h0, wrun_bind, wrun_bits]
    dsimp only
    rw [wrun_pos]
    rw [show (0#64).toNat = 0 from rfl, natBits_zero]
    simp

theorem rrun_alignR {b : Nat} (hb : 0 < b) (hb8 : b < 256) (pad rest : List Bool) (pos : Nat)
    (hp : pad.length = padBits pos b) :
    rrun (alignR b) ⟨pad ++ rest, pos⟩ = (.ok (pos + pad.length), ⟨rest, pos + pad.length⟩) := by
  unfold alignR
  rw [rrun_bind, rrun_pos]
  dsimp only
  rw [rrun_bind, rrun_liftExcept, discard_eq hb hb8]
  dsimp only
  by_cases h0 : padBits pos b = 0
  · have : pad = [] := by rw [← List.length_eq_zero_iff]; omega
    rw [if_pos h0, rrun_pure, this]; simp
  · rw [if_neg h0, rrun_bind, rrun_bits_append _ _ _ _ hp]
    dsimp only
    rw [rrun_pos, hp]

end Verif
