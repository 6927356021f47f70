import Verif.Varint

/-!
# Variable-length readers on arbitrary input

Lemmas about the readers of `Verif/Varint.lean` when the input is not the output of a writer.
-/

namespace Verif

theorem rrun_byte (s : RState) :
    rrun Rd.byte s = if 8 ≤ s.rem.length then
        (.ok (BitVec.ofNat 8 (bitsVal (s.rem.take 8))), ⟨s.rem.drop 8, s.pos + 8⟩)
      else (.error .eof, ⟨List.replicate (s.rem.length % 8) false, s.pos⟩) :=
  rrun_call .byte s

theorem shl_or_lt {w c d : Nat} {x y : BitVec w} (hx : x.toNat < 2 ^ c) (hy : y.toNat < 2 ^ d) (hcd : c + d ≤ w) :
    ((x <<< d) ||| y).toNat < 2 ^ (c + d) := by
  have hp : x.toNat * 2 ^ d + y.toNat < 2 ^ (c + d) := by
    rw [pow_add]
    have : (x.toNat + 1) * 2 ^ d ≤ 2 ^ c * 2 ^ d := Nat.mul_le_mul_right _ (by omega)
    rw [Nat.add_mul, Nat.one_mul] at this
    omega
  have h2 : 2 ^ (c + d) ≤ 2 ^ w := Nat.pow_le_pow_right (by omega) hcd
  rw [shl_or_toNat hy (by omega)]
  exact hp

theorem setWidth_byte_lt {w d : Nat} {b : BitVec 8} (h : b.toNat < 2 ^ d) : (b.setWidth w).toNat < 2 ^ d := by
  rw [BitVec.toNat_setWidth]
  exact Nat.lt_of_le_of_lt (Nat.mod_le _ _) h

/-- Outcome of the tail loop on any input. -/
theorem readVarTail_total (w : Nat) (loops c : Nat) (acc : BitVec w) (hasNext : Bool) (s : RState)
    (hacc : acc.toNat < 2 ^ c) (hc : c + 7 * loops + 8 ≤ w) :
    (∃ k v, k ≤ loops + 1 ∧ 8 * k ≤ s.rem.length ∧
      rrun (readVarTail w loops acc hasNext) s = (.ok v, ⟨s.rem.drop (8 * k), s.pos + 8 * k⟩) ∧
      v.toNat < 2 ^ (c + (if k = loops + 1 then 7 * k + 1 else 7 * k))) ∨
    (∃ st, rrun (readVarTail w loops acc hasNext) s = (.error .eof, st) ∧ s.rem.length < 8 * (loops + 1)) := by
  induction loops generalizing c acc hasNext s with
  | zero =>
    cases hasNext with
    | false =>
      left; refine ⟨0, acc, by omega, by omega, by simp [readVarTail, rrun_pure], by simpa using hacc⟩
    | true =>
      by_cases h : 8 ≤ s.rem.length
      · left
        refine ⟨1, (acc <<< 8) ||| (BitVec.ofNat 8 (bitsVal (s.rem.take 8))).setWidth w, by omega, by omega, ?_, ?_⟩
        · simp only [readVarTail, if_true]
          rw [rrun_bind, rrun_byte, if_pos h]
          rfl
        · have := shl_or_lt (d := 8) hacc (setWidth_byte_lt (w := w)
            (BitVec.isLt (BitVec.ofNat 8 (bitsVal (s.rem.take 8))))) (by omega)
          simpa using this
      · right
        refine ⟨⟨List.replicate (s.rem.length % 8) false, s.pos⟩, ?_, by omega⟩
        · simp only [readVarTail, if_true]
          rw [rrun_bind, rrun_byte, if_neg h]
  | succ loops ih =>
    cases hasNext with
    | false =>
      left; refine ⟨0, acc, by omega, by omega, by simp [readVarTail, rrun_pure], by simpa using hacc⟩
    | true =>
      by_cases h : 8 ≤ s.rem.length
      · have hrun : ∀ x, x = BitVec.ofNat 8 (bitsVal (s.rem.take 8)) →
            rrun (readVarTail w (loops + 1) acc true) s =
            rrun (readVarTail w loops ((acc <<< 7) ||| (x &&& 0x7f#8).setWidth w) ((x &&& 0x80#8) ≠ 0#8))
              ⟨s.rem.drop 8, s.pos + 8⟩ := by
          intro x hx
          simp only [readVarTail, if_true]
          rw [rrun_bind, rrun_byte, if_pos h, ← hx]
        generalize hx : BitVec.ofNat 8 (bitsVal (s.rem.take 8)) = x at hrun
        have hrun := hrun x rfl
        have h7 : (x &&& 0x7f#8).toNat < 2 ^ 7 := by
          rw [byte_and_7f]; exact Nat.mod_lt _ (by omega)
        have hacc' := shl_or_lt hacc (setWidth_byte_lt (w := w) h7) (by omega)
        rcases ih (c + 7) _ ((x &&& 0x80#8) ≠ 0#8) ⟨s.rem.drop 8, s.pos + 8⟩ hacc' (by omega) with
          ⟨k, v, h1, h2, h3, h4⟩ | ⟨st, h1, h2⟩
        · left
          refine ⟨k + 1, v, by omega, ?_, ?_, ?_⟩
          · simp only [List.length_drop] at h2; omega
          · rw [hrun, h3]
            simp only [List.drop_drop]
            congr 2
            · congr 1; omega
            · omega
          · refine Nat.lt_of_lt_of_le h4 (Nat.pow_le_pow_right (by omega) ?_)
            split <;> split <;> omega
        · right
          refine ⟨st, by rw [hrun, h1], ?_⟩
          simp only [List.length_drop] at h2; omega
      · right
        refine ⟨⟨List.replicate (s.rem.length % 8) false, s.pos⟩, ?_, by omega⟩
        · simp only [readVarTail, if_true]
          rw [rrun_bind, rrun_byte, if_neg h]

/-- Outcome of the unsigned readers on any input. -/
theorem readVarU_total (w m : Nat) (hm : 2 ≤ m) (hw : 7 * m + 1 ≤ w) (s : RState) :
    (∃ k v, 1 ≤ k ∧ k ≤ m ∧ 8 * k ≤ s.rem.length ∧
      rrun (readVarU w (m - 2)) s = (.ok v, ⟨s.rem.drop (8 * k), s.pos + 8 * k⟩) ∧ v.toNat < 2 ^ uCap m k) ∨
    (∃ st, rrun (readVarU w (m - 2)) s = (.error .eof, st) ∧ s.rem.length < 8 * m) := by
  by_cases h : 8 ≤ s.rem.length
  · have hrun : ∀ x, x = BitVec.ofNat 8 (bitsVal (s.rem.take 8)) →
        rrun (readVarU w (m - 2)) s =
        rrun (readVarTail w (m - 2) ((x &&& 0x7f#8).setWidth w) ((x &&& 0x80#8) ≠ 0#8))
          ⟨s.rem.drop 8, s.pos + 8⟩ := by
      intro x hx
      unfold readVarU
      rw [rrun_bind, rrun_byte, if_pos h, ← hx]
    generalize hx : BitVec.ofNat 8 (bitsVal (s.rem.take 8)) = x at hrun
    have hrun := hrun x rfl
    have h7 : (x &&& 0x7f#8).toNat < 2 ^ 7 := by
      rw [byte_and_7f]; exact Nat.mod_lt _ (by omega)
    rcases readVarTail_total w (m - 2) 7 _ ((x &&& 0x80#8) ≠ 0#8) ⟨s.rem.drop 8, s.pos + 8⟩
      (setWidth_byte_lt (w := w) h7) (by omega) with ⟨k, v, h1, h2, h3, h4⟩ | ⟨st, h1, h2⟩
    · left
      refine ⟨k + 1, v, by omega, by omega, ?_, ?_, ?_⟩
      · simp only [List.length_drop] at h2; omega
      · rw [hrun, h3]
        simp only [List.drop_drop]
        congr 2
        · congr 1; omega
        · omega
      · refine Nat.lt_of_lt_of_le h4 (Nat.pow_le_pow_right (by omega) ?_)
        unfold uCap
        split <;> split <;> omega
    · right
      refine ⟨st, by rw [hrun, h1], ?_⟩
      simp only [List.length_drop] at h2; omega
  · right
    refine ⟨⟨List.replicate (s.rem.length % 8) false, s.pos⟩, ?_, by omega⟩
    · unfold readVarU
      rw [rrun_bind, rrun_byte, if_neg h]

/-- Outcome of the signed readers after the first byte, on any input. -/
theorem readVarSCont_total (w m : Nat) (hm : 2 ≤ m) (hw : 7 * m ≤ w) (b : BitVec 8) (s : RState) :
    (∃ k v neg, k + 1 ≤ m ∧ 8 * k ≤ s.rem.length ∧
      rrun (readVarSCont w (m - 2) b) s =
        (.ok (if neg = true then -v else v), ⟨s.rem.drop (8 * k), s.pos + 8 * k⟩) ∧
      v.toNat < 2 ^ sCap m (k + 1)) ∨
    (∃ st, rrun (readVarSCont w (m - 2) b) s = (.error .eof, st) ∧ s.rem.length < 8 * (m - 1)) := by
  have h6 : (b &&& 0x3f#8).toNat < 2 ^ 6 := by
    rw [byte_and_3f]; exact Nat.mod_lt _ (by omega)
  rcases readVarTail_total w (m - 2) 6 _ ((b &&& 0x40#8) ≠ 0#8) s
    (setWidth_byte_lt (w := w) h6) (by omega) with ⟨k, v, h1, h2, h3, h4⟩ | ⟨st, h1, h2⟩
  · left
    refine ⟨k, v, (b &&& 0x80#8) ≠ 0#8, by omega, h2, ?_, ?_⟩
    · unfold readVarSCont
      rw [rrun_bind, h3]
      rfl
    · refine Nat.lt_of_lt_of_le h4 (Nat.pow_le_pow_right (by omega) ?_)
      unfold sCap
      split <;> split <;> omega
  · right
    refine ⟨st, ?_, by omega⟩
    unfold readVarSCont
    rw [rrun_bind, h1]

/-- Outcome of `readVarS` on any input. -/
theorem readVarS_total (w m : Nat) (hm : 2 ≤ m) (hw : 7 * m ≤ w) (s : RState) :
    (∃ k v neg, 1 ≤ k ∧ k ≤ m ∧ 8 * k ≤ s.rem.length ∧
      rrun (readVarS w (m - 2)) s =
        (.ok (if neg = true then -v else v), ⟨s.rem.drop (8 * k), s.pos + 8 * k⟩) ∧ v.toNat < 2 ^ sCap m k) ∨
    (∃ st, rrun (readVarS w (m - 2)) s = (.error .eof, st) ∧ s.rem.length < 8 * m) := by
  by_cases h : 8 ≤ s.rem.length
  · have hrun : rrun (readVarS w (m - 2)) s = rrun (readVarSCont w (m - 2) (BitVec.ofNat 8 (bitsVal (s.rem.take 8))))
        ⟨s.rem.drop 8, s.pos + 8⟩ := by
      unfold readVarS
      rw [rrun_bind, rrun_byte, if_pos h]
    rcases readVarSCont_total w m hm hw (BitVec.ofNat 8 (bitsVal (s.rem.take 8))) ⟨s.rem.drop 8, s.pos + 8⟩ with
      ⟨k, v, neg, h1, h2, h3, h4⟩ | ⟨st, h1, h2⟩
    · left
      refine ⟨k + 1, v, neg, by omega, h1, ?_, ?_, h4⟩
      · simp only [List.length_drop] at h2; omega
      · rw [hrun, h3]
        simp only [List.drop_drop]
        congr 2
        · congr 1; omega
        · omega
    · right
      refine ⟨st, by rw [hrun, h1], ?_⟩
      simp only [List.length_drop] at h2; omega
  · right
    refine ⟨⟨List.replicate (s.rem.length % 8) false, s.pos⟩, ?_, by omega⟩
    · unfold readVarS
      rw [rrun_bind, rrun_byte, if_neg h]

end Verif
