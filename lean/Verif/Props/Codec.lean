import Verif.Codec
import Verif.Props.Ints

/-!
# C15 (strings, byte buffers, bit buffers) and C16 (floats)
-/

namespace Verif

theorem ofNat64_toNat {n : Nat} (h : n < 2 ^ 64) : (BitVec.ofNat 64 n).toNat = n := by
  rw [BitVec.toNat_ofNat]; exact Nat.mod_eq_of_lt h

/-- Writing and reading a varsize, with the size `UnsignedBitSize(·, 5)` reports. -/
theorem varsize_rt (v : BitVec 64) (hv : v.toNat ≤ maxVarsize) (s : List Bool) :
    ∃ out, unsignedBitSize v 5 = .ok out.length ∧ Writes (writeVarsize v) s out ∧ Reads readVarsize out s.length v := by
  obtain ⟨out, k, h1, h2, h3, h4, h5⟩ := (C04_varsize v s).1 hv
  refine ⟨out, ?_, h4, h5⟩
  have hgt : ¬ v > BitVec.ofNat 64 maxVarsize := by
    rw [gt_iff_lt, BitVec.lt_def, show (BitVec.ofNat 64 maxVarsize).toNat = maxVarsize from rfl]; omega
  have h4' : Writes (writeVarUint v 5) s out := by
    unfold writeVarsize at h4; rwa [if_neg hgt] at h4
  have h6 := C06_unsigned_size v 5 (by omega) (by omega) s
  cases hb : unsignedBitSize v 5 with
  | ok n =>
    obtain ⟨o, ho, hw⟩ := h6.1 n hb
    rw [← hw.unique h4', ho]
  | error e =>
    have := h6.2 e hb
    unfold Rejects at this
    unfold Writes at h4'
    rw [this] at h4'
    simp at h4'

/-! ## C15 -/

/-- C15 for strings: round trip, and the size reported by `BitSizeOfString` is the number of bits written. -/
theorem C15_string (v : List Byte) (h : v.length ≤ maxVarsize) (s : List Bool) :
    ∃ out, bitSizeOfString v = .ok out.length ∧ Writes (writeString v) s out ∧ Reads readString out s.length v := by
  have e : (BitVec.ofNat 64 v.length).toNat = v.length := ofNat64_toNat (by unfold maxVarsize at h; omega)
  obtain ⟨out, h1, h2, h3⟩ := varsize_rt (BitVec.ofNat 64 v.length) (by rw [e]; exact h) s
  refine ⟨out ++ bytesBits v, ?_, ?_, ?_⟩
  · unfold bitSizeOfString
    rw [h1]
    show Except.ok _ = _
    rw [List.length_append, bytesBits_length, Nat.mul_comm v.length]
  · exact h2.bind (wrun_bytes v _)
  · refine h3.bind ?_
    intro rest
    rw [e, rrun_full_append v _ _ _ rfl, bytesBits_length]

/-- C15: longer strings are rejected and nothing is written (a Go string is shorter than 2^63). -/
theorem C15_string_reject (v : List Byte) (h : maxVarsize < v.length) (h' : v.length < 2 ^ 63) (s : List Bool) :
    Rejects (writeString v) s .outOfBounds := by
  have e : (BitVec.ofNat 64 v.length).toNat = v.length := ofNat64_toNat (by omega)
  have := (C04_varsize (BitVec.ofNat 64 v.length) s).2 (by rw [e]; exact h)
  unfold Rejects writeString at *
  rw [wrun_bind, this]

/-- C15 for byte buffers. -/
theorem C15_bytes (b : BytesV) (hwf : b.Wf) (h : b.byteSize.toNat ≤ maxVarsize) : RoundTrip (writeBytes b) readBytes b := by
  intro s
  obtain ⟨out, h1, h2, h3⟩ := varsize_rt b.byteSize h s
  refine ⟨out ++ bytesBits b.buffer, h2.bind (wrun_bytes _ _), h3.bind ?_⟩
  intro rest
  rw [rrun_bind, rrun_full_append b.buffer _ _ _ hwf.symm, bytesBits_length]
  dsimp only
  rw [rrun_pure, hwf]

/-- C15: byte buffers that are too long are rejected and nothing is written. -/
theorem C15_bytes_reject (b : BytesV) (h : maxVarsize < b.byteSize.toNat) (s : List Bool) :
    Rejects (writeBytes b) s .outOfBounds := by
  have := (C04_varsize b.byteSize s).2 h
  unfold Rejects writeBytes at *
  rw [wrun_bind, this]

theorem readExtern_last {rem : Nat} (hr : rem < 8) (last : Byte)
    (hz : last.toNat % 2 ^ (8 - rem) = 0) :
    ((BitVec.ofNat 64 (bitsVal (natBits rem (last.setWidth 64 >>> (8 - rem)).toNat))) <<< (8 - rem)).setWidth 8 = last := by
  have hl := last.isLt
  apply BitVec.eq_of_toNat_eq
  have e1 : (last.setWidth 64 >>> (8 - rem)).toNat = last.toNat / 2 ^ (8 - rem) := by
    rw [BitVec.toNat_ushiftRight, BitVec.toNat_setWidth, Nat.shiftRight_eq_div_pow, Nat.mod_eq_of_lt (by omega)]
  have hpow : 2 ^ rem * 2 ^ (8 - rem) = 256 := by rw [← Nat.pow_add, show rem + (8 - rem) = 8 by omega]
  have hlt : last.toNat / 2 ^ (8 - rem) < 2 ^ rem := by
    rw [Nat.div_lt_iff_lt_mul (Nat.two_pow_pos _), hpow]; exact hl
  have hrem : 2 ^ rem ≤ 2 ^ 8 := Nat.pow_le_pow_right (by omega) (by omega)
  rw [e1, bitsVal_natBits_of_lt hlt, BitVec.toNat_setWidth, BitVec.toNat_shiftLeft, ofNat64_toNat (by omega), Nat.shiftLeft_eq]
  have hm := Nat.div_add_mod last.toNat (2 ^ (8 - rem))
  rw [hz, Nat.add_zero, Nat.mul_comm] at hm
  rw [hm]
  omega

/-- C15 for bit buffers. -/
theorem C15_extern (e : ExternV) (hwf : e.Wf) (h : e.bitSize.toNat ≤ maxVarsize) :
    RoundTrip (writeExtern e) readExtern e := by
  intro s
  obtain ⟨out, h1, h2, h3⟩ := varsize_rt e.bitSize h s
  obtain ⟨hlen, hzero⟩ := hwf
  have htake : (e.buffer.take (e.bitSize.toNat / 8)).length = e.bitSize.toNat / 8 := by
    rw [List.length_take]; omega
  by_cases h0 : e.bitSize.toNat % 8 = 0
  · refine ⟨out ++ bytesBits e.buffer, ?_, ?_⟩
    · unfold writeExtern
      refine h2.bind ?_
      unfold Writes
      dsimp only
      rw [if_neg (by omega), wrun_bind, wrun_bytes]
      dsimp only
      rw [if_neg (by omega), wrun_pure, List.take_of_length_le (by omega)]
    · unfold readExtern
      refine h3.bind ?_
      intro rest
      dsimp only
      rw [rrun_bind, rrun_full_append e.buffer _ _ _ (by omega)]
      dsimp only
      rw [if_neg (by omega), rrun_pure, bytesBits_length]
      congr 2; omega
  · obtain ⟨full, last, hb⟩ : ∃ full last, e.buffer = full ++ [last] := by
      have hne : e.buffer ≠ [] := by intro hn; rw [hn] at hlen; simp at hlen; omega
      exact ⟨_, _, (List.dropLast_append_getLast hne).symm⟩
    have hfl : full.length = e.bitSize.toNat / 8 := by
      rw [hb, List.length_append, List.length_singleton] at hlen; omega
    have hlast : e.buffer.getLast? = some last := by rw [hb]; simp
    have hz := hzero h0 last hlast
    have hrl : (natBits (e.bitSize.toNat % 8) (last.setWidth 64 >>> (8 - e.bitSize.toNat % 8)).toNat).length =
        e.bitSize.toNat % 8 := natBits_length _ _
    refine ⟨out ++ (bytesBits full ++
      natBits (e.bitSize.toNat % 8) (last.setWidth 64 >>> (8 - e.bitSize.toNat % 8)).toNat), ?_, ?_⟩
    · unfold writeExtern
      refine h2.bind ?_
      unfold Writes
      dsimp only
      rw [if_neg (by omega), wrun_bind, wrun_bytes]
      dsimp only
      rw [if_pos h0, hlast]
      dsimp only
      rw [wrun_bits, hb, ← hfl, List.take_left, List.append_assoc, List.append_assoc]
    · unfold readExtern
      refine h3.bind ?_
      intro rest
      dsimp only
      rw [rrun_bind, List.append_assoc, rrun_full_append full _ _ _ hfl]
      dsimp only
      rw [if_pos h0, rrun_bind, rrun_bits_append _ _ _ _ hrl]
      dsimp only
      rw [rrun_pure, readExtern_last (Nat.mod_lt _ (by omega)) last hz, ← hb, List.length_append, bytesBits_length,
        natBits_length, hfl]
      congr 2; omega

/-- C15: bit buffers that are too long are rejected and nothing is written. -/
theorem C15_extern_reject (e : ExternV) (h : maxVarsize < e.bitSize.toNat) (s : List Bool) :
    Rejects (writeExtern e) s .outOfBounds := by
  have := (C04_varsize e.bitSize s).2 h
  unfold Rejects writeExtern at *
  rw [wrun_bind, this]

/-- Why C15 asks for well-formed buffers: with one spare byte at the end, the code takes the last bits from the wrong
byte, and the value read back differs in the bits that count (0xff became 0x00). -/
theorem C15_extern_spare_byte :
    ∃ out, Writes (writeExtern ⟨[0xff#8, 0x00#8], 4#64⟩) [] out ∧ Reads readExtern out 0 ⟨[0x00#8], 4#64⟩ := by
  have hw : (⟨[0x00#8], 4#64⟩ : ExternV).Wf :=
    ⟨by decide, fun _ last hl => by
      have h2 : some 0x00#8 = some last := hl
      cases h2; decide⟩
  obtain ⟨out, h1, h2⟩ := C15_extern ⟨[0x00#8], 4#64⟩ hw (by decide) []
  refine ⟨out, ?_, h2⟩
  have : wrun (writeExtern ⟨[0xff#8, 0x00#8], 4#64⟩) [] = wrun (writeExtern ⟨[0x00#8], 4#64⟩) [] := by decide +kernel
  unfold Writes at *
  rw [this]; exact h1

/-- C15: whatever `ReadExtern` returns is well-formed as far as its length goes. -/
theorem C15_read_extern_length (st st' : RState) (e : ExternV) (h : rrun readExtern st = (.ok e, st')) :
    e.buffer.length = (e.bitSize.toNat + 7) / 8 := by
  unfold readExtern at h
  rw [rrun_bind] at h
  cases hv : rrun readVarsize st with
  | mk r st1 =>
    cases r with
    | error x => rw [hv] at h; simp at h
    | ok size =>
      rw [hv] at h
      dsimp only at h
      have hfull : ∀ n st2 buf st3, rrun (Rd.full n) st2 = (.ok buf, st3) → buf.length = n := by
        intro n st2 buf st3 hf
        have hf' := (rrun_call (.full n) st2).symm.trans hf
        split at hf'
        · rename_i hle
          have hf := congrArg Prod.fst hf'
          have hf : bitsBytes (st2.rem.take (8 * n)) = buf := Except.ok.inj hf
          rw [← hf]
          change 8 * n ≤ _ at hle
          have hl : (st2.rem.take (8 * n)).length = 8 * n := by
            rw [List.length_take]; exact Nat.min_eq_left hle
          have := congrArg List.length (bytesBits_bitsBytes (st2.rem.take (8 * n)) (by rw [hl]; exact Nat.dvd_mul_right _ _))
          rw [bytesBits_length, hl] at this
          show (bitsBytes (st2.rem.take (8 * n))).length = n
          omega
        · have := congrArg Prod.fst hf'
          simp at this
      rw [rrun_bind] at h
      cases hb : rrun (Rd.full (size.toNat / 8)) st1 with
      | mk r2 st2 =>
        cases r2 with
        | error x => rw [hb] at h; simp at h
        | ok buf =>
          have hbl := hfull _ _ _ _ hb
          rw [hb] at h
          dsimp only at h
          split at h
          · rename_i h0
            rw [rrun_bind] at h
            cases hc : rrun (Rd.bits (size.toNat % 8)) st2 with
            | mk r3 st3 =>
              cases r3 with
              | error x => rw [hc] at h; simp at h
              | ok last =>
                rw [hc] at h
                dsimp only at h
                rw [rrun_pure] at h
                simp only [Prod.mk.injEq, Except.ok.injEq] at h
                rw [← h.1]
                simp only [List.length_append, List.length_singleton, hbl]
                omega
          · rw [rrun_pure] at h
            simp only [Prod.mk.injEq, Except.ok.injEq] at h
            rw [← h.1]
            simp only [hbl]
            omega

example : ∃ out, bitSizeOfString [0x68#8, 0x69#8] = .ok out.length ∧ Writes (writeString [0x68#8, 0x69#8]) [true] out ∧
    Reads readString out 1 [0x68#8, 0x69#8] := C15_string _ (by decide) [true]
example : RoundTrip (writeExtern ⟨[0xab#8, 0xc0#8], 11#64⟩) readExtern ⟨[0xab#8, 0xc0#8], 11#64⟩ :=
  C15_extern _ ⟨by decide, fun _ last hl => by
    have h2 : some 0xc0#8 = some last := hl
    cases h2; decide⟩ (by decide)
example : Rejects (writeBytes ⟨[], 0x80000000#64⟩) [] .outOfBounds := C15_bytes_reject _ (by decide) []

/-! ## C16 -/

/-- C16 for float32: the 32 bits of the pattern, most significant first. -/
theorem C16_float32 (v : BitVec 32) (s : List Bool) :
    Writes (writeFloat32 v) s (natBits 32 v.toNat) ∧ Reads readFloat32 (natBits 32 v.toNat) s.length v :=
  ⟨binaryWrite_writes 4 v s, binaryRead_reads 4 v s.length⟩

/-- C16 for float64. -/
theorem C16_float64 (v : BitVec 64) (s : List Bool) :
    Writes (writeFloat64 v) s (natBits 64 v.toNat) ∧ Reads readFloat64 (natBits 64 v.toNat) s.length v :=
  ⟨binaryWrite_writes 8 v s, binaryRead_reads 8 v s.length⟩

/-- A half-precision pattern that is a signalling NaN. -/
def IsSignallingHalf (h : BitVec 16) : Prop :=
  h &&& 0x7c00#16 = 0x7c00#16 ∧ h &&& 0x03ff#16 ≠ 0#16 ∧ h &&& 0x0200#16 = 0#16

theorem f16_survives {h : BitVec 16} (hn : ¬ IsSignallingHalf h) : f32to16 (f16to32 h) = h := by
  have := f16ok_all h
  unfold f16ok at this
  rw [beq_iff_eq] at this
  rw [this]
  by_cases hc : h &&& 0x7c00#16 = 0x7c00#16 ∧ h &&& 0x03ff#16 ≠ 0#16
  · rw [if_pos hc]
    have hq : h &&& 0x0200#16 ≠ 0#16 := fun hq => hn ⟨hc.1, hc.2, hq⟩
    apply BitVec.eq_of_getLsbD_eq
    intro i hi
    rw [BitVec.getLsbD_or]
    by_cases h9 : i = 9
    · subst h9
      have : h.getLsbD 9 = true := by
        by_contra hf
        apply hq
        apply BitVec.eq_of_getLsbD_eq
        intro j hj
        rw [BitVec.getLsbD_and]
        by_cases h9 : j = 9
        · subst h9; simp at hf; simp [hf]
        · have : (0x0200#16).getLsbD j = false := by
            have : ∀ k : Fin 16, k.val ≠ 9 → (0x0200#16).getLsbD k.val = false := by decide
            exact this ⟨j, hj⟩ h9
          simp [this]
      rw [this]; rfl
    · have : (0x0200#16).getLsbD i = false := by
        have : ∀ k : Fin 16, k.val ≠ 9 → (0x0200#16).getLsbD k.val = false := by decide
        exact this ⟨i, hi⟩ h9
      rw [this, Bool.or_false]
  · rw [if_neg hc]

/-- C16 for float16: every half-precision pattern except a signalling NaN that is read and written again produces
the same 16 bits; and the single-precision value it stands for round-trips. -/
theorem C16_float16 (h : BitVec 16) (hn : ¬ IsSignallingHalf h) (s : List Bool) :
    Reads readFloat16 (natBits 16 h.toNat) s.length (f16to32 h) ∧
    Writes (writeFloat16 (f16to32 h)) s (natBits 16 h.toNat) := by
  refine ⟨(binaryRead_reads 2 h s.length).map, ?_⟩
  unfold writeFloat16
  rw [f16_survives hn]
  exact binaryWrite_writes 2 h s

/-- C16: a signalling half NaN does not survive, it becomes quiet. -/
theorem C16_float16_snan :
    IsSignallingHalf 0x7c01#16 ∧ wrun (writeFloat16 (f16to32 0x7c01#16)) [] = (.ok (), natBits 16 0x7e01) := by
  refine ⟨?_, by decide +kernel⟩
  unfold IsSignallingHalf
  decide

/-- C16: the write side of float16 never fails and always takes 16 bits (values that do not fit are rounded). -/
theorem C16_float16_total (v : BitVec 32) (s : List Bool) :
    Writes (writeFloat16 v) s (natBits 16 (f32to16 v).toNat) := binaryWrite_writes 2 _ s

example : Writes (writeFloat16 (f16to32 0x3c01#16)) [] (natBits 16 0x3c01) :=
  (C16_float16 0x3c01#16 (by unfold IsSignallingHalf; decide) []).2
example : f16to32 0x3c00#16 = 0x3f800000#32 := by decide +kernel

end Verif
