import Verif.Spec

/-!
# Fixed width integers, bit fields and booleans: /repo/ztype/bits_encode.go, bits_decode.go, bool_*.go
-/

namespace Verif

/-- `bits - 1` for a Go `uint8` (wraps at zero). -/
def pred8 (n : Nat) : Nat := if n = 0 then 255 else n - 1

/-- /repo/ztype/bits_encode.go:14-19 `WriteUnsignedBits`. `bits` is a Go uint8, here a `Nat`. -/
def writeUnsignedBits (v : BitVec 64) (bits : Nat) : Wr Unit :=
  if v > (1#64 <<< bits) - 1#64 then throw .bitRange else Wr.bits v bits

/-- /repo/ztype/bits_encode.go:22-38 `WriteSignedBits`. -/
def writeSignedBits (v : BitVec 64) (bits : Nat) : Wr Unit :=
  if bits > 64 then throw (.panic "can not read more than 64 bits") else
  let min : BitVec 64 := -(1#64 <<< pred8 bits)
  let max : BitVec 64 := (1#64 <<< pred8 bits) - 1#64
  if v.slt min || max.slt v then throw .bitRange else
  if (0#64).sle v then Wr.bits v bits
  else Wr.bits ((1#64 <<< bits) ||| (v + (1#64 <<< bits))) bits

/-- /repo/ztype/bits_decode.go:6-8 `ReadUnsignedBits`. -/
def readUnsignedBits (bits : Nat) : Rd (BitVec 64) := Rd.bits bits

/-- /repo/ztype/bits_decode.go:11-25 `ReadSignedBits`. -/
def readSignedBits (bits : Nat) : Rd (BitVec 64) :=
  if bits > 64 then throw (.panic "can not read more than 64 bits") else do
  let u ← Rd.bits bits
  if u &&& (1#64 <<< pred8 bits) ≠ 0#64 then pure (u - (1#64 <<< bits)) else pure u

/-- /repo/ztype/bits_encode.go:41-59 `WriteUint8`, `WriteUint16`, `WriteUint32`, `WriteUint64`: the four functions
differ only in the width `w`. -/
def writeUint (w : Nat) (v : BitVec w) : Wr Unit := writeUnsignedBits (v.setWidth 64) w

/-- /repo/ztype/bits_encode.go:61-79 `WriteInt8`, `WriteInt16`, `WriteInt32`, `WriteInt64`. -/
def writeInt (w : Nat) (v : BitVec w) : Wr Unit := writeSignedBits (v.signExtend 64) w

/-- /repo/ztype/bits_decode.go:28-49 `ReadUint8` … `ReadUint64`. -/
def readUint (w : Nat) : Rd (BitVec w) := do let v ← readUnsignedBits w; pure (v.setWidth w)

/-- /repo/ztype/bits_decode.go:52-73 `ReadInt8` … `ReadInt64`. -/
def readInt (w : Nat) : Rd (BitVec w) := do let v ← readSignedBits w; pure (v.setWidth w)

/-- /repo/ztype/bool_encode.go `WriteBool`. -/
def writeBool (b : Bool) : Wr Unit := Wr.bool b

/-- /repo/ztype/bool_decode.go `ReadBool`. -/
def readBool : Rd Bool := Rd.bool

/-! ## Arithmetic facts -/

theorem shl1_toNat {n : Nat} (h : n < 64) : (1#64 <<< n).toNat = 2 ^ n := by
  rw [BitVec.toNat_shiftLeft]
  simp only [BitVec.toNat_ofNat, Nat.shiftLeft_eq]
  have : 2 ^ n < 2 ^ 64 := Nat.pow_lt_pow_right (by omega) h
  rw [show 1 % 2 ^ 64 = 1 from rfl, Nat.one_mul, Nat.mod_eq_of_lt this]

theorem shl1_ge {n : Nat} (h : 64 ≤ n) : 1#64 <<< n = 0#64 := BitVec.shiftLeft_eq_zero h

theorem mask_toNat {n : Nat} (h : n ≤ 64) : ((1#64 <<< n) - 1#64).toNat = 2 ^ n - 1 := by
  rcases Nat.lt_or_eq_of_le h with h | h
  · rw [BitVec.toNat_sub, shl1_toNat h]
    have : 2 ^ n < 2 ^ 64 := Nat.pow_lt_pow_right (by omega) h
    have := Nat.two_pow_pos n
    simp only [BitVec.toNat_ofNat]
    omega
  · subst h; rfl

theorem writeUnsignedBits_ok {v : BitVec 64} {n : Nat} (hn : n ≤ 64) (hv : v.toNat < 2 ^ n) :
    writeUnsignedBits v n = Wr.bits v n := by
  unfold writeUnsignedBits
  rw [if_neg]
  rw [gt_iff_lt, BitVec.lt_def, mask_toNat hn]
  omega

theorem writeUnsignedBits_err {v : BitVec 64} {n : Nat} (hn : n ≤ 64) (hv : ¬ v.toNat < 2 ^ n) :
    writeUnsignedBits v n = throw .bitRange := by
  unfold writeUnsignedBits
  rw [if_pos]
  rw [gt_iff_lt, BitVec.lt_def, mask_toNat hn]
  have := Nat.two_pow_pos n
  omega

/-- Range of an `n` bit signed field, on integers. -/
def SignedFits (v : Int) (n : Nat) : Prop := -2 ^ (n - 1) ≤ v ∧ v < 2 ^ (n - 1)

instance (v : Int) (n : Nat) : Decidable (SignedFits v n) := by unfold SignedFits; infer_instance

theorem shl1_toInt {n : Nat} (h : n < 63) : (1#64 <<< n).toInt = 2 ^ n := by
  rw [BitVec.toInt_eq_toNat_of_lt]
  · rw [shl1_toNat (by omega)]; norm_cast
  · rw [shl1_toNat (by omega)]
    have : 2 ^ n < 2 ^ 63 := Nat.pow_lt_pow_right (by omega) h
    omega

theorem signedRange_iff {v : BitVec 64} {n : Nat} (h1 : 1 ≤ n) (h2 : n ≤ 64) :
    (v.slt (-(1#64 <<< pred8 n)) || ((1#64 <<< pred8 n) - 1#64).slt v) = true ↔ ¬ SignedFits v.toInt n := by
  have hp : pred8 n = n - 1 := by unfold pred8; split <;> omega
  rw [hp]
  have hm := BitVec.toInt_lt (x := v)
  have hm' := BitVec.le_toInt (x := v)
  unfold SignedFits
  rw [Bool.or_eq_true, BitVec.slt_iff_toInt_lt, BitVec.slt_iff_toInt_lt]
  rcases Nat.lt_or_eq_of_le h2 with h | h
  · have hs : (1#64 <<< (n - 1)).toInt = 2 ^ (n - 1) := shl1_toInt (by omega)
    have hlt : (2 : Int) ^ (n - 1) < 2 ^ 63 := by
      have : 2 ^ (n - 1) < 2 ^ 63 := Nat.pow_lt_pow_right (by omega) (by omega)
      exact_mod_cast this
    have hpos : (0 : Int) < 2 ^ (n - 1) := by positivity
    have e1 : (-(1#64 <<< (n - 1))).toInt = -2 ^ (n - 1) := by
      rw [BitVec.toInt_neg, hs]
      generalize (2 : Int) ^ (n - 1) = q at *
      exact Int.bmod_eq_of_le (by omega) (by omega)
    have e2 : ((1#64 <<< (n - 1)) - 1#64).toInt = 2 ^ (n - 1) - 1 := by
      rw [BitVec.toInt_sub, hs]
      generalize (2 : Int) ^ (n - 1) = q at *
      have : (1#64).toInt = 1 := rfl
      rw [this]
      exact Int.bmod_eq_of_le (by omega) (by omega)
    rw [e1, e2]
    omega
  · subst h
    have e1 : (-(1#64 <<< (64 - 1))).toInt = -2 ^ 63 := by decide
    have e2 : ((1#64 <<< (64 - 1)) - 1#64).toInt = 2 ^ 63 - 1 := by decide
    rw [e1, e2]
    omega

theorem natBits_congr {n a b : Nat} (h : a % 2 ^ n = b % 2 ^ n) : natBits n a = natBits n b := by
  rw [← natBits_mod n a (Nat.le_refl n), ← natBits_mod n b (Nat.le_refl n), h]

theorem neg_pattern_mod (v : BitVec 64) {n : Nat} (h : n ≤ 64) :
    ((1#64 <<< n) ||| (v + (1#64 <<< n))).toNat % 2 ^ n = v.toNat % 2 ^ n := by
  rcases Nat.lt_or_eq_of_le h with h | h
  · have hsum : (v + (1#64 <<< n)).toNat % 2 ^ n = v.toNat % 2 ^ n := by
      rw [BitVec.toNat_add, shl1_toNat h]
      rw [Nat.mod_mod_of_dvd _ (Nat.pow_dvd_pow 2 (by omega)), Nat.add_mod_right]
    rw [BitVec.toNat_or, shl1_toNat h, Nat.or_mod_two_pow, Nat.mod_self, Nat.zero_or, hsum]
  · subst h
    rw [shl1_ge (Nat.le_refl _)]; simp

/-- The bits written for a signed field are the low bits of the value. -/
theorem writeSignedBits_ok {v : BitVec 64} {n : Nat} (h1 : 1 ≤ n) (h2 : n ≤ 64) (hv : SignedFits v.toInt n)
    (s : List Bool) : Writes (writeSignedBits v n) s (natBits n v.toNat) := by
  unfold Writes writeSignedBits
  rw [if_neg (by omega)]
  dsimp only
  rw [if_neg (by rw [signedRange_iff h1 h2]; simpa using hv)]
  split
  · rw [wrun_bits]
  · rw [wrun_bits, natBits_congr (neg_pattern_mod v h2)]

theorem writeSignedBits_err {v : BitVec 64} {n : Nat} (h1 : 1 ≤ n) (h2 : n ≤ 64) (hv : ¬ SignedFits v.toInt n) :
    writeSignedBits v n = throw .bitRange := by
  unfold writeSignedBits
  rw [if_neg (by omega)]
  dsimp only
  rw [if_pos (by rw [signedRange_iff h1 h2]; exact hv)]

theorem and_shl1_ne_zero {u : BitVec 64} {k : Nat} (hk : k < 64) :
    u &&& (1#64 <<< k) ≠ 0#64 ↔ u.toNat.testBit k = true := by
  constructor
  · intro h
    by_contra hc
    apply h
    apply BitVec.eq_of_getLsbD_eq
    intro i hi
    simp only [BitVec.getLsbD_and, BitVec.getLsbD_shiftLeft, BitVec.getLsbD_zero]
    by_cases hik : i = k
    · subst hik
      have : u.getLsbD i = false := by
        simpa [BitVec.getLsbD] using hc
      simp [this]
    · by_cases hlt : i < k
      · simp [hlt]
      · have : (1#64).getLsbD (i - k) = false := by
          rw [BitVec.getLsbD_one]; simp; omega
        simp [this]
  · intro h hc
    have := congrArg (fun x => BitVec.getLsbD x k) hc
    simp only [BitVec.getLsbD_and, BitVec.getLsbD_shiftLeft, BitVec.getLsbD_zero] at this
    have h2 : u.getLsbD k = true := h
    rw [h2] at this
    simp [hk] at this

theorem testBit_top {a n : Nat} (ha : a < 2 ^ n) (hn : 1 ≤ n) : a.testBit (n - 1) = decide (2 ^ (n - 1) ≤ a) := by
  obtain ⟨m, rfl⟩ : ∃ m, n = m + 1 := ⟨n - 1, by omega⟩
  simp only [Nat.add_sub_cancel]
  rw [Nat.testBit_eq_decide_div_mod_eq]
  congr 1
  have h2 : a < 2 ^ m * 2 := by rw [← pow_succ]; exact ha
  have : a / 2 ^ m < 2 := Nat.div_lt_of_lt_mul h2
  have hp := Nat.two_pow_pos m
  rw [eq_iff_iff]
  constructor
  · intro h
    by_contra hc
    rw [Nat.div_eq_of_lt (by omega)] at h
    simp at h
  · intro h
    have : 1 ≤ a / 2 ^ m := by rw [Nat.le_div_iff_mul_le hp]; omega
    omega

/-- Recovering the signed value from its low `n` bits. -/
theorem signed_recover {v : BitVec 64} {n : Nat} (h1 : 1 ≤ n) (h2 : n ≤ 64) (hv : SignedFits v.toInt n) :
    (if (BitVec.ofNat 64 (v.toNat % 2 ^ n)) &&& (1#64 <<< pred8 n) ≠ 0#64
      then (BitVec.ofNat 64 (v.toNat % 2 ^ n)) - (1#64 <<< n) else BitVec.ofNat 64 (v.toNat % 2 ^ n)) = v := by
  have hp : pred8 n = n - 1 := by unfold pred8; split <;> omega
  rw [hp]
  have hP : 2 ^ n ≤ 2 ^ 64 := Nat.pow_le_pow_right (by omega) h2
  have hPpos := Nat.two_pow_pos n
  have hmod : v.toNat % 2 ^ n < 2 ^ n := Nat.mod_lt _ hPpos
  have hu : (BitVec.ofNat 64 (v.toNat % 2 ^ n)).toNat = v.toNat % 2 ^ n := by
    rw [BitVec.toNat_ofNat]; exact Nat.mod_eq_of_lt (by omega)
  have hhalf : 2 ^ n = 2 * 2 ^ (n - 1) := by
    rw [← pow_succ']; congr 1; omega
  obtain ⟨hlo, hhi⟩ := hv
  have hcast : (2 : Int) ^ (n - 1) = ((2 ^ (n - 1) : Nat) : Int) := by norm_cast
  rw [hcast] at hlo hhi
  have hvlt := v.isLt
  have hiff : (BitVec.ofNat 64 (v.toNat % 2 ^ n) &&& (1#64 <<< (n - 1)) ≠ 0#64) ↔ 2 ^ (n - 1) ≤ v.toNat % 2 ^ n := by
    rw [and_shl1_ne_zero (by omega), hu, testBit_top hmod h1]; simp
  rw [BitVec.toInt_eq_toNat_cond] at hlo hhi
  by_cases hneg : 2 * v.toNat < 2 ^ 64
  · rw [if_pos hneg] at hlo hhi
    have hlt : v.toNat < 2 ^ (n - 1) := by omega
    have hm : v.toNat % 2 ^ n = v.toNat := Nat.mod_eq_of_lt (by omega)
    rw [hm] at hiff ⊢
    rw [if_neg (by rw [hiff]; omega)]
    simp
  · rw [if_neg hneg] at hlo hhi
    have hge : 2 ^ 64 - 2 ^ (n - 1) ≤ v.toNat := by omega
    obtain ⟨q, hq⟩ : 2 ^ n ∣ 2 ^ 64 := Nat.pow_dvd_pow 2 h2
    have hsplit : v.toNat = (v.toNat - (2 ^ 64 - 2 ^ n)) + 2 ^ n * (q - 1) := by
      rw [Nat.mul_sub, Nat.mul_one, ← hq]; omega
    have hm : v.toNat % 2 ^ n = v.toNat - (2 ^ 64 - 2 ^ n) := by
      conv_lhs => rw [hsplit]
      rw [Nat.add_mul_mod_self_left, Nat.mod_eq_of_lt (by omega)]
    rw [hm] at hiff ⊢
    rw [if_pos (by rw [hiff]; omega)]
    apply BitVec.eq_of_toNat_eq
    rw [BitVec.toNat_sub, BitVec.toNat_ofNat]
    rcases Nat.lt_or_eq_of_le h2 with h | h
    · rw [shl1_toNat h]; omega
    · subst h; rw [shl1_ge (Nat.le_refl _)]; simp; omega

theorem readSignedBits_reads {v : BitVec 64} {n : Nat} (h1 : 1 ≤ n) (h2 : n ≤ 64) (hv : SignedFits v.toInt n)
    (pos : Nat) : Reads (readSignedBits n) (natBits n v.toNat) pos v := by
  intro rest
  unfold readSignedBits
  rw [if_neg (by omega), rrun_bind, rrun_bits_append n _ rest pos (natBits_length _ _), bitsVal_natBits]
  have h := signed_recover h1 h2 hv
  simp only [natBits_length]
  split
  · rename_i hc; rw [if_pos hc] at h; rw [rrun_pure, h]
  · rename_i hc; rw [if_neg hc] at h; rw [rrun_pure, h]

theorem readUnsignedBits_reads {v : BitVec 64} {n : Nat} (hv : v.toNat < 2 ^ n) (pos : Nat) :
    Reads (readUnsignedBits n) (natBits n v.toNat) pos v := by
  intro rest
  unfold readUnsignedBits
  rw [rrun_bits_append n _ rest pos (natBits_length _ _), bitsVal_natBits_of_lt hv, natBits_length]
  simp

theorem writeUnsignedBits_writes {v : BitVec 64} {n : Nat} (hn : n ≤ 64) (hv : v.toNat < 2 ^ n) (s : List Bool) :
    Writes (writeUnsignedBits v n) s (natBits n v.toNat) := by
  unfold Writes; rw [writeUnsignedBits_ok hn hv, wrun_bits]

theorem writeUint_writes {w : Nat} (hw : w ≤ 64) (v : BitVec w) (s : List Bool) :
    Writes (writeUint w v) s (natBits w v.toNat) := by
  have hlt := v.isLt
  have h64 : 2 ^ w ≤ 2 ^ 64 := Nat.pow_le_pow_right (by omega) hw
  have e : (v.setWidth 64).toNat = v.toNat := by
    rw [BitVec.toNat_setWidth]; exact Nat.mod_eq_of_lt (by omega)
  have := writeUnsignedBits_writes (v := v.setWidth 64) hw (by rw [e]; exact hlt) s
  rw [e] at this; exact this

theorem readUint_reads {w : Nat} (hw : w ≤ 64) (v : BitVec w) (pos : Nat) :
    Reads (readUint w) (natBits w v.toNat) pos v := by
  have hlt := v.isLt
  have h64 : 2 ^ w ≤ 2 ^ 64 := Nat.pow_le_pow_right (by omega) hw
  have e : (v.setWidth 64).toNat = v.toNat := by
    rw [BitVec.toNat_setWidth]; exact Nat.mod_eq_of_lt (by omega)
  have h := readUnsignedBits_reads (v := v.setWidth 64) (n := w) (by rw [e]; exact hlt) pos
  rw [e] at h
  have h2 := Reads.map (f := fun x : BitVec 64 => x.setWidth w) h
  have e2 : (v.setWidth 64).setWidth w = v := by
    apply BitVec.eq_of_toNat_eq
    rw [BitVec.toNat_setWidth, e, Nat.mod_eq_of_lt hlt]
  rw [e2] at h2; exact h2

theorem signExtend_fits {w : Nat} (hw : w ≤ 64) (v : BitVec w) :
    SignedFits (v.signExtend 64).toInt w := by
  have h := BitVec.toInt_lt (x := v)
  have h' := BitVec.le_toInt (x := v)
  rw [BitVec.toInt_signExtend_of_le hw]
  exact ⟨by exact_mod_cast h', by exact_mod_cast h⟩

theorem setWidth_signExtend64 {w : Nat} (hw : w ≤ 64) (v : BitVec w) : (v.signExtend 64).setWidth w = v := by
  apply BitVec.eq_of_getLsbD_eq
  intro i hi
  simp only [BitVec.getLsbD_setWidth, BitVec.getLsbD_signExtend]
  simp [hi, show i < 64 by omega]

theorem signExtend_low {w : Nat} (hw : w ≤ 64) (v : BitVec w) :
    (v.signExtend 64).toNat % 2 ^ w = v.toNat := by
  have h : (v.signExtend 64).setWidth w = v := setWidth_signExtend64 hw v
  have := congrArg BitVec.toNat h
  rwa [BitVec.toNat_setWidth] at this

theorem writeInt_writes {w : Nat} (h1 : 1 ≤ w) (hw : w ≤ 64) (v : BitVec w) (s : List Bool) :
    Writes (writeInt w v) s (natBits w v.toNat) := by
  have := writeSignedBits_ok h1 hw (signExtend_fits hw v) s
  rwa [← natBits_mod w _ (Nat.le_refl w), signExtend_low hw] at this

theorem readInt_reads {w : Nat} (h1 : 1 ≤ w) (hw : w ≤ 64) (v : BitVec w) (pos : Nat) :
    Reads (readInt w) (natBits w v.toNat) pos v := by
  have h := readSignedBits_reads h1 hw (signExtend_fits hw v) pos
  rw [← natBits_mod w _ (Nat.le_refl w), signExtend_low hw] at h
  have h2 := Reads.map (f := fun x : BitVec 64 => x.setWidth w) h
  rw [setWidth_signExtend64 hw] at h2
  exact h2

end Verif
