import Verif.VarintRead
import Mathlib.Data.Nat.Size

/-!
# Properties C01–C08, C17: integers

Each theorem speaks about the modelled Go functions and the vocabulary of `Verif/Spec.lean`
(`Writes`, `Rejects`, `Reads`, `RoundTrip`) only.
-/

namespace Verif

/-! ## C01 unsigned bit fields -/

/-- C01: a value that fits is written as exactly `n` bits and read back. -/
theorem C01_unsigned_bits_roundtrip (v : BitVec 64) (n : Nat) (hn : n ≤ 64) (hv : v.toNat < 2 ^ n) :
    RoundTripLen (writeUnsignedBits v n) (readUnsignedBits n) v n :=
  fun s => ⟨natBits n v.toNat, natBits_length _ _, writeUnsignedBits_writes hn hv s, readUnsignedBits_reads hv s.length⟩

/-- C01: a value that does not fit is rejected and nothing is written. -/
theorem C01_unsigned_bits_reject (v : BitVec 64) (n : Nat) (hn : n ≤ 64) (hv : 2 ^ n ≤ v.toNat) (s : List Bool) :
    Rejects (writeUnsignedBits v n) s .bitRange := by
  unfold Rejects
  rw [writeUnsignedBits_err hn (by omega), wrun_throw]

/-- C01: success happens exactly for the values below `2^n`. -/
theorem C01_unsigned_bits_iff (v : BitVec 64) (n : Nat) (hn : n ≤ 64) (s : List Bool) :
    (∃ out, Writes (writeUnsignedBits v n) s out) ↔ v.toNat < 2 ^ n := by
  constructor
  · rintro ⟨out, h⟩
    by_contra hc
    have := C01_unsigned_bits_reject v n hn (by omega) s
    unfold Writes at h; unfold Rejects at this
    rw [h] at this
    simp at this
  · intro h; exact ⟨_, writeUnsignedBits_writes hn h s⟩

example : RoundTripLen (writeUnsignedBits 0x1ff#64 9) (readUnsignedBits 9) 0x1ff#64 9 :=
  C01_unsigned_bits_roundtrip _ 9 (by decide) (by decide)
example : RoundTripLen (writeUnsignedBits 0xffffffffffffffff#64 64) (readUnsignedBits 64) 0xffffffffffffffff#64 64 :=
  C01_unsigned_bits_roundtrip _ 64 (by decide) (by decide)
example : Rejects (writeUnsignedBits 8#64 3) [true] .bitRange :=
  C01_unsigned_bits_reject _ 3 (by decide) (by decide) _

/-! ## C02 signed bit fields -/

/-- C02: a value in the two's complement range of `n` bits takes exactly `n` bits and is read back. -/
theorem C02_signed_bits_roundtrip (v : BitVec 64) (n : Nat) (h1 : 1 ≤ n) (hn : n ≤ 64)
    (hlo : -2 ^ (n - 1) ≤ v.toInt) (hhi : v.toInt < 2 ^ (n - 1)) :
    RoundTripLen (writeSignedBits v n) (readSignedBits n) v n :=
  fun s => ⟨natBits n v.toNat, natBits_length _ _, writeSignedBits_ok h1 hn ⟨hlo, hhi⟩ s,
    readSignedBits_reads h1 hn ⟨hlo, hhi⟩ s.length⟩

/-- C02: the bits on the wire are the two's complement representation modulo `2^n`. -/
theorem C02_signed_bits_wire (v : BitVec 64) (n : Nat) (h1 : 1 ≤ n) (hn : n ≤ 64)
    (hlo : -2 ^ (n - 1) ≤ v.toInt) (hhi : v.toInt < 2 ^ (n - 1)) (s : List Bool) :
    ∃ out, Writes (writeSignedBits v n) s out ∧ (bitsVal out : Int) = v.toInt % 2 ^ n := by
  refine ⟨natBits n v.toNat, writeSignedBits_ok h1 hn ⟨hlo, hhi⟩ s, ?_⟩
  rw [bitsVal_natBits, BitVec.toInt_eq_toNat_bmod]
  rw [Int.natCast_mod]
  have hd : ((2 : Int) ^ n) ∣ ((2 ^ 64 : Nat) : Int) := by
    have : (2 ^ n : Nat) ∣ (2 ^ 64 : Nat) := Nat.pow_dvd_pow 2 hn
    exact_mod_cast this
  have h := Int.bmod_emod (x := (v.toNat : Int)) (m := 2 ^ 64)
  rw [← Int.emod_emod_of_dvd (Int.bmod (v.toNat : Int) (2 ^ 64)) hd, h, Int.emod_emod_of_dvd _ hd]
  push_cast; rfl

/-- C02: any other value is rejected and nothing is written. -/
theorem C02_signed_bits_reject (v : BitVec 64) (n : Nat) (h1 : 1 ≤ n) (hn : n ≤ 64)
    (hv : v.toInt < -2 ^ (n - 1) ∨ 2 ^ (n - 1) ≤ v.toInt) (s : List Bool) :
    Rejects (writeSignedBits v n) s .bitRange := by
  unfold Rejects
  rw [writeSignedBits_err h1 hn, wrun_throw]
  rintro ⟨a, b⟩
  omega

example : RoundTripLen (writeSignedBits (-4#64) 3) (readSignedBits 3) (-4#64) 3 :=
  C02_signed_bits_roundtrip _ 3 (by decide) (by decide) (by decide) (by decide)
example : RoundTripLen (writeSignedBits minInt64 64) (readSignedBits 64) minInt64 64 :=
  C02_signed_bits_roundtrip _ 64 (by decide) (by decide) (by decide) (by decide)
example : Rejects (writeSignedBits 4#64 3) [] .bitRange :=
  C02_signed_bits_reject _ 3 (by decide) (by decide) (by decide) _

/-! ## C03 fixed width integers -/

/-- C03: every unsigned value of width 8, 16, 32 or 64 round-trips in exactly that many bits, MSB first. -/
theorem C03_uint_roundtrip (w : Nat) (hw : w = 8 ∨ w = 16 ∨ w = 32 ∨ w = 64) (v : BitVec w) (s : List Bool) :
    ∃ out, out.length = w ∧ bitsVal out = v.toNat ∧ Writes (writeUint w v) s out ∧ Reads (readUint w) out s.length v :=
  ⟨natBits w v.toNat, natBits_length _ _, bitsVal_natBits_of_lt v.isLt, writeUint_writes (by omega) v s,
    readUint_reads (by omega) v s.length⟩

/-- C03: every signed value of width 8, 16, 32 or 64 round-trips in exactly that many bits, MSB first. -/
theorem C03_int_roundtrip (w : Nat) (hw : w = 8 ∨ w = 16 ∨ w = 32 ∨ w = 64) (v : BitVec w) (s : List Bool) :
    ∃ out, out.length = w ∧ bitsVal out = v.toNat ∧ Writes (writeInt w v) s out ∧ Reads (readInt w) out s.length v :=
  ⟨natBits w v.toNat, natBits_length _ _, bitsVal_natBits_of_lt v.isLt, writeInt_writes (by omega) (by omega) v s,
    readInt_reads (by omega) (by omega) v s.length⟩

/-- C03: booleans take one bit. -/
theorem C03_bool_roundtrip (b : Bool) (s : List Bool) :
    Writes (writeBool b) s [b] ∧ Reads readBool [b] s.length b :=
  ⟨wrun_bool b s, fun rest => rrun_bool_cons b rest s.length⟩

example : ∃ out, out.length = 16 ∧ bitsVal out = (0xfffe#16).toNat ∧ Writes (writeInt 16 (-2#16)) [true] out ∧
    Reads (readInt 16) out 1 (-2#16) := C03_int_roundtrip 16 (by omega) (-2#16) [true]

/-! ## C04 unsigned variable-length integers -/

/-- Shape of the C04 statement for one type: `w` is the width of the Go type, `max` the documented maximum and
`maxBytes` the largest encoding. -/
def VarUSpec {w : Nat} (write : BitVec w → Wr Unit) (read : Rd (BitVec w)) (max maxBytes : Nat) : Prop :=
  ∀ v : BitVec w, ∀ s : List Bool,
    (v.toNat ≤ max → ∃ out k, 1 ≤ k ∧ k ≤ maxBytes ∧ out.length = 8 * k ∧
      Writes (write v) s out ∧ Reads read out s.length v) ∧
    (max < v.toNat → Rejects (write v) s .outOfBounds)

theorem writeVarUint_rt {w m : Nat} (hm : 2 ≤ m) (hm9 : m ≤ 9) (hw8 : 8 ≤ w) (hw64 : w ≤ 64) (v : BitVec w)
    (s : List Bool) :
    (v.toNat < 2 ^ (7 * m + 1) → ∃ out k, 1 ≤ k ∧ k ≤ m ∧ out.length = 8 * k ∧
      Writes (writeVarUint (v.setWidth 64) m) s out ∧ Reads (readVarU w (m - 2)) out s.length v) ∧
    (2 ^ (7 * m + 1) ≤ v.toNat → Rejects (writeVarUint (v.setWidth 64) m) s .outOfBounds) := by
  have hlt := v.isLt
  have h64 : 2 ^ w ≤ 2 ^ 64 := Nat.pow_le_pow_right (by omega) hw64
  have e : (v.setWidth 64).toNat = v.toNat := by
    rw [BitVec.toNat_setWidth]; exact Nat.mod_eq_of_lt (by omega)
  constructor
  · intro hv
    obtain ⟨j, h1, h2, h3, h4, _⟩ := unsignedBitSize_ok (v := v.setWidth 64) hm hm9 (by rw [e]; exact hv)
    rw [e] at h4
    refine ⟨_, j, h1, h2, ?_, writeVarUint_writes h3 s, ?_⟩
    · simp
    · have := readVarU_reads hlt hw8 hm h1 h2 h4 s.length
      rw [e]
      simpa using this
  · intro hv
    unfold Rejects writeVarUint
    rw [unsignedBitSize_err hm hm9 (by rw [e]; omega)]
    rfl

/-- C04 for varuint16. -/
theorem C04_varuint16 : VarUSpec writeVaruint16 readVaruint16 maxVaruint16 2 := by
  intro v s
  have h := writeVarUint_rt (m := 2) (by omega) (by omega) (by omega) (by omega) v s
  exact ⟨fun hv => h.1 (by unfold maxVaruint16 at hv; omega), fun hv => h.2 (by unfold maxVaruint16 at hv; omega)⟩

/-- C04 for varuint32. -/
theorem C04_varuint32 : VarUSpec writeVaruint32 readVaruint32 maxVaruint32 4 := by
  intro v s
  have h := writeVarUint_rt (m := 4) (by omega) (by omega) (by omega) (by omega) v s
  exact ⟨fun hv => h.1 (by unfold maxVaruint32 at hv; omega), fun hv => h.2 (by unfold maxVaruint32 at hv; omega)⟩

/-- C04 for varuint64. -/
theorem C04_varuint64 : VarUSpec writeVaruint64 readVaruint64 maxVaruint64 8 := by
  intro v s
  have h := writeVarUint_rt (m := 8) (by omega) (by omega) (by omega) (by omega) v s
  rw [BitVec.setWidth_eq] at h
  exact ⟨fun hv => h.1 (by unfold maxVaruint64 at hv; omega), fun hv => h.2 (by unfold maxVaruint64 at hv; omega)⟩

/-- C04 for varuint: no value is out of range. -/
theorem C04_varuint : VarUSpec writeVaruint readVaruint maxVaruint 9 := by
  intro v s
  have h := writeVarUint_rt (m := 9) (by omega) (by omega) (by omega) (by omega) v s
  rw [BitVec.setWidth_eq] at h
  have := v.isLt
  exact ⟨fun hv => h.1 (by omega), fun hv => by unfold maxVaruint at hv; omega⟩

/-- C04 for varsize. -/
theorem C04_varsize : VarUSpec writeVarsize readVarsize maxVarsize 5 := by
  intro v s
  have h := writeVarUint_rt (m := 5) (by omega) (by omega) (by omega) (by omega) v s
  rw [BitVec.setWidth_eq] at h
  have hmx : (BitVec.ofNat 64 maxVarsize).toNat = maxVarsize := rfl
  constructor
  · intro hv
    have hgt : ¬ v > BitVec.ofNat 64 maxVarsize := by
      rw [gt_iff_lt, BitVec.lt_def, hmx]; omega
    obtain ⟨out, k, h1, h2, h3, h4, h5⟩ := h.1 (by unfold maxVarsize at hv; omega)
    refine ⟨out, k, h1, h2, h3, ?_, ?_⟩
    · unfold writeVarsize; rw [if_neg hgt]; exact h4
    · intro rest
      unfold readVarsize
      rw [rrun_bind, h5 rest]
      dsimp only
      rw [if_neg hgt, rrun_pure]
  · intro hv
    have hgt : v > BitVec.ofNat 64 maxVarsize := by
      rw [gt_iff_lt, BitVec.lt_def, hmx]; omega
    unfold Rejects writeVarsize
    rw [if_pos hgt, wrun_throw]

example : ∃ out k, 1 ≤ k ∧ k ≤ 5 ∧ out.length = 8 * k ∧ Writes (writeVarsize 300#64) [true] out ∧
    Reads readVarsize out 1 300#64 := (C04_varsize 300#64 [true]).1 (by decide)
example : Rejects (writeVaruint16 0x8000#16) [] .outOfBounds := (C04_varuint16 0x8000#16 []).2 (by decide)

/-! ## C05 signed variable-length integers -/

/-- Shape of the C05 statement: the range is symmetric, `|v| ≤ max`. -/
def VarSSpec {w : Nat} (write : BitVec w → Wr Unit) (read : Rd (BitVec w)) (max maxBytes : Nat) : Prop :=
  ∀ v : BitVec w, ∀ s : List Bool,
    (|v.toInt| ≤ max → ∃ out k, 1 ≤ k ∧ k ≤ maxBytes ∧ out.length = 8 * k ∧
      Writes (write v) s out ∧ Reads read out s.length v) ∧
    (max < |v.toInt| → Rejects (write v) s .outOfBounds)

theorem restore_sign {w : Nat} (hw : w ≤ 64) (v : BitVec w) :
    (if (v.signExtend 64).slt 0#64 then -BitVec.ofNat w (goAbs (v.signExtend 64)).toNat
      else BitVec.ofNat w (goAbs (v.signExtend 64)).toNat) = v := by
  unfold goAbs
  have hset := setWidth_signExtend64 hw v
  have hofnat : ∀ x : BitVec 64, BitVec.ofNat w x.toNat = x.setWidth w := by
    intro x
    apply BitVec.eq_of_toNat_eq
    rw [BitVec.toNat_ofNat, BitVec.toNat_setWidth]
  split
  · rename_i hs
    rw [hofnat]
    have : (-(v.signExtend 64)).setWidth w = -((v.signExtend 64).setWidth w) := by
      rw [BitVec.setWidth_neg_of_le hw]
    rw [this, hset]
    simp
  · rw [hofnat, hset]

theorem writeVarInt_rt {w m : Nat} (hm : 2 ≤ m) (hm9 : m ≤ 9) (hw8 : 8 ≤ w) (hw64 : w ≤ 64) (v : BitVec w)
    (hne : v.signExtend 64 ≠ minInt64) (s : List Bool) :
    (|v.toInt| < 2 ^ (7 * m) → ∃ out k, 1 ≤ k ∧ k ≤ m ∧ out.length = 8 * k ∧
      Writes (writeVarInt (v.signExtend 64) m) s out ∧ Reads (readVarS w (m - 2)) out s.length v) ∧
    (2 ^ (7 * m) ≤ |v.toInt| → Rejects (writeVarInt (v.signExtend 64) m) s .outOfBounds) := by
  have habs := goAbs_toNat hne
  rw [BitVec.toInt_signExtend_of_le hw64] at habs
  have h63 := goAbs_lt hne
  have hcap : sCap m m = 7 * m := by unfold sCap; rw [if_pos rfl]
  rcases signedBitSize_spec (v.signExtend 64) h63 m hm hm9 with ⟨j, h1, h2, h3, h4, _⟩ | ⟨h1, h2⟩
  · have hlt : |v.toInt| < 2 ^ (7 * m) := by
      rw [← habs]
      have : (goAbs (v.signExtend 64)).toNat < 2 ^ (7 * m) := by
        refine Nat.lt_of_lt_of_le h4 (Nat.pow_le_pow_right (by omega) ?_)
        rw [← hcap]; exact sCap_mono h2 (Nat.le_refl m)
      exact_mod_cast this
    refine ⟨fun _ => ?_, fun h => by omega⟩
    have hvw : (goAbs (v.signExtend 64)).toNat < 2 ^ w := by
      have hb1 := BitVec.toInt_lt (x := v)
      have hb2 := BitVec.le_toInt (x := v)
      have hpw : (2 : Int) ^ (w - 1) < 2 ^ w := by
        have : 2 ^ (w - 1) < 2 ^ w := Nat.pow_lt_pow_right (by omega) (by omega)
        exact_mod_cast this
      have : ((goAbs (v.signExtend 64)).toNat : Int) < ((2 ^ w : Nat) : Int) := by
        rw [habs]; push_cast
        rw [abs_lt]; constructor <;> omega
      exact_mod_cast this
    obtain ⟨h256, hr⟩ := readVarSCont_reads ((v.signExtend 64).slt 0#64) hvw hw8 hm h1 h2 h4 (s.length + 8)
    refine ⟨_, j, h1, h2, ?_, writeVarInt_writes hm h1 h3 s, ?_⟩
    · simp; omega
    · unfold readVarS
      refine Reads.bind (v := BitVec.ofNat 8 (headVal ((v.signExtend 64).slt 0#64) (goAbs (v.signExtend 64)).toNat m j))
        ?_ ?_
      · intro rest
        rw [rrun_byte_nat h256]; simp
      · rw [natBits_length]
        rw [restore_sign hw64 v] at hr
        exact hr
  · rw [hcap] at h2
    have hge : (2 : Int) ^ (7 * m) ≤ |v.toInt| := by rw [← habs]; exact_mod_cast h2
    refine ⟨fun h => by omega, fun _ => ?_⟩
    unfold Rejects writeVarInt
    rw [h1]; rfl

theorem signExtend_ne_min {w : Nat} (hw : w ≤ 63) (v : BitVec w) : v.signExtend 64 ≠ minInt64 := by
  intro h
  have := congrArg BitVec.toInt h
  rw [BitVec.toInt_signExtend_of_le (by omega)] at this
  have h2 := BitVec.le_toInt (x := v)
  have h3 : minInt64.toInt = -2 ^ 63 := by decide
  have h4 : (2 : Int) ^ (w - 1) < 2 ^ 63 := by
    have : 2 ^ (w - 1) < 2 ^ 63 := Nat.pow_lt_pow_right (by omega) (by omega)
    exact_mod_cast this
  omega

/-- C05 for varint16. -/
theorem C05_varint16 : VarSSpec writeVarint16 readVarint16 maxVarint16 2 := by
  intro v s
  have h := writeVarInt_rt (m := 2) (by omega) (by omega) (by omega) (by omega) v (signExtend_ne_min (by omega) v) s
  exact ⟨fun hv => h.1 (by unfold maxVarint16 at hv; norm_num at hv ⊢; omega),
    fun hv => h.2 (by unfold maxVarint16 at hv; norm_num at hv ⊢; omega)⟩

/-- C05 for varint32. -/
theorem C05_varint32 : VarSSpec writeVarint32 readVarint32 maxVarint32 4 := by
  intro v s
  have h := writeVarInt_rt (m := 4) (by omega) (by omega) (by omega) (by omega) v (signExtend_ne_min (by omega) v) s
  exact ⟨fun hv => h.1 (by unfold maxVarint32 at hv; norm_num at hv ⊢; omega),
    fun hv => h.2 (by unfold maxVarint32 at hv; norm_num at hv ⊢; omega)⟩

/-- C05 for varint64, except for the one value the code gets wrong (see `C05_varint64_min_violates`). -/
theorem C05_varint64_partial (v : BitVec 64) (hne : v ≠ minInt64) (s : List Bool) :
    (|v.toInt| ≤ maxVarint64 → ∃ out k, 1 ≤ k ∧ k ≤ 8 ∧ out.length = 8 * k ∧
      Writes (writeVarint64 v) s out ∧ Reads readVarint64 out s.length v) ∧
    (maxVarint64 < |v.toInt| → Rejects (writeVarint64 v) s .outOfBounds) := by
  have h := writeVarInt_rt (m := 8) (by omega) (by omega) (by omega) (by omega) v
    (by rw [BitVec.signExtend_eq]; exact hne) s
  rw [BitVec.signExtend_eq] at h
  exact ⟨fun hv => h.1 (by unfold maxVarint64 at hv; norm_num at hv ⊢; omega),
    fun hv => h.2 (by unfold maxVarint64 at hv; norm_num at hv ⊢; omega)⟩

/-- C05 fails for varint64: the most negative int64, far out of range, is accepted, written as the single byte 0x80
and read back as zero. -/
theorem C05_varint64_min_violates :
    (maxVarint64 : Int) < |minInt64.toInt| ∧
    wrun (writeVarint64 minInt64) [] = (.ok (), natBits 8 0x80) ∧
    rrun readVarint64 ⟨natBits 8 0x80, 0⟩ = (.ok 0#64, ⟨[], 8⟩) := by
  refine ⟨by decide, by decide +kernel, by decide +kernel⟩

/-- C05 for varint64 as stated is false. -/
theorem C05_varint64_false : ¬ VarSSpec writeVarint64 readVarint64 maxVarint64 8 := by
  intro h
  have h1 := (h minInt64 []).2 C05_varint64_min_violates.1
  unfold Rejects at h1
  rw [C05_varint64_min_violates.2.1] at h1
  simp at h1

/-- C05 for varint: every int64 round-trips, the minimum through its special one byte code. -/
theorem C05_varint (v : BitVec 64) (s : List Bool) : ∃ out k, 1 ≤ k ∧ k ≤ 9 ∧ out.length = 8 * k ∧
      Writes (writeVarint v) s out ∧ Reads readVarint out s.length v := by
  by_cases hmin : v = minInt64
  · subst hmin
    refine ⟨natBits 8 0x80, 1, by omega, by omega, by simp, ?_, ?_⟩
    · unfold Writes writeVarint
      rw [if_pos rfl]; rfl
    · intro rest
      unfold readVarint
      rw [rrun_bind, rrun_byte_nat (by omega)]
      dsimp only
      rw [if_pos rfl, rrun_pure]; simp
  · have h := writeVarInt_rt (m := 9) (by omega) (by omega) (by omega) (by omega) v
      (by rw [BitVec.signExtend_eq]; exact hmin) s
    rw [BitVec.signExtend_eq] at h
    have h63 := goAbs_lt hmin
    have habs := goAbs_toNat hmin
    -- the single byte 0x80 is never produced by writeVarInt for another value
    rcases signedBitSize_spec v h63 9 (by omega) (by omega) with ⟨j, h1, h2, h3, h4, h5⟩ | ⟨_, h2⟩
    · have hw : (goAbs v).toNat < 2 ^ 64 := by omega
      obtain ⟨h256, hr⟩ := readVarSCont_reads (m := 9) (v.slt 0#64) hw (by omega) (by omega) h1 h2 h4 (s.length + 8)
      refine ⟨natBits 8 (headVal (v.slt 0#64) (goAbs v).toNat 9 j) ++ outFrom (tailVal (goAbs v).toNat 9 j) 1 (j - 1),
        j, h1, h2, by simp; omega, ?_, ?_⟩
      · unfold writeVarint; rw [if_neg hmin]; exact writeVarInt_writes (by omega) h1 h3 s
      · unfold readVarint
        refine Reads.bind (v := BitVec.ofNat 8 (headVal (v.slt 0#64) (goAbs v).toNat 9 j)) ?_ ?_
        · intro rest
          rw [rrun_byte_nat h256]; simp
        · have hne80 : BitVec.ofNat 8 (headVal (v.slt 0#64) (goAbs v).toNat 9 j) ≠ 0x80#8 := by
            intro hc
            have hc2 := congrArg BitVec.toNat hc
            rw [BitVec.toNat_ofNat, Nat.mod_eq_of_lt h256] at hc2
            have h80 : (0x80#8).toNat = 128 := rfl
            rw [h80] at hc2
            unfold headVal at hc2
            have hm64 : (goAbs v).toNat / 2 ^ shBits 9 j 1 % 64 < 64 := Nat.mod_lt _ (by omega)
            generalize hx : (goAbs v).toNat / 2 ^ shBits 9 j 1 % 64 = x at hc2 hm64
            have hneg : v.slt 0#64 = true := by
              by_contra hn
              rw [if_neg hn] at hc2
              split at hc2 <;> omega
            rw [if_pos hneg] at hc2
            have hj1 : ¬ 1 < j := by
              intro hj; rw [if_pos hj] at hc2; omega
            have hj : j = 1 := by omega
            subst hj
            have hx0 : x = 0 := by
              rw [if_neg hj1] at hc2; omega
            have hsh : shBits 9 1 1 = 0 := rfl
            have hcap1 : sCap 9 1 = 6 := rfl
            rw [hcap1] at h4
            rw [hsh, pow_zero, Nat.div_one, Nat.mod_eq_of_lt (by omega), hx0] at hx
            rw [hx] at habs
            rw [BitVec.slt_iff_toInt_lt] at hneg
            have h0 : (0#64).toInt = 0 := rfl
            rw [h0] at hneg
            have hz := abs_eq_zero.mp habs.symm
            omega
          rw [natBits_length, if_neg hne80]
          have hrs := restore_sign (w := 64) (by omega) v
          rw [BitVec.signExtend_eq] at hrs
          rw [hrs] at hr
          exact hr
    · exfalso
      have : sCap 9 9 = 63 := rfl
      rw [this] at h2; omega

example : ∃ out k, 1 ≤ k ∧ k ≤ 8 ∧ out.length = 8 * k ∧ Writes (writeVarint64 (-70#64)) [] out ∧
    Reads readVarint64 out 0 (-70#64) := (C05_varint64_partial (-70#64) (by decide) []).1 (by decide)
example : Rejects (writeVarint16 0x4000#16) [] .outOfBounds := (C05_varint16 _ []).2 (by decide)

/-! ## C06 sizes -/

/-- C06 for an unsigned type with maximum `m` bytes: the size function and the writer agree on every value. -/
theorem C06_unsigned_size (v : BitVec 64) (m : Nat) (hm : 2 ≤ m) (hm9 : m ≤ 9) (s : List Bool) :
    (∀ n, unsignedBitSize v m = .ok n → ∃ out, out.length = n ∧ Writes (writeVarUint v m) s out) ∧
    (∀ e, unsignedBitSize v m = .error e → Rejects (writeVarUint v m) s e) := by
  constructor
  · intro n hn
    rcases unsignedBitSize_spec v m hm hm9 with ⟨j, _, _, h3, _, _⟩ | ⟨h, _⟩
    · rw [h3] at hn
      refine ⟨_, ?_, writeVarUint_writes h3 s⟩
      have : j * 8 = n := by simpa using hn
      simp; omega
    · rw [h] at hn; simp at hn
  · intro e he
    unfold Rejects writeVarUint
    rw [he]; rfl

/-- C06 for a signed type with maximum `m` bytes (any value, including the most negative one: there the size function
and the writer are wrong together). -/
theorem C06_signed_size (v : BitVec 64) (m : Nat) (hm : 2 ≤ m) (hm9 : m ≤ 9) (s : List Bool) :
    (∀ n, signedBitSize v m = .ok n → ∃ out, out.length = n ∧ Writes (writeVarInt v m) s out) ∧
    (∀ e, signedBitSize v m = .error e → Rejects (writeVarInt v m) s e) := by
  constructor
  · intro n hn
    by_cases hmin : v = minInt64
    · have h8 : signedBitSize v m = .ok (1 * 8) := by
        subst hmin
        unfold signedBitSize
        rw [signedBitSizeLoop, if_pos (by decide)]
      rw [h8] at hn
      refine ⟨_, ?_, writeVarInt_writes hm (by omega) h8 s⟩
      have : 8 = n := by simpa using hn
      simp; omega
    · rcases signedBitSize_spec v (goAbs_lt hmin) m hm hm9 with ⟨j, h1, _, h3, _, _⟩ | ⟨h, _⟩
      · rw [h3] at hn
        refine ⟨_, ?_, writeVarInt_writes hm h1 h3 s⟩
        have : j * 8 = n := by simpa using hn
        simp; omega
      · rw [h] at hn; simp at hn
  · intro e he
    unfold Rejects writeVarInt
    rw [he]; rfl

/-- C06 for varint, including the special code of the minimum: `SignedBitSize(v, 9)` is the number of bits. -/
theorem C06_varint_size (v : BitVec 64) (s : List Bool) :
    ∃ out, signedBitSize v 9 = .ok out.length ∧ Writes (writeVarint v) s out := by
  by_cases hmin : v = minInt64
  · refine ⟨natBits 8 0x80, ?_, ?_⟩
    · subst hmin; decide +kernel
    · unfold Writes writeVarint; rw [if_pos hmin]; rfl
  · rcases signedBitSize_spec v (goAbs_lt hmin) 9 (by omega) (by omega) with ⟨j, h1, _, h3, _, _⟩ | ⟨_, h⟩
    · refine ⟨natBits 8 (headVal (v.slt 0#64) (goAbs v).toNat 9 j) ++ outFrom (tailVal (goAbs v).toNat 9 j) 1 (j - 1), ?_, ?_⟩
      · rw [h3]; simp; omega
      · unfold writeVarint; rw [if_neg hmin]; exact writeVarInt_writes (by omega) h1 h3 s
    · exfalso
      have := goAbs_lt hmin
      have h9 : sCap 9 9 = 63 := rfl
      rw [h9] at h; omega

example : ∃ out, out.length = 16 ∧ Writes (writeVarUint 200#64 5) [] out :=
  (C06_unsigned_size 200#64 5 (by omega) (by omega) []).1 16 (by decide +kernel)

/-! ## C07 shortest encoding -/

/-- C07 unsigned: whatever input `enc` the reader decodes to `v`, it consumes at least as many bits as the writer
produces for `v`. -/
theorem C07_unsigned_minimal (w m : Nat) (hm : 2 ≤ m) (hm9 : m ≤ 9) (hw8 : 7 * m + 1 ≤ w) (hw64 : w ≤ 64)
    (v : BitVec w) (s out : List Bool) (hw : Writes (writeVarUint (v.setWidth 64) m) s out)
    (enc rest : List Bool) (pos pos' : Nat)
    (hr : rrun (readVarU w (m - 2)) ⟨enc, pos⟩ = (.ok v, ⟨rest, pos'⟩)) :
    out.length + rest.length ≤ enc.length := by
  have hlt := v.isLt
  have h64 : 2 ^ w ≤ 2 ^ 64 := Nat.pow_le_pow_right (by omega) hw64
  have e : (v.setWidth 64).toNat = v.toNat := by
    rw [BitVec.toNat_setWidth]; exact Nat.mod_eq_of_lt (by omega)
  rcases readVarU_total w m hm hw8 ⟨enc, pos⟩ with ⟨k, u, h1, h2, h3, h4, h5⟩ | ⟨st, h, _⟩
  · rw [hr] at h4
    simp only [Prod.mk.injEq, Except.ok.injEq, RState.mk.injEq] at h4
    obtain ⟨rfl, hrest, _⟩ := h4
    rcases unsignedBitSize_spec (v.setWidth 64) m hm hm9 with ⟨j, g1, g2, g3, g4, g5⟩ | ⟨_, g⟩
    · rw [Writes.unique hw (writeVarUint_writes g3 s)]
      have hjk : j ≤ k := by
        by_contra hc
        have := g5 k h1 (by omega)
        rw [e] at this
        omega
      rw [hrest]
      simp only [outFrom_length, List.length_drop]
      dsimp only at h3
      omega
    · exfalso
      rw [e] at g
      have := Nat.pow_le_pow_right (by omega : 2 > 0) (uCap_mono h2 (Nat.le_refl m))
      omega
  · rw [hr] at h; simp at h

/-- C07 signed. -/
theorem C07_signed_minimal (w m : Nat) (hm : 2 ≤ m) (hm9 : m ≤ 9) (hw8 : 7 * m + 1 ≤ w) (hw64 : w ≤ 64)
    (v : BitVec w) (s out : List Bool) (hw : Writes (writeVarInt (v.signExtend 64) m) s out)
    (enc rest : List Bool) (pos pos' : Nat)
    (hr : rrun (readVarS w (m - 2)) ⟨enc, pos⟩ = (.ok v, ⟨rest, pos'⟩)) :
    out.length + rest.length ≤ enc.length := by
  rcases readVarS_total w m hm (by omega) ⟨enc, pos⟩ with ⟨k, u, neg, h1, h2, h3, h4, h5⟩ | ⟨st, h, _⟩
  · rw [hr] at h4
    simp only [Prod.mk.injEq, Except.ok.injEq, RState.mk.injEq] at h4
    obtain ⟨hv, hrest, _⟩ := h4
    dsimp only at h3
    by_cases hmin : v.signExtend 64 = minInt64
    · have h8 : signedBitSize (v.signExtend 64) m = .ok (1 * 8) := by
        rw [hmin]
        unfold signedBitSize
        rw [signedBitSizeLoop, if_pos (by decide)]
      rw [Writes.unique hw (writeVarInt_writes hm (by omega) h8 s), hrest]
      simp only [outFrom_length, List.length_append, natBits_length, List.length_drop]
      omega
    · have habs := goAbs_toNat hmin
      rw [BitVec.toInt_signExtend_of_le hw64] at habs
      have hcap : sCap m k ≤ w - 1 := by unfold sCap; split <;> omega
      have h63 : 2 ^ sCap m k ≤ 2 ^ (w - 1) := Nat.pow_le_pow_right (by omega) hcap
      have hw2 : 2 ^ (w - 1) + 2 ^ (w - 1) = 2 ^ w := by
        rw [← Nat.two_mul, ← pow_succ']; congr 1; omega
      have hu : u.toInt = u.toNat := BitVec.toInt_eq_toNat_of_lt (by rw [← hw2]; omega)
      have hvabs : |v.toInt| = u.toNat := by
        rw [hv]
        cases neg
        · simp only [Bool.false_eq_true, if_false]; rw [hu]; exact abs_of_nonneg (by omega)
        · simp only [if_true]
          rw [BitVec.toInt_neg, hu, Int.bmod_eq_of_le]
          · rw [abs_neg]; exact abs_of_nonneg (by omega)
          · rw [← hw2]; omega
          · rw [← hw2]; omega
      rcases signedBitSize_spec (v.signExtend 64) (goAbs_lt hmin) m hm hm9 with ⟨j, g1, g2, g3, g4, g5⟩ | ⟨_, g⟩
      · rw [Writes.unique hw (writeVarInt_writes hm g1 g3 s)]
        have hjk : j ≤ k := by
          by_contra hc
          have := g5 k h1 (by omega)
          omega
        rw [hrest]
        simp only [outFrom_length, List.length_append, natBits_length, List.length_drop]
        omega
      · exfalso
        have := Nat.pow_le_pow_right (by omega : 2 > 0) (sCap_mono h2 (Nat.le_refl m))
        omega
  · rw [hr] at h; simp at h

/-- C07 for varint (nine bytes, with the special code of the minimum). -/
theorem C07_varint_minimal (v : BitVec 64) (s out : List Bool) (hw : Writes (writeVarint v) s out)
    (enc rest : List Bool) (pos pos' : Nat) (hr : rrun readVarint ⟨enc, pos⟩ = (.ok v, ⟨rest, pos'⟩)) :
    out.length + rest.length ≤ enc.length := by
  have h8 : 8 ≤ enc.length := by
    by_contra hc
    unfold readVarint at hr
    rw [rrun_bind, rrun_byte, if_neg hc] at hr
    simp at hr
  by_cases hmin : v = minInt64
  · unfold Writes writeVarint at hw
    rw [if_pos hmin] at hw
    have hout : out = natBits 8 0x80 := Writes.unique (s := s) hw rfl
    have hrest : rest.length + 8 ≤ enc.length := by
      unfold readVarint at hr
      rw [rrun_bind, rrun_byte, if_pos h8] at hr
      dsimp only at hr
      split at hr
      · rw [rrun_pure] at hr
        simp only [Prod.mk.injEq, RState.mk.injEq] at hr
        rw [← hr.2.1, List.length_drop]; omega
      · rcases readVarSCont_total 64 9 (by omega) (by omega) (BitVec.ofNat 8 (bitsVal (enc.take 8)))
          ⟨enc.drop 8, pos + 8⟩ with ⟨k, u, neg, _, h2, h3, _⟩ | ⟨st, h1, _⟩
        · rw [h3] at hr
          simp only [Prod.mk.injEq, RState.mk.injEq] at hr
          rw [← hr.2.1]
          simp only [List.length_drop]; omega
        · rw [h1] at hr; simp at hr
    rw [hout, natBits_length]; omega
  · refine C07_signed_minimal 64 9 (by omega) (by omega) (by omega) (by omega) v s out ?_ enc rest pos pos' ?_
    · unfold Writes writeVarint at hw
      rw [if_neg hmin] at hw
      rw [BitVec.signExtend_eq]; exact hw
    · unfold readVarint at hr
      unfold readVarS
      rw [rrun_bind, rrun_byte, if_pos h8] at hr ⊢
      dsimp only at hr ⊢
      split at hr
      · rw [rrun_pure] at hr
        simp only [Prod.mk.injEq, Except.ok.injEq] at hr
        exact absurd hr.1.symm hmin
      · exact hr

example : (outFrom (tailVal 200 5 2) 0 2).length + ([] : List Bool).length ≤
    (natBits 8 0x80 ++ natBits 8 0x81 ++ natBits 8 0x48).length :=
  C07_unsigned_minimal 64 5 (by omega) (by omega) (by omega) (by omega) 200#64 [] _
    (writeVarUint_writes (j := 2) (by decide +kernel) []) _ [] 0 24 (by decide +kernel)

/-! ## C08 readers are total and bounded -/

/-- C08 unsigned: on every input the reader consumes between 1 and `m` whole bytes and returns a value in range, or
reports the end of the input, which happens only if fewer than `m` bytes are left. -/
theorem C08_unsigned_total (w m : Nat) (hm : 2 ≤ m) (hw : 7 * m + 1 ≤ w) (input : List Bool) (pos : Nat) :
    (∃ k v, 1 ≤ k ∧ k ≤ m ∧ 8 * k ≤ input.length ∧
      rrun (readVarU w (m - 2)) ⟨input, pos⟩ = (.ok v, ⟨input.drop (8 * k), pos + 8 * k⟩) ∧
      v.toNat < 2 ^ (7 * m + 1)) ∨
    (∃ st, rrun (readVarU w (m - 2)) ⟨input, pos⟩ = (.error .eof, st) ∧ input.length < 8 * m) := by
  rcases readVarU_total w m hm hw ⟨input, pos⟩ with ⟨k, u, h1, h2, h3, h4, h5⟩ | h
  · left
    refine ⟨k, u, h1, h2, h3, h4, Nat.lt_of_lt_of_le h5 (Nat.pow_le_pow_right (by omega) ?_)⟩
    unfold uCap; split <;> omega
  · right; exact h

/-- C08 varsize: additionally the value is at most `MaxVarsize`, larger numbers are reported as out of bounds. -/
theorem C08_varsize_total (input : List Bool) (pos : Nat) :
    (∃ k v, 1 ≤ k ∧ k ≤ 5 ∧ 8 * k ≤ input.length ∧
      rrun readVarsize ⟨input, pos⟩ = (.ok v, ⟨input.drop (8 * k), pos + 8 * k⟩) ∧ v.toNat ≤ maxVarsize) ∨
    (∃ k v, 1 ≤ k ∧ k ≤ 5 ∧ 8 * k ≤ input.length ∧
      rrun (readVarU 64 3) ⟨input, pos⟩ = (.ok v, ⟨input.drop (8 * k), pos + 8 * k⟩) ∧ maxVarsize < v.toNat ∧
      rrun readVarsize ⟨input, pos⟩ = (.error .outOfBounds, ⟨input.drop (8 * k), pos + 8 * k⟩)) ∨
    (∃ st, rrun readVarsize ⟨input, pos⟩ = (.error .eof, st) ∧ input.length < 40) := by
  have hmx : (BitVec.ofNat 64 maxVarsize).toNat = maxVarsize := rfl
  rcases readVarU_total 64 5 (by omega) (by omega) ⟨input, pos⟩ with ⟨k, u, h1, h2, h3, h4, h5⟩ | ⟨st, h, hl⟩
  · by_cases hgt : u > BitVec.ofNat 64 maxVarsize
    · right; left
      refine ⟨k, u, h1, h2, h3, h4, ?_, ?_⟩
      · rw [gt_iff_lt, BitVec.lt_def, hmx] at hgt; exact hgt
      · unfold readVarsize
        rw [rrun_bind, h4]
        dsimp only
        rw [if_pos hgt, rrun_throw]
    · left
      refine ⟨k, u, h1, h2, h3, ?_, ?_⟩
      · unfold readVarsize
        rw [rrun_bind, h4]
        dsimp only
        rw [if_neg hgt, rrun_pure]
      · rw [gt_iff_lt, BitVec.lt_def, hmx] at hgt; omega
  · right; right
    refine ⟨st, ?_, by omega⟩
    unfold readVarsize
    rw [rrun_bind, h]

/-- C08 signed (varint16, varint32, varint64). -/
theorem C08_signed_total (w m : Nat) (hm : 2 ≤ m) (hw : 7 * m + 1 ≤ w) (input : List Bool) (pos : Nat) :
    (∃ k v, 1 ≤ k ∧ k ≤ m ∧ 8 * k ≤ input.length ∧
      rrun (readVarS w (m - 2)) ⟨input, pos⟩ = (.ok v, ⟨input.drop (8 * k), pos + 8 * k⟩) ∧
      |v.toInt| < 2 ^ (7 * m)) ∨
    (∃ st, rrun (readVarS w (m - 2)) ⟨input, pos⟩ = (.error .eof, st) ∧ input.length < 8 * m) := by
  rcases readVarS_total w m hm (by omega) ⟨input, pos⟩ with ⟨k, u, neg, h1, h2, h3, h4, h5⟩ | h
  · left
    refine ⟨k, _, h1, h2, h3, h4, ?_⟩
    have hcap : sCap m k ≤ 7 * m := by unfold sCap; split <;> omega
    have hb : u.toNat < 2 ^ (7 * m) := Nat.lt_of_lt_of_le h5 (Nat.pow_le_pow_right (by omega) hcap)
    have hP : 2 ^ (7 * m) * 2 ≤ 2 ^ w := by
      rw [← pow_succ]; exact Nat.pow_le_pow_right (by omega) hw
    have hu : u.toInt = u.toNat := BitVec.toInt_eq_toNat_of_lt (by omega)
    have hbi : (u.toNat : Int) < 2 ^ (7 * m) := by exact_mod_cast hb
    cases neg
    · simp only [Bool.false_eq_true, if_false]; rw [hu, abs_of_nonneg (by omega)]; exact hbi
    · simp only [if_true]
      rw [BitVec.toInt_neg, hu, Int.bmod_eq_of_le]
      · rw [abs_neg, abs_of_nonneg (by omega)]; exact hbi
      · omega
      · omega
  · right; exact h

/-- C08 for `ReadVarint`: every int64 can come out, so only consumption is bounded. -/
theorem C08_varint_total (input : List Bool) (pos : Nat) :
    (∃ k v, 1 ≤ k ∧ k ≤ 9 ∧ 8 * k ≤ input.length ∧
      rrun readVarint ⟨input, pos⟩ = (.ok v, ⟨input.drop (8 * k), pos + 8 * k⟩)) ∨
    (∃ st, rrun readVarint ⟨input, pos⟩ = (.error .eof, st) ∧ input.length < 72) := by
  by_cases h : 8 ≤ input.length
  · by_cases h80 : BitVec.ofNat 8 (bitsVal (input.take 8)) = 0x80#8
    · left
      refine ⟨1, minInt64, by omega, by omega, by omega, ?_⟩
      unfold readVarint
      rw [rrun_bind, rrun_byte, if_pos h]
      dsimp only
      rw [if_pos h80]; rfl
    · have hrun : rrun readVarint ⟨input, pos⟩ =
          rrun (readVarSCont 64 7 (BitVec.ofNat 8 (bitsVal (input.take 8)))) ⟨input.drop 8, pos + 8⟩ := by
        unfold readVarint
        rw [rrun_bind, rrun_byte, if_pos h]
        dsimp only
        rw [if_neg h80]
      rcases readVarSCont_total 64 9 (by omega) (by omega) (BitVec.ofNat 8 (bitsVal (input.take 8)))
        ⟨input.drop 8, pos + 8⟩ with ⟨k, v, neg, h1, h2, h3, _⟩ | ⟨st, h1, h2⟩
      · left
        refine ⟨k + 1, if neg = true then -v else v, by omega, by omega, ?_, ?_⟩
        · simp only [List.length_drop] at h2; omega
        · rw [hrun, h3]
          simp only [List.drop_drop]
          congr 2
          · congr 1; omega
          · omega
      · right
        refine ⟨st, by rw [hrun, h1], ?_⟩
        simp only [List.length_drop] at h2; omega
  · right
    refine ⟨⟨List.replicate (input.length % 8) false, pos⟩, ?_, by omega⟩
    unfold readVarint
    rw [rrun_bind, rrun_byte, if_neg h]

example : ∃ st, rrun readVarsize ⟨natBits 8 0x80, 0⟩ = (.error .eof, st) := ⟨_, rfl⟩
example : rrun readVarsize ⟨natBits 40 0xffffffffff, 0⟩ = (.error .outOfBounds, ⟨[], 40⟩) := by decide +kernel

/-! ## C17 numbits -/

/-- C17: for `v ≥ 2`, `NumBits v` is the least `n` with `v ≤ 2^n`; 0 and 1 are special. -/
theorem C17_numBits (v : BitVec 64) :
    (v.toNat = 0 → numBits v = 0) ∧ (v.toNat = 1 → numBits v = 1) ∧
    (2 ≤ v.toNat → v.toNat ≤ 2 ^ numBits v ∧ ∀ n, v.toNat ≤ 2 ^ n → numBits v ≤ n) := by
  refine ⟨?_, ?_, ?_⟩
  · intro h
    have : v = 0#64 := BitVec.eq_of_toNat_eq h
    rw [this]; rfl
  · intro h
    have : v = 1#64 := BitVec.eq_of_toNat_eq h
    rw [this]; rfl
  · intro h
    have h0 : v ≠ 0#64 := by intro hc; rw [hc] at h; simp at h
    have h1 : v ≠ 1#64 := by intro hc; rw [hc] at h; simp at h
    have hsub : (v - 1#64).toNat = v.toNat - 1 := by
      have := v.isLt
      rw [BitVec.toNat_sub]
      simp only [BitVec.toNat_ofNat]; omega
    unfold numBits
    rw [if_neg h0, if_neg h1, hsub]
    constructor
    · have := Nat.lt_size_self (v.toNat - 1)
      omega
    · intro n hn
      rw [Nat.size_le]; omega

/-- C17: every number below `v` fits into `NumBits v` bits. -/
theorem C17_numBits_fits (v x : BitVec 64) (h : x.toNat < v.toNat) : x.toNat < 2 ^ numBits v := by
  have h3 := C17_numBits v
  by_cases h2 : 2 ≤ v.toNat
  · have := (h3.2.2 h2).1; omega
  · have h1 : v.toNat = 1 := by omega
    rw [h3.2.1 h1]; omega

/-- C17: monotone, and at most 64. -/
theorem C17_numBits_mono (a b : BitVec 64) (h : a.toNat ≤ b.toNat) : numBits a ≤ numBits b ∧ numBits b ≤ 64 := by
  have ha := C17_numBits a
  have hb := C17_numBits b
  have hlt := b.isLt
  constructor
  · by_cases h2 : 2 ≤ a.toNat
    · exact (ha.2.2 h2).2 _ (Nat.le_trans h (hb.2.2 (by omega)).1)
    · by_cases h1 : a.toNat = 1
      · rw [ha.2.1 h1]
        by_cases hb2 : 2 ≤ b.toNat
        · have := (hb.2.2 hb2).1
          by_contra hc
          have h0 : numBits b = 0 := by omega
          rw [h0] at this
          omega
        · rw [hb.2.1 (by omega)]
      · rw [ha.1 (by omega)]; omega
  · by_cases hb2 : 2 ≤ b.toNat
    · exact (hb.2.2 hb2).2 64 (by omega)
    · by_cases h1 : b.toNat = 1
      · rw [hb.2.1 h1]; omega
      · rw [hb.1 (by omega)]; omega

example : numBits 5#64 = 3 ∧ numBits 4#64 = 2 ∧ numBits 2#64 = 1 := by decide +kernel

end Verif
