import Verif.Fixed

/-!
# Variable-length integers

/repo/ztype/varuint_encode.go, varuint_decode.go, varint_encode.go, varint_decode.go, limits.go
-/

namespace Verif

/-! ## Limits -/

/-- /repo/ztype/limits.go:41 `MaxVarsize` -/
def maxVarsize : Nat := 2 ^ (2 + 7 + 7 + 7 + 8) - 1
/-- /repo/ztype/limits.go:33 `MaxVaruint16` -/
def maxVaruint16 : Nat := 2 ^ (7 + 8) - 1
/-- /repo/ztype/limits.go:35 `MaxVaruint32` -/
def maxVaruint32 : Nat := 2 ^ (7 + 7 + 7 + 8) - 1
/-- /repo/ztype/limits.go:37 `MaxVaruint64` -/
def maxVaruint64 : Nat := 2 ^ (7 + 7 + 7 + 7 + 7 + 7 + 7 + 8) - 1
/-- /repo/ztype/limits.go:39 `MaxVaruint` -/
def maxVaruint : Nat := 2 ^ 64 - 1
/-- /repo/ztype/limits.go:24 `MaxVarint16` (the minimum is its negation, line 25) -/
def maxVarint16 : Nat := 2 ^ (6 + 8) - 1
/-- /repo/ztype/limits.go:26 `MaxVarint32` -/
def maxVarint32 : Nat := 2 ^ (6 + 7 + 7 + 8) - 1
/-- /repo/ztype/limits.go:28 `MaxVarint64` -/
def maxVarint64 : Nat := 2 ^ (6 + 7 + 7 + 7 + 7 + 7 + 7 + 8) - 1
/-- /repo/ztype/limits.go:31 `MinVarint` = `MinInt64` -/
def minInt64 : BitVec 64 := 1#64 <<< 63

/-! ## Sizes -/

/-- Loop of /repo/ztype/varuint_encode.go:95-110.  `maxBytes` is a Go int that is always a small positive constant. -/
def unsignedBitSizeLoop (v : BitVec 64) (maxBytes : Nat) (max : BitVec 64) (bytes : Nat) : Except Err Nat :=
  if v ≤ max then .ok (bytes * 8)
  else if _h : bytes + 1 > maxBytes then .error .outOfBounds
  else if bytes + 1 = maxBytes then unsignedBitSizeLoop v maxBytes ((max <<< 8) ||| 0xff#64) (bytes + 1)
  else unsignedBitSizeLoop v maxBytes ((max <<< 7) ||| 0xff#64) (bytes + 1)
termination_by maxBytes - bytes

/-- /repo/ztype/varuint_encode.go:83-111 `UnsignedBitSize`. -/
def unsignedBitSize (v : BitVec 64) (maxBytes : Nat) : Except Err Nat :=
  unsignedBitSizeLoop v maxBytes ((1#64 <<< 7) - 1#64) 1

/-- Loop of /repo/ztype/varint_encode.go:88-103 (comparison of int64). -/
def signedBitSizeLoop (v : BitVec 64) (maxBytes : Nat) (max : BitVec 64) (bytes : Nat) : Except Err Nat :=
  if v.sle max then .ok (bytes * 8)
  else if _h : bytes + 1 > maxBytes then .error .outOfBounds
  else if bytes + 1 = maxBytes then signedBitSizeLoop v maxBytes ((max <<< 8) ||| 0xff#64) (bytes + 1)
  else signedBitSizeLoop v maxBytes ((max <<< 7) ||| 0xff#64) (bytes + 1)
termination_by maxBytes - bytes

/-- `v < 0 ? -v : v` on int64, with Go's wrap-around for the most negative value
(/repo/ztype/varint_encode.go:37-42 and 83-85). -/
def goAbs (v : BitVec 64) : BitVec 64 := if v.slt 0#64 then -v else v

/-- /repo/ztype/varint_encode.go:80-104 `SignedBitSize`. -/
def signedBitSize (v : BitVec 64) (maxBytes : Nat) : Except Err Nat :=
  signedBitSizeLoop (goAbs v) maxBytes ((1#64 <<< 6) - 1#64) 1

/-! ## Writers -/

/-- Body of the loop /repo/ztype/varuint_encode.go:60-73: the byte written in iteration `i`. -/
def varUintByte (v : BitVec 64) (neededBytes maxBytes i : Nat) : BitVec 64 :=
  let needsMaxByteRange : Bool := neededBytes = maxBytes
  let hasNextByte : Bool := i + 1 < neededBytes
  let remainingBits := if hasNextByte then 7 else if !needsMaxByteRange then 7 else 8
  let b : BitVec 64 := if hasNextByte then 0x80#64 else 0x00#64
  let shiftBits := (neededBytes - (i + 1)) * 7 + (if needsMaxByteRange && hasNextByte then 1 else 0)
  b ||| ((v >>> shiftBits) &&& (0xff#64 >>> (8 - remainingBits)))

/-- Loop of /repo/ztype/varuint_encode.go:59-77.  The Go loop keeps iterating after a failed write without writing
again and finally returns that first error; stopping right away returns the same. -/
def writeBytesLoop (f : Nat → BitVec 64) (neededBytes i : Nat) : Wr Unit :=
  if i < neededBytes then do
    Wr.bitsUnsafe (f i) 8
    writeBytesLoop f neededBytes (i + 1)
  else pure ()
termination_by neededBytes - i

/-- /repo/ztype/varuint_encode.go:52-79 `writeVarUint`. -/
def writeVarUint (v : BitVec 64) (maxBytes : Nat) : Wr Unit :=
  match unsignedBitSize v maxBytes with
  | .error e => throw e
  | .ok bits => writeBytesLoop (varUintByte v (bits / 8) maxBytes) (bits / 8) 0

/-- /repo/ztype/varuint_encode.go:17-19 -/
def writeVaruint16 (v : BitVec 16) : Wr Unit := writeVarUint (v.setWidth 64) 2
/-- /repo/ztype/varuint_encode.go:24-26 -/
def writeVaruint32 (v : BitVec 32) : Wr Unit := writeVarUint (v.setWidth 64) 4
/-- /repo/ztype/varuint_encode.go:31-33 -/
def writeVaruint64 (v : BitVec 64) : Wr Unit := writeVarUint v 8
/-- /repo/ztype/varuint_encode.go:38-40 -/
def writeVaruint (v : BitVec 64) : Wr Unit := writeVarUint v 9
/-- /repo/ztype/varuint_encode.go:45-50 -/
def writeVarsize (v : BitVec 64) : Wr Unit :=
  if v > BitVec.ofNat 64 maxVarsize then throw .outOfBounds else writeVarUint v 5

/-- Body of the loop /repo/ztype/varint_encode.go:50-70: the byte written in iteration `i`. -/
def varIntByte (neg : Bool) (absValue : BitVec 64) (neededBytes maxBytes i : Nat) : BitVec 64 :=
  let needsMaxByteRange : Bool := neededBytes = maxBytes
  let hasNextByte : Bool := i + 1 < neededBytes
  let hasSignBit : Bool := i = 0
  let b0 : BitVec 64 := if hasSignBit && neg then 0x80#64 else 0x00#64
  let rem0 := if hasSignBit then 7 else 8
  let remainingBits := if hasNextByte then rem0 - 1 else if !needsMaxByteRange then rem0 - 1 else rem0
  let b1 : BitVec 64 := if hasNextByte then b0 ||| (1#64 <<< (rem0 - 1)) else b0
  let shiftBits := (neededBytes - (i + 1)) * 7 + (if needsMaxByteRange && hasNextByte then 1 else 0)
  b1 ||| ((absValue >>> shiftBits) &&& (0xff#64 >>> (8 - remainingBits)))

/-- /repo/ztype/varint_encode.go:36-76 `writeVarInt`. -/
def writeVarInt (v : BitVec 64) (maxBytes : Nat) : Wr Unit :=
  match signedBitSize v maxBytes with
  | .error e => throw e
  | .ok bits => writeBytesLoop (varIntByte (v.slt 0#64) (goAbs v) (bits / 8) maxBytes) (bits / 8) 0

/-- /repo/ztype/varint_encode.go:8-10 -/
def writeVarint16 (v : BitVec 16) : Wr Unit := writeVarInt (v.signExtend 64) 2
/-- /repo/ztype/varint_encode.go:15-17 -/
def writeVarint32 (v : BitVec 32) : Wr Unit := writeVarInt (v.signExtend 64) 4
/-- /repo/ztype/varint_encode.go:22-24 -/
def writeVarint64 (v : BitVec 64) : Wr Unit := writeVarInt v 8
/-- /repo/ztype/varint_encode.go:29-34 -/
def writeVarint (v : BitVec 64) : Wr Unit :=
  if v = minInt64 then Wr.byte 0x80#8 else writeVarInt v 9

/-! ## Readers -/

/-- The loop `for i := 0; i < loops; i++ { if !hasNext {break}; … }` followed by `if hasNext { … }` shared by all
readers, e.g. /repo/ztype/varuint_decode.go:30-46; `w` is the width of the Go type of `v`.  `ReadVaruint16` and
`ReadVarint16` have no loop (`loops = 0`). -/
def readVarTail (w : Nat) : Nat → BitVec w → Bool → Rd (BitVec w)
  | 0, v, hasNext =>
    if hasNext then do
      let b ← Rd.byte
      pure ((v <<< 8) ||| b.setWidth w)
    else pure v
  | n + 1, v, hasNext =>
    if hasNext then do
      let b ← Rd.byte
      readVarTail w n ((v <<< 7) ||| (b &&& 0x7f#8).setWidth w) ((b &&& 0x80#8) ≠ 0#8)
    else pure v

/-- First byte and tail of the unsigned readers. -/
def readVarU (w loops : Nat) : Rd (BitVec w) := do
  let b ← Rd.byte
  readVarTail w loops ((b &&& 0x7f#8).setWidth w) ((b &&& 0x80#8) ≠ 0#8)

/-- /repo/ztype/varuint_decode.go:6-19 -/
def readVaruint16 : Rd (BitVec 16) := readVarU 16 0
/-- /repo/ztype/varuint_decode.go:22-48 -/
def readVaruint32 : Rd (BitVec 32) := readVarU 32 2
/-- /repo/ztype/varuint_decode.go:51-82 -/
def readVaruint64 : Rd (BitVec 64) := readVarU 64 6
/-- /repo/ztype/varuint_decode.go:85-116 -/
def readVaruint : Rd (BitVec 64) := readVarU 64 7
/-- /repo/ztype/varuint_decode.go:119-148 -/
def readVarsize : Rd (BitVec 64) := do
  let v ← readVarU 64 3
  if v > BitVec.ofNat 64 maxVarsize then throw .outOfBounds else pure v

/-- What the signed readers do after the first byte `b` has been read. -/
def readVarSCont (w loops : Nat) (b : BitVec 8) : Rd (BitVec w) := do
  let isNegative : Bool := (b &&& 0x80#8) ≠ 0#8
  let v ← readVarTail w loops ((b &&& 0x3f#8).setWidth w) ((b &&& 0x40#8) ≠ 0#8)
  pure (if isNegative then -v else v)

/-- The signed readers for varint16/32/64. -/
def readVarS (w loops : Nat) : Rd (BitVec w) := do
  let b ← Rd.byte
  readVarSCont w loops b

/-- /repo/ztype/varint_decode.go:6-23 -/
def readVarint16 : Rd (BitVec 16) := readVarS 16 0
/-- /repo/ztype/varint_decode.go:26-56 -/
def readVarint32 : Rd (BitVec 32) := readVarS 32 2
/-- /repo/ztype/varint_decode.go:59-94 -/
def readVarint64 : Rd (BitVec 64) := readVarS 64 6
/-- /repo/ztype/varint_decode.go:97-136 -/
def readVarint : Rd (BitVec 64) := do
  let b ← Rd.byte
  if b = 0x80#8 then pure minInt64 else readVarSCont 64 7 b

/-- /repo/ztype/varuint_encode.go:116-125 `NumBits`; `bits.Len64(x)` is `Nat.size x`. -/
def numBits (v : BitVec 64) : Nat :=
  if v = 0#64 then 0 else if v = 1#64 then 1 else Nat.size (v - 1#64).toNat

/-! ## Characterisation of the size functions -/

/-- Number of value bits in an unsigned encoding of `k` of at most `m` bytes. -/
def uCap (m k : Nat) : Nat := if k = m then 7 * k + 1 else 7 * k

/-- Number of magnitude bits in a signed encoding of `k` of at most `m` bytes. -/
def sCap (m k : Nat) : Nat := if k = m then 7 * k else 7 * k - 1

theorem shl_or_ff {x : BitVec 64} {c d : Nat} (hx : x.toNat = 2 ^ c - 1) (hd : d ≤ 8) (hcd : c + d ≤ 64)
    (hc : 8 ≤ c + d) : ((x <<< d) ||| 0xff#64).toNat = 2 ^ (c + d) - 1 := by
  apply Nat.eq_of_testBit_eq
  intro i
  rw [BitVec.toNat_or, Nat.testBit_or, BitVec.toNat_shiftLeft, Nat.testBit_mod_two_pow, Nat.testBit_shiftLeft, hx,
    Nat.testBit_two_pow_sub_one, Nat.testBit_two_pow_sub_one]
  have : (0xff#64).toNat = 2 ^ 8 - 1 := rfl
  rw [this, Nat.testBit_two_pow_sub_one]
  by_cases h1 : i < c + d
  · simp only [h1, decide_true]
    by_cases h2 : i < 8
    · simp [h2]
    · have : d ≤ i := by omega
      have h3 : i - d < c := by omega
      have h4 : i < 64 := by omega
      simp [this, h3, h4]
  · simp only [h1, decide_false]
    have h2 : ¬ i < 8 := by omega
    have h3 : ¬ i - d < c := by omega
    simp [h2, h3]

theorem unsignedBitSizeLoop_spec (v : BitVec 64) (m : Nat) (hm9 : m ≤ 9) (max : BitVec 64) (k : Nat)
    (hk1 : 1 ≤ k) (hkm : k ≤ m) (hmax : max.toNat = 2 ^ uCap m k - 1) :
    (∃ j, k ≤ j ∧ j ≤ m ∧ unsignedBitSizeLoop v m max k = .ok (j * 8) ∧ v.toNat < 2 ^ uCap m j ∧
      ∀ i, k ≤ i → i < j → 2 ^ uCap m i ≤ v.toNat) ∨
    (unsignedBitSizeLoop v m max k = .error .outOfBounds ∧ ∀ i, k ≤ i → i ≤ m → 2 ^ uCap m i ≤ v.toNat) := by
  rw [unsignedBitSizeLoop]
  have hpos := Nat.two_pow_pos (uCap m k)
  by_cases h1 : v ≤ max
  · rw [if_pos h1]
    left
    refine ⟨k, Nat.le_refl k, hkm, rfl, ?_, ?_⟩
    · rw [BitVec.le_def] at h1; omega
    · intro i a b; omega
  · rw [if_neg h1]
    have hge : 2 ^ uCap m k ≤ v.toNat := by
      rw [BitVec.le_def] at h1; omega
    by_cases h2 : k + 1 > m
    · rw [dif_pos h2]
      right
      refine ⟨rfl, ?_⟩
      intro i a b
      have : i = k := by omega
      rw [this]; exact hge
    · rw [dif_neg h2]
      have hstep : ∀ mx : BitVec 64, mx.toNat = 2 ^ uCap m (k + 1) - 1 →
          (∃ j, k ≤ j ∧ j ≤ m ∧ unsignedBitSizeLoop v m mx (k + 1) = .ok (j * 8) ∧ v.toNat < 2 ^ uCap m j ∧
            ∀ i, k ≤ i → i < j → 2 ^ uCap m i ≤ v.toNat) ∨
          (unsignedBitSizeLoop v m mx (k + 1) = .error .outOfBounds ∧
            ∀ i, k ≤ i → i ≤ m → 2 ^ uCap m i ≤ v.toNat) := by
        intro mx hmx
        rcases unsignedBitSizeLoop_spec v m hm9 mx (k + 1) (by omega) (by omega) hmx with
          ⟨j, a, b, c, d, e⟩ | ⟨a, b⟩
        · left
          refine ⟨j, by omega, b, c, d, ?_⟩
          intro i hi1 hi2
          rcases Nat.eq_or_lt_of_le hi1 with h | h
          · rw [← h]; exact hge
          · exact e i h hi2
        · right
          refine ⟨a, ?_⟩
          intro i hi1 hi2
          rcases Nat.eq_or_lt_of_le hi1 with h | h
          · rw [← h]; exact hge
          · exact b i h hi2
      have hck : uCap m k = 7 * k := by unfold uCap; rw [if_neg (by omega)]
      rw [hck] at hmax
      by_cases h3 : k + 1 = m
      · rw [if_pos h3]
        apply hstep
        rw [shl_or_ff hmax (by omega) (by omega) (by omega)]
        unfold uCap; rw [if_pos h3]; rfl
      · rw [if_neg h3]
        apply hstep
        rw [shl_or_ff hmax (by omega) (by omega) (by omega)]
        unfold uCap; rw [if_neg h3]; rfl
termination_by m - k

/-- `UnsignedBitSize` returns the least number of bytes whose capacity covers the value. -/
theorem unsignedBitSize_spec (v : BitVec 64) (m : Nat) (h2 : 2 ≤ m) (hm9 : m ≤ 9) :
    (∃ j, 1 ≤ j ∧ j ≤ m ∧ unsignedBitSize v m = .ok (j * 8) ∧ v.toNat < 2 ^ uCap m j ∧
      ∀ i, 1 ≤ i → i < j → 2 ^ uCap m i ≤ v.toNat) ∨
    (unsignedBitSize v m = .error .outOfBounds ∧ 2 ^ uCap m m ≤ v.toNat) := by
  rcases unsignedBitSizeLoop_spec v m hm9 ((1#64 <<< 7) - 1#64) 1 (by omega) (by omega)
    (by unfold uCap; rw [if_neg (by omega)]; rfl) with h | ⟨a, b⟩
  · left; exact h
  · right; exact ⟨a, b m (by omega) (Nat.le_refl m)⟩

theorem unsignedBitSize_ok {v : BitVec 64} {m : Nat} (h2 : 2 ≤ m) (hm9 : m ≤ 9) (hv : v.toNat < 2 ^ (7 * m + 1)) :
    ∃ j, 1 ≤ j ∧ j ≤ m ∧ unsignedBitSize v m = .ok (j * 8) ∧ v.toNat < 2 ^ uCap m j ∧
      ∀ i, 1 ≤ i → i < j → 2 ^ uCap m i ≤ v.toNat := by
  rcases unsignedBitSize_spec v m h2 hm9 with h | ⟨_, h⟩
  · exact h
  · exfalso; unfold uCap at h; rw [if_pos rfl] at h; omega

theorem uCap_mono {m i j : Nat} (hij : i ≤ j) (hj : j ≤ m) : uCap m i ≤ uCap m j := by
  unfold uCap; split <;> split <;> omega

theorem unsignedBitSize_err {v : BitVec 64} {m : Nat} (h2 : 2 ≤ m) (hm9 : m ≤ 9) (hv : ¬ v.toNat < 2 ^ (7 * m + 1)) :
    unsignedBitSize v m = .error .outOfBounds := by
  rcases unsignedBitSize_spec v m h2 hm9 with ⟨j, _, b, _, d, _⟩ | ⟨h, _⟩
  · exfalso
    apply hv
    refine Nat.lt_of_lt_of_le d (Nat.pow_le_pow_right (by omega) ?_)
    have := uCap_mono b (Nat.le_refl m)
    have h3 : uCap m m = 7 * m + 1 := by unfold uCap; rw [if_pos rfl]
    omega
  · exact h

theorem sle_of_lt {a b : BitVec 64} (ha : a.toNat < 2 ^ 63) (hb : b.toNat < 2 ^ 63) :
    a.sle b = true ↔ a.toNat ≤ b.toNat := by
  rw [BitVec.sle_iff_toInt_le, BitVec.toInt_eq_toNat_of_lt (by omega), BitVec.toInt_eq_toNat_of_lt (by omega)]
  omega

theorem signedBitSizeLoop_spec (v : BitVec 64) (hv : v.toNat < 2 ^ 63) (m : Nat) (hm9 : m ≤ 9) (max : BitVec 64)
    (k : Nat) (hk1 : 1 ≤ k) (hkm : k ≤ m) (hmax : max.toNat = 2 ^ sCap m k - 1) :
    (∃ j, k ≤ j ∧ j ≤ m ∧ signedBitSizeLoop v m max k = .ok (j * 8) ∧ v.toNat < 2 ^ sCap m j ∧
      ∀ i, k ≤ i → i < j → 2 ^ sCap m i ≤ v.toNat) ∨
    (signedBitSizeLoop v m max k = .error .outOfBounds ∧ ∀ i, k ≤ i → i ≤ m → 2 ^ sCap m i ≤ v.toNat) := by
  rw [signedBitSizeLoop]
  have hpos := Nat.two_pow_pos (sCap m k)
  have hcap : sCap m k ≤ 63 := by unfold sCap; split <;> omega
  have h63 : 2 ^ sCap m k ≤ 2 ^ 63 := Nat.pow_le_pow_right (by omega) hcap
  have hle : v.sle max = true ↔ v.toNat ≤ max.toNat := sle_of_lt hv (by omega)
  by_cases h1 : v.sle max
  · rw [if_pos h1]
    left
    refine ⟨k, Nat.le_refl k, hkm, rfl, ?_, ?_⟩
    · rw [hle] at h1; omega
    · intro i a b; omega
  · rw [if_neg h1]
    have hge : 2 ^ sCap m k ≤ v.toNat := by
      rw [hle] at h1; omega
    by_cases h2 : k + 1 > m
    · rw [dif_pos h2]
      right
      refine ⟨rfl, ?_⟩
      intro i a b
      have : i = k := by omega
      rw [this]; exact hge
    · rw [dif_neg h2]
      have hstep : ∀ mx : BitVec 64, mx.toNat = 2 ^ sCap m (k + 1) - 1 →
          (∃ j, k ≤ j ∧ j ≤ m ∧ signedBitSizeLoop v m mx (k + 1) = .ok (j * 8) ∧ v.toNat < 2 ^ sCap m j ∧
            ∀ i, k ≤ i → i < j → 2 ^ sCap m i ≤ v.toNat) ∨
          (signedBitSizeLoop v m mx (k + 1) = .error .outOfBounds ∧
            ∀ i, k ≤ i → i ≤ m → 2 ^ sCap m i ≤ v.toNat) := by
        intro mx hmx
        rcases signedBitSizeLoop_spec v hv m hm9 mx (k + 1) (by omega) (by omega) hmx with
          ⟨j, a, b, c, d, e⟩ | ⟨a, b⟩
        · left
          refine ⟨j, by omega, b, c, d, ?_⟩
          intro i hi1 hi2
          rcases Nat.eq_or_lt_of_le hi1 with h | h
          · rw [← h]; exact hge
          · exact e i h hi2
        · right
          refine ⟨a, ?_⟩
          intro i hi1 hi2
          rcases Nat.eq_or_lt_of_le hi1 with h | h
          · rw [← h]; exact hge
          · exact b i h hi2
      have hck : sCap m k = 7 * k - 1 := by unfold sCap; rw [if_neg (by omega)]
      rw [hck] at hmax
      by_cases h3 : k + 1 = m
      · rw [if_pos h3]
        apply hstep
        rw [shl_or_ff hmax (by omega) (by omega) (by omega)]
        unfold sCap; rw [if_pos h3]
        congr 2; omega
      · rw [if_neg h3]
        apply hstep
        rw [shl_or_ff hmax (by omega) (by omega) (by omega)]
        unfold sCap; rw [if_neg h3]
        congr 2; omega
termination_by m - k

theorem signedBitSize_spec (v : BitVec 64) (hv : (goAbs v).toNat < 2 ^ 63) (m : Nat) (h2 : 2 ≤ m) (hm9 : m ≤ 9) :
    (∃ j, 1 ≤ j ∧ j ≤ m ∧ signedBitSize v m = .ok (j * 8) ∧ (goAbs v).toNat < 2 ^ sCap m j ∧
      ∀ i, 1 ≤ i → i < j → 2 ^ sCap m i ≤ (goAbs v).toNat) ∨
    (signedBitSize v m = .error .outOfBounds ∧ 2 ^ sCap m m ≤ (goAbs v).toNat) := by
  rcases signedBitSizeLoop_spec (goAbs v) hv m hm9 ((1#64 <<< 6) - 1#64) 1 (by omega) (by omega)
    (by unfold sCap; rw [if_neg (by omega)]; rfl) with h | ⟨a, b⟩
  · left; exact h
  · right; exact ⟨a, b m (by omega) (Nat.le_refl m)⟩

theorem sCap_mono {m i j : Nat} (hij : i ≤ j) (hj : j ≤ m) : sCap m i ≤ sCap m j := by
  unfold sCap; split <;> split <;> omega

theorem goAbs_lt {v : BitVec 64} (h : v ≠ minInt64) : (goAbs v).toNat < 2 ^ 63 := by
  unfold goAbs
  have hlt := v.isLt
  have hne : v.toNat ≠ 2 ^ 63 := by
    intro hc; apply h; apply BitVec.eq_of_toNat_eq; rw [hc]; rfl
  split
  · rename_i hs
    rw [BitVec.slt_iff_toInt_lt, BitVec.toInt_eq_toNat_cond] at hs
    rw [BitVec.toNat_neg]
    have : (0#64).toInt = 0 := rfl
    rw [this] at hs
    split at hs <;> omega
  · rename_i hs
    rw [BitVec.slt_iff_toInt_lt, BitVec.toInt_eq_toNat_cond] at hs
    have : (0#64).toInt = 0 := rfl
    rw [this] at hs
    split at hs <;> omega

theorem goAbs_toNat {v : BitVec 64} (h : v ≠ minInt64) : ((goAbs v).toNat : Int) = |v.toInt| := by
  unfold goAbs
  have hlt := v.isLt
  have hne : v.toNat ≠ 2 ^ 63 := by
    intro hc; apply h; apply BitVec.eq_of_toNat_eq; rw [hc]; rfl
  have h0 : (0#64).toInt = 0 := rfl
  split
  · rename_i hs
    rw [BitVec.slt_iff_toInt_lt, h0] at hs
    rw [abs_of_neg hs, BitVec.toNat_neg]
    rw [BitVec.toInt_eq_toNat_cond] at hs ⊢
    split at hs <;> rename_i h5
    · omega
    · rw [if_neg h5]; omega
  · rename_i hs
    rw [BitVec.slt_iff_toInt_lt, h0] at hs
    rw [abs_of_nonneg (by omega)]
    rw [BitVec.toInt_eq_toNat_cond] at hs ⊢
    split at hs <;> rename_i h5
    · rw [if_pos h5]
    · omega

/-! ## Characterisation of the bytes -/

/-- Bits below byte `i` of an encoding of `n` bytes with maximum `m`. -/
def shBits (m n i : Nat) : Nat := if i < n then 7 * (n - i) + (if n = m then 1 else 0) else 0

/-- Value of byte `i` (not the first byte of a signed number). -/
def tailVal (v m n i : Nat) : Nat :=
  (if i + 1 < n then 128 else 0) + v / 2 ^ shBits m n (i + 1) % (if i + 1 = n ∧ n = m then 256 else 128)

theorem and_mask {x : BitVec 64} {r : Nat} (hr : r ≤ 8) :
    (x &&& (0xff#64 >>> (8 - r))).toNat = x.toNat % 2 ^ r := by
  rw [BitVec.toNat_and, BitVec.toNat_ushiftRight]
  have : (0xff#64).toNat >>> (8 - r) = 2 ^ r - 1 := by
    rw [Nat.shiftRight_eq_div_pow]
    have : r = 0 ∨ r = 1 ∨ r = 2 ∨ r = 3 ∨ r = 4 ∨ r = 5 ∨ r = 6 ∨ r = 7 ∨ r = 8 := by omega
    rcases this with h | h | h | h | h | h | h | h | h <;> subst h <;> rfl
  rw [this, Nat.and_two_pow_sub_one_eq_mod]

theorem or_pow_add {k x : Nat} (hx : x < 2 ^ k) : 2 ^ k ||| x = 2 ^ k + x := by
  have := Nat.two_pow_add_eq_or_of_lt hx 1
  simpa using this.symm

theorem varUintByte_val (v : BitVec 64) {m n i : Nat} (hi : i < n) :
    (varUintByte v n m i).toNat = tailVal v.toNat m n i := by
  unfold varUintByte tailVal shBits
  by_cases h1 : i + 1 < n
  · have hne : ¬ (i + 1 = n) := by omega
    simp only [h1, decide_true, if_true, hne, false_and, if_false, Bool.and_true]
    rw [BitVec.toNat_or, and_mask (by omega)]
    rw [BitVec.toNat_ushiftRight, Nat.shiftRight_eq_div_pow]
    have hlt := Nat.mod_lt (v.toNat / 2 ^ ((n - (i + 1)) * 7 + if decide (n = m) = true then 1 else 0))
      (Nat.two_pow_pos 7)
    have := or_pow_add hlt
    rw [show (0x80#64).toNat = 2 ^ 7 from rfl, this]
    simp only [decide_eq_true_eq, Nat.mul_comm 7]
    norm_num
  · obtain rfl : n = i + 1 := by omega
    simp only [Nat.lt_irrefl, decide_false, if_false, true_and, Bool.and_false, Bool.false_eq_true, Nat.sub_self,
      Nat.zero_mul, Nat.add_zero]
    by_cases h2 : i + 1 = m
    · simp only [h2, decide_true, Bool.not_true, if_true, Bool.false_eq_true, if_false]
      rw [BitVec.toNat_or, and_mask (by omega)]
      rw [BitVec.toNat_ushiftRight, Nat.shiftRight_eq_div_pow]
      simp
    · simp only [h2, decide_false, Bool.not_false, if_true, if_false]
      rw [BitVec.toNat_or, and_mask (by omega)]
      rw [BitVec.toNat_ushiftRight, Nat.shiftRight_eq_div_pow]
      simp

theorem varIntByte_tail (neg : Bool) (v : BitVec 64) {m n i : Nat} (h0 : i ≠ 0) :
    varIntByte neg v n m i = varUintByte v n m i := by
  unfold varIntByte varUintByte
  simp only [h0, decide_false, Bool.false_and]
  by_cases h1 : i + 1 < n
  · simp [h1]
  · by_cases h2 : n = m <;> simp [h1, h2]

/-- The first byte of a signed number. -/
def headVal (neg : Bool) (v m n : Nat) : Nat :=
  (if neg then 128 else 0) + (if 1 < n then 64 else 0) + v / 2 ^ shBits m n 1 % 64

theorem varIntByte_head (neg : Bool) (v : BitVec 64) {m n : Nat} (hn : 1 ≤ n) (hm : 2 ≤ m) :
    (varIntByte neg v n m 0).toNat = headVal neg v.toNat m n := by
  unfold varIntByte headVal shBits
  by_cases h1 : 1 < n
  · simp only [h1, decide_true, if_true, Bool.and_true, Bool.true_and, Nat.zero_add]
    rw [BitVec.toNat_or, and_mask (by omega)]
    rw [BitVec.toNat_ushiftRight, Nat.shiftRight_eq_div_pow]
    have hlt := Nat.mod_lt (v.toNat / 2 ^ ((n - 1) * 7 + if decide (n = m) = true then 1 else 0)) (Nat.two_pow_pos 6)
    simp only [decide_eq_true_eq, Nat.mul_comm 7] at *
    generalize v.toNat / 2 ^ ((n - 1) * 7 + if n = m then 1 else 0) = x at *
    cases neg
    · have h6 := or_pow_add hlt
      have : ((if false = true then 128#64 else 0#64) ||| 1#64 <<< (7 - 1)).toNat = 2 ^ 6 := rfl
      rw [this]
      norm_num at h6 ⊢
      omega
    · have h6 := or_pow_add hlt
      have : ((if true = true then 128#64 else 0#64) ||| 1#64 <<< (7 - 1)).toNat = 2 ^ 7 ||| 2 ^ 6 := rfl
      have h7 := or_pow_add (k := 7) (x := 2 ^ 6 + x % 2 ^ 6) (by omega)
      rw [this, Nat.or_assoc, h6, h7]
      norm_num; omega
  · have hn1 : n = 1 := by omega
    subst hn1
    have hne : ¬ (1 = m) := by omega
    simp only [hne]
    simp only [decide_false, decide_true, Bool.not_false, if_true, if_false, Bool.false_eq_true, Bool.and_false,
      Bool.true_and, Nat.lt_irrefl, Nat.zero_add]
    rw [BitVec.toNat_or, and_mask (by omega)]
    rw [BitVec.toNat_ushiftRight, Nat.shiftRight_eq_div_pow]
    have hlt := Nat.mod_lt v.toNat (Nat.two_pow_pos 6)
    cases neg
    · simp
    · have h7 := or_pow_add (k := 7) (x := v.toNat % 2 ^ 6) (by omega)
      simp only [if_true]
      rw [show (128#64).toNat = 2 ^ 7 from rfl]
      norm_num at h7 ⊢
      exact h7

/-! ## Output of the writers -/

/-- Bits of `k` consecutive bytes starting with byte `i`. -/
def outFrom (f : Nat → Nat) : Nat → Nat → List Bool
  | _, 0 => []
  | i, k + 1 => natBits 8 (f i) ++ outFrom f (i + 1) k

@[simp] theorem outFrom_length (f : Nat → Nat) (i k : Nat) : (outFrom f i k).length = 8 * k := by
  induction k generalizing i with
  | zero => rfl
  | succ k ih => simp [outFrom, ih]; omega

theorem outFrom_congr {f g : Nat → Nat} {i k : Nat} (h : ∀ j, i ≤ j → j < i + k → f j = g j) :
    outFrom f i k = outFrom g i k := by
  induction k generalizing i with
  | zero => rfl
  | succ k ih =>
    simp only [outFrom]
    rw [h i (Nat.le_refl i) (by omega), ih (fun j a b => h j (by omega) (by omega))]

theorem writeBytesLoop_writes (f : Nat → BitVec 64) (n i : Nat) (s : List Bool) :
    Writes (writeBytesLoop f n i) s (outFrom (fun j => (f j).toNat) i (n - i)) := by
  rw [writeBytesLoop]
  by_cases h : i < n
  · rw [if_pos h]
    obtain ⟨k, hk⟩ : ∃ k, n - i = k + 1 := ⟨n - i - 1, by omega⟩
    rw [hk]
    refine Writes.bind (a := natBits 8 (f i).toNat) (wrun_bitsUnsafe _ _ _) ?_
    have := writeBytesLoop_writes f n (i + 1) (s ++ natBits 8 (f i).toNat)
    rw [show n - (i + 1) = k by omega] at this
    exact this
  · rw [if_neg h, show n - i = 0 by omega]
    exact Writes.pure s
termination_by n - i

/-- Output of `writeVarUint` when `j` bytes are needed. -/
theorem writeVarUint_writes {v : BitVec 64} {m j : Nat} (hs : unsignedBitSize v m = .ok (j * 8)) (s : List Bool) :
    Writes (writeVarUint v m) s (outFrom (tailVal v.toNat m j) 0 j) := by
  unfold writeVarUint
  rw [hs]
  dsimp only
  rw [Nat.mul_div_cancel _ (by omega : 0 < 8)]
  have := writeBytesLoop_writes (varUintByte v j m) j 0 s
  rw [Nat.sub_zero] at this
  rwa [outFrom_congr (g := tailVal v.toNat m j)] at this
  intro i _ h
  exact varUintByte_val v (by omega)

/-- Output of `writeVarInt` when `j` bytes are needed. -/
theorem writeVarInt_writes {v : BitVec 64} {m j : Nat} (hm : 2 ≤ m) (hj : 1 ≤ j)
    (hs : signedBitSize v m = .ok (j * 8)) (s : List Bool) :
    Writes (writeVarInt v m) s
      (natBits 8 (headVal (v.slt 0#64) (goAbs v).toNat m j) ++ outFrom (tailVal (goAbs v).toNat m j) 1 (j - 1)) := by
  unfold writeVarInt
  rw [hs]
  dsimp only
  rw [Nat.mul_div_cancel _ (by omega : 0 < 8)]
  have := writeBytesLoop_writes (varIntByte (v.slt 0#64) (goAbs v) j m) j 0 s
  obtain ⟨k, hk⟩ : ∃ k, j = k + 1 := ⟨j - 1, by omega⟩
  rw [Nat.sub_zero] at this
  conv at this => rhs; rw [hk]
  rw [outFrom, ← hk, varIntByte_head _ _ hj hm, outFrom_congr (g := tailVal (goAbs v).toNat m j)] at this
  · rw [show j - 1 = k by omega]; exact this
  · intro i a b
    rw [varIntByte_tail _ _ (by omega)]
    exact varUintByte_val _ (by omega)

/-! ## Reading back -/

theorem byte_and_7f (b : BitVec 8) : (b &&& 0x7f#8).toNat = b.toNat % 128 := by
  rw [BitVec.toNat_and, show (0x7f#8).toNat = 2 ^ 7 - 1 from rfl, Nat.and_two_pow_sub_one_eq_mod]

theorem byte_and_3f (b : BitVec 8) : (b &&& 0x3f#8).toNat = b.toNat % 64 := by
  rw [BitVec.toNat_and, show (0x3f#8).toNat = 2 ^ 6 - 1 from rfl, Nat.and_two_pow_sub_one_eq_mod]

theorem byte_and_80 : ∀ b : BitVec 8, decide ((b &&& 0x80#8) ≠ 0#8) = decide (128 ≤ b.toNat) := by decide +kernel

theorem byte_and_40 : ∀ b : BitVec 8, decide ((b &&& 0x40#8) ≠ 0#8) = decide (64 ≤ b.toNat % 128) := by
  decide +kernel

theorem tailVal_lt (v m n i : Nat) : tailVal v m n i < 256 := by
  unfold tailVal
  by_cases h : i + 1 < n
  · rw [if_pos h, if_neg (by omega)]
    have := Nat.mod_lt (v / 2 ^ shBits m n (i + 1)) (by omega : 0 < 128)
    omega
  · rw [if_neg h]
    split
    · have := Nat.mod_lt (v / 2 ^ shBits m n (i + 1)) (by omega : 0 < 256); omega
    · have := Nat.mod_lt (v / 2 ^ shBits m n (i + 1)) (by omega : 0 < 128); omega

theorem rrun_byte_nat {x : Nat} (hx : x < 256) (rest : List Bool) (p : Nat) :
    rrun Rd.byte ⟨natBits 8 x ++ rest, p⟩ = (.ok (BitVec.ofNat 8 x), ⟨rest, p + 8⟩) := by
  have h := rrun_byte_append (BitVec.ofNat 8 x) rest p
  rwa [BitVec.toNat_ofNat, Nat.mod_eq_of_lt hx] at h

theorem shl_or_toNat {w d : Nat} {x y : BitVec w} (hy : y.toNat < 2 ^ d) (hxd : x.toNat * 2 ^ d + y.toNat < 2 ^ w) :
    ((x <<< d) ||| y).toNat = x.toNat * 2 ^ d + y.toNat := by
  rw [BitVec.toNat_or, BitVec.toNat_shiftLeft, Nat.shiftLeft_eq, Nat.mod_eq_of_lt (by omega)]
  have := Nat.two_pow_add_eq_or_of_lt hy x.toNat
  rw [Nat.mul_comm] at this
  exact this.symm

theorem div_step (v a d : Nat) : v / 2 ^ (a + d) * 2 ^ d + v / 2 ^ a % 2 ^ d = v / 2 ^ a := by
  rw [pow_add, ← Nat.div_div_eq_div_mul]
  exact Nat.div_add_mod' (v / 2 ^ a) (2 ^ d)

theorem readVarTail_reads (w v m n i : Nat) (hw : v < 2 ^ w) (hw8 : 8 ≤ w) (hnm : n ≤ m) (hi1 : 1 ≤ i)
    (hin : i ≤ n) (loops : Nat) (hl : loops + i + 1 = m ∨ (n = i ∧ n = m)) (acc : BitVec w)
    (hacc : acc.toNat = v / 2 ^ shBits m n i) (pos : Nat) :
    Reads (readVarTail w loops acc (decide (i < n))) (outFrom (tailVal v m n) i (n - i)) pos (BitVec.ofNat w v) := by
  by_cases h : i < n
  · obtain ⟨k, hk⟩ : ∃ k, n - i = k + 1 := ⟨n - i - 1, by omega⟩
    have hl' : loops + i + 1 = m := by omega
    have h256 := tailVal_lt v m n i
    rw [hk]
    intro rest
    simp only [outFrom, List.append_assoc]
    cases loops with
    | zero =>
      have hn : i + 1 = n := by omega
      have hm' : n = m := by omega
      have hk0 : k = 0 := by omega
      subst hk0
      simp only [readVarTail, h, decide_true, if_true, outFrom, List.append_nil, List.nil_append]
      rw [rrun_bind, rrun_byte_nat h256]
      dsimp only
      rw [rrun_pure]
      have hb : (BitVec.ofNat 8 (tailVal v m n i)).toNat = tailVal v m n i := by
        rw [BitVec.toNat_ofNat]; exact Nat.mod_eq_of_lt h256
      have htv : tailVal v m n i = v % 2 ^ 8 := by
        have e1 : shBits m n (i + 1) = 0 := by unfold shBits; rw [if_neg (by omega)]
        unfold tailVal
        rw [e1, if_neg (by omega), if_pos ⟨hn, hm'⟩]
        simp
      have hsh : shBits m n i = 8 := by
        unfold shBits; rw [if_pos h, if_pos hm']; omega
      rw [hsh] at hacc
      have h2w : 2 ^ 8 ≤ 2 ^ w := Nat.pow_le_pow_right (by omega) hw8
      have hbw : ((BitVec.ofNat 8 (tailVal v m n i)).setWidth w).toNat = v % 2 ^ 8 := by
        rw [BitVec.toNat_setWidth, hb, htv, Nat.mod_eq_of_lt (by omega)]
      have hval := Nat.div_add_mod' v (2 ^ 8)
      have hres : ((acc <<< 8) ||| (BitVec.ofNat 8 (tailVal v m n i)).setWidth w) = BitVec.ofNat w v := by
        apply BitVec.eq_of_toNat_eq
        rw [shl_or_toNat (by rw [hbw]; omega) (by rw [hbw, hacc, hval]; exact hw)]
        rw [hbw, hacc, hval, BitVec.toNat_ofNat, Nat.mod_eq_of_lt hw]
      rw [hres]
      simp
    | succ loops =>
      simp only [readVarTail, h, decide_true, if_true]
      rw [rrun_bind, rrun_byte_nat h256]
      dsimp only
      have hnot : ¬ (i + 1 = n ∧ n = m) := by omega
      have hb : (BitVec.ofNat 8 (tailVal v m n i)).toNat = tailVal v m n i := by
        rw [BitVec.toNat_ofNat]; exact Nat.mod_eq_of_lt h256
      have hflag : decide ((BitVec.ofNat 8 (tailVal v m n i) &&& 0x80#8) ≠ 0#8) = decide (i + 1 < n) := by
        rw [byte_and_80, hb]
        unfold tailVal
        rw [if_neg hnot]
        have := Nat.mod_lt (v / 2 ^ shBits m n (i + 1)) (by omega : 0 < 128)
        by_cases h1 : i + 1 < n
        · rw [if_pos h1]; simp [h1]
        · rw [if_neg h1]; simp [h1]; omega
      rw [hflag]
      have hlow : (BitVec.ofNat 8 (tailVal v m n i) &&& 0x7f#8).toNat = v / 2 ^ shBits m n (i + 1) % 2 ^ 7 := by
        rw [byte_and_7f, hb]
        unfold tailVal
        rw [if_neg hnot]
        have := Nat.mod_lt (v / 2 ^ shBits m n (i + 1)) (by omega : 0 < 128)
        split <;> omega
      have hsh : shBits m n i = shBits m n (i + 1) + 7 := by
        unfold shBits
        rw [if_pos h]
        by_cases h1 : i + 1 < n
        · rw [if_pos h1]; split <;> omega
        · rw [if_neg h1, if_neg (by omega)]; omega
      have h2w : 2 ^ 7 ≤ 2 ^ w := Nat.pow_le_pow_right (by omega) (by omega)
      have hlt7 : v / 2 ^ shBits m n (i + 1) % 2 ^ 7 < 2 ^ 7 := Nat.mod_lt _ (Nat.two_pow_pos 7)
      have hbw : ((BitVec.ofNat 8 (tailVal v m n i) &&& 0x7f#8).setWidth w).toNat =
          v / 2 ^ shBits m n (i + 1) % 2 ^ 7 := by
        rw [BitVec.toNat_setWidth, hlow, Nat.mod_eq_of_lt (by omega)]
      rw [hsh] at hacc
      have hval := div_step v (shBits m n (i + 1)) 7
      have hle : v / 2 ^ shBits m n (i + 1) ≤ v := Nat.div_le_self _ _
      have hacc' : ((acc <<< 7) ||| (BitVec.ofNat 8 (tailVal v m n i) &&& 0x7f#8).setWidth w).toNat =
          v / 2 ^ shBits m n (i + 1) := by
        rw [shl_or_toNat (by rw [hbw]; exact hlt7) (by rw [hbw, hacc, hval]; omega)]
        rw [hbw, hacc, hval]
      have ih := readVarTail_reads w v m n (i + 1) hw hw8 hnm (by omega) (by omega) loops (by omega) _ hacc' (pos + 8)
      rw [show n - (i + 1) = k by omega] at ih
      rw [ih rest]
      simp; omega
  · have hin' : i = n := by omega
    have : acc = BitVec.ofNat w v := by
      apply BitVec.eq_of_toNat_eq
      rw [hacc]; unfold shBits; rw [if_neg (by omega), BitVec.toNat_ofNat, Nat.mod_eq_of_lt hw]; simp
    rw [show n - i = 0 by omega, outFrom]
    intro rest
    have hd : decide (i < n) = false := by simp [h]
    rw [hd]
    cases loops <;> simp [readVarTail, rrun_pure, this]
termination_by n - i

/-- Unsigned reader on the bytes produced for `v` in `n` bytes. -/
theorem readVarU_reads {w v m n : Nat} (hw : v < 2 ^ w) (hw8 : 8 ≤ w) (hm : 2 ≤ m) (hn1 : 1 ≤ n) (hnm : n ≤ m)
    (hv : v < 2 ^ uCap m n) (pos : Nat) :
    Reads (readVarU w (m - 2)) (outFrom (tailVal v m n) 0 n) pos (BitVec.ofNat w v) := by
  obtain ⟨k, hk⟩ : ∃ k, n = k + 1 := ⟨n - 1, by omega⟩
  have h256 := tailVal_lt v m n 0
  intro rest
  conv_lhs => arg 2; arg 1; arg 1; rw [hk]
  simp only [outFrom, List.append_assoc, readVarU]
  rw [← hk, rrun_bind, rrun_byte_nat h256]
  dsimp only
  have hnot : ¬ (0 + 1 = n ∧ n = m) := by omega
  have hb : (BitVec.ofNat 8 (tailVal v m n 0)).toNat = tailVal v m n 0 := by
    rw [BitVec.toNat_ofNat]; exact Nat.mod_eq_of_lt h256
  have hflag : decide ((BitVec.ofNat 8 (tailVal v m n 0) &&& 0x80#8) ≠ 0#8) = decide (1 < n) := by
    rw [byte_and_80, hb]
    unfold tailVal
    rw [if_neg hnot]
    have := Nat.mod_lt (v / 2 ^ shBits m n (0 + 1)) (by omega : 0 < 128)
    by_cases h1 : 0 + 1 < n
    · rw [if_pos h1]; simp [show 1 < n by omega]
    · rw [if_neg h1]; simp [show ¬ 1 < n by omega]; omega
  rw [hflag]
  have hsmall : v / 2 ^ shBits m n 1 < 128 := by
    rw [Nat.div_lt_iff_lt_mul (Nat.two_pow_pos _)]
    refine Nat.lt_of_lt_of_le hv ?_
    rw [show 128 = 2 ^ 7 from rfl, ← pow_add]
    apply Nat.pow_le_pow_right (by omega)
    unfold uCap shBits
    split <;> split <;> omega
  have hlow : (BitVec.ofNat 8 (tailVal v m n 0) &&& 0x7f#8).toNat = v / 2 ^ shBits m n 1 := by
    rw [byte_and_7f, hb]
    unfold tailVal
    rw [if_neg hnot, Nat.zero_add, Nat.mod_eq_of_lt hsmall]
    generalize v / 2 ^ shBits m n 1 = x at *
    split <;> omega
  have h2w : 2 ^ 8 ≤ 2 ^ w := Nat.pow_le_pow_right (by omega) (by omega)
  have hacc : ((BitVec.ofNat 8 (tailVal v m n 0) &&& 0x7f#8).setWidth w).toNat = v / 2 ^ shBits m n 1 := by
    rw [BitVec.toNat_setWidth, hlow, Nat.mod_eq_of_lt (by omega)]
  have ih := readVarTail_reads w v m n 1 hw hw8 hnm (by omega) (by omega) (m - 2) (by omega) _ hacc (pos + 8)
  rw [show n - 1 = k by omega] at ih
  rw [show 0 + 1 = 1 from rfl, ih rest]
  simp; omega

/-- Signed reader (after the first byte) on the bytes produced for magnitude `v` in `n` bytes. -/
theorem readVarSCont_reads {w v m n : Nat} (neg : Bool) (hw : v < 2 ^ w) (hw8 : 8 ≤ w) (hm : 2 ≤ m) (hn1 : 1 ≤ n)
    (hnm : n ≤ m) (hv : v < 2 ^ sCap m n) (pos : Nat) :
    headVal neg v m n < 256 ∧
    Reads (readVarSCont w (m - 2) (BitVec.ofNat 8 (headVal neg v m n))) (outFrom (tailVal v m n) 1 (n - 1)) pos
      (if neg then -BitVec.ofNat w v else BitVec.ofNat w v) := by
  have hsmall : v / 2 ^ shBits m n 1 < 64 := by
    rw [Nat.div_lt_iff_lt_mul (Nat.two_pow_pos _)]
    refine Nat.lt_of_lt_of_le hv ?_
    rw [show 64 = 2 ^ 6 from rfl, ← pow_add]
    apply Nat.pow_le_pow_right (by omega)
    unfold sCap shBits
    split <;> split <;> omega
  have hmod : v / 2 ^ shBits m n 1 % 64 = v / 2 ^ shBits m n 1 := Nat.mod_eq_of_lt hsmall
  have h256 : headVal neg v m n < 256 := by
    unfold headVal; rw [hmod]; split <;> split <;> omega
  refine ⟨h256, ?_⟩
  have hb : (BitVec.ofNat 8 (headVal neg v m n)).toNat = headVal neg v m n := by
    rw [BitVec.toNat_ofNat]; exact Nat.mod_eq_of_lt h256
  have hneg : decide ((BitVec.ofNat 8 (headVal neg v m n) &&& 0x80#8) ≠ 0#8) = neg := by
    rw [byte_and_80, hb]
    unfold headVal; rw [hmod]
    cases neg
    · simp; split <;> omega
    · simp; omega
  have hnext : decide ((BitVec.ofNat 8 (headVal neg v m n) &&& 0x40#8) ≠ 0#8) = decide (1 < n) := by
    rw [byte_and_40, hb]
    unfold headVal; rw [hmod]
    by_cases h1 : 1 < n
    · rw [if_pos h1]; cases neg <;> simp [h1] <;> omega
    · rw [if_neg h1]; cases neg <;> simp [h1] <;> omega
  have hlow : (BitVec.ofNat 8 (headVal neg v m n) &&& 0x3f#8).toNat = v / 2 ^ shBits m n 1 := by
    rw [byte_and_3f, hb]
    unfold headVal; rw [hmod]
    split <;> split <;> omega
  have h2w : 2 ^ 8 ≤ 2 ^ w := Nat.pow_le_pow_right (by omega) (by omega)
  have hacc : ((BitVec.ofNat 8 (headVal neg v m n) &&& 0x3f#8).setWidth w).toNat = v / 2 ^ shBits m n 1 := by
    rw [BitVec.toNat_setWidth, hlow, Nat.mod_eq_of_lt (by omega)]
  have ih := readVarTail_reads w v m n 1 hw hw8 hnm (by omega) (by omega) (m - 2) (by omega) _ hacc pos
  unfold readVarSCont
  rw [hnext, hneg]
  exact Reads.map (f := fun x : BitVec w => if neg then -x else x) ih

end Verif
