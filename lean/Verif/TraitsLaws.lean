import Verif.Traits
import Verif.Props.Codec

/-!
# Which laws the builtin array traits satisfy

`Traits.RT`: elements survive `Write`/`Read`; `Traits.Recover`: elements survive `AsUint64`/`FromUint64`;
`Traits.Exact`: `BitSizeOf` is the number of bits written.
-/

namespace Verif

/-! ## Sizes with different byte limits -/

theorem unsignedBitSize_agree {v : BitVec 64} {m₁ m₂ : Nat} (h1 : 2 ≤ m₁) (h1' : m₁ ≤ 9) (h2 : 2 ≤ m₂) (h2' : m₂ ≤ 9)
    (hv1 : v.toNat < 2 ^ (7 * m₁)) (hv2 : v.toNat < 2 ^ (7 * m₂)) : unsignedBitSize v m₁ = unsignedBitSize v m₂ := by
  obtain ⟨j₁, a1, a2, a3, a4, a5⟩ := unsignedBitSize_ok (v := v) h1 h1'
    (Nat.lt_of_lt_of_le hv1 (Nat.pow_le_pow_right (by omega) (by omega)))
  obtain ⟨j₂, b1, b2, b3, b4, b5⟩ := unsignedBitSize_ok (v := v) h2 h2'
    (Nat.lt_of_lt_of_le hv2 (Nat.pow_le_pow_right (by omega) (by omega)))
  have key : ∀ (ma mb ja jb : Nat), ja ≤ ma → jb ≤ mb → 1 ≤ ja → v.toNat < 2 ^ (7 * ma) → v.toNat < 2 ^ uCap ma ja →
      (∀ i, 1 ≤ i → i < jb → 2 ^ uCap mb i ≤ v.toNat) → ¬ ja < jb := by
    intro ma mb ja jb hja hjb hja1 hlt hcap hall hc
    have := hall ja hja1 hc
    have e : uCap mb ja = 7 * ja := by unfold uCap; rw [if_neg (by omega)]
    rw [e] at this
    by_cases hm : ja = ma
    · rw [hm] at this; omega
    · have e' : uCap ma ja = 7 * ja := by unfold uCap; rw [if_neg hm]
      rw [e'] at hcap; omega
  have := key m₁ m₂ j₁ j₂ a2 b2 a1 hv1 a4 b5
  have := key m₂ m₁ j₂ j₁ b2 a2 b1 hv2 b4 a5
  rw [a3, b3, show j₁ = j₂ by omega]

theorem signedBitSize_agree {v : BitVec 64} {m₁ m₂ : Nat} (hmin : v ≠ minInt64) (h1 : 2 ≤ m₁) (h1' : m₁ ≤ 9)
    (h2 : 2 ≤ m₂) (h2' : m₂ ≤ 9)
    (hv1 : (goAbs v).toNat < 2 ^ (7 * m₁ - 1)) (hv2 : (goAbs v).toNat < 2 ^ (7 * m₂ - 1)) :
    signedBitSize v m₁ = signedBitSize v m₂ := by
  have ok : ∀ m, 2 ≤ m → m ≤ 9 → (goAbs v).toNat < 2 ^ (7 * m - 1) → ∃ j, 1 ≤ j ∧ j ≤ m ∧
      signedBitSize v m = .ok (j * 8) ∧ (goAbs v).toNat < 2 ^ sCap m j ∧
      ∀ i, 1 ≤ i → i < j → 2 ^ sCap m i ≤ (goAbs v).toNat := by
    intro m hm hm9 hv
    rcases signedBitSize_spec v (goAbs_lt hmin) m hm hm9 with h | ⟨_, h⟩
    · exact h
    · exfalso
      have e : sCap m m = 7 * m := by unfold sCap; rw [if_pos rfl]
      rw [e] at h
      have : 2 ^ (7 * m - 1) ≤ 2 ^ (7 * m) := Nat.pow_le_pow_right (by omega) (by omega)
      omega
  obtain ⟨j₁, a1, a2, a3, a4, a5⟩ := ok m₁ h1 h1' hv1
  obtain ⟨j₂, b1, b2, b3, b4, b5⟩ := ok m₂ h2 h2' hv2
  have key : ∀ (ma mb ja jb : Nat), ja ≤ ma → jb ≤ mb → 1 ≤ ja → (goAbs v).toNat < 2 ^ (7 * ma - 1) →
      (goAbs v).toNat < 2 ^ sCap ma ja →
      (∀ i, 1 ≤ i → i < jb → 2 ^ sCap mb i ≤ (goAbs v).toNat) → ¬ ja < jb := by
    intro ma mb ja jb hja hjb hja1 hlt hcap hall hc
    have := hall ja hja1 hc
    have e : sCap mb ja = 7 * ja - 1 := by unfold sCap; rw [if_neg (by omega)]
    rw [e] at this
    by_cases hm : ja = ma
    · rw [hm] at this; omega
    · have e' : sCap ma ja = 7 * ja - 1 := by unfold sCap; rw [if_neg hm]
      rw [e'] at hcap; omega
  have := key m₁ m₂ j₁ j₂ a2 b2 a1 hv1 a4 b5
  have := key m₂ m₁ j₂ j₁ b2 a2 b1 hv2 b4 a5
  rw [a3, b3, show j₁ = j₂ by omega]

/-- Lengths for which the size the array code reports for the length field (`SignedBitSize(n, 4)`) is the size of the
varsize that is written. -/
def LenAgree (n : Nat) : Prop :=
  n < 2 ^ 6 ∨ (2 ^ 7 ≤ n ∧ n < 2 ^ 13) ∨ (2 ^ 14 ≤ n ∧ n < 2 ^ 20) ∨ (2 ^ 21 ≤ n ∧ n < 2 ^ 28)

instance (n : Nat) : Decidable (LenAgree n) := by unfold LenAgree; infer_instance

theorem goAbs_ofNat {n : Nat} (h : n < 2 ^ 63) : goAbs (BitVec.ofNat 64 n) = BitVec.ofNat 64 n := by
  unfold goAbs
  rw [if_neg]
  rw [BitVec.slt_iff_toInt_lt, BitVec.toInt_eq_toNat_of_lt (by rw [ofNat64_toNat (by omega)]; omega)]
  simp only [BitVec.toInt_zero, not_lt]
  exact Int.natCast_nonneg _

theorem usize5_eq {n : Nat} (h : n ≤ maxVarsize) : unsignedBitSize (BitVec.ofNat 64 n) 5 =
    .ok (if n < 2 ^ 7 then 8 else if n < 2 ^ 14 then 16 else if n < 2 ^ 21 then 24 else if n < 2 ^ 28 then 32 else 40) := by
  unfold maxVarsize at h
  have e : (BitVec.ofNat 64 n).toNat = n := ofNat64_toNat (by omega)
  obtain ⟨j, a1, a2, a3, a4, a5⟩ := unsignedBitSize_ok (v := BitVec.ofNat 64 n) (m := 5) (by omega) (by omega)
    (by rw [e]; omega)
  rw [e] at a4 a5
  rw [a3]
  congr 1
  have hj : j = 1 ∨ j = 2 ∨ j = 3 ∨ j = 4 ∨ j = 5 := by omega
  have c1 := a5 1; have c2 := a5 2; have c3 := a5 3; have c4 := a5 4
  simp only [uCap] at a4 c1 c2 c3 c4
  norm_num at c1 c2 c3 c4
  rcases hj with rfl | rfl | rfl | rfl | rfl <;> norm_num at a4 c1 c2 c3 c4 ⊢ <;> (repeat' split) <;> omega

theorem ssize4_eq {n : Nat} (h : n < 2 ^ 63) : signedBitSize (BitVec.ofNat 64 n) 4 =
    if n < 2 ^ 6 then .ok 8 else if n < 2 ^ 13 then .ok 16 else if n < 2 ^ 20 then .ok 24 else if n < 2 ^ 28 then .ok 32
    else .error .outOfBounds := by
  have e : (BitVec.ofNat 64 n).toNat = n := ofNat64_toNat (by omega)
  have hne : BitVec.ofNat 64 n ≠ minInt64 := by
    intro hc
    have := congrArg BitVec.toNat hc
    rw [e, show minInt64.toNat = 2 ^ 63 from by decide] at this
    omega
  have hs := signedBitSize_spec (BitVec.ofNat 64 n) (goAbs_lt hne) 4 (by omega) (by omega)
  rw [goAbs_ofNat h, e] at hs
  rcases hs with ⟨j, a1, a2, a3, a4, a5⟩ | ⟨a3, a4⟩
  · rw [a3]
    have hj : j = 1 ∨ j = 2 ∨ j = 3 ∨ j = 4 := by omega
    have c1 := a5 1; have c2 := a5 2; have c3 := a5 3
    simp only [sCap] at a4 c1 c2 c3
    norm_num at c1 c2 c3
    rcases hj with rfl | rfl | rfl | rfl <;> norm_num at a4 c1 c2 c3 ⊢ <;> (repeat' split) <;> first | rfl | omega
  · rw [a3]
    simp only [sCap] at a4
    norm_num at a4 ⊢
    rw [if_neg (by omega), if_neg (by omega), if_neg (by omega), if_neg (by omega)]

/-- The two sizes of a length agree exactly on the lengths of `LenAgree`. -/
theorem lenAgree_iff {n : Nat} (h : n ≤ maxVarsize) :
    signedBitSize (BitVec.ofNat 64 n) 4 = unsignedBitSize (BitVec.ofNat 64 n) 5 ↔ LenAgree n := by
  rw [usize5_eq h, ssize4_eq (by unfold maxVarsize at h; omega)]
  unfold LenAgree
  norm_num
  (repeat' split) <;> simp <;> omega

/-! ## Sign filling -/

theorem fillUpperBits_eq {v : BitVec 64} {n : Nat} (h1 : 1 ≤ n) (h2 : n ≤ 64) (hv : v.toNat < 2 ^ n) :
    fillUpperBits v n = if v &&& (1#64 <<< pred8 n) ≠ 0#64 then v - (1#64 <<< n) else v := by
  unfold fillUpperBits
  split
  · apply BitVec.eq_of_toNat_eq
    have hm := mask_toNat h2
    have hall : (BitVec.allOnes 64).toNat = 2 ^ 64 - 1 := BitVec.toNat_allOnes
    have hpow : 2 ^ n ≤ 2 ^ 64 := Nat.pow_le_pow_right (by omega) h2
    have hpos := Nat.two_pow_pos n
    have hmask : (BitVec.allOnes 64 - ((1#64 <<< n) - 1#64)).toNat = 2 ^ 64 - 2 ^ n := by
      rw [BitVec.toNat_sub, hm, hall]
      have : 2 ^ 64 - (2 ^ n - 1) + (2 ^ 64 - 1) = 2 ^ 64 + (2 ^ 64 - 2 ^ n) := by omega
      rw [this, Nat.add_mod_left, Nat.mod_eq_of_lt (by omega)]
    have hsplit : 2 ^ 64 - 2 ^ n = 2 ^ n * (2 ^ (64 - n) - 1) := by
      rw [Nat.mul_sub, ← Nat.pow_add, Nat.mul_one, show n + (64 - n) = 64 by omega]
    rw [BitVec.toNat_or, hmask, Nat.or_comm, hsplit, or_eq_add n hv, ← hsplit, BitVec.toNat_sub]
    rcases Nat.lt_or_eq_of_le h2 with h | h
    · rw [shl1_toNat h, Nat.mod_eq_of_lt (by omega)]
    · subst h
      rw [shl1_ge (Nat.le_refl _)]
      simp only [BitVec.toNat_ofNat]
      have := v.isLt
      omega
  · rfl

theorem fill_low {v : BitVec 64} {n : Nat} (h1 : 1 ≤ n) (h2 : n ≤ 64) (hv : SignedFits v.toInt n) :
    fillUpperBits (BitVec.ofNat 64 (v.toNat % 2 ^ n)) n = v := by
  have hlt := v.isLt
  have hpow : 2 ^ n ≤ 2 ^ 64 := Nat.pow_le_pow_right (by omega) h2
  have hm : v.toNat % 2 ^ n < 2 ^ n := Nat.mod_lt _ (Nat.two_pow_pos n)
  rw [fillUpperBits_eq h1 h2 (by rw [ofNat64_toNat (by omega)]; exact hm)]
  exact signed_recover h1 h2 hv

theorem fill_self {v : BitVec 64} {n : Nat} (h1 : 1 ≤ n) (h2 : n ≤ 64) (hv : SignedFits v.toInt n) :
    fillUpperBits v n = v := by
  have h := fill_low h1 h2 hv
  have hpow : 2 ^ n ≤ 2 ^ 64 := Nat.pow_le_pow_right (by omega) h2
  have hm : v.toNat % 2 ^ n < 2 ^ n := Nat.mod_lt _ (Nat.two_pow_pos n)
  have hp : pred8 n = n - 1 := by unfold pred8; split <;> omega
  have hbit : v &&& (1#64 <<< pred8 n) ≠ 0#64 ↔ BitVec.ofNat 64 (v.toNat % 2 ^ n) &&& (1#64 <<< pred8 n) ≠ 0#64 := by
    rw [hp, and_shl1_ne_zero (by omega), and_shl1_ne_zero (by omega), ofNat64_toNat (by omega), Nat.testBit_mod_two_pow]
    simp; omega
  unfold fillUpperBits at h ⊢
  by_cases hb : v &&& (1#64 <<< pred8 n) ≠ 0#64
  · rw [if_pos hb]
    rw [if_pos (hbit.mp hb)] at h
    generalize BitVec.allOnes 64 - ((1#64 <<< n) - 1#64) = msk at h ⊢
    rw [← h, BitVec.or_assoc, BitVec.or_self]
  · rw [if_neg hb]

/-! ## Laws -/

/-- Values an unsigned bit field of `n` bits can hold. -/
def FitsU {w : Nat} (n : Nat) (e : BitVec w) : Prop := e.toNat < 2 ^ n
/-- Values a signed bit field of `n` bits can hold. -/
def FitsS {w : Nat} (n : Nat) (e : BitVec w) : Prop := SignedFits e.toInt n

theorem setWidth64_toNat {w : Nat} (hw : w ≤ 64) (e : BitVec w) : (e.setWidth 64).toNat = e.toNat := by
  have := e.isLt
  have h64 : 2 ^ w ≤ 2 ^ 64 := Nat.pow_le_pow_right (by omega) hw
  rw [BitVec.toNat_setWidth]; exact Nat.mod_eq_of_lt (by omega)

theorem setWidth_setWidth64 {w : Nat} (hw : w ≤ 64) (e : BitVec w) : (e.setWidth 64).setWidth w = e := by
  apply BitVec.eq_of_toNat_eq
  rw [BitVec.toNat_setWidth, setWidth64_toNat hw, Nat.mod_eq_of_lt e.isLt]

theorem bitField_rtl {w n : Nat} (hw : w ≤ 64) (e : BitVec w) (he : FitsU n e) :
    RoundTripLen ((bitFieldTraits w n).write e) (bitFieldTraits w n).read e n := by
  intro s
  refine ⟨natBits n e.toNat, natBits_length _ _, ?_, ?_⟩
  · show wrun (Wr.bits _ _) s = _
    rw [wrun_bits, setWidth64_toNat hw]
  · have h : Reads (Rd.bits n) (natBits n (e.setWidth 64).toNat) s.length (e.setWidth 64) :=
      readUnsignedBits_reads (v := e.setWidth 64) (by rw [setWidth64_toNat hw]; exact he) s.length
    have := Reads.map (f := fun v : BitVec 64 => v.setWidth w) h
    rw [setWidth64_toNat hw, setWidth_setWidth64 hw] at this
    exact this

theorem signedBitField_rtl {w n : Nat} (h1 : 1 ≤ n) (hn : n ≤ w) (hw : w ≤ 64) (e : BitVec w) (he : FitsS n e) :
    RoundTripLen ((signedBitFieldTraits w n).write e) (signedBitFieldTraits w n).read e n := by
  intro s
  have hf : SignedFits (e.signExtend 64).toInt n := by
    rw [BitVec.toInt_signExtend_of_le hw]; exact he
  refine ⟨natBits n (e.signExtend 64).toNat, natBits_length _ _, wrun_bits _ _ _, ?_⟩
  intro rest
  show rrun (Rd.bits n >>= fun v => pure ((fillUpperBits v n).setWidth w)) _ = _
  rw [rrun_bind, rrun_bits_append n _ rest _ (natBits_length _ _), bitsVal_natBits]
  dsimp only
  rw [fill_low h1 (by omega) hf, rrun_pure, setWidth_signExtend64 hw]
  simp

theorem bool_rtl (e : Bool) : RoundTripLen (boolTraits.write e) boolTraits.read e 1 := by
  intro s
  refine ⟨[e], rfl, wrun_bool e s, ?_⟩
  intro rest
  exact rrun_bool_cons e rest _

theorem exact_of_rtl {T : Type} {tr : Traits T} {ok : T → Prop}
    (h : ∀ e, ok e → RoundTripLen (tr.write e) tr.read e (tr.bitSizeOf e)) : tr.RT ok ∧ tr.Exact ok :=
  ⟨fun e he => (h e he).rt, fun e he s => let ⟨o, a, b, _⟩ := h e he s; ⟨o, a, b⟩⟩

/-- All three laws. -/
structure Traits.Laws {T : Type} (tr : Traits T) (ok : T → Prop) : Prop where
  rt : tr.RT ok
  recover : tr.Recover ok
  exact : tr.Exact ok

theorem bitField_laws {w n : Nat} (hw : w ≤ 64) : (bitFieldTraits w n).Laws (FitsU n) := by
  obtain ⟨a, b⟩ := exact_of_rtl (tr := bitFieldTraits w n) (fun e he => bitField_rtl hw e he)
  exact ⟨a, fun e _ => setWidth_setWidth64 hw e, b⟩

theorem signedBitField_laws {w n : Nat} (h1 : 1 ≤ n) (hn : n ≤ w) (hw : w ≤ 64) :
    (signedBitFieldTraits w n).Laws (FitsS n) := by
  obtain ⟨a, b⟩ := exact_of_rtl (tr := signedBitFieldTraits w n) (fun e he => signedBitField_rtl h1 hn hw e he)
  refine ⟨a, fun e he => ?_, b⟩
  show (fillUpperBits (e.signExtend 64) n).setWidth w = e
  rw [fill_self h1 (by omega) (by rw [BitVec.toInt_signExtend_of_le hw]; exact he), setWidth_signExtend64 hw]

theorem bool_laws : boolTraits.Laws (fun _ => True) := by
  obtain ⟨a, b⟩ := exact_of_rtl (tr := boolTraits) (ok := fun _ => True) (fun e _ => bool_rtl e)
  refine ⟨a, fun e _ => ?_, b⟩
  cases e <;> rfl

theorem exact_of_size {sz : Except Err Nat} {w : Wr Unit} {out : List Bool} {s : List Bool}
    (h1 : ∀ n, sz = .ok n → ∃ out, out.length = n ∧ Writes w s out) (h2 : ∀ e, sz = .error e → Rejects w s e)
    (h : Writes w s out) : ∃ out, out.length = sizeOrZero sz ∧ Writes w s out := by
  cases sz with
  | ok n => exact h1 n rfl
  | error e =>
    have := h2 e rfl
    unfold Rejects at this; unfold Writes at h
    rw [this] at h
    simp at h

/-- Value range of an unsigned variable-length type. -/
def LeU {w : Nat} (max : Nat) (e : BitVec w) : Prop := e.toNat ≤ max
/-- Value range of a signed variable-length type. -/
def LeS {w : Nat} (max : Nat) (e : BitVec w) : Prop := |e.toInt| ≤ max

theorem varUSpec_rt {w : Nat} {wr : BitVec w → Wr Unit} {rd : Rd (BitVec w)} {max mb : Nat} (h : VarUSpec wr rd max mb)
    (e : BitVec w) (he : LeU max e) : RoundTrip (wr e) rd e :=
  fun s => let ⟨o, _, _, _, _, a, b⟩ := (h e s).1 he; ⟨o, a, b⟩

theorem varSSpec_rt {w : Nat} {wr : BitVec w → Wr Unit} {rd : Rd (BitVec w)} {max mb : Nat} (h : VarSSpec wr rd max mb)
    (e : BitVec w) (he : LeS max e) : RoundTrip (wr e) rd e :=
  fun s => let ⟨o, _, _, _, _, a, b⟩ := (h e s).1 he; ⟨o, a, b⟩

theorem varInt16_laws : varInt16Traits.Laws (LeS maxVarint16) where
  rt := varSSpec_rt C05_varint16
  recover := fun e _ => setWidth_signExtend64 (by omega) e
  exact := fun e he s => by
    obtain ⟨o, _, _, _, _, a, _⟩ := (C05_varint16 e s).1 he
    obtain ⟨h1, h2⟩ := C06_signed_size (e.signExtend 64) 2 (by omega) (by omega) s
    exact exact_of_size h1 h2 a

theorem varInt32_laws : varInt32Traits.Laws (LeS maxVarint32) where
  rt := varSSpec_rt C05_varint32
  recover := fun e _ => setWidth_signExtend64 (by omega) e
  exact := fun e he s => by
    obtain ⟨o, _, _, _, _, a, _⟩ := (C05_varint32 e s).1 he
    obtain ⟨h1, h2⟩ := C06_signed_size (e.signExtend 64) 4 (by omega) (by omega) s
    exact exact_of_size h1 h2 a

theorem varInt64_laws : varInt64Traits.Laws (LeS maxVarint64) where
  rt := fun e he s => by
    have hne : e ≠ minInt64 := by
      rintro rfl; exact absurd he (by unfold LeS; exact not_le.mpr C05_varint64_min_violates.1)
    obtain ⟨o, _, _, _, _, a, b⟩ := (C05_varint64_partial e hne s).1 he
    exact ⟨o, a, b⟩
  recover := fun e _ => rfl
  exact := fun e he s => by
    have hne : e ≠ minInt64 := by
      rintro rfl; exact absurd he (by unfold LeS; exact not_le.mpr C05_varint64_min_violates.1)
    obtain ⟨o, _, _, _, _, a, _⟩ := (C05_varint64_partial e hne s).1 he
    obtain ⟨h1, h2⟩ := C06_signed_size e 8 (by omega) (by omega) s
    exact exact_of_size h1 h2 a

theorem varInt_rt : varIntTraits.RT (fun _ => True) :=
  fun e _ s => let ⟨o, _, _, _, _, a, b⟩ := C05_varint e s; ⟨o, a, b⟩

/-- The size reported for varint elements is right below `2^55` in magnitude. -/
theorem varInt_laws : varIntTraits.Laws (LeS (2 ^ 55 - 1)) where
  rt := fun e _ => varInt_rt e trivial
  recover := fun e _ => rfl
  exact := fun e he s => by
    obtain ⟨out, h1, h2⟩ := C06_varint_size e s
    refine ⟨out, ?_, h2⟩
    have hne : e ≠ minInt64 := by
      rintro rfl; exact absurd he (by unfold LeS; decide)
    have hab := goAbs_toNat hne
    unfold LeS at he
    have h8 : signedBitSize e 8 = signedBitSize e 9 :=
      signedBitSize_agree hne (by omega) (by omega) (by omega) (by omega)
        (by norm_num at he ⊢; omega) (by norm_num at he ⊢; omega)
    show _ = sizeOrZero (signedBitSize e 8)
    rw [h8, h1]; rfl

theorem varUInt16_rt : varUInt16Traits.RT (LeU maxVaruint16) := varUSpec_rt C04_varuint16

/-- The size reported for varuint16 elements is right below `2^14`. -/
theorem varUInt16_laws : varUInt16Traits.Laws (LeU (2 ^ 14 - 1)) where
  rt := fun e he => varUInt16_rt e (by unfold LeU maxVaruint16 at *; omega)
  recover := fun e _ => setWidth_setWidth64 (by omega) e
  exact := fun e he s => by
    unfold LeU at he
    obtain ⟨o, _, _, _, _, a, _⟩ := (C04_varuint16 e s).1 (by unfold maxVaruint16; omega)
    obtain ⟨h1, h2⟩ := C06_unsigned_size (e.setWidth 64) 2 (by omega) (by omega) s
    have h4 : unsignedBitSize (e.setWidth 64) 4 = unsignedBitSize (e.setWidth 64) 2 :=
      unsignedBitSize_agree (by omega) (by omega) (by omega) (by omega)
        (by rw [setWidth64_toNat (by omega)]; omega) (by rw [setWidth64_toNat (by omega)]; omega)
    show ∃ out, _ = sizeOrZero (unsignedBitSize (e.setWidth 64) 4) ∧ _
    rw [h4]
    exact exact_of_size h1 h2 a

theorem varUInt32_laws : varUInt32Traits.Laws (LeU maxVaruint32) where
  rt := varUSpec_rt C04_varuint32
  recover := fun e _ => setWidth_setWidth64 (by omega) e
  exact := fun e he s => by
    obtain ⟨o, _, _, _, _, a, _⟩ := (C04_varuint32 e s).1 he
    obtain ⟨h1, h2⟩ := C06_unsigned_size (e.setWidth 64) 4 (by omega) (by omega) s
    exact exact_of_size h1 h2 a

theorem varUInt64_laws : varUInt64Traits.Laws (LeU maxVaruint64) where
  rt := varUSpec_rt C04_varuint64
  recover := fun e _ => rfl
  exact := fun e he s => by
    obtain ⟨o, _, _, _, _, a, _⟩ := (C04_varuint64 e s).1 he
    obtain ⟨h1, h2⟩ := C06_unsigned_size e 8 (by omega) (by omega) s
    exact exact_of_size h1 h2 a

theorem varUInt_rt : varUIntTraits.RT (fun _ => True) := fun e _ =>
  varUSpec_rt C04_varuint e (by unfold LeU maxVaruint; have := e.isLt; omega)

/-- The size reported for varuint elements is right below `2^56`. -/
theorem varUInt_laws : varUIntTraits.Laws (LeU (2 ^ 56 - 1)) where
  rt := fun e _ => varUInt_rt e trivial
  recover := fun e _ => rfl
  exact := fun e he s => by
    unfold LeU at he
    obtain ⟨o, _, _, _, _, a, _⟩ := (C04_varuint e s).1 (by unfold maxVaruint; omega)
    obtain ⟨h1, h2⟩ := C06_unsigned_size e 9 (by omega) (by omega) s
    have h8 : unsignedBitSize e 8 = unsignedBitSize e 9 :=
      unsignedBitSize_agree (by omega) (by omega) (by omega) (by omega) (by omega) (by omega)
    show ∃ out, _ = sizeOrZero (unsignedBitSize e 8) ∧ _
    rw [h8]
    exact exact_of_size h1 h2 a

theorem varSize_laws : varSizeTraits.Laws (LeU maxVarsize) where
  rt := varUSpec_rt C04_varsize
  recover := fun e _ => rfl
  exact := fun e he s => by
    obtain ⟨out, h1, h2, _⟩ := varsize_rt e he s
    exact ⟨out, by show _ = sizeOrZero (unsignedBitSize e 5); rw [h1]; rfl, h2⟩

theorem string_rt : stringTraits.RT (fun e => e.length ≤ maxVarsize) := fun e he s =>
  let ⟨o, _, a, b⟩ := C15_string e he s; ⟨o, a, b⟩

/-- The size reported for string elements is right when the length is one of those of `LenAgree`. -/
theorem string_exact : stringTraits.Exact (fun e => LenAgree e.length) := fun e he s => by
  have hmax : e.length ≤ maxVarsize := by unfold LenAgree maxVarsize at *; omega
  obtain ⟨out, h1, h2, _⟩ := C15_string e hmax s
  refine ⟨out, ?_, h2⟩
  unfold bitSizeOfString at h1
  show _ = (match signedBitSize (BitVec.ofNat 64 e.length) 4 with | .ok n => n + e.length * 8 | .error _ => 0)
  rw [(lenAgree_iff hmax).mpr he]
  cases hb : unsignedBitSize (BitVec.ofNat 64 e.length) 5 with
  | ok n =>
    rw [hb] at h1
    have : n + e.length * 8 = out.length := by simpa [bind, Except.bind, pure, Except.pure] using h1
    exact this.symm
  | error x => rw [hb] at h1; simp [bind, Except.bind] at h1

/-- Usable byte buffer elements. -/
def BytesOk : Option BytesV → Prop
  | some b => b.Wf ∧ b.byteSize.toNat ≤ maxVarsize
  | none => False

/-- Usable bit buffer elements. -/
def ExternOk : Option ExternV → Prop
  | some b => b.Wf ∧ b.bitSize.toNat ≤ maxVarsize
  | none => False

theorem bytes_rt : bytesTraits.RT BytesOk := fun e he s => by
  cases e with
  | none => exact he.elim
  | some b =>
    obtain ⟨o, a, c⟩ := C15_bytes b he.1 he.2 s
    exact ⟨o, a, Reads.map (f := some) c⟩

theorem extern_rt : externTraits.RT ExternOk := fun e he s => by
  cases e with
  | none => exact he.elim
  | some b =>
    obtain ⟨o, a, c⟩ := C15_extern b he.1 he.2 s
    exact ⟨o, a, Reads.map (f := some) c⟩

/-- Single-precision patterns that stand for a half-precision number. -/
def IsHalf (e : BitVec 32) : Prop := ∃ h, ¬ IsSignallingHalf h ∧ e = f16to32 h

theorem float16_rtl (e : BitVec 32) (he : IsHalf e) : RoundTripLen (float16Traits.write e) float16Traits.read e 16 := by
  obtain ⟨h, hn, rfl⟩ := he
  intro s
  exact ⟨_, natBits_length _ _, (C16_float16 h hn s).2, (C16_float16 h hn s).1⟩

theorem float32_rtl (e : BitVec 32) : RoundTripLen (float32Traits.write e) float32Traits.read e 32 := fun s =>
  ⟨_, natBits_length _ _, (C16_float32 e s).1, (C16_float32 e s).2⟩

theorem float64_rtl (e : BitVec 64) : RoundTripLen (float64Traits.write e) float64Traits.read e 64 := fun s =>
  ⟨_, natBits_length _ _, (C16_float64 e s).1, (C16_float64 e s).2⟩

theorem float16_rt_exact : float16Traits.RT IsHalf ∧ float16Traits.Exact IsHalf := exact_of_rtl float16_rtl
theorem float32_rt_exact : float32Traits.RT (fun _ => True) ∧ float32Traits.Exact (fun _ => True) :=
  exact_of_rtl fun e _ => float32_rtl e
theorem float64_rt_exact : float64Traits.RT (fun _ => True) ∧ float64Traits.Exact (fun _ => True) :=
  exact_of_rtl fun e _ => float64_rtl e

end Verif
