import Verif.BitioRead
import Verif.Codec

/-!
# The ztype codecs are strict and stay inside the contract of the bit stream
-/

namespace Verif

/-! ## Closure of `Safe` -/

/-- A write function that stays inside the contract of the writer interface. -/
def Wr.Safe {α : Type} (p : Wr α) : Prop := WM.Safe (ExceptT.run p)

/-- A read function that stays inside the contract of the reader interface. -/
def Rd.Safe {α : Type} (p : Rd α) : Prop := RM.Safe (ExceptT.run p)

theorem WM.Safe.bind {α β : Type} {p : WM α} {f : α → WM β} (hp : p.Safe) (hf : ∀ a, (f a).Safe) : (p.bind f).Safe := by
  induction hp with
  | pure a => exact hf a
  | op o k ho _ ih => exact .op o _ ho ih

theorem RM.Safe.bind {α β : Type} {p : RM α} {f : α → RM β} (hp : p.Safe) (hf : ∀ a, (f a).Safe) : (p.bind f).Safe := by
  induction hp with
  | pure a => exact hf a
  | op o k ho _ ih => exact .op o _ ho ih

namespace Wr.Safe
variable {α β : Type}

theorem pure (a : α) : Wr.Safe (Pure.pure a : Wr α) := WM.Safe.pure _
theorem throw (e : Err) : Wr.Safe (MonadExcept.throw e : Wr α) := WM.Safe.pure _
theorem call (o : WOp) (h : o.Safe) : Wr.Safe (Wr.call o) := WM.Safe.op o _ h fun _ => WM.Safe.pure _

theorem bind {p : Wr α} {f : α → Wr β} (hp : Wr.Safe p) (hf : ∀ a, Wr.Safe (f a)) : Wr.Safe (p >>= f) := by
  refine WM.Safe.bind (p := ExceptT.run p) hp fun r => ?_
  cases r with
  | ok a => exact hf a
  | error e => exact WM.Safe.pure _

theorem lift (x : Except Err α) : Wr.Safe (liftM x : ExceptT Err WM α) := by cases x <;> exact WM.Safe.pure _

theorem ite {c : Prop} [Decidable c] {p q : Wr α} (hp : c → Wr.Safe p) (hq : ¬ c → Wr.Safe q) :
    Wr.Safe (if c then p else q) := by
  split
  · exact hp ‹_›
  · exact hq ‹_›

theorem dropErr {p : Wr α} (hp : Wr.Safe p) : Wr.Safe (Wr.dropErr p) := by
  refine WM.Safe.bind (p := ExceptT.run p) hp fun r => ?_
  cases r with
  | ok a => exact WM.Safe.pure _
  | error e => dsimp only; split <;> exact WM.Safe.pure _

theorem bits (v : BitVec 64) {n : Nat} (h : n ≤ 248) : Wr.Safe (Wr.bits v n) := bind (call _ h) fun _ => pure ()
theorem bitsUnsafe {v : BitVec 64} {n : Nat} (h : n ≤ 248) (hv : v.toNat < 2 ^ n) : Wr.Safe (Wr.bitsUnsafe v n) :=
  bind (call _ ⟨h, hv⟩) fun _ => pure ()
theorem bool (b : Bool) : Wr.Safe (Wr.bool b) := bind (call _ trivial) fun _ => pure ()
theorem byte (b : BitVec 8) : Wr.Safe (Wr.byte b) := bind (call _ trivial) fun _ => pure ()
theorem bytes (b : List (BitVec 8)) : Wr.Safe (Wr.bytes b) := bind (call _ trivial) fun _ => pure ()
theorem pos : Wr.Safe Wr.pos := call _ trivial

end Wr.Safe

namespace Rd.Safe
variable {α β : Type}

theorem pure (a : α) : Rd.Safe (Pure.pure a : Rd α) := RM.Safe.pure _
theorem throw (e : Err) : Rd.Safe (MonadExcept.throw e : Rd α) := RM.Safe.pure _
theorem call (o : ROp) (h : o.Safe) : Rd.Safe (Rd.call o) := RM.Safe.op o _ h fun _ => RM.Safe.pure _

theorem bind {p : Rd α} {f : α → Rd β} (hp : Rd.Safe p) (hf : ∀ a, Rd.Safe (f a)) : Rd.Safe (p >>= f) := by
  refine RM.Safe.bind (p := ExceptT.run p) hp fun r => ?_
  cases r with
  | ok a => exact hf a
  | error e => exact RM.Safe.pure _

theorem lift (x : Except Err α) : Rd.Safe (liftM x : ExceptT Err RM α) := by cases x <;> exact RM.Safe.pure _

theorem ite {c : Prop} [Decidable c] {p q : Rd α} (hp : c → Rd.Safe p) (hq : ¬ c → Rd.Safe q) :
    Rd.Safe (if c then p else q) := by
  split
  · exact hp ‹_›
  · exact hq ‹_›

theorem dropErr (d : α) {p : Rd α} (hp : Rd.Safe p) : Rd.Safe (Rd.dropErr d p) := by
  refine RM.Safe.bind (p := ExceptT.run p) hp fun r => ?_
  cases r with
  | ok a => exact RM.Safe.pure _
  | error e => dsimp only; split <;> exact RM.Safe.pure _

theorem bits {n : Nat} (h : 0 < n) : Rd.Safe (Rd.bits n) := call (.bits n) h
theorem bool : Rd.Safe Rd.bool := call .bool trivial
theorem byte : Rd.Safe Rd.byte := call .byte trivial
theorem full (n : Nat) : Rd.Safe (Rd.full n) := call (.full n) trivial
theorem pos : Rd.Safe Rd.pos := call .pos trivial

end Rd.Safe

namespace Rd.Strict

theorem bits (n : Nat) : (Rd.bits n).Strict := call (.bits n)
theorem bool : Rd.Strict Rd.bool := call .bool
theorem byte : Rd.Strict Rd.byte := call .byte
theorem full (n : Nat) : (Rd.full n).Strict := call (.full n)
theorem pos : Rd.Strict Rd.pos := call .pos

end Rd.Strict

/-! ## Writers -/

/-- Strict and safe. -/
structure Wr.Good {α : Type} (p : Wr α) : Prop where
  strict : p.Strict
  safe : p.Safe

/-- Strict and safe. -/
structure Rd.Good {α : Type} (p : Rd α) : Prop where
  strict : p.Strict
  safe : p.Safe

namespace Wr.Good
variable {α β : Type}

theorem pure (a : α) : Wr.Good (Pure.pure a : Wr α) := ⟨.pure a, .pure a⟩
theorem throw (e : Err) : Wr.Good (MonadExcept.throw e : Wr α) := ⟨.throw e, .throw e⟩
theorem bind {p : Wr α} {f : α → Wr β} (hp : Wr.Good p) (hf : ∀ a, Wr.Good (f a)) : Wr.Good (p >>= f) :=
  ⟨.bind hp.1 fun a => (hf a).1, .bind hp.2 fun a => (hf a).2⟩
theorem lift (x : Except Err α) : Wr.Good (liftM x : ExceptT Err WM α) := ⟨.lift x, .lift x⟩
theorem ite {c : Prop} [Decidable c] {p q : Wr α} (hp : c → Wr.Good p) (hq : ¬ c → Wr.Good q) :
    Wr.Good (if c then p else q) := by
  split
  · exact hp ‹_›
  · exact hq ‹_›
theorem bits (v : BitVec 64) {n : Nat} (h : n ≤ 248) : Wr.Good (Wr.bits v n) := ⟨.bits v n, .bits v h⟩
theorem bitsUnsafe {v : BitVec 64} {n : Nat} (h : n ≤ 248) (hv : v.toNat < 2 ^ n) : Wr.Good (Wr.bitsUnsafe v n) :=
  ⟨.bitsUnsafe v n, .bitsUnsafe h hv⟩
theorem bool (b : Bool) : Wr.Good (Wr.bool b) := ⟨.bool b, .bool b⟩
theorem byte (b : BitVec 8) : Wr.Good (Wr.byte b) := ⟨.byte b, .byte b⟩
theorem bytes (b : List (BitVec 8)) : Wr.Good (Wr.bytes b) := ⟨.bytes b, .bytes b⟩
theorem pos : Wr.Good Wr.pos := ⟨.pos, .pos⟩

end Wr.Good

namespace Rd.Good
variable {α β : Type}

theorem pure (a : α) : Rd.Good (Pure.pure a : Rd α) := ⟨.pure a, .pure a⟩
theorem throw (e : Err) : Rd.Good (MonadExcept.throw e : Rd α) := ⟨.throw e, .throw e⟩
theorem bind {p : Rd α} {f : α → Rd β} (hp : Rd.Good p) (hf : ∀ a, Rd.Good (f a)) : Rd.Good (p >>= f) :=
  ⟨.bind hp.1 fun a => (hf a).1, .bind hp.2 fun a => (hf a).2⟩
theorem lift (x : Except Err α) : Rd.Good (liftM x : ExceptT Err RM α) := ⟨.lift x, .lift x⟩
theorem ite {c : Prop} [Decidable c] {p q : Rd α} (hp : c → Rd.Good p) (hq : ¬ c → Rd.Good q) :
    Rd.Good (if c then p else q) := by
  split
  · exact hp ‹_›
  · exact hq ‹_›
theorem bits {n : Nat} (h : 0 < n) : Rd.Good (Rd.bits n) := ⟨.bits n, .bits h⟩
theorem bool : Rd.Good Rd.bool := ⟨.bool, .bool⟩
theorem byte : Rd.Good Rd.byte := ⟨.byte, .byte⟩
theorem full (n : Nat) : Rd.Good (Rd.full n) := ⟨.full n, .full n⟩
theorem pos : Rd.Good Rd.pos := ⟨.pos, .pos⟩

end Rd.Good

theorem writeUnsignedBits_good (v : BitVec 64) {n : Nat} (h : n ≤ 248) : (writeUnsignedBits v n).Good :=
  .ite (fun _ => .throw _) fun _ => .bits v h

theorem writeSignedBits_good (v : BitVec 64) (n : Nat) : (writeSignedBits v n).Good := by
  unfold writeSignedBits
  refine .ite (fun _ => .throw _) fun h => ?_
  refine .ite (fun _ => .throw _) fun _ => .ite (fun _ => .bits _ (by omega)) fun _ => .bits _ (by omega)

theorem writeUint_good {w : Nat} (hw : w ≤ 64) (v : BitVec w) : (writeUint w v).Good :=
  writeUnsignedBits_good _ (by omega)

theorem writeInt_good (w : Nat) (v : BitVec w) : (writeInt w v).Good := writeSignedBits_good _ _

theorem writeBool_good (b : Bool) : (writeBool b).Good := .bool b

theorem writeBytesLoop_good (f : Nat → BitVec 64) (hf : ∀ i, (f i).toNat < 256) (n i : Nat) :
    (writeBytesLoop f n i).Good := by
  induction hk : n - i generalizing i with
  | zero => rw [writeBytesLoop, if_neg (by omega)]; exact .pure ()
  | succ k ih =>
    rw [writeBytesLoop, if_pos (by omega)]
    exact .bind (.bitsUnsafe (by omega) (hf i)) fun _ => ih (i + 1) (by omega)

theorem varUintByte_lt (v : BitVec 64) (n m i : Nat) : (varUintByte v n m i).toNat < 256 := by
  unfold varUintByte
  simp only [BitVec.toNat_or, BitVec.toNat_and]
  refine Nat.or_lt_two_pow (n := 8) ?_ ?_
  · split <;> decide
  · refine Nat.lt_of_le_of_lt Nat.and_le_right ?_
    rw [BitVec.toNat_ushiftRight, Nat.shiftRight_eq_div_pow]
    exact Nat.lt_of_le_of_lt (Nat.div_le_self _ _) (by decide)

theorem varIntByte_lt (neg : Bool) (v : BitVec 64) (n m i : Nat) : (varIntByte neg v n m i).toNat < 256 := by
  unfold varIntByte
  simp only [BitVec.toNat_or, BitVec.toNat_and]
  refine Nat.or_lt_two_pow (n := 8) ?_ ?_
  · have h0 : (if (decide (i = 0) && neg) = true then 0x80#64 else 0x00#64).toNat < 2 ^ 8 := by split <;> decide
    split
    · rw [BitVec.toNat_or]
      refine Nat.or_lt_two_pow h0 ?_
      split <;> decide
    · exact h0
  · refine Nat.lt_of_le_of_lt Nat.and_le_right ?_
    rw [BitVec.toNat_ushiftRight, Nat.shiftRight_eq_div_pow]
    exact Nat.lt_of_le_of_lt (Nat.div_le_self _ _) (by decide)

theorem writeVarUint_good (v : BitVec 64) (m : Nat) : (writeVarUint v m).Good := by
  unfold writeVarUint
  cases unsignedBitSize v m with
  | error e => exact .throw e
  | ok n => exact writeBytesLoop_good _ (varUintByte_lt v _ m) _ _

theorem writeVarInt_good (v : BitVec 64) (m : Nat) : (writeVarInt v m).Good := by
  unfold writeVarInt
  cases signedBitSize v m with
  | error e => exact .throw e
  | ok n => exact writeBytesLoop_good _ (varIntByte_lt _ _ _ m) _ _

theorem writeVarint_good (v : BitVec 64) : (writeVarint v).Good :=
  .ite (fun _ => .byte _) fun _ => writeVarInt_good v 9

theorem writeVarsize_good (v : BitVec 64) : (writeVarsize v).Good :=
  .ite (fun _ => .throw _) fun _ => writeVarUint_good v 5

theorem writeString_good (v : List Byte) : (writeString v).Good := .bind (writeVarsize_good _) fun _ => .bytes v

theorem writeBytes_good (b : BytesV) : (writeBytes b).Good := .bind (writeVarsize_good _) fun _ => .bytes _

theorem writeExtern_good (e : ExternV) : (writeExtern e).Good := by
  unfold writeExtern
  refine .bind (writeVarsize_good _) fun _ => .ite (fun _ => .throw _) fun _ => .bind (.bytes _) fun _ => ?_
  refine .ite (fun _ => ?_) fun _ => .pure ()
  split
  · exact .throw _
  · exact .bits _ (by have := Nat.mod_lt e.bitSize.toNat (show 8 > 0 by omega); omega)

theorem writeFloat16_good (v : BitVec 32) : (writeFloat16 v).Good := .bytes _
theorem writeFloat32_good (v : BitVec 32) : (writeFloat32 v).Good := .bytes _
theorem writeFloat64_good (v : BitVec 64) : (writeFloat64 v).Good := .bytes _

theorem alignW_good {b : Nat} (hb : b ≤ 248) : (alignW b).Good := by
  unfold alignW
  refine .bind .pos fun c => ?_
  cases hd : discard c b with
  | error e => exact .throw e
  | ok d =>
    show Wr.Good (if d = 0 then Pure.pure c else _)
    refine .ite (fun _ => .pure _) fun _ => .bind (.bits _ ?_) fun _ => .pos
    unfold discard at hd
    split at hd
    · simp at hd
    · dsimp only at hd
      split at hd
      · simp only [Except.ok.injEq] at hd; omega
      · simp only [Except.ok.injEq] at hd; omega

/-! ## Readers -/

theorem readUnsignedBits_good {n : Nat} (h : 0 < n) : (readUnsignedBits n).Good := .bits h

theorem readSignedBits_good {n : Nat} (h : 0 < n) : (readSignedBits n).Good := by
  unfold readSignedBits
  refine .ite (fun _ => .throw _) fun _ => .bind (.bits h) fun u => ?_
  exact .ite (fun _ => .pure _) fun _ => .pure _

theorem readUint_good {w : Nat} (h : 0 < w) : (readUint w).Good := .bind (readUnsignedBits_good h) fun _ => .pure _
theorem readInt_good {w : Nat} (h : 0 < w) : (readInt w).Good := .bind (readSignedBits_good h) fun _ => .pure _
theorem readBool_good : Rd.Good readBool := .bool

theorem readVarTail_good (w n : Nat) (v : BitVec w) (hasNext : Bool) : (readVarTail w n v hasNext).Good := by
  induction n generalizing v hasNext with
  | zero => exact .ite (fun _ => .bind .byte fun _ => .pure _) fun _ => .pure _
  | succ n ih => exact .ite (fun _ => .bind .byte fun _ => ih _ _) fun _ => .pure _

theorem readVarU_good (w n : Nat) : (readVarU w n).Good := .bind .byte fun _ => readVarTail_good _ _ _ _
theorem readVarsize_good : Rd.Good readVarsize :=
  .bind (readVarU_good 64 3) fun _ => .ite (fun _ => .throw _) fun _ => .pure _
theorem readVarSCont_good (w n : Nat) (b : BitVec 8) : (readVarSCont w n b).Good :=
  .bind (readVarTail_good _ _ _ _) fun _ => .pure _
theorem readVarS_good (w n : Nat) : (readVarS w n).Good := .bind .byte fun _ => readVarSCont_good _ _ _
theorem readVarint_good : Rd.Good readVarint :=
  .bind .byte fun _ => .ite (fun _ => .pure _) fun _ => readVarSCont_good _ _ _

theorem readString_good : Rd.Good readString := .bind readVarsize_good fun _ => .full _
theorem readBytes_good : Rd.Good readBytes := .bind readVarsize_good fun _ => .bind (.full _) fun _ => .pure _
theorem readExtern_good : Rd.Good readExtern :=
  .bind readVarsize_good fun _ => .bind (.full _) fun _ =>
    .ite (fun h => .bind (.bits (Nat.pos_of_ne_zero h)) fun _ => .pure _) fun _ => .pure _
theorem binaryRead_good (n : Nat) : (binaryRead n).Good := .bind (.full _) fun _ => .pure _
theorem readFloat16_good : Rd.Good readFloat16 := .bind (binaryRead_good 2) fun _ => .pure _
theorem readFloat32_good : Rd.Good readFloat32 := binaryRead_good 4
theorem readFloat64_good : Rd.Good readFloat64 := binaryRead_good 8

theorem alignR_good (b : Nat) : (alignR b).Good :=
  .bind .pos fun _ => .bind (.lift _) fun _ => .ite (fun _ => .pure _) fun h => .bind (.bits (Nat.pos_of_ne_zero h)) fun _ => .pos

end Verif
