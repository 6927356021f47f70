import Verif.Select
import Verif.Props.FrontEnd
import Verif.Props.Wire
import Verif.Props.Size

/-!
# C79: the type written in the schema decides how values are encoded

The specification goes from the type as it is written to the builtin type (`Elem`) whose format is given by `Wire.scalar`.
-/

namespace Verif

/-- The least of 8, 16, 32 and 64 bits that have room for `n` bits. -/
def roomFor (n : Nat) : Nat := if n ≤ 8 then 8 else if n ≤ 16 then 16 else if n ≤ 32 then 32 else 64

/-- The builtin types that are one word and no bit fields. -/
def wordElem : BuiltinWord → Option Elem
  | .varint => some .varint | .varint16 => some .varint16 | .varint32 => some .varint32 | .varint64 => some .varint64
  | .varuint => some .varuint | .varuint16 => some .varuint16 | .varuint32 => some .varuint32 | .varuint64 => some .varuint64
  | .varsize => some .varsize | .bool => some .bool | .string => some .string
  | .float16 => some .float16 | .float32 => some .float32 | .float64 => some .float64
  | .extern => some .extern | .bytes => some .bytes
  | _ => none

/-- The builtin type that a type in a schema denotes; `m` is the value of the length expression, if there is one.  Lengths have to be
between 1 and 64. -/
inductive TypeDenotes : CTypeInst → Int → Elem → Prop
  | unsigned (b : CBuiltin) (n : Nat) (m : Int) : b.Legal → b.meaning = .unsignedBits n → TypeDenotes ⟨.builtin b, .none⟩ m (.bits (roomFor n) n)
  | signed (b : CBuiltin) (n : Nat) (m : Int) : b.Legal → b.meaning = .signedBits n → TypeDenotes ⟨.builtin b, .none⟩ m (.sbits (roomFor n) n)
  | word (w : BuiltinWord) (m : Int) (k : Elem) : wordElem w = some k → TypeDenotes ⟨.builtin (.word w), .none⟩ m k
  | unsignedOf (e : CExpr) (n : Nat) : 1 ≤ n → n ≤ 64 → TypeDenotes ⟨.builtin (.word .bit), .dynamicLength e⟩ n (.bits 64 n)
  | signedOf (e : CExpr) (n : Nat) : 1 ≤ n → n ≤ 64 → TypeDenotes ⟨.builtin (.word .int), .dynamicLength e⟩ n (.sbits 64 n)

/-- The Go type of the values of a builtin type. -/
def Elem.goName : Elem → Text
  | .bits w _ => "uint".toList ++ Nat.toDigits 10 w
  | .sbits w _ => "int".toList ++ Nat.toDigits 10 w
  | .varint | .varint64 => "int64".toList
  | .varint16 => "int16".toList
  | .varint32 => "int32".toList
  | .varuint | .varuint64 | .varsize => "uint64".toList
  | .varuint16 => "uint16".toList
  | .varuint32 => "uint32".toList
  | .bool => "bool".toList
  | .string => "string".toList
  | .float16 | .float32 => "float32".toList
  | .float64 => "float64".toList
  | .extern => "*ztype.ExternType".toList
  | .bytes => "*ztype.BytesType".toList

theorem TypeDenotes.wf {t : CTypeInst} {m : Int} {k : Elem} (h : TypeDenotes t m k) : k.Wf := by
  have room : ∀ n, n ≤ 64 → n ≤ roomFor n ∧ roomFor n ≤ 64 := by
    intro n hn
    unfold roomFor
    split_ifs <;> omega
  cases h with
  | unsigned b n m hl hm =>
    rcases meaning_cases b hl with ⟨n', h, h1, h2⟩ | ⟨n', h, h1, h2⟩ | ⟨w, h, _⟩ <;> rw [h] at hm <;> cases hm
    exact ⟨h1, (room n h2).1, (room n h2).2⟩
  | signed b n m hl hm =>
    rcases meaning_cases b hl with ⟨n', h, h1, h2⟩ | ⟨n', h, h1, h2⟩ | ⟨w, h, _⟩ <;> rw [h] at hm <;> cases hm
    exact ⟨h1, (room n h2).1, (room n h2).2⟩
  | word w m k h => cases w <;> cases h <;> trivial
  | unsignedOf e n h1 h2 => exact ⟨h1, h2, Nat.le_refl _⟩
  | signedOf e n h1 h2 => exact ⟨h1, h2, Nat.le_refl _⟩

/-- The type references that stand for builtin types. -/
inductive RefDenotes : ATypeRef → Int → Elem → Prop
  | unsigned (n : Nat) (m : Int) : 1 ≤ n → n ≤ 64 → RefDenotes (Meaning.unsignedBits n).ref m (.bits (roomFor n) n)
  | signed (n : Nat) (m : Int) : 1 ≤ n → n ≤ 64 → RefDenotes (Meaning.signedBits n).ref m (.sbits (roomFor n) n)
  | word (w : BuiltinWord) (m : Int) (k : Elem) : wordElem w = some k → RefDenotes (.mk true [] w.text 0 [] [] none) m k
  | unsignedOf (e : AExpr) (n : Nat) : 1 ≤ n → n ≤ 64 → RefDenotes (.mk true [] "bit".toList 0 [] [] (some e)) n (.bits 64 n)
  | signedOf (e : AExpr) (n : Nat) : 1 ≤ n → n ≤ 64 → RefDenotes (.mk true [] "int".toList 0 [] [] (some e)) n (.sbits 64 n)

theorem visitTypeInst_plain (b : CBuiltin) : visitTypeInst ⟨.builtin b, .none⟩ = visitBuiltinText b.text := by
  obtain ⟨n, bits, h⟩ := visitBuiltin_builtin b.text
  have : visitTypeRef (.builtin b) = visitBuiltinText b.text := by unfold visitTypeRef; rfl
  unfold visitTypeInst
  simp only [this, h]

theorem TypeDenotes.ref {t : CTypeInst} {m : Int} {k : Elem} (h : TypeDenotes t m k) : RefDenotes (visitTypeInst t) m k := by
  cases h with
  | unsigned b n m hl hm =>
    rw [visitTypeInst_plain, visitBuiltin_ref b hl, hm]
    rcases meaning_cases b hl with ⟨n', h, h1, h2⟩ | ⟨n', h, h1, h2⟩ | ⟨w, h, _⟩ <;> rw [h] at hm <;> cases hm
    exact .unsigned n m h1 h2
  | signed b n m hl hm =>
    rw [visitTypeInst_plain, visitBuiltin_ref b hl, hm]
    rcases meaning_cases b hl with ⟨n', h, h1, h2⟩ | ⟨n', h, h1, h2⟩ | ⟨w, h, _⟩ <;> rw [h] at hm <;> cases hm
    exact .signed n m h1 h2
  | word w m k h =>
    rw [visitTypeInst_plain]
    have : visitBuiltinText (CBuiltin.text (.word w)) = .mk true [] w.text 0 [] [] none := word_no_colon w
    rw [this]
    exact .word w m k h
  | unsignedOf e n h1 h2 => exact .unsignedOf _ n h1 h2
  | signedOf e n h1 h2 => exact .signedOf _ n h1 h2

/-! ## Which calls are chosen -/

/-- What the code chooses for one value. -/
structure Chosen (r : ATypeRef) (m : Int) (k : Elem) : Prop where
  goType : builtinGoType r = some k.goName
  write : ∀ cast, convertible cast k.goName = true → ∃ w, (writeCall r).write k.goName cast m = some w ∧ ∀ x : k.T, w (k.inj x) = k.writeS x
  read : (readCall r).read k.goName m = some (do let x ← k.readS; pure (k.inj x))
  size : ∀ cast, convertible cast k.goName = true →
    ∃ z, (sizeCall r).eval k.goName cast m = some z ∧ ∀ x : k.T, z (k.inj x) = (k.sizeS x).map Int.ofNat
  traits : arrayTraitsOf r m = some k
  delta : builtinDelta r = k.isDelta
  packed : k.isDelta = false → packedCall r = writeCall r ∧ packedCall r = readCall r

theorem natMod256 {n : Nat} (h : n ≤ 64) : (((n : Int) % 256).toNat) = n := by omega

theorem asBits_bits (w : Nat) (x : BitVec w) : (Val.bits w x).asBits w = x := BitVec.setWidth_eq x

theorem writeUint_inj (w : Nat) (x : BitVec w) : writeUint w ((Val.bits w x).asBits w) = writeUnsignedBits (x.setWidth 64) w := by
  rw [asBits_bits]; rfl

theorem writeInt_inj (w : Nat) (x : BitVec w) : writeInt w ((Val.bits w x).asBits w) = writeSignedBits (x.signExtend 64) w := by
  rw [asBits_bits]; rfl

theorem chosen_aligned : ∀ n : Nat, n = 8 ∨ n = 16 ∨ n = 32 ∨ n = 64 → ∀ m : Int,
    Chosen (Meaning.unsignedBits n).ref m (.bits (roomFor n) n) ∧ Chosen (Meaning.signedBits n).ref m (.sbits (roomFor n) n) := by
  rintro n (rfl | rfl | rfl | rfl) m <;> refine ⟨?_, ?_⟩
  all_goals
    refine ⟨by decide, ?_, rfl, ?_, rfl, by decide, fun h => by cases h⟩
    · intro cast hc
      cases cast
      all_goals first
        | exact ⟨_, rfl, fun x => writeUint_inj _ x⟩
        | exact ⟨_, rfl, fun x => writeInt_inj _ x⟩
    · intro cast hc
      cases cast
      all_goals exact ⟨_, rfl, fun x => rfl⟩

theorem goIntNames_room (n : Nat) : goIntNames.lookup ("uint".toList ++ Nat.toDigits 10 (roomFor n)) = some ⟨false, roomFor n⟩ ∧
    goIntNames.lookup ("int".toList ++ Nat.toDigits 10 (roomFor n)) = some ⟨true, roomFor n⟩ := by
  unfold roomFor
  split_ifs <;> decide +kernel

theorem goBitsText_room (n : Nat) (h : 1 ≤ n) (h' : n ≤ 64) : goBitsText n = Nat.toDigits 10 (roomFor n) := by
  unfold goBitsText roomFor
  rw [if_neg (by omega)]
  split_ifs <;> decide +kernel

theorem unsignedSize_inj (w : Nat) (x : BitVec w) (b : Nat) :
    (unsignedBitSize (GoNum.to64 ⟨false, w⟩ (.bits w x)) b).map Int.ofNat = (unsignedBitSize (x.setWidth 64) b).map Int.ofNat := by
  have : GoNum.to64 ⟨false, w⟩ (.bits w x) = x.setWidth 64 := congrArg (BitVec.setWidth 64) (asBits_bits w x)
  rw [this]

theorem signedSize_inj (w : Nat) (x : BitVec w) (b : Nat) :
    (signedBitSize (GoNum.to64 ⟨true, w⟩ (.bits w x)) b).map Int.ofNat = (signedBitSize (x.signExtend 64) b).map Int.ofNat := by
  have : GoNum.to64 ⟨true, w⟩ (.bits w x) = x.signExtend 64 := congrArg (BitVec.signExtend 64) (asBits_bits w x)
  rw [this]

theorem unsignedSize_inj64 (x : BitVec 64) (b : Nat) :
    (unsignedBitSize (GoNum.to64 ⟨false, 64⟩ (.bits 64 x)) b).map Int.ofNat = (unsignedBitSize x b).map Int.ofNat := by
  rw [unsignedSize_inj, BitVec.setWidth_eq]

theorem signedSize_inj64 (x : BitVec 64) (b : Nat) :
    (signedBitSize (GoNum.to64 ⟨true, 64⟩ (.bits 64 x)) b).map Int.ofNat = (signedBitSize x b).map Int.ofNat := by
  rw [signedSize_inj, BitVec.signExtend_eq]

theorem chosen_word (w : BuiltinWord) (m : Int) (k : Elem) (h : wordElem w = some k) : Chosen (.mk true [] w.text 0 [] [] none) m k := by
  cases w <;> cases h
  all_goals
    refine ⟨by decide, ?_, rfl, ?_, rfl, by decide, ?_⟩
    · intro cast hc
      cases cast
      all_goals first
        | exact absurd hc (by decide)
        | exact ⟨_, rfl, fun x => rfl⟩
    · intro cast hc
      cases cast
      all_goals first
        | exact absurd hc (by decide)
        | exact ⟨_, rfl, fun x => unsignedSize_inj64 x _⟩
        | exact ⟨_, rfl, fun x => signedSize_inj64 x _⟩
        | exact ⟨_, rfl, fun x => unsignedSize_inj 16 x _⟩
        | exact ⟨_, rfl, fun x => unsignedSize_inj 32 x _⟩
        | exact ⟨_, rfl, fun x => signedSize_inj 16 x _⟩
        | exact ⟨_, rfl, fun x => signedSize_inj 32 x _⟩
        | exact ⟨_, rfl, fun x => by cases x <;> rfl⟩
    · first
        | exact fun h => absurd h (by decide)
        | exact fun _ => by decide

theorem inWidth_cases (n : Nat) (h : ¬(n = 8 ∨ n = 16 ∨ n = 32 ∨ n = 64)) :
    (Meaning.unsignedBits n).ref = .mk true [] "bit".toList n [] [] none ∧ (Meaning.signedBits n).ref = .mk true [] "int".toList n [] [] none :=
  ⟨if_neg h, if_neg h⟩

theorem to64_unsigned (w : Nat) (x : BitVec w) : GoNum.to64 ⟨false, w⟩ (.bits w x) = x.setWidth 64 :=
  congrArg (BitVec.setWidth 64) (asBits_bits w x)

theorem to64_signed (w : Nat) (x : BitVec w) : GoNum.to64 ⟨true, w⟩ (.bits w x) = x.signExtend 64 :=
  congrArg (BitVec.signExtend 64) (asBits_bits w x)

theorem chosen_get_unsigned {r : ATypeRef} {m : Int} {W n : Nat} {wa : WidthArg} (hg : builtinGoType r = some (Elem.goName (.bits W n)))
    (hl : goIntNames.lookup (Elem.goName (.bits W n)) = some ⟨false, W⟩) (hw : writeCall r = .unsignedBits wa) (hr : readCall r = .unsignedBits wa)
    (he : wa.eval m = n) (hz : ∀ g cast, (sizeCall r).eval g cast m = some fun _ => .ok (n : Int))
    (ht : traitsType r = (builtinGoType r).map fun g => ("BitFieldArrayTraits".toList, some g))
    (hc : traitsCall r = (builtinGoType r).map fun g => .get false g wa) (hd : builtinDelta r = true) : Chosen r m (.bits W n) where
  goType := hg
  write := by
    intro cast hcv
    rw [hw]
    unfold ValueCall.write
    rw [if_pos hcv]
    dsimp only
    rw [hl]
    exact ⟨_, rfl, fun x => by rw [he]; exact congrArg (fun v => writeUnsignedBits v n) (to64_unsigned _ x)⟩
  read := by
    rw [hr]
    unfold ValueCall.read
    dsimp only
    rw [hl, he, Option.map_some]
    refine congrArg some ?_
    simp only [Elem.readS, bind_assoc]
    rfl
  size := fun cast _ => ⟨_, hz _ _, fun _ => rfl⟩
  traits := by
    unfold arrayTraitsOf
    rw [ht, hc, hg]
    dsimp only [Option.map_some, bind, Option.bind_some, TraitsCall.eval]
    rw [hl, he]
    exact if_pos ⟨rfl, rfl⟩
  delta := hd
  packed := fun h => by cases h

theorem chosen_get_signed {r : ATypeRef} {m : Int} {W n : Nat} {wa : WidthArg} (hg : builtinGoType r = some (Elem.goName (.sbits W n)))
    (hl : goIntNames.lookup (Elem.goName (.sbits W n)) = some ⟨true, W⟩) (hw : writeCall r = .signedBits wa) (hr : readCall r = .signedBits wa)
    (he : wa.eval m = n) (hz : ∀ g cast, (sizeCall r).eval g cast m = some fun _ => .ok (n : Int))
    (ht : traitsType r = (builtinGoType r).map fun g => ("SignedBitFieldArrayTraits".toList, some g))
    (hc : traitsCall r = (builtinGoType r).map fun g => .get true g wa) (hd : builtinDelta r = true) : Chosen r m (.sbits W n) where
  goType := hg
  write := by
    intro cast hcv
    rw [hw]
    unfold ValueCall.write
    rw [if_pos hcv]
    dsimp only
    rw [hl]
    exact ⟨_, rfl, fun x => by rw [he]; exact congrArg (fun v => writeSignedBits v n) (to64_signed _ x)⟩
  read := by
    rw [hr]
    unfold ValueCall.read
    dsimp only
    rw [hl, he, Option.map_some]
    refine congrArg some ?_
    simp only [Elem.readS, bind_assoc]
    rfl
  size := fun cast _ => ⟨_, hz _ _, fun _ => rfl⟩
  traits := by
    unfold arrayTraitsOf
    rw [ht, hc, hg]
    dsimp only [Option.map_some, bind, Option.bind_some, TraitsCall.eval]
    rw [hl, he]
    exact if_pos ⟨rfl, rfl⟩
  delta := hd
  packed := fun h => by cases h

theorem chosen_ref {r : ATypeRef} {m : Int} {k : Elem} (h : RefDenotes r m k) : Chosen r m k := by
  cases h with
  | unsigned n m h1 h2 =>
    by_cases h : n = 8 ∨ n = 16 ∨ n = 32 ∨ n = 64
    · exact (chosen_aligned n h m).1
    · rw [(inWidth_cases n h).1]
      obtain ⟨k, rfl⟩ : ∃ k, n = k + 1 := ⟨n - 1, by omega⟩
      exact chosen_get_unsigned (wa := .lit (k + 1)) (congrArg (fun x => some ("uint".toList ++ x)) (goBitsText_room (k + 1) h1 h2))
        (goIntNames_room (k + 1)).1 rfl rfl rfl (fun _ _ => rfl) rfl rfl rfl
  | signed n m h1 h2 =>
    by_cases h : n = 8 ∨ n = 16 ∨ n = 32 ∨ n = 64
    · exact (chosen_aligned n h m).2
    · rw [(inWidth_cases n h).2]
      obtain ⟨k, rfl⟩ : ∃ k, n = k + 1 := ⟨n - 1, by omega⟩
      exact chosen_get_signed (wa := .lit (k + 1)) (congrArg (fun x => some ("int".toList ++ x)) (goBitsText_room (k + 1) h1 h2))
        (goIntNames_room (k + 1)).2 rfl rfl rfl (fun _ _ => rfl) rfl rfl rfl
  | word w m k h => exact chosen_word w m k h
  | unsignedOf e n h1 h2 =>
    exact chosen_get_unsigned (wa := .expr) (by rfl) (goIntNames_room 64).1 rfl rfl (natMod256 h2) (fun _ _ => rfl) rfl rfl rfl
  | signedOf e n h1 h2 =>
    exact chosen_get_signed (wa := .expr) (by rfl) (goIntNames_room 64).2 rfl rfl (natMod256 h2) (fun _ _ => rfl) rfl rfl rfl

/-! ## The theorems -/

/-- C79: a field whose type is written as a builtin type has the Go type of that builtin type.  The generated code for encoding (with or without a
conversion in front, unless the Go type is a pointer) and decoding compiles, every value in range is written as the format says, and reading these
bits gives the value back.

Missing: types of bit width 0 or more than 64, and subtypes of `extern` and `bytes` (see `C79_violated_subtype`). -/
theorem C79_values_partial {t : CTypeInst} {m : Int} {k : Elem} (h : TypeDenotes t m k) (cast : Bool) (hc : cast = true → k ≠ .extern ∧ k ≠ .bytes) :
    builtinGoType (visitTypeInst t) = some k.goName ∧
      ∃ w r, (writeCall (visitTypeInst t)).write k.goName cast m = some w ∧ (readCall (visitTypeInst t)).read k.goName m = some r ∧
        ∀ x : k.T, k.Ok x → ∃ out, Wire.scalar k x = some out ∧ ∀ s, Writes (w (k.inj x)) s out ∧ Reads r out s.length (k.inj x) := by
  have c := chosen_ref h.ref
  have hcv : convertible cast k.goName = true := by
    cases cast
    · rfl
    · have := hc rfl
      cases k <;> first | rfl | exact absurd rfl this.1 | exact absurd rfl this.2
  obtain ⟨w, hw, hw'⟩ := c.write cast hcv
  refine ⟨c.goType, w, _, hw, c.read, fun x hx => ?_⟩
  obtain ⟨out, h1, h2⟩ := C59_scalars k h.wf x hx
  refine ⟨out, h1, fun s => ⟨hw' x ▸ (h2 s).2.1, fun rest => ?_⟩⟩
  exact (h2 s).2.2.2.map (f := k.inj) rest

/-- C79: the size that is added for a field of builtin type is the number of bits the format needs.  Missing as in `C79_values_partial`;
buffers are excluded because their length is left out of the size (C26). -/
theorem C79_sizes_partial {t : CTypeInst} {m : Int} {k : Elem} (h : TypeDenotes t m k) (cast : Bool) (hb : k ≠ .extern ∧ k ≠ .bytes) :
    ∃ z, (sizeCall (visitTypeInst t)).eval k.goName cast m = some z ∧
      ∀ x : k.T, k.Ok x → ∃ out, Wire.scalar k x = some out ∧ z (k.inj x) = .ok (out.length : Int) := by
  have c := chosen_ref h.ref
  have hcv : convertible cast k.goName = true := by
    cases cast
    · rfl
    · cases k <;> first | rfl | exact absurd rfl hb.1 | exact absurd rfl hb.2
  obtain ⟨z, hz, hz'⟩ := c.size cast hcv
  refine ⟨z, hz, fun x hx => ?_⟩
  have hs : k.Sized x := by cases k <;> first | exact hx | exact absurd rfl hb.1 | exact absurd rfl hb.2
  obtain ⟨out, h1, h2⟩ := C59_scalars k h.wf x hx
  obtain ⟨out', h3, h4⟩ := k.scalar_size h.wf x hs []
  have e := (h2 []).2.1.unique h3
  refine ⟨out, h1, ?_⟩
  rw [hz' x, h4, e]
  rfl

/-- C79: the array that is declared for elements of a builtin type has traits of the same type, for the elements written there: every element in
range is written as the format says and read back. -/
theorem C79_arrays_partial {t : CTypeInst} {m : Int} {k : Elem} (h : TypeDenotes t m k) :
    arrayTraitsOf (visitTypeInst t) m = some k ∧ ∀ x : k.T, k.Ok x → ∃ out, Wire.scalar k x = some out ∧
      ∀ s, Writes (k.traits.write x) s out ∧ Reads k.traits.read out s.length x := by
  refine ⟨(chosen_ref h.ref).traits, fun x hx => ?_⟩
  obtain ⟨out, h1, h2⟩ := C59_scalars k h.wf x hx
  exact ⟨out, h1, fun s => ⟨(h2 s).1, (h2 s).2.2.1⟩⟩

/-- The builtin types that packed arrays and packed structs delta encode: all integers. -/
def Elem.integer : Elem → Bool
  | .bool | .string | .bytes | .extern | .float16 | .float32 | .float64 => false
  | _ => true

/-- C79: in packed structs exactly the integer fields are delta encoded; every other field is written and read by the same function as
outside of packed structs. -/
theorem C79_packed {t : CTypeInst} {m : Int} {k : Elem} (h : TypeDenotes t m k) :
    builtinDelta (visitTypeInst t) = k.integer ∧
      (k.integer = false → packedCall (visitTypeInst t) = writeCall (visitTypeInst t) ∧ packedCall (visitTypeInst t) = readCall (visitTypeInst t)) := by
  have c := chosen_ref h.ref
  have e : k.isDelta = k.integer := by cases k <;> rfl
  exact ⟨c.delta.trans e, fun hk => c.packed (e.trans hk)⟩

/-! ## Cases -/

/-- `bit:` or `int:` with a width. -/
def exWidth (signed : Bool) (width : List Char) (h : isDecimalText width = true) : CTypeInst := ⟨.builtin (.fixed signed ⟨width, h⟩), .none⟩

/-- `uint16` -/
example : TypeDenotes ⟨.builtin (.word .uint16), .none⟩ 0 (.bits 16 16) := .unsigned (.word .uint16) 16 0 trivial rfl

/-- `bit:11`: 11 bits in a uint16 -/
example : TypeDenotes (exWidth false "11".toList rfl) 0 (.bits 16 11) := .unsigned _ 11 0 ⟨by decide, by decide⟩ rfl

/-- `int:33`: 33 bits in an int64 -/
example : TypeDenotes (exWidth true "33".toList rfl) 0 (.sbits 64 33) := .signed _ 33 0 ⟨by decide, by decide⟩ rfl

/-- `varuint32` -/
example : TypeDenotes ⟨.builtin (.word .varuint32), .none⟩ 0 .varuint32 := .word .varuint32 0 .varuint32 rfl

/-- `bit<n>` with n = 5 -/
example (e : CExpr) : TypeDenotes ⟨.builtin (.word .bit), .dynamicLength e⟩ 5 (.bits 64 5) := .unsignedOf e 5 (by decide) (by decide)

/-- The Go type of `bit:11` is uint16, the generated code calls `ztype.WriteUnsignedBits(w, …, 11)`, and 1027 has 11 bits. -/
example : builtinGoType (visitTypeInst (exWidth false "11".toList rfl)) = some "uint16".toList ∧
    writeCall (visitTypeInst (exWidth false "11".toList rfl)) = .unsignedBits (.lit 11) ∧ (Elem.bits 16 11).Ok (1027#16) :=
  ⟨by decide +kernel, by decide +kernel, (by decide : (1027#16).toNat < 2 ^ 11)⟩

/-- C79 does not hold for subtypes of `extern` and `bytes`: the value is converted by `*ztype.ExternType(v.Field)`, which Go reads as a pointer
indirection; the code for encoding does not compile, that for decoding does. -/
theorem C79_violated_subtype (m : Int) :
    let r := visitTypeInst ⟨.builtin (.word .extern), .none⟩
    builtinGoType r = some "*ztype.ExternType".toList ∧ ((writeCall r).write "*ztype.ExternType".toList true m).isNone = true ∧
      ((writeCall r).write "*ztype.ExternType".toList false m).isSome = true ∧ ((readCall r).read "*ztype.ExternType".toList m).isSome = true := by
  refine ⟨by decide, rfl, rfl, rfl⟩

/-- C79 does not hold for widths over 64 that come from an expression: with `bit<n>` and n = 261 the value is written in `uint8(261) = 5` bits without
an error, and 261 bits are reported as its size. -/
theorem C79_violated_width (e : CExpr) (x : BitVec 64) :
    let r := visitTypeInst ⟨.builtin (.word .bit), .dynamicLength e⟩
    (∃ w, (writeCall r).write "uint64".toList false 261 = some w ∧ w (.bits 64 x) = writeUnsignedBits x 5) ∧
      ∃ z, (sizeCall r).eval "uint64".toList false 261 = some z ∧ z (.bits 64 x) = .ok 261 := by
  refine ⟨⟨_, rfl, ?_⟩, ⟨_, rfl, rfl⟩⟩
  exact (congrArg (fun v => writeUnsignedBits v 5) (to64_unsigned 64 x)).trans (by rw [BitVec.setWidth_eq])

/-- C79 does not hold for `bit:0`, which the grammar allows: there is no function `ztype.WriteBit`. -/
theorem C79_violated_zero (m : Int) :
    let r := visitTypeInst (exWidth false "0".toList rfl)
    builtinGoType r = some "uint".toList ∧ writeCall r = .named "Bit".toList ∧ ∀ g cast, (writeCall r).write g cast m = none := by
  refine ⟨by decide, by decide, fun g cast => ?_⟩
  have : writeCall (visitTypeInst (exWidth false "0".toList rfl)) = .named "Bit".toList := by decide
  rw [this]
  unfold ValueCall.write
  have l : ztypeWriters.lookup "Bit".toList = none := rfl
  dsimp only
  rw [l]
  exact ite_self _

end Verif
