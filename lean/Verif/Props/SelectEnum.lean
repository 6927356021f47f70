import Verif.Props.Select

/-!
# C80: how the values of enums and bitmasks are encoded
-/

namespace Verif

/-- The builtin types whose values are passed on without a conversion when the size is computed. -/
def Elem.unconverted : Elem → Bool
  | .varint | .varint64 | .varuint | .varuint64 | .varsize => true
  | _ => false

/-- The calls in the methods of an enum or bitmask that is declared over a builtin type. -/
structure EnumChosen (r : ATypeRef) (k : Elem) (m : Int) : Prop where
  builtin : r.isBuiltin = true
  write : enumWrite r = some (writeCall r)
  mask : ∀ d : ATypeRef, d.bits = r.bits ∨ r.bits = 0 → bitmaskWrite d r = some (writeCall r)
  read : enumRead r = some (readCall r)
  maskRead : bitmaskRead r = some (readCall r)
  size : k.unconverted = false → enumSize r k.goName m = (sizeCall r).eval k.goName false m
  noSize : k.unconverted = true → enumSize r k.goName m = none

theorem enum_chosen {r : ATypeRef} {m : Int} {k : Elem} (h : RefDenotes r m k) (hd : r.dynamic = false) (hi : k.integer = true) :
    EnumChosen r k m := by
  cases h with
  | unsigned n m h1 h2 =>
    by_cases h : n = 8 ∨ n = 16 ∨ n = 32 ∨ n = 64
    · rcases h with rfl | rfl | rfl | rfl <;> exact ⟨rfl, rfl, fun _ _ => rfl, rfl, rfl, fun _ => rfl, fun h => absurd h (by decide)⟩
    · rw [(inWidth_cases n h).1]
      obtain ⟨k, rfl⟩ : ∃ k, n = k + 1 := ⟨n - 1, by omega⟩
      refine ⟨rfl, rfl, fun d hd => ?_, rfl, rfl, fun _ => rfl, fun h => (nomatch h)⟩
      have : d.bits = k + 1 := hd.elim id nofun
      unfold bitmaskWrite
      rw [this]
      rfl
  | signed n m h1 h2 =>
    by_cases h : n = 8 ∨ n = 16 ∨ n = 32 ∨ n = 64
    · rcases h with rfl | rfl | rfl | rfl <;> exact ⟨rfl, rfl, fun _ _ => rfl, rfl, rfl, fun _ => rfl, fun h => absurd h (by decide)⟩
    · rw [(inWidth_cases n h).2]
      obtain ⟨k, rfl⟩ : ∃ k, n = k + 1 := ⟨n - 1, by omega⟩
      refine ⟨rfl, rfl, fun d hd => ?_, rfl, rfl, fun _ => rfl, fun h => (nomatch h)⟩
      have : d.bits = k + 1 := hd.elim id nofun
      unfold bitmaskWrite
      rw [this]
      rfl
  | word w m k h =>
    cases w <;> cases h <;> first
      | exact absurd hi (by decide)
      | exact ⟨rfl, rfl, fun _ _ => rfl, rfl, rfl, fun _ => rfl, fun h => absurd h (by decide)⟩
      | exact ⟨rfl, rfl, fun _ _ => rfl, rfl, rfl, fun h => absurd h (by decide), fun _ => rfl⟩
  | unsignedOf e n h1 h2 => exact absurd hd (by simp [ATypeRef.dynamic])
  | signedOf e n h1 h2 => exact absurd hd (by simp [ATypeRef.dynamic])

theorem denotes_static {t : CTypeInst} {m : Int} {k : Elem} (h : TypeDenotes t m k) (hp : t.args = .none) : (visitTypeInst t).dynamic = false := by
  have key : ∀ text, (visitBuiltinText text).dynamic = false := by
    intro text
    obtain ⟨n, bits, h⟩ := visitBuiltin_builtin text
    rw [h]
    rfl
  cases h with
  | unsigned b n m => rw [visitTypeInst_plain]; exact key _
  | signed b n m => rw [visitTypeInst_plain]; exact key _
  | word w m k => rw [visitTypeInst_plain]; exact key _
  | unsignedOf e n => cases hp
  | signedOf e n => cases hp

/-- The values of an enum or bitmask over the type `k` that are in range are written as the format says for `k`, and read back. -/
def EncodedAs (k : Elem) (w : Val → Wr Unit) (r : Rd Val) : Prop :=
  ∀ x : k.T, k.Ok x → ∃ out, Wire.scalar k x = some out ∧ ∀ s, Writes (w (k.inj x)) s out ∧ Reads r out s.length (k.inj x)

/-- C80: the methods of an enum over an integer type write and read values as the format says for that type; so do those of a bitmask that is
declared directly over the type, or over a subtype `declared` of a type without bit width.  Packed encoding uses the traits of that type.

Missing: bitmasks over subtypes of bit fields (see `C80_violated_bitmask`) and types whose width is an expression. -/
theorem C80_values_partial {t : CTypeInst} {m : Int} {k : Elem} (h : TypeDenotes t m k) (hp : t.args = .none) (hi : k.integer = true) :
    (∃ cw cr w r, enumWrite (visitTypeInst t) = some cw ∧ enumRead (visitTypeInst t) = some cr ∧ cw.write k.goName true m = some w ∧
      cr.read k.goName m = some r ∧ EncodedAs k w r) ∧
    (∀ declared : ATypeRef, declared = visitTypeInst t ∨ (visitTypeInst t).bits = 0 →
      ∃ cw cr w r, bitmaskWrite declared (visitTypeInst t) = some cw ∧ bitmaskRead (visitTypeInst t) = some cr ∧
      cw.write k.goName true m = some w ∧ cr.read k.goName m = some r ∧ EncodedAs k w r) ∧
    enumTraits (visitTypeInst t) m = some k := by
  have e := enum_chosen h.ref (denotes_static h hp) hi
  obtain ⟨_, w, r, h1, h2, h3⟩ := C79_values_partial h true (fun _ => by cases k <;> first | exact absurd hi (by decide) | exact ⟨nofun, nofun⟩)
  refine ⟨⟨_, _, w, r, e.write, e.read, h1, h2, h3⟩, fun d hd => ⟨_, _, w, r, e.mask d (hd.imp (congrArg ATypeRef.bits) id), e.maskRead, h1, h2, h3⟩, ?_⟩
  have := (chosen_ref h.ref).traits
  unfold arrayTraitsOf at this
  unfold enumTraits
  revert this
  cases builtinGoType (visitTypeInst t) <;> cases traitsType (visitTypeInst t) <;> cases traitsCall (visitTypeInst t) <;>
    simp only [bind, Option.bind_none, Option.bind_some, reduceCtorEq, IsEmpty.forall_iff]
  rename_i g ty c
  cases c.eval m with
  | none => exact fun h => h
  | some q =>
    simp only [Option.bind_some]
    split_ifs with h1 h2
    · exact fun h => h
    · exact absurd h1.2 h2
    · exact fun h => by cases h
    · exact fun h => by cases h

/-- C80: the size that is reported for an enum or bitmask is the number of bits that are written.

Missing: enums over the types whose size is computed without a conversion (see `C80_violated_enum`). -/
theorem C80_sizes_partial {t : CTypeInst} {m : Int} {k : Elem} (h : TypeDenotes t m k) (hp : t.args = .none) (hi : k.integer = true) :
    (k.unconverted = false → ∃ z, enumSize (visitTypeInst t) k.goName m = some z ∧
      ∀ x : k.T, k.Ok x → ∃ out, Wire.scalar k x = some out ∧ z (k.inj x) = .ok (out.length : Int)) ∧
    (∃ z, bitmaskSize (visitTypeInst t) k.goName m = some z ∧
      ∀ x : k.T, k.Ok x → ∃ out, Wire.scalar k x = some out ∧ z (k.inj x) = .ok (out.length : Int)) := by
  have e := enum_chosen h.ref (denotes_static h hp) hi
  obtain ⟨z, h1, h2⟩ := C79_sizes_partial h false (by cases k <;> first | exact absurd hi (by decide) | exact ⟨nofun, nofun⟩)
  refine ⟨fun hu => ⟨z, (e.size hu).trans h1, h2⟩, z, ?_, h2⟩
  unfold bitmaskSize
  rw [if_neg (by rw [e.builtin]; nofun)]
  exact h1

/-- C80 does not hold for enums over `varuint`, `varuint64`, `varsize`, `varint` and `varint64`: `ztype.UnsignedBitSize(*v, 9)` is called with a value
of the type of the enum, which is not uint64, and the generated code does not compile. -/
theorem C80_violated_enum {t : CTypeInst} {m : Int} {k : Elem} (h : TypeDenotes t m k) (hu : k.unconverted = true) :
    enumSize (visitTypeInst t) k.goName m = none := by
  have hi : k.integer = true := by cases k <;> first | rfl | cases hu
  have hp : t.args = .none := by cases h <;> first | rfl | cases hu
  exact (enum_chosen h.ref (denotes_static h hp) hi).noSize hu

example : TypeDenotes ⟨.builtin (.word .varuint), .none⟩ 0 .varuint ∧ Elem.varuint.unconverted = true := ⟨.word .varuint 0 .varuint rfl, rfl⟩

/-- C80 does not hold for bitmasks over a subtype: with `subtype bit:5 Flags; bitmask Flags Mask { … }` values are written in 0 bits, which fails for
all but the empty mask, and 5 bits are read.  `name` is the name of the subtype. -/
theorem C80_violated_bitmask (name : Text) (m : Int) :
    let declared := ATypeRef.mk false [] name 0 [] [] none
    let native := visitTypeInst (exWidth false "5".toList rfl)
    bitmaskWrite declared native = some (.unsignedBits (.lit 0)) ∧ bitmaskRead native = some (.unsignedBits (.lit 5)) ∧
      ∃ w, (ValueCall.unsignedBits (.lit 0)).write "uint8".toList true m = some w ∧
        (wrun (w (.bits 8 0#8)) []) = (.ok (), []) ∧ (wrun (w (.bits 8 3#8)) []).1 ≠ .ok () := by
  refine ⟨rfl, rfl, _, rfl, ?_, ?_⟩
  · rfl
  · intro h
    have e : (wrun (writeUnsignedBits 3#64 0) []).1 = .ok () := h
    exact absurd e (by decide +kernel)

/-- `enum bit:3 Color`: 3 bits in a uint8. -/
example : TypeDenotes (exWidth false "3".toList rfl) 0 (.bits 8 3) ∧ (exWidth false "3".toList rfl).args = .none ∧ (Elem.bits 8 3).integer = true ∧
    (Elem.bits 8 3).unconverted = false ∧ (Elem.bits 8 3).Ok 5#8 :=
  ⟨.unsigned _ 3 0 ⟨by decide, by decide⟩ rfl, rfl, rfl, rfl, (by decide : (5#8).toNat < 2 ^ 3)⟩

end Verif
