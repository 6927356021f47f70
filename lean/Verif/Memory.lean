import Verif.Codec
import Verif.Array
import Verif.Object

/-!
# The memory that decoding asks for

Source: /repo/ztype/string_decode.go:10-20, bytes_decode.go:11-28, extern_decode.go:11-39, array_decode.go:8-56, object_array_decode.go:6-59.

The read functions of `Verif/Codec`, `Verif/Array` and `Verif/Object` once more, with the arguments of `make`: bytes for buffers and strings, elements for arrays.
Memory that does not depend on the input (contexts, the structs of buffers) and what `append` does not need (the capacity is already there) are left out; so is
what the elements of packed arrays themselves ask for.
-/

namespace Verif

/-- A read function with the sizes that it asked for, also if it fails. -/
abbrev MRd (α : Type) : Type := RM (Except Err α × List Nat)

namespace MRd
variable {α β : Type}

/-- A result. -/
def pure (a : α) : MRd α := RM.pure (.ok a, [])

/-- One after another; an error ends it. -/
def bind (p : MRd α) (f : α → MRd β) : MRd β :=
  RM.bind p fun r => match r with
    | (.ok a, ns) => RM.bind (f a) fun q => RM.pure (q.1, ns ++ q.2)
    | (.error e, ns) => RM.pure (.error e, ns)

/-- A function that asks for nothing. -/
def lift (p : Rd α) : MRd α := RM.bind (ExceptT.run p) fun r => RM.pure (r, [])

/-- `make` with a size. -/
def make (n : Nat) : MRd Unit := RM.pure (.ok (), [n])

/-- Result, sizes and state. -/
def run (p : MRd α) (s : RState) : (Except Err α × List Nat) × RState := RM.run p s

/-- The function without the sizes. -/
def erase (p : MRd α) : Rd α := ExceptT.mk (RM.bind p fun r => RM.pure r.1)

end MRd

/-- /repo/ztype/string_decode.go:10-20 `ReadString`: the buffer, and the copy that `string(buf)` makes. -/
def readStringM : MRd (List Byte) :=
  .bind (.lift readVarsize) fun size => .bind (.make size.toNat) fun _ => .bind (.lift (Rd.full size.toNat)) fun buf =>
    .bind (.make buf.length) fun _ => .pure buf

/-- /repo/ztype/bytes_decode.go:11-28 `ReadBytes` -/
def readBytesM : MRd BytesV :=
  .bind (.lift readVarsize) fun size => .bind (.make size.toNat) fun _ => .bind (.lift (Rd.full size.toNat)) fun buf => .pure ⟨buf, size⟩

/-- /repo/ztype/extern_decode.go:11-39 `ReadExtern` -/
def readExternM : MRd ExternV :=
  .bind (.lift readVarsize) fun size => .bind (.make (size.toNat / 8 + 1)) fun _ => .lift do
    let rem := size.toNat % 8
    let buf ← Rd.full (size.toNat / 8)
    if rem ≠ 0 then do
      let last ← Rd.bits rem
      Pure.pure ⟨buf ++ [(last <<< (8 - rem)).setWidth 8], size⟩
    else Pure.pure ⟨buf, size⟩

namespace Arr
variable {T : Type}

/-- Loop /repo/ztype/array_decode.go:35-53 without packing; `read` reads an element. -/
def plainReadM (read : MRd T) (check : Bool) : Nat → MRd (List T)
  | 0 => .pure []
  | n + 1 => .bind (.lift (offsetAlignR check)) fun _ => .bind read fun e => .bind (plainReadM read check n) fun es => .pure (e :: es)

/-- /repo/ztype/array_decode.go:8-56 `Array.UnmarshalZserio` -/
def unmarshalM (tr : Traits T) (read : MRd T) (cfg : ArrCfg) : MRd (List T) :=
  .bind (.lift (if cfg.isAuto then do let n ← readVarsize; pure n.toNat else pure cfg.fixedSize)) fun size => .bind (.make size) fun _ =>
    if cfg.isPacked then .lift (packedRead tr cfg.hasCheck size DCtx.new) else plainReadM read cfg.hasCheck size

end Arr

namespace ObjArr

/-- Loop /repo/ztype/object_array_decode.go:35-57 without packing; `read` is the method `UnmarshalZserio` of the element. -/
def plainReadM (m : Meth) (read : Val → MRd Val) (check : Bool) (setp : Nat → Val → Val) : Nat → Nat → MRd (List Val)
  | _, 0 => .pure []
  | i, n + 1 => .bind (.lift (offsetAlignR check)) fun _ => .bind (read (setp i m.zero)) fun v =>
      .bind (plainReadM m read check setp (i + 1) n) fun vs => .pure (v :: vs)

/-- /repo/ztype/object_array_decode.go:6-59 `ObjectArray.UnmarshalZserio` -/
def unmarshalM (m : Meth) (read : Val → MRd Val) (cfg : ArrCfg) (setp : Nat → Val → Val) : MRd (List Val) :=
  .bind (.lift (if cfg.isAuto then do let n ← readVarsize; pure n.toNat else pure cfg.fixedSize)) fun size => .bind (.make size) fun _ =>
    if size = 0 then .pure []
    else if cfg.isPacked then .lift (match m.create Ctx.empty with
      | .error x => throw x
      | .ok c0 => packedRead m cfg.hasCheck setp 0 size c0)
    else plainReadM m read cfg.hasCheck setp 0 size

end ObjArr

end Verif
