import Verif.Array

/-!
# Calls of the offset callback

`ztype.WithCheckOffsetMethod` gives an array a function that is called with the index and the position of each element, when the
array is written and when it is read.  `Verif/Array` has the same loops without the calls.  The other function, of
`WithSetOffsetMethod`, is never called: /repo/ztype/array.go:54, 63, 87 only ask whether there is one.
-/

namespace Verif

/-- The calls of a callback: index and position. -/
abbrev Calls := List (Nat × Nat)

namespace Arr
variable {T : Type}

/-- Loop /repo/ztype/array_encode.go:31-44 without packing, with a callback: what it is called with.  If the loop ends with an
error the calls are left out. -/
def plainCalls (tr : Traits T) : Nat → List T → Wr Calls
  | _, [] => pure []
  | i, e :: es => do
    let count ← alignW 8
    Wr.dropErr (tr.write e)
    let calls ← plainCalls tr (i + 1) es
    pure ((i, count) :: calls)

/-- The same with packing. -/
def packedCalls (tr : Traits T) : Nat → List T → DCtx → WM (Except Err Calls)
  | _, [], _ => WM.pure (.ok [])
  | i, e :: es, c => WM.bind (ExceptT.run (alignW 8)) fun r =>
    match r with
    | .error x => WM.pure (.error x)
    | .ok count => WM.bind (DCtx.write tr e c) fun r =>
      match r with
      | (.error x, c) =>
        if x.isPanic then WM.pure (.error x)
        else WM.bind (packedCalls tr (i + 1) es c) fun r => WM.pure (r.map ((i, count) :: ·))
      | (.ok (), c) => WM.bind (packedCalls tr (i + 1) es c) fun r => WM.pure (r.map ((i, count) :: ·))

/-- /repo/ztype/array_encode.go:8-47 `Array.MarshalZserio` with a callback. -/
def marshalCalls (tr : Traits T) (cfg : ArrCfg) (es : List T) : Wr Calls := do
  header cfg es.length
  if es.isEmpty then pure []
  else if cfg.isPacked then ExceptT.mk (packedCalls tr 0 es (DCtx.initAll tr es))
  else plainCalls tr 0 es

/-- Loop /repo/ztype/array_decode.go:35-53 without packing, with a callback. -/
def plainReadCalls (tr : Traits T) : Nat → Nat → Rd (List T × Calls)
  | _, 0 => pure ([], [])
  | i, n + 1 => do
    let count ← alignR 8
    let e ← tr.read
    let (es, calls) ← plainReadCalls tr (i + 1) n
    pure (e :: es, (i, count) :: calls)

/-- The same with packing. -/
def packedReadCalls (tr : Traits T) : Nat → Nat → DCtx → Rd (List T × Calls)
  | _, 0, _ => pure ([], [])
  | i, n + 1, c => do
    let count ← alignR 8
    let (e, c) ← DCtx.read tr c
    let (es, calls) ← packedReadCalls tr (i + 1) n c
    pure (e :: es, (i, count) :: calls)

/-- /repo/ztype/array_decode.go:8-56 `Array.UnmarshalZserio` with a callback. -/
def unmarshalCalls (tr : Traits T) (cfg : ArrCfg) : Rd (List T × Calls) := do
  let size ← (if cfg.isAuto then do let n ← readVarsize; pure n.toNat else pure cfg.fixedSize)
  if cfg.isPacked then packedReadCalls tr 0 size DCtx.new
  else plainReadCalls tr 0 size

end Arr

end Verif
