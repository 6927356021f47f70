import Verif.Object

/-!
# Generated code

What the templates under /repo/internal/generator/templates generate, as an interpreter of schema declarations: for each
declaration the methods of `Meth`.  Template lines are cited as `encode:24-98` for
/repo/internal/generator/templates/encode.go.tmpl lines 24-98, and so on.

Names are numbers.  Expressions in a schema (optional clauses, array lengths, dynamic bit widths, type arguments) are
arbitrary functions of the object they are evaluated in; an expression that panics is not modelled.
-/

namespace Verif

/-! ## Scalars -/

/-- A value of a builtin type as a field value. -/
def Elem.inj : (k : Elem) → k.T → Val
  | .varint, x | .varint64, x | .varuint, x | .varuint64, x | .varsize, x | .float64, x => .bits 64 x
  | .varint16, x | .varuint16, x => .bits 16 x
  | .varint32, x | .varuint32, x | .float16, x | .float32, x => .bits 32 x
  | .bits w _, x | .sbits w _, x => .bits w x
  | .bool, x => .bool x
  | .string, x => .str x
  | .bytes, x => .bytes x
  | .extern, x => .extern x

def Val.asBits (w : Nat) : Val → BitVec w
  | .bits _ v => v.setWidth w
  | _ => 0#w

def Val.asBool : Val → Bool
  | .bool b => b
  | _ => false

def Val.asStr : Val → List Byte
  | .str s => s
  | _ => []

def Val.asBytes : Val → Option BytesV
  | .bytes b => b
  | _ => Option.none

def Val.asExtern : Val → Option ExternV
  | .extern b => b
  | _ => Option.none

/-- The builtin value in a field value; Go's type checker excludes the cases where the shapes do not match, the result
there is arbitrary. -/
def Elem.val : (k : Elem) → Val → k.T
  | .varint, v | .varint64, v | .varuint, v | .varuint64, v | .varsize, v | .float64, v => v.asBits 64
  | .varint16, v | .varuint16, v => v.asBits 16
  | .varint32, v | .varuint32, v | .float16, v | .float32, v => v.asBits 32
  | .bits w _, v | .sbits w _, v => v.asBits w
  | .bool, v => v.asBool
  | .string, v => v.asStr
  | .bytes, v => v.asBytes
  | .extern, v => v.asExtern

theorem Elem.val_inj (k : Elem) (x : k.T) : k.val (k.inj x) = x := by
  cases k <;> first | rfl | exact BitVec.setWidth_eq x

/-- The array traits of a builtin type, acting on field values. -/
def Elem.vt (k : Elem) : Traits Val where
  isConstant := k.traits.isConstant
  zero := k.inj k.traits.zero
  bitSizeOf v := k.traits.bitSizeOf (k.val v)
  read := do let x ← k.traits.read; pure (k.inj x)
  write v := k.traits.write (k.val v)
  asU64 v := k.traits.asU64 (k.val v)
  fromU64 u := k.inj (k.traits.fromU64 u)

/-- Writing a scalar field, encode:65-76: bit fields with the range-checked functions, everything else with the
function the array traits use as well. -/
def Elem.writeS : (k : Elem) → k.T → Wr Unit
  | .bits w n => fun v : BitVec w => writeUnsignedBits (v.setWidth 64) n
  | .sbits w n => fun v : BitVec w => writeSignedBits (v.signExtend 64) n
  | k => k.traits.write

/-- Reading a scalar field, decode:49-59. -/
def Elem.readS : (k : Elem) → Rd k.T
  | .bits w n => do let v ← readUnsignedBits n; pure (v.setWidth w)
  | .sbits w n => do let v ← readSignedBits n; pure (v.setWidth w)
  | k => k.traits.read

/-- builtin_bitsizeof:7-45. -/
def Elem.sizeS : (k : Elem) → k.T → Except Err Nat
  | .bits _ n, _ | .sbits _ n, _ => .ok n
  | .bool, _ => .ok 1
  | .float16, _ => .ok 16
  | .float32, _ => .ok 32
  | .float64, _ => .ok 64
  | .extern, v => match (v : Option ExternV) with
    | some e => .ok e.bitSize.toNat
    | none => .error (.panic "nil pointer dereference")
  | .bytes, v => match (v : Option BytesV) with
    | some e => .ok (8 * e.byteSize.toNat)
    | none => .error (.panic "nil pointer dereference")
  | .varuint, v => unsignedBitSize v 9
  | .varuint16, v => unsignedBitSize (BitVec.setWidth 64 (v : BitVec 16)) 2
  | .varuint32, v => unsignedBitSize (BitVec.setWidth 64 (v : BitVec 32)) 4
  | .varuint64, v => unsignedBitSize v 8
  | .varsize, v => unsignedBitSize v 5
  | .varint, v => signedBitSize v 9
  | .varint16, v => signedBitSize (BitVec.signExtend 64 (v : BitVec 16)) 2
  | .varint32, v => signedBitSize (BitVec.signExtend 64 (v : BitVec 32)) 4
  | .varint64, v => signedBitSize v 8
  | .string, v => bitSizeOfString v

/-- /repo/internal/ast/scope.go:79-102 `zserioDeltaPackabeTypes`: the integer types. -/
def Elem.isDelta : Elem → Bool
  | .bool | .string | .bytes | .extern | .float16 | .float32 | .float64 => false
  | _ => true

/-- A bit field whose width is given by an expression. -/
def Elem.withWidth : Elem → Option Nat → Elem
  | .bits w _, some n => .bits w n
  | .sbits w _, some n => .sbits w n
  | k, _ => k

/-! ## Declarations -/

/-- The object an expression is evaluated in. -/
structure Env where
  params : List Val
  fields : List Val

/-- The values of the expressions of a field: the optional clause (`true` if there is none), the width of a dynamic bit
field (`uint8(expr)`), the array length (`none` for automatic length), the type arguments for the element with the given
index (already converted to the parameter types). -/
structure Exprs where
  active : Bool
  width : Option Nat
  len : Option Int
  args : Option (Nat → List Val)

/-- Field type after resolving subtypes. -/
inductive FTy where
  | prim (k : Elem)
  | comp (name : Nat)

/-- /repo/internal/ast/field.go.  `align` is 0 if there is no alignment, `arr` says whether the field is an array and
whether it is declared packed, `cast` is `RequiresCast` (the field type is a subtype).  Offsets, initializers and
constraints do not take part in encoding and decoding.

The traits of bit field arrays come from `GetBitFieldArrayTraits`; that this call succeeds is property C42 and assumed
here. -/
structure Field where
  exprs : Env → Exprs
  align : Nat
  optional : Bool
  ty : FTy
  arr : Option Bool
  cast : Bool

/-- Struct, union, choice and enum declarations; a bitmask generates the same methods as an enum.  `sel` is the integer
value of the choice's selector, which is one of its parameters.  A case has its labels and an optional field. -/
inductive Decl where
  | struct (fields : List Field)
  | union (fields : List Field)
  | choice (sel : List Val → Int) (cases : List (List Int × Option Field)) (dflt : Option Field)
  | enum (k : Elem)

/-! ## Writer code with a context -/

/-- Code that does not touch the context. -/
def WS.lift {σ : Type} (w : Wr Unit) : WS σ := fun c => WM.bind (ExceptT.run w) fun r => WM.pure (r, c)

/-- Sequence; stops at the first error. -/
def WS.seq {σ : Type} (a b : WS σ) : WS σ := fun c => WM.bind (a c) fun r =>
  match r with
  | (.ok (), c) => b c
  | (.error x, c) => WM.pure (.error x, c)

/-- Values that Go's type checker excludes. -/
def illTyped : Err := .panic "ill-typed"

namespace Field

/-- encode_compound_parameters:6-19, decode_compound_parameters:7-29. -/
def setArgs (x : Exprs) (i : Nat) (v : Val) : Val :=
  match x.args, v with
  | some a, .obj t _ fs => .obj t (a i) fs
  | _, v => v

/-- The loop over the elements, encode_compound_parameters:8-17. -/
def setAll (x : Exprs) : Nat → List Val → List Val
  | _, [] => []
  | i, v :: vs => setArgs x i v :: setAll x (i + 1) vs

/-- array_init:8-22. -/
def cfg (x : Exprs) (packed : Bool) : ArrCfg := ⟨(x.len.getD 0).toNat, x.len.isNone, packed, false, false⟩

/-- The length check, encode:41-45. -/
def lenMatches (x : Exprs) (n : Nat) : Bool :=
  match x.len with
  | none => true
  | some l => decide (l = n)

variable (ms : Nat → Meth) (f : Field) (x : Exprs)

/-- Go's zero value of the field type, without the pointer of an optional field.  Nil and empty slices are not
distinguished. -/
def zeroVal : Val :=
  match f.arr, f.ty with
  | some _, _ => .list []
  | none, .prim k => k.inj k.traits.zero
  | none, .comp n => (ms n).zero

/-- Go's zero value of the field. -/
def zero : Val := if f.optional then .none else f.zeroVal ms

/-- encode:39-62, 77-87: the array part. -/
def writeArr (packed : Bool) (v : Val) : Wr Unit :=
  match v with
  | .list vs =>
    if lenMatches x vs.length then
      match f.ty with
      | .prim k => Arr.marshalW (k.withWidth x.width).vt (cfg x packed) vs
      | .comp n => ObjArr.marshal (ms n) (cfg x packed) (setAll x 0 vs)
    else throw (.other "array length")
  | _ => throw illTyped

/-- decode:60-90: the array part.  `make` panics for a negative length. -/
def readArr (packed : Bool) : Rd Val :=
  if x.len.getD 0 < 0 then throw (.panic "makeslice: len out of range") else
  match f.ty with
  | .prim k => do let vs ← Arr.unmarshal (k.withWidth x.width).vt (cfg x packed); pure (.list vs)
  | .comp n => do let vs ← ObjArr.unmarshal (ms n) (cfg x packed) (setArgs x); pure (.list vs)

/-- encode:38-92. -/
def writeVal (v : Val) : Wr Unit :=
  match f.arr, f.ty with
  | some packed, _ => writeArr ms f x packed v
  | none, .prim k => (k.withWidth x.width).writeS ((k.withWidth x.width).val v)
  | none, .comp n => (ms n).marshal (setArgs x 0 v)

/-- decode:49-93. -/
def readVal (old : Val) : Rd Val :=
  match f.arr, f.ty with
  | some packed, _ => readArr ms f x packed
  | none, .prim k => do let v ← (k.withWidth x.width).readS; pure ((k.withWidth x.width).inj v)
  | none, .comp n => (ms n).unmarshal (setArgs x 0 old)

/-- encode:27-31 and the like. -/
def alignWr : Wr Unit := if f.align = 0 then pure () else (do let _ ← alignW f.align)

/-- decode:27-31 and the like. -/
def alignRd : Rd Unit := if f.align = 0 then pure () else (do let _ ← alignR f.align)

/-- encode:24-98. -/
def encode (v : Val) : Wr Unit :=
  if x.active then do
    f.alignWr
    if f.optional then
      match v with
      | .none => writeBool false
      | .some v => do writeBool true; f.writeVal ms x v
      | _ => throw illTyped
    else f.writeVal ms x v
  else pure ()

/-- decode:24-104. -/
def decode (old : Val) : Rd Val :=
  if x.active then do
    f.alignRd
    if f.optional then do
      let present ← readBool
      if present then do
        let v ← f.readVal ms x (f.zeroVal ms)
        pure (.some v)
      else pure .none
    else f.readVal ms x old
  else pure old

/-- bitsizeof:31-48 with builtin_bitsizeof: the new end position.  For an array of builtin values the elements are only
handed over if a cast is needed (bitsizeof:35-45), and the unpacked size is asked for in any case. -/
def sizeVal (v : Val) (p : Int) : Except Err Int := do
  let d ← match f.arr, f.ty, v with
    | some packed, .prim k, .list vs =>
      Arr.bitSize (k.withWidth x.width).vt (cfg x packed) (if f.cast then vs else []) p
    | some packed, .comp n, .list vs => ObjArr.bitSize (ms n) (cfg x packed) (setAll x 0 vs) p
    | some _, _, _ => throw illTyped
    | none, .prim k, v => do
      let d ← (k.withWidth x.width).sizeS ((k.withWidth x.width).val v)
      pure (d : Int)
    | none, .comp n, v => (ms n).bitSize (setArgs x 0 v) p
  pure (p + d)

/-- bitsizeof:22-24. -/
def sizeAlign (p : Int) : Except Err Int :=
  if f.align = 0 then .ok p else do
    let d ← countAlignBits p.toNat f.align
    pure (p + d)

/-- bitsizeof:19-55: the new end position. -/
def size (v : Val) (p : Int) : Except Err Int :=
  if x.active then do
    let p ← f.sizeAlign p
    if f.optional then
      match v with
      | .none => pure (p + 1)
      | .some v => f.sizeVal ms x v (p + 1)
      | _ => throw illTyped
    else f.sizeVal ms x v p
  else pure p

/-- packing_context_create:6-26: the node for this field. -/
def create : Except Err Ctx :=
  match f.arr, f.ty with
  | some _, _ => .ok Ctx.empty
  | none, .comp n => (ms n).create Ctx.empty
  | none, .prim k => if k.isDelta then .ok (.node (some DCtx.new) []) else .ok Ctx.empty

/-- packing_context_init:29-41 -/
def initVal (v : Val) (c : Ctx) : Except Err Unit × Ctx :=
  match f.arr, f.ty with
  | some _, _ => (.ok (), c)
  | none, .comp n => (ms n).init (setArgs x 0 v) c
  | none, .prim k =>
    if k.isDelta then
      match c with
      | .node (some d) kids => (.ok (), .node (some (DCtx.init (k.withWidth x.width).vt d v)) kids)
      | .node none _ => (.error (.other "unknown context type"), c)
    else (.ok (), c)

/-- packing_context_init:21-49 -/
def init (v : Val) (c : Ctx) : Except Err Unit × Ctx :=
  if x.active then
    if f.optional then
      match v with
      | .some v => f.initVal ms x v c
      | _ => (.ok (), c)
    else f.initVal ms x v c
  else (.ok (), c)

/-- packing_context_encode:85-90 -/
def deltaWrite (tr : Traits Val) (v : Val) : WS Ctx := fun c =>
  match c with
  | .node (some d) kids => WM.bind (DCtx.write tr v d) fun r => WM.pure (r.1, .node (some r.2) kids)
  | .node none _ => WM.pure (.error (.other "unknown context type"), c)

/-- packing_context_decode:93-102 -/
def deltaRead (tr : Traits Val) (c : Ctx) : Rd (Val × Ctx) :=
  match c with
  | .node (some d) kids => do
    let (v, d) ← DCtx.read tr d
    pure (v, .node (some d) kids)
  | .node none _ => throw (.other "unknown context type")

/-- packing_context_encode:35-98 -/
def writeValP (v : Val) : WS Ctx :=
  WS.seq (WS.lift f.alignWr) <|
  match f.arr, f.ty with
  | some _, _ => WS.lift (f.writeArr ms x true v)
  | none, .comp n => (ms n).marshalP (setArgs x 0 v)
  | none, .prim k =>
    if k.isDelta then deltaWrite (k.withWidth x.width).vt v
    else WS.lift ((k.withWidth x.width).writeS ((k.withWidth x.width).val v))

/-- packing_context_encode:24-106: the presence flag comes before the alignment. -/
def encodeP (v : Val) : WS Ctx :=
  if x.active then
    if f.optional then
      match v with
      | .none => WS.lift (writeBool false)
      | .some v => WS.seq (WS.lift (writeBool true)) (f.writeValP ms x v)
      | _ => WS.lift (throw illTyped)
    else f.writeValP ms x v
  else WS.lift (pure ())

/-- packing_context_decode:45-111 -/
def readValP (old : Val) (c : Ctx) : Rd (Val × Ctx) := do
  f.alignRd
  match f.arr, f.ty with
  | some _, _ => do let v ← f.readArr ms x true; pure (v, c)
  | none, .comp n => (ms n).unmarshalP (setArgs x 0 old) c
  | none, .prim k =>
    if k.isDelta then deltaRead (k.withWidth x.width).vt c
    else do let v ← (k.withWidth x.width).readS; pure ((k.withWidth x.width).inj v, c)

/-- packing_context_decode:24-122 -/
def decodeP (old : Val) (c : Ctx) : Rd (Val × Ctx) :=
  if x.active then
    if f.optional then do
      let present ← readBool
      if present then do
        let (v, c) ← f.readValP ms x (f.zeroVal ms) c
        pure (.some v, c)
      else pure (.none, c)
    else f.readValP ms x old c
  else pure (old, c)

/-- packing_context_bitsize:30-78: the new end position.  The array properties are fresh, so their context is nil. -/
def sizeValP (v : Val) (c : Ctx) (p : Int) : Except Err Int × Ctx :=
  let add : Except Err Int → Except Err Int := fun r => do let d ← r; pure (p + d)
  match f.arr, f.ty, v with
  | some packed, .prim k, .list vs =>
    (add (Arr.bitSizePacked (k.withWidth x.width).vt (cfg x packed) (if f.cast then vs else []) none p).1, c)
  | some packed, .comp n, .list vs => (add (ObjArr.bitSizePacked (ms n) (cfg x packed) (setAll x 0 vs) none p), c)
  | some _, _, _ => (.error illTyped, c)
  | none, .comp n, v => let r := (ms n).bitSizeP (setArgs x 0 v) c p; (add r.1, r.2)
  | none, .prim k, v =>
    if k.isDelta then
      match c with
      | .node (some d) kids =>
        let r := DCtx.bitSizeOf (k.withWidth x.width).vt d v
        (.ok (p + r.1), .node (some r.2) kids)
      | .node none _ => (.error (.other "invalid packing context"), c)
    else (add (do let d ← (k.withWidth x.width).sizeS ((k.withWidth x.width).val v); pure (d : Int)), c)

/-- packing_context_bitsize:21-81: the optional clause is not looked at. -/
def sizeP (v : Val) (c : Ctx) (p : Int) : Except Err Int × Ctx :=
  match f.sizeAlign p with
  | .error e => (.error e, c)
  | .ok p =>
    if f.optional then
      match v with
      | .none => (.ok (p + 1), c)
      | .some v => f.sizeValP ms x v c (p + 1)
      | _ => (.error illTyped, c)
    else f.sizeValP ms x v c p

end Field

/-! ## Structs -/

section loops
variable (ms : Nat → Meth)

/-- struct:25-27 -/
def encLoop (env : Env) : List Field → List Val → Wr Unit
  | f :: fs, v :: vs => do f.encode ms (f.exprs env) v; encLoop env fs vs
  | [], [] => pure ()
  | _, _ => throw illTyped

/-- struct:37-39; `done` are the fields decoded so far, the other arguments the remaining fields and their old values.
The result is all fields. -/
def decLoop (ps : List Val) : List Val → List Field → List Val → Rd (List Val)
  | done, f :: fs, old :: olds => do
    let v ← f.decode ms (f.exprs ⟨ps, done ++ old :: olds⟩) old
    decLoop ps (done ++ [v]) fs olds
  | done, [], [] => pure done
  | _, _, _ => throw illTyped

/-- struct:50-52 -/
def sizeLoop (env : Env) : List Field → List Val → Int → Except Err Int
  | f :: fs, v :: vs, p => do
    let p ← f.size ms (f.exprs env) v p
    sizeLoop env fs vs p
  | [], [], p => .ok p
  | _, _, _ => .error illTyped

/-- struct:58-60: the children added to the node. -/
def createLoop : List Field → Except Err (List Ctx)
  | [] => .ok []
  | f :: fs => do
    let c ← f.create ms
    let cs ← createLoop fs
    pure (c :: cs)

/-- struct:65-69.  There is one child per field; running out of children is an index panic (also for fields that do not
look at their child). -/
def initLoop (env : Env) : List Field → List Val → List Ctx → Except Err Unit × List Ctx
  | f :: fs, v :: vs, c :: cs =>
    match f.init ms (f.exprs env) v c with
    | (.ok (), c) => let r := initLoop env fs vs cs; (r.1, c :: r.2)
    | (.error x, c) => (.error x, c :: cs)
  | [], [], cs => (.ok (), cs)
  | _, _, cs => (.error (.panic "index out of range"), cs)

/-- struct:93-95 -/
def encLoopP (env : Env) : List Field → List Val → WS (List Ctx)
  | f :: fs, v :: vs, c :: cs => WM.bind (f.encodeP ms (f.exprs env) v c) fun r =>
    match r with
    | (.ok (), c) => WM.bind (encLoopP env fs vs cs) fun r => WM.pure (r.1, c :: r.2)
    | (.error x, c) => WM.pure (.error x, c :: cs)
  | [], [], cs => WM.pure (.ok (), cs)
  | _, _, cs => WM.pure (.error (.panic "index out of range"), cs)

/-- struct:79-81 -/
def decLoopP (ps : List Val) : List Val → List Field → List Val → List Ctx → Rd (List Val × List Ctx)
  | done, f :: fs, old :: olds, c :: cs => do
    let (v, c) ← f.decodeP ms (f.exprs ⟨ps, done ++ old :: olds⟩) old c
    let (vs, cs) ← decLoopP ps (done ++ [v]) fs olds cs
    pure (vs, c :: cs)
  | done, [], [], cs => pure (done, cs)
  | _, _, _, _ => throw (.panic "index out of range")

/-- struct:110-112 -/
def sizeLoopP (env : Env) : List Field → List Val → List Ctx → Int → Except Err Int × List Ctx
  | f :: fs, v :: vs, c :: cs, p =>
    match f.sizeP ms (f.exprs env) v c p with
    | (.ok p, c) => let r := sizeLoopP env fs vs cs p; (r.1, c :: r.2)
    | (.error x, c) => (.error x, c :: cs)
  | [], [], cs, p => (.ok p, cs)
  | _, _, cs, _ => (.error (.panic "index out of range"), cs)

/-- struct.go.tmpl.  A method called on a nil or ill-typed receiver is excluded by the callers. -/
def structMeth (fs : List Field) : Meth where
  zero := .obj 0 [] (fs.map (Field.zero ms))
  marshal v := match v with
    | .obj _ ps vs => encLoop ms ⟨ps, vs⟩ fs vs
    | _ => throw illTyped
  unmarshal old := match old with
    | .obj t ps olds => do let vs ← decLoop ms ps [] fs olds; pure (.obj t ps vs)
    | _ => throw illTyped
  bitSize v p := match v with
    | .obj _ ps vs => do let e ← sizeLoop ms ⟨ps, vs⟩ fs vs p; pure (e - p)
    | _ => throw illTyped
  create c := match c with
    | .node d kids => do let cs ← createLoop ms fs; pure (.node d (kids ++ cs))
  init v c := match v, c with
    | .obj _ ps vs, .node d kids => let r := initLoop ms ⟨ps, vs⟩ fs vs kids; (r.1, .node d r.2)
    | _, c => (.error illTyped, c)
  marshalP v c := match v, c with
    | .obj _ ps vs, .node d kids =>
      WM.bind (encLoopP ms ⟨ps, vs⟩ fs vs kids) fun r => WM.pure (r.1, .node d r.2)
    | _, c => WM.pure (.error illTyped, c)
  unmarshalP old c := match old, c with
    | .obj t ps olds, .node d kids => do
      let (vs, kids) ← decLoopP ms ps [] fs olds kids
      pure (.obj t ps vs, .node d kids)
    | _, _ => throw illTyped
  bitSizeP v c p := match v, c with
    | .obj _ ps vs, .node d kids =>
      let r := sizeLoopP ms ⟨ps, vs⟩ fs vs kids p
      (do let e ← r.1; pure (e - p), .node d r.2)
    | _, c => (.error illTyped, c)

/-! ## Unions and choices -/

/-- Encode field `i` of the object. -/
def encAt (fs : List Field) (i : Nat) (ps vs : List Val) : Wr Unit :=
  match fs[i]?, vs[i]? with
  | some f, some v => f.encode ms (f.exprs ⟨ps, vs⟩) v
  | _, _ => throw illTyped

/-- Decode field `i` of the object, the others stay. -/
def decAt (fs : List Field) (i : Nat) (ps olds : List Val) : Rd (List Val) :=
  match fs[i]?, olds[i]? with
  | some f, some old => do
    let v ← f.decode ms (f.exprs ⟨ps, olds⟩) old
    pure (olds.set i v)
  | _, _ => throw illTyped

/-- End position after field `i`. -/
def sizeAt (fs : List Field) (i : Nat) (ps vs : List Val) (p : Int) : Except Err Int :=
  match fs[i]?, vs[i]? with
  | some f, some v => f.size ms (f.exprs ⟨ps, vs⟩) v p
  | _, _ => .error illTyped

/-- union.go.tmpl: the tag `i + 1` selects field `i`, every other tag selects nothing.  The packed methods do nothing
(union:99-114). -/
def unionMeth (fs : List Field) : Meth where
  zero := .obj 0 [] (fs.map (Field.zero ms))
  marshal v := match v with
    | .obj t ps vs => do
      writeVarsize (BitVec.ofNat 64 t)
      if 1 ≤ t ∧ t ≤ fs.length then encAt ms fs (t - 1) ps vs else pure ()
    | _ => throw illTyped
  unmarshal old := match old with
    | .obj _ ps olds => do
      let u ← readVarsize
      let t := u.toNat
      if 1 ≤ t ∧ t ≤ fs.length then do
        let vs ← decAt ms fs (t - 1) ps olds
        pure (.obj t ps vs)
      else pure (.obj t ps olds)
    | _ => throw illTyped
  bitSize v p := match v with
    | .obj t ps vs => do
      let d ← unsignedBitSize (BitVec.ofNat 64 t) 5
      let e ← if 1 ≤ t ∧ t ≤ fs.length then sizeAt ms fs (t - 1) ps vs (p + d) else pure (p + d)
      pure (e - p)
    | _ => throw illTyped
  create c := match c with
    | .node d kids => do let cs ← createLoop ms fs; pure (.node d (kids ++ cs))
  init v c := match v, c with
    | .obj _ ps vs, .node d kids => let r := initLoop ms ⟨ps, vs⟩ fs vs kids; (r.1, .node d r.2)
    | _, c => (.error illTyped, c)
  marshalP _ c := WM.pure (.ok (), c)
  unmarshalP old c := pure (old, c)
  bitSizeP _ c _ := (.ok 0, c)

/-- The fields of a choice in declaration order, choice:10-19. -/
def choiceFields (cases : List (List Int × Option Field)) (dflt : Option Field) : List Field :=
  cases.filterMap (·.2) ++ dflt.toList

/-- The `switch` of choice:39-45 and its repetitions: the index (among the fields) of the first case that has a field
and whose first label is the selector. -/
def pickCase (x : Int) : List (List Int × Option Field) → Nat → Option Nat
  | [], _ => none
  | (_, none) :: cs, i => pickCase x cs i
  | (ls, some _) :: cs, i => if ls.head? = some x then some i else pickCase x cs (i + 1)

/-- The whole `switch` with its default, choice:39-52. -/
def pick (x : Int) (cases : List (List Int × Option Field)) (dflt : Option Field) : Option Nat :=
  match pickCase x cases 0 with
  | some i => some i
  | none => if dflt.isSome then some (cases.filterMap (·.2)).length else none

/-- choice.go.tmpl.  In `ZserioInitPackingContext` the default branch adds a child instead of initialising one
(choice:121-124); without any case the packed methods do nothing (choice:109, 131, 155, 184). -/
def choiceMeth (sel : List Val → Int) (cases : List (List Int × Option Field)) (dflt : Option Field) : Meth where
  zero := .obj 0 [] ((choiceFields cases dflt).map (Field.zero ms))
  marshal v := match v with
    | .obj _ ps vs =>
      match pick (sel ps) cases dflt with
      | some i => encAt ms (choiceFields cases dflt) i ps vs
      | none => pure ()
    | _ => throw illTyped
  unmarshal old := match old with
    | .obj t ps olds =>
      match pick (sel ps) cases dflt with
      | some i => do let vs ← decAt ms (choiceFields cases dflt) i ps olds; pure (.obj t ps vs)
      | none => pure old
    | _ => throw illTyped
  bitSize v p := match v with
    | .obj _ ps vs => do
      let e ← match pick (sel ps) cases dflt with
        | some i => sizeAt ms (choiceFields cases dflt) i ps vs p
        | none => pure p
      pure (e - p)
    | _ => throw illTyped
  create c := match c with
    | .node d kids => do let cs ← createLoop ms (choiceFields cases dflt); pure (.node d (kids ++ cs))
  init v c := match v, c with
    | .obj _ ps vs, .node d kids =>
      if cases.isEmpty then (.ok (), c) else
      match pickCase (sel ps) cases 0 with
      | some i =>
        match (choiceFields cases dflt)[i]?, vs[i]?, kids[i]? with
        | some f, some v, some k =>
          let r := f.init ms (f.exprs ⟨ps, vs⟩) v k
          (r.1, .node d (kids.set i r.2))
        | _, _, _ => (.error (.panic "index out of range"), c)
      | none =>
        match dflt with
        | some f =>
          match f.create ms with
          | .ok k => (.ok (), .node d (kids ++ [k]))
          | .error x => (.error x, .node d (kids ++ [Ctx.empty]))
        | none => (.ok (), c)
    | _, c => (.error illTyped, c)
  marshalP v c := match v, c with
    | .obj _ ps vs, .node d kids =>
      if cases.isEmpty then WM.pure (.ok (), c) else
      match pick (sel ps) cases dflt with
      | some i =>
        match (choiceFields cases dflt)[i]?, vs[i]?, kids[i]? with
        | some f, some v, some k =>
          WM.bind (f.encodeP ms (f.exprs ⟨ps, vs⟩) v k) fun r => WM.pure (r.1, .node d (kids.set i r.2))
        | _, _, _ => WM.pure (.error (.panic "index out of range"), c)
      | none => WM.pure (.ok (), c)
    | _, c => WM.pure (.error illTyped, c)
  unmarshalP old c := match old, c with
    | .obj t ps olds, .node d kids =>
      if cases.isEmpty then pure (old, c) else
      match pick (sel ps) cases dflt with
      | some i =>
        match (choiceFields cases dflt)[i]?, olds[i]?, kids[i]? with
        | some f, some o, some k => do
          let (v, k) ← f.decodeP ms (f.exprs ⟨ps, olds⟩) o k
          pure (.obj t ps (olds.set i v), .node d (kids.set i k))
        | _, _, _ => throw (.panic "index out of range")
      | none => pure (old, c)
    | _, _ => throw illTyped
  bitSizeP v c p := match v, c with
    | .obj _ ps vs, .node d kids =>
      if cases.isEmpty then (.ok 0, c) else
      match pick (sel ps) cases dflt with
      | some i =>
        match (choiceFields cases dflt)[i]?, vs[i]?, kids[i]? with
        | some f, some v, some k =>
          let r := f.sizeP ms (f.exprs ⟨ps, vs⟩) v k p
          (do let e ← r.1; pure (e - p), .node d (kids.set i r.2))
        | _, _, _ => (.error (.panic "index out of range"), c)
      | none => (.ok 0, c)
    | _, c => (.error illTyped, c)

/-- enum.go.tmpl:114-218 and bitmask.go.tmpl:24-128.  Any value of the underlying type is accepted in both
directions. -/
def enumMeth (k : Elem) : Meth where
  zero := k.inj k.traits.zero
  marshal v := k.writeS (k.val v)
  unmarshal _ := do let x ← k.readS; pure (k.inj x)
  bitSize v _ := do let d ← k.sizeS (k.val v); pure (d : Int)
  create c := match c with
    | .node _ kids => .ok (.node (some DCtx.new) kids)
  init v c := match c with
    | .node (some d) kids => (.ok (), .node (some (DCtx.init k.vt d v)) kids)
    | .node none _ => (.error (.other "context node has no packing"), c)
  marshalP v := Field.deltaWrite k.vt v
  unmarshalP _ c := Field.deltaRead k.vt c
  bitSizeP v c _ := match c with
    | .node (some d) kids =>
      let r := DCtx.bitSizeOf k.vt d v
      (.ok (r.1 : Int), .node (some r.2) kids)
    | .node none _ => (.error (.other "invalid packing context"), c)

/-- The methods generated for a declaration, given those of the declarations it refers to. -/
def Decl.meth : Decl → Meth
  | .struct fs => structMeth ms fs
  | .union fs => unionMeth ms fs
  | .choice sel cases dflt => choiceMeth ms sel cases dflt
  | .enum k => enumMeth k

end loops

/-- Running out of stack. -/
def overflow : Err := .panic "stack overflow"

/-- The methods when the recursion depth is exhausted. -/
def overflowMeth : Meth where
  zero := .none
  marshal _ := throw overflow
  unmarshal _ := throw overflow
  bitSize _ _ := .error overflow
  create _ := .error overflow
  init _ c := (.error overflow, c)
  marshalP _ c := WM.pure (.error overflow, c)
  unmarshalP _ _ := throw overflow
  bitSizeP _ c _ := (.error overflow, c)

/-- The methods of all types of a schema, with at most `n` nested method calls. -/
def methods (schema : Nat → Decl) : Nat → Nat → Meth
  | 0, _ => overflowMeth
  | n + 1, name => (schema name).meth (methods schema n)

end Verif
