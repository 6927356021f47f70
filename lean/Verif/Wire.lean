import Verif.Schema

/-!
# The zserio wire format

The format as a function from values to bits, written from the description of the format, not from the code.  It has no
counterpart in /repo.  Types are those of `Elem`, `Field` and `Decl`, values those of `Val`; nothing else of the model is
used, in particular none of its writers.

`none` means that the value has no encoding (out of range, too long, or not of the type).
-/

namespace Verif.Wire

/-! ## Numbers -/

/-- The `n` low bits of `v`, most significant first. -/
def msb (n v : Nat) : List Bool := (List.range n).map fun i => v.testBit (n - 1 - i)

/-- Two's complement in `n` bits. -/
def twos (n : Nat) (z : Int) : List Bool := msb n (z % 2 ^ n).toNat

/-- Number of value bits in the form of a variable-length integer that has `k` of at most `m` bytes: each byte has one
continuation bit, except the last possible one; a sign takes one more bit. -/
def room (signed : Bool) (m k : Nat) : Nat := 7 * k + (if k = m then 1 else 0) - (if signed then 1 else 0)

/-- The number of bytes of the shortest form. -/
def shortest (signed : Bool) (m v : Nat) : Option Nat :=
  ((List.range m).map (· + 1)).find? fun k => decide (v < 2 ^ room signed m k)

/-- Distribute value bits over `k` bytes: the continuation bit is 1 in all bytes but the last and 0 in the last; if `full`
the last byte has none.  The first byte takes `first` value bits if it is not the last. -/
def groups (full : Bool) : Nat → Nat → List Bool → List Bool
  | 0, _, _ => []
  | 1, _, p => if full then p else false :: p
  | k + 2, first, p => true :: p.take first ++ groups full (k + 1) 7 (p.drop first)

/-- varuint16/32/64, varuint, varsize: `m` is 2, 4, 8, 9, 5. -/
def uvar (m v : Nat) : Option (List Bool) :=
  (shortest false m v).map fun k => groups (decide (k = m)) k 7 (msb (room false m k) v)

/-- varint16/32/64, varint: sign bit and magnitude; `m` is 2, 4, 8, 9. -/
def svar (m : Nat) (z : Int) : Option (List Bool) :=
  (shortest true m z.natAbs).map fun k => decide (z < 0) :: groups (decide (k = m)) k 6 (msb (room true m k) z.natAbs)

/-- varsize has 31 value bits at most. -/
def varsize (n : Nat) : Option (List Bool) := if n < 2 ^ 31 then uvar 5 n else none

/-- Whole bytes. -/
def octets (bs : List Byte) : List Bool := bs.flatMap fun b => msb 8 b.toNat

/-- The half precision pattern with the value of a single precision pattern, for values that have one: zero,
subnormal halves, normal halves, infinity, quiet NaN. -/
def half (x : Nat) : Option Nat :=
  let s := x / 2 ^ 31 * 2 ^ 15
  let e := x / 2 ^ 23 % 256
  let c := x % 2 ^ 23
  if e = 0 ∧ c = 0 then some s
  else if 103 ≤ e ∧ e ≤ 112 ∧ c % 2 ^ (126 - e) = 0 then some (s + (2 ^ 23 + c) / 2 ^ (126 - e))
  else if 113 ≤ e ∧ e ≤ 142 ∧ c % 2 ^ 13 = 0 then some (s + (e - 112) * 2 ^ 10 + c / 2 ^ 13)
  else if e = 255 ∧ c = 0 then some (s + 31 * 2 ^ 10)
  else if e = 255 ∧ 2 ^ 22 ≤ c ∧ c % 2 ^ 13 = 0 then some (s + 31 * 2 ^ 10 + c / 2 ^ 13)
  else none

/-- A value of a builtin type; bit fields have 1 to 64 bits.  The one varint without a magnitude of 63 bits is the negative zero. -/
def scalar : (k : Elem) → k.T → Option (List Bool)
  | .varint => fun x : BitVec 64 => if x.toInt = -2 ^ 63 then some (msb 8 128) else svar 9 x.toInt
  | .varint16 => fun x : BitVec 16 => svar 2 x.toInt
  | .varint32 => fun x : BitVec 32 => svar 4 x.toInt
  | .varint64 => fun x : BitVec 64 => svar 8 x.toInt
  | .varuint => fun x : BitVec 64 => uvar 9 x.toNat
  | .varuint16 => fun x : BitVec 16 => uvar 2 x.toNat
  | .varuint32 => fun x : BitVec 32 => uvar 4 x.toNat
  | .varuint64 => fun x : BitVec 64 => uvar 8 x.toNat
  | .varsize => fun x : BitVec 64 => varsize x.toNat
  | .bits w n => fun x : BitVec w => if 1 ≤ n ∧ n ≤ 64 ∧ x.toNat < 2 ^ n then some (msb n x.toNat) else none
  | .sbits w n => fun x : BitVec w =>
    if 1 ≤ n ∧ n ≤ 64 ∧ -2 ^ (n - 1) ≤ x.toInt ∧ x.toInt < 2 ^ (n - 1) then some (twos n x.toInt) else none
  | .bool => fun b : Bool => some [b]
  | .string => fun s : List Byte => (varsize s.length).map (· ++ octets s)
  | .bytes => fun b : Option BytesV => b.bind fun b =>
    if b.byteSize.toNat = b.buffer.length then (varsize b.buffer.length).map (· ++ octets b.buffer) else none
  | .extern => fun e : Option ExternV => e.bind fun e =>
    if e.buffer.length = (e.bitSize.toNat + 7) / 8 then
      (varsize e.bitSize.toNat).map (· ++ (octets e.buffer).take e.bitSize.toNat)
    else none
  | .float16 => fun x : BitVec 32 => (half x.toNat).map (msb 16)
  | .float32 => fun x : BitVec 32 => some (msb 32 x.toNat)
  | .float64 => fun x : BitVec 64 => some (msb 64 x.toNat)

/-- The number an integer type's value stands for. -/
def num : (k : Elem) → k.T → Int
  | .varint => fun x : BitVec 64 => x.toInt
  | .varint16 => fun x : BitVec 16 => x.toInt
  | .varint32 => fun x : BitVec 32 => x.toInt
  | .varint64 => fun x : BitVec 64 => x.toInt
  | .varuint => fun x : BitVec 64 => x.toNat
  | .varuint16 => fun x : BitVec 16 => x.toNat
  | .varuint32 => fun x : BitVec 32 => x.toNat
  | .varuint64 => fun x : BitVec 64 => x.toNat
  | .varsize => fun x : BitVec 64 => x.toNat
  | .bits w _ => fun x : BitVec w => x.toNat
  | .sbits w _ => fun x : BitVec w => x.toInt
  | _ => fun _ => 0

/-! ## Delta packing -/

/-- An integer value to be packed, with its type. -/
structure Occ where
  k : Elem
  v : k.T

def Occ.num (o : Occ) : Int := Wire.num o.k o.v

/-- What a writer decides about a sequence: not packed, or packed with `max_bit_number` `d`. -/
abbrev Plan := Option Nat

/-- The plan for each sequence; `none` if the sequence is not to be encoded at all. -/
abbrev Decide := List Occ → Option Plan

/-- Bits per delta. -/
def deltaBits (d : Nat) : Nat := if d = 0 then 0 else d + 1

/-- The part of element `j` of the sequence `all`: the first carries the descriptor (packed or not, `max_bit_number`) and
the value; in a packed sequence each later one is the difference to its predecessor. -/
def chunk (dec : Decide) (all : List Occ) (j : Nat) : Option (List Bool) := do
  let o ← all[j]?
  let b ← scalar o.k o.v
  let plan ← dec all
  match j, plan with
  | 0, none => some (false :: b)
  | 0, some d => some (true :: msb 6 d ++ b)
  | _ + 1, none => some b
  | j + 1, some d => do
    let p ← all[j]?
    some (twos (deltaBits d) (o.num - p.num))

/-- A position in a packed object: integers belong to the sequence of their path in the type, everything else is
written as it is (depending on the bit position, because of alignment). -/
inductive Piece where
  | leaf (path : List Nat) (o : Occ)
  | raw (bits : Nat → Option (List Bool))

/-- The sequence of a path. -/
def occs (path : List Nat) : List Piece → List Occ
  | [] => []
  | .leaf p o :: ps => if p = path then o :: occs path ps else occs path ps
  | .raw _ :: ps => occs path ps

/-- Put the pieces one after another; `seen` says how much of each sequence was already written. -/
def lay (dec : Decide) (all : List Nat → List Occ) : (List Nat → Nat) → List Piece → Nat → Option (List Bool)
  | _, [], _ => some []
  | seen, .leaf p _ :: ps, pos => do
    let a ← chunk dec (all p) (seen p)
    let b ← lay dec all (fun q => if q = p then seen q + 1 else seen q) ps (pos + a.length)
    some (a ++ b)
  | seen, .raw f :: ps, pos => do
    let a ← f pos
    let b ← lay dec all seen ps (pos + a.length)
    some (a ++ b)

/-- All elements of a packed array. -/
def layAll (dec : Decide) (ps : List Piece) (pos : Nat) : Option (List Bool) :=
  lay dec (fun p => occs p ps) (fun _ => 0) ps pos

/-- Below field `i`. -/
def Piece.lift (i : Nat) : Piece → Piece
  | .leaf p o => .leaf (i :: p) o
  | .raw f => .raw f

/-! ## Compound types -/

/-- The format of a type: outside packed arrays, inside packed arrays, and whether it consists of finitely many fields. -/
structure Fmt where
  plain : Val → Nat → Option (List Bool)
  pieces : Val → Option (List Piece)
  finite : Bool

/-- One after another. -/
def inOrder (f : Val → Nat → Option (List Bool)) : List Val → Nat → Option (List Bool)
  | [], _ => some []
  | v :: vs, pos => do
    let a ← f v pos
    let b ← inOrder f vs (pos + a.length)
    some (a ++ b)

/-- All pieces of all elements. -/
def allPieces (f : Val → Option (List Piece)) : List Val → Option (List Piece)
  | [] => some []
  | v :: vs => do
    let a ← f v
    let b ← allPieces f vs
    some (a ++ b)

/-- Zero bits up to the next multiple of `a` (0 for no alignment). -/
def padding (a pos : Nat) : List Bool := List.replicate (if a = 0 then 0 else (a - pos % a) % a) false

/-- The value with the type arguments the schema gives to element `i`. -/
def withArgs (x : Exprs) (i : Nat) : Val → Val
  | .obj t ps fs => .obj t ((x.args.map (· i)).getD ps) fs
  | v => v

def withArgsFrom (x : Exprs) : Nat → List Val → List Val
  | _, [] => []
  | i, v :: vs => withArgs x i v :: withArgsFrom x (i + 1) vs

section fields
variable (dec : Decide) (fm : Nat → Fmt) (f : Field) (x : Exprs)

/-- Elements of a builtin type. -/
def primElems (packed : Bool) (k : Elem) (vs : List Val) (pos : Nat) : Option (List Bool) :=
  if packed && k.isDelta then layAll dec (vs.map fun v => .leaf [] ⟨k, k.val v⟩) pos
  else inOrder (fun v _ => scalar k (k.val v)) vs pos

/-- Elements of a compound, enum or bitmask type. -/
def compElems (packed : Bool) (m : Fmt) (vs : List Val) (pos : Nat) : Option (List Bool) :=
  if packed then
    if m.finite then do
      let ps ← allPieces m.pieces vs
      layAll dec ps pos
    else none
  else inOrder m.plain vs pos

/-- The length of an array, if it is not given by the schema. -/
def lengthField (n : Nat) : Option (List Bool) := if x.len = none then varsize n else some []

/-- The elements of an array. -/
def elements (packed : Bool) (vs : List Val) (pos : Nat) : Option (List Bool) :=
  if vs = [] then some [] else
  match f.ty with
  | .prim k => primElems dec packed (k.withWidth x.width) vs pos
  | .comp n => compElems dec packed (fm n) (withArgsFrom x 0 vs) pos

/-- An array; if the schema gives its length, it has that length. -/
def array (packed : Bool) : Val → Nat → Option (List Bool)
  | .list vs, pos =>
    if x.len = none ∨ x.len = some (vs.length : Int) then do
      let h ← lengthField x vs.length
      let b ← elements dec fm f x packed vs (pos + h.length)
      some (h ++ b)
    else none
  | _, _ => none

/-- The value of a field. -/
def value (v : Val) (pos : Nat) : Option (List Bool) :=
  match f.arr, f.ty with
  | some packed, _ => array dec fm f x packed v pos
  | none, .prim k => scalar (k.withWidth x.width) ((k.withWidth x.width).val v)
  | none, .comp n => (fm n).plain (withArgs x 0 v) pos

/-- A field: nothing if its clause is false; alignment, presence flag if it is optional without a clause, value. -/
def field (v : Val) (pos : Nat) : Option (List Bool) :=
  if x.active then
    let pad := padding f.align pos
    if f.optional then
      match v with
      | .none => some (pad ++ [false])
      | .some u => do
        let b ← value dec fm f x u (pos + pad.length + 1)
        some (pad ++ true :: b)
      | _ => none
    else do
      let b ← value dec fm f x v (pos + pad.length)
      some (pad ++ b)
  else some []

/-- The value of a field in a packed object. -/
def valuePieces (v : Val) : Option (List Piece) :=
  match f.arr, f.ty with
  | some _, _ => some [.raw (array dec fm f x true v)]
  | none, .comp n => (fm n).pieces (withArgs x 0 v)
  | none, .prim k =>
    if k.isDelta then some [.leaf [] ⟨k.withWidth x.width, (k.withWidth x.width).val v⟩]
    else some [.raw fun _ => scalar (k.withWidth x.width) ((k.withWidth x.width).val v)]

/-- A field of a packed object; here the presence flag comes before the alignment. -/
def fieldPieces (v : Val) : Option (List Piece) :=
  if x.active then
    let pad : Piece := .raw fun pos => some (padding f.align pos)
    if f.optional then
      match v with
      | .none => some [.raw fun _ => some [false]]
      | .some u => do
        let ps ← valuePieces dec fm f x u
        some (.raw (fun _ => some [true]) :: pad :: ps)
      | _ => none
    else do
      let ps ← valuePieces dec fm f x v
      some (pad :: ps)
  else some []

/-- A field adds finitely many sequences. -/
def fieldFinite : Bool :=
  match f.arr, f.ty with
  | none, .comp n => (fm n).finite
  | _, _ => true

end fields

section decls
variable (base : Nat) (dec : Decide) (fm : Nat → Fmt)

/-- Fields in order. -/
def fieldsIn (env : Env) : List Field → List Val → Nat → Option (List Bool)
  | f :: fs, v :: vs, pos => do
    let a ← field dec fm f (f.exprs env) v pos
    let b ← fieldsIn env fs vs (pos + a.length)
    some (a ++ b)
  | [], [], _ => some []
  | _, _, _ => none

/-- Fields in order, from index `i`. -/
def fieldsPieces (env : Env) : Nat → List Field → List Val → Option (List Piece)
  | i, f :: fs, v :: vs => do
    let a ← fieldPieces dec fm f (f.exprs env) v
    let b ← fieldsPieces env (i + 1) fs vs
    some (a.map (Piece.lift i) ++ b)
  | _, [], [] => some []
  | _, _, _ => none

/-- Field number `i` alone. -/
def fieldAt (fs : List Field) (i : Nat) (ps vs : List Val) (pos : Nat) : Option (List Bool) := do
  let f ← fs[i]?
  let v ← vs[i]?
  field dec fm f (f.exprs ⟨ps, vs⟩) v pos

def fieldPiecesAt (fs : List Field) (i : Nat) (ps vs : List Val) : Option (List Piece) := do
  let f ← fs[i]?
  let v ← vs[i]?
  let a ← fieldPieces dec fm f (f.exprs ⟨ps, vs⟩) v
  some (a.map (Piece.lift i))

/-- The case of a choice that has the selector among its labels: the number of its field, if it has one. -/
def labelled (x : Int) : List (List Int × Option Field) → Nat → Option (Option Nat)
  | [], _ => none
  | (ls, fo) :: cs, i => if x ∈ ls then some (fo.map fun _ => i) else labelled x cs (i + if fo.isSome then 1 else 0)

/-- The field of a choice for a selector: that of the case, else the default. -/
def chosen (x : Int) (cases : List (List Int × Option Field)) (dflt : Option Field) : Option Nat :=
  match labelled x cases 0 with
  | some r => r
  | none => dflt.map fun _ => (cases.filterMap (·.2)).length

/-- The format of a declaration.  The tag of the first member of a union is `base`. -/
def decl : Decl → Fmt
  | .struct fs =>
    { plain := fun v pos => match v with
        | .obj _ ps vs => fieldsIn dec fm ⟨ps, vs⟩ fs vs pos
        | _ => none
      pieces := fun v => match v with
        | .obj _ ps vs => fieldsPieces dec fm ⟨ps, vs⟩ 0 fs vs
        | _ => none
      finite := fs.all (fieldFinite fm) }
  | .union fs =>
    { plain := fun v pos => match v with
        | .obj t ps vs =>
          if 1 ≤ t then do
            let h ← varsize (t - 1 + base)
            let b ← fieldAt dec fm fs (t - 1) ps vs (pos + h.length)
            some (h ++ b)
          else none
        | _ => none
      pieces := fun v => match v with
        | .obj t ps vs =>
          if 1 ≤ t then do
            let b ← fieldPiecesAt dec fm fs (t - 1) ps vs
            some (.leaf [] ⟨.varsize, BitVec.ofNat 64 (t - 1 + base)⟩ :: b)
          else none
        | _ => none
      finite := fs.all (fieldFinite fm) }
  | .choice sel cases dflt =>
    { plain := fun v pos => match v with
        | .obj _ ps vs =>
          match chosen (sel ps) cases dflt with
          | some i => fieldAt dec fm (choiceFields cases dflt) i ps vs pos
          | none => some []
        | _ => none
      pieces := fun v => match v with
        | .obj _ ps vs =>
          match chosen (sel ps) cases dflt with
          | some i => fieldPiecesAt dec fm (choiceFields cases dflt) i ps vs
          | none => some []
        | _ => none
      finite := (choiceFields cases dflt).all (fieldFinite fm) }
  | .enum k =>
    { plain := fun v _ => scalar k (k.val v)
      pieces := fun v => some [.leaf [] ⟨k, k.val v⟩]
      finite := true }

end decls

/-- The format of the types of a schema, for values nested at most `n` deep. -/
def format (base : Nat) (dec : Decide) (schema : Nat → Decl) : Nat → Nat → Fmt
  | 0, _ => ⟨fun _ _ => none, fun _ => none, false⟩
  | n + 1, name => decl base dec (format base dec schema n) (schema name)

/-! ## Decisions -/

/-- Bits needed for the largest difference of neighbours. -/
def gap : List Int → Nat
  | a :: b :: zs => max (Nat.size (b - a).natAbs) (gap (b :: zs))
  | _ => 0

/-- Number of bits of the plain form. -/
def bitsOf (o : Occ) : Nat := ((scalar o.k o.v).getD []).length

/-- The decision the format prescribes: pack if every difference fits 62 bits and the packed form is smaller. -/
def standardPlan (os : List Occ) : Plan :=
  let d := gap (os.map Occ.num)
  if d ≤ 62 ∧ 6 + ((os.map bitsOf).headD 0) + (os.length - 1) * deltaBits d < (os.map bitsOf).sum then some d else none

def standard : Decide := fun os => some (standardPlan os)

/-- Neighbours on the same side of zero. -/
def sameSide (a b : Int) : Bool := decide (0 ≤ a) == decide (0 ≤ b)

/-- No neighbours on different sides of zero, going through a list. -/
def oneSided : List Int → Bool
  | a :: b :: zs => sameSide a b && oneSided (b :: zs)
  | _ => true

/-- The values whose size the code reports correctly, see C08. -/
def rightSize : (k : Elem) → k.T → Bool
  | .varint => fun x : BitVec 64 => decide (x.toInt.natAbs < 2 ^ 55)
  | .varuint => fun x : BitVec 64 => decide (x.toNat < 2 ^ 56)
  | .varuint16 => fun x : BitVec 16 => decide (x.toNat < 2 ^ 14)
  | _ => fun _ => true

/-- A value of an integer type with at most 64 bits in Go that has an encoding. -/
def Occ.encodable (o : Occ) : Bool :=
  o.k.isDelta && (match o.k with | .bits w _ | .sbits w _ => decide (w ≤ 64) | _ => true) && (scalar o.k o.v).isSome

/-- Sequences about which the code decides as the format prescribes. -/
def calm (os : List Occ) : Bool := oneSided (os.map Occ.num) && os.all fun o => o.encodable && rightSize o.k o.v

/-- The decision of the format, for calm sequences only. -/
def careful : Decide := fun os => if calm os then some (standardPlan os) else none

/-- A decision with which a reader recovers the sequence: every difference, modulo 2^64, fits `d + 1` bits (in two's
complement), and `d` fits its six bits. -/
def Sound (dec : Decide) : Prop := ∀ os d, dec os = some (some d) → d ≤ 62 ∧
  List.IsChain (fun a b : Int => ∃ e : Int, e.natAbs < 2 ^ d ∧ (2 ^ 64 : Int) ∣ b - a - e) (os.map Occ.num)

end Verif.Wire
