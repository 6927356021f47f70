import Verif.Bits

/-!
# Programs over the zserio `Writer` and `Reader` interfaces

`/repo/iface.go` defines the two interfaces.  Everything in `ztype` and in generated code is a program that calls their
methods, looks at the returned errors and goes on.  Such programs are represented as free monads, so the same program
can be run on several machines:

* the flat machine of this file (a list of bits),
* the flat machine with injected write faults (`WM.runF`),
* the byte-and-cache machine of `Verif/Bitio.lean`.
-/

namespace Verif

/-- Errors a program can observe or return.  `panic` stands for a Go panic: it unwinds and is never dropped. -/
inductive Err where
  /-- io.EOF -/
  | eof
  /-- io.ErrUnexpectedEOF (from io.ReadFull) -/
  | unexpectedEof
  /-- ztype.ErrOutOfBounds, /repo/ztype/varuint_encode.go:12 -/
  | outOfBounds
  /-- ztype.ErrValueOutOfBitRange, /repo/ztype/bits_encode.go:11 -/
  | bitRange
  /-- an error returned by the underlying io.Writer -/
  | sink
  /-- any other error value made with errors.New / fmt.Errorf, identified by a tag -/
  | other (tag : String)
  /-- a Go panic -/
  | panic (msg : String)
  deriving DecidableEq, Repr

/-- Is this outcome a Go panic? -/
def Err.isPanic : Err → Bool
  | .panic _ => true
  | _ => false

/-! ## Writers -/

/-- The methods of `zserio.Writer` (/repo/iface.go) and the bit counter of `bitio.CountWriter` that
`BitWriter.Align` reads (/repo/zstream/writer.go:70-82). -/
inductive WOp where
  /-- `WriteBits(v, n)` -/
  | bits (v : BitVec 64) (n : Nat)
  /-- `WriteBitsUnsafe(v, n)`; the contract requires `v < 2^n` -/
  | bitsUnsafe (v : BitVec 64) (n : Nat)
  /-- `WriteBool(b)` -/
  | bool (b : Bool)
  /-- `WriteByte(b)` -/
  | byte (b : BitVec 8)
  /-- `Write(bs)` -/
  | bytes (bs : List (BitVec 8))
  /-- read the bit counter -/
  | pos
  deriving DecidableEq, Repr

/-- Bits an operation appends. -/
def WOp.out : WOp → List Bool
  | .bits v n => natBits n v.toNat
  | .bitsUnsafe v n => natBits n v.toNat
  | .bool b => [b]
  | .byte b => natBits 8 b.toNat
  | .bytes bs => bytesBits bs
  | .pos => []

/-- Writer programs. The response of every operation is an error or a number (the bit counter for `pos`, else 0). -/
inductive WM (α : Type) : Type where
  | pure (a : α) : WM α
  | op (o : WOp) (k : Except Err Nat → WM α) : WM α

namespace WM

/-- Sequencing. -/
def bind {α β : Type} : WM α → (α → WM β) → WM β
  | .pure a, f => f a
  | .op o k, f => .op o fun r => (k r).bind f

instance : Monad WM where
  pure := WM.pure
  bind := WM.bind

@[simp] theorem pure_eq {α : Type} (a : α) : (Pure.pure a : WM α) = WM.pure a := rfl
@[simp] theorem bind_eq {α β : Type} (x : WM α) (f : α → WM β) : (x >>= f) = WM.bind x f := rfl

theorem bind_assoc {α β γ : Type} (x : WM α) (f : α → WM β) (g : β → WM γ) :
    (x.bind f).bind g = x.bind fun a => (f a).bind g := by
  induction x with
  | pure a => rfl
  | op o k ih => simp only [bind]; congr 1; funext r; exact ih r

theorem bind_pure {α : Type} (x : WM α) : x.bind WM.pure = x := by
  induction x with
  | pure a => rfl
  | op o k ih => simp only [bind]; congr 1; funext r; exact ih r

instance : LawfulMonad WM := LawfulMonad.mk'
  (id_map := fun x => by
    show WM.bind x (fun a => WM.pure (id a)) = x
    exact bind_pure x)
  (pure_bind := fun _ _ => rfl)
  (bind_assoc := fun x f g => bind_assoc x f g)

/-- The flat machine: the state is the list of bits written so far.  An in-memory sink never fails
(bytes.Buffer, /repo/marshal.go:14). -/
def run {α : Type} : WM α → List Bool → α × List Bool
  | .pure a, s => (a, s)
  | .op .pos k, s => (k (.ok s.length)).run s
  | .op o k, s => (k (.ok 0)).run (s ++ o.out)

/-- The flat machine with faults: the `i`-th operation that touches the sink fails if `fault i`.  A failed
operation leaves the bits unchanged. The state also counts operations. -/
def runF {α : Type} (fault : Nat → Bool) : WM α → List Bool × Nat → α × (List Bool × Nat)
  | .pure a, s => (a, s)
  | .op .pos k, s => (k (.ok s.1.length)).runF fault s
  | .op o k, s =>
    if fault s.2 then (k (.error .sink)).runF fault (s.1, s.2 + 1)
    else (k (.ok 0)).runF fault (s.1 ++ o.out, s.2 + 1)

theorem run_bind {α β : Type} (x : WM α) (f : α → WM β) (s : List Bool) :
    (x.bind f).run s = (f (x.run s).1).run (x.run s).2 := by
  induction x generalizing s with
  | pure a => rfl
  | op o k ih => cases o <;> simp [bind, run, ih]

theorem runF_bind {α β : Type} (fault : Nat → Bool) (x : WM α) (f : α → WM β) (s : List Bool × Nat) :
    (x.bind f).runF fault s = (f (x.runF fault s).1).runF fault (x.runF fault s).2 := by
  induction x generalizing s with
  | pure a => rfl
  | op o k ih => cases o <;> simp only [bind, runF, ih] <;> split <;> rfl

/-- The output only grows: what was written before stays. -/
theorem run_prefix {α : Type} (x : WM α) (s : List Bool) : s <+: (x.run s).2 := by
  induction x generalizing s with
  | pure a => exact List.prefix_refl s
  | op o k ih =>
    cases o <;> simp only [run] <;>
      first
      | exact ih _ _
      | exact (List.prefix_append s _).trans (ih _ _)

end WM

/-- A Go function that writes and returns `(α, error)`. -/
abbrev Wr := ExceptT Err WM

/-- Result and final stream of a write function. -/
def wrun {α : Type} (p : Wr α) (s : List Bool) : Except Err α × List Bool := WM.run (ExceptT.run p) s

/-- A single interface call whose error the caller looks at. -/
def Wr.call (o : WOp) : Wr Nat := ExceptT.mk (WM.op o WM.pure)

namespace Wr

/-- `w.WriteBits(v, n)` -/
def bits (v : BitVec 64) (n : Nat) : Wr Unit := do let _ ← call (.bits v n)
/-- `w.WriteBitsUnsafe(v, n)` -/
def bitsUnsafe (v : BitVec 64) (n : Nat) : Wr Unit := do let _ ← call (.bitsUnsafe v n)
/-- `w.WriteBool(b)` -/
def bool (b : Bool) : Wr Unit := do let _ ← call (.bool b)
/-- `w.WriteByte(b)` -/
def byte (b : BitVec 8) : Wr Unit := do let _ ← call (.byte b)
/-- `w.Write(bs)` -/
def bytes (bs : List (BitVec 8)) : Wr Unit := do let _ ← call (.bytes bs)
/-- the bit counter -/
def pos : Wr Nat := call .pos

/-- Go code that calls a function and drops the returned error (a panic still unwinds). -/
def dropErr {α : Type} (p : Wr α) : Wr Unit :=
  ExceptT.mk <| WM.bind (ExceptT.run p) fun r =>
    match r with
    | .ok _ => WM.pure (.ok ())
    | .error e => if e.isPanic then WM.pure (.error e) else WM.pure (.ok ())

end Wr

section wrun
variable {α β : Type}

theorem wrun_pure (a : α) (s : List Bool) : wrun (pure a : Wr α) s = (.ok a, s) := rfl

theorem wrun_throw (e : Err) (s : List Bool) : wrun (throw e : Wr α) s = (.error e, s) := rfl

theorem wrun_bind (p : Wr α) (f : α → Wr β) (s : List Bool) :
    wrun (p >>= f) s = match wrun p s with
      | (.ok a, s') => wrun (f a) s'
      | (.error e, s') => (.error e, s') := by
  show WM.run (WM.bind (ExceptT.run p) (ExceptT.bindCont f)) s = _
  rw [WM.run_bind]
  unfold wrun
  generalize (ExceptT.run p).run s = q
  obtain ⟨r, s'⟩ := q
  cases r <;> rfl

theorem wrun_bits (v : BitVec 64) (n : Nat) (s : List Bool) :
    wrun (Wr.bits v n) s = (.ok (), s ++ natBits n v.toNat) := rfl
theorem wrun_bitsUnsafe (v : BitVec 64) (n : Nat) (s : List Bool) :
    wrun (Wr.bitsUnsafe v n) s = (.ok (), s ++ natBits n v.toNat) := rfl
theorem wrun_bool (b : Bool) (s : List Bool) : wrun (Wr.bool b) s = (.ok (), s ++ [b]) := rfl
theorem wrun_byte (b : BitVec 8) (s : List Bool) : wrun (Wr.byte b) s = (.ok (), s ++ natBits 8 b.toNat) := rfl
theorem wrun_bytes (bs : List (BitVec 8)) (s : List Bool) :
    wrun (Wr.bytes bs) s = (.ok (), s ++ bytesBits bs) := rfl
theorem wrun_pos (s : List Bool) : wrun Wr.pos s = (.ok s.length, s) := rfl

theorem wrun_dropErr (p : Wr α) (s : List Bool) :
    wrun (Wr.dropErr p) s = match wrun p s with
      | (.ok _, s') => (.ok (), s')
      | (.error e, s') => (if e.isPanic then .error e else .ok (), s') := by
  show WM.run (WM.bind (ExceptT.run p) _) s = _
  rw [WM.run_bind]
  unfold wrun
  generalize (ExceptT.run p).run s = q
  obtain ⟨r, s'⟩ := q
  cases r with
  | ok a => rfl
  | error e => dsimp only; split <;> rfl

theorem wrun_ite (c : Prop) [Decidable c] (p q : Wr α) (s : List Bool) :
    wrun (if c then p else q) s = if c then wrun p s else wrun q s := by split <;> rfl

end wrun

/-! ## Readers -/

/-- The methods of `zserio.Reader` (/repo/iface.go), `io.ReadFull` over it, and the bit counter of
`bitio.CountReader` that `BitReader.Align` reads (/repo/zstream/reader.go:51-63). -/
inductive ROp where
  /-- `ReadBits(n)` -/
  | bits (n : Nat)
  /-- `ReadBool()` -/
  | bool
  /-- `ReadByte()` -/
  | byte
  /-- `io.ReadFull(r, buf)` with `len(buf) = n` -/
  | full (n : Nat)
  /-- read the bit counter -/
  | pos
  deriving DecidableEq, Repr

/-- Type of a successful response. -/
def ROp.Res : ROp → Type
  | .bits _ => BitVec 64
  | .bool => Bool
  | .byte => BitVec 8
  | .full _ => List (BitVec 8)
  | .pos => Nat

/-- Number of bits an operation needs. -/
def ROp.need : ROp → Nat
  | .bits n => n
  | .bool => 1
  | .byte => 8
  | .full n => 8 * n
  | .pos => 0

/-- Reader programs. -/
inductive RM (α : Type) : Type where
  | pure (a : α) : RM α
  | op (o : ROp) (k : Except Err o.Res → RM α) : RM α

/-- State of the flat reader: the bits not yet read (the source consists of whole bytes, so `rem.length % 8` of
them are in the bitio cache) and the bit counter. -/
structure RState where
  rem : List Bool
  pos : Nat
  deriving DecidableEq, Repr

/-- The response to a successful operation, given exactly the bits it needs, and the counter. -/
def ROp.resp : (o : ROp) → List Bool → Nat → o.Res
  | .bits _, bs, _ => BitVec.ofNat 64 (bitsVal bs)
  | .bool, bs, _ => bs.headD false
  | .byte, bs, _ => BitVec.ofNat 8 (bitsVal bs)
  | .full _, bs, _ => bitsBytes bs
  | .pos, _, p => p

/-- Error and state after an operation ran out of input.  This follows bitio v1.1.0 `Reader.ReadBits`, `ReadByte`,
`ReadBool`, `Read`: a failing whole-byte loop leaves the cached bits in place, a failing fractional byte overwrites
the cache by zero but keeps the count of cached bits; bytes already taken from the source are gone. -/
def ROp.fail : ROp → RState → Err × RState
  | .bits n, s =>
    let pending := s.rem.length % 8
    let avail := s.rem.length / 8
    (.eof, { s with rem := if (n - pending) / 8 > avail then s.rem.take pending else List.replicate pending false })
  | .bool, s => (.eof, { s with rem := [] })
  | .byte, s => (.eof, { s with rem := List.replicate (s.rem.length % 8) false })
  | .full _, s =>
    let avail := s.rem.length / 8
    (if avail = 0 then .eof else .unexpectedEof,
      { rem := List.replicate (s.rem.length % 8) false, pos := s.pos + 8 * avail })
  | .pos, s => (.eof, s)

namespace RM

/-- Sequencing. -/
def bind {α β : Type} : RM α → (α → RM β) → RM β
  | .pure a, f => f a
  | .op o k, f => .op o fun r => (k r).bind f

instance : Monad RM where
  pure := RM.pure
  bind := RM.bind

@[simp] theorem pure_eq {α : Type} (a : α) : (Pure.pure a : RM α) = RM.pure a := rfl
@[simp] theorem bind_eq {α β : Type} (x : RM α) (f : α → RM β) : (x >>= f) = RM.bind x f := rfl

theorem bind_assoc {α β γ : Type} (x : RM α) (f : α → RM β) (g : β → RM γ) :
    (x.bind f).bind g = x.bind fun a => (f a).bind g := by
  induction x with
  | pure a => rfl
  | op o k ih => simp only [bind]; congr 1; funext r; exact ih r

theorem bind_pure {α : Type} (x : RM α) : x.bind RM.pure = x := by
  induction x with
  | pure a => rfl
  | op o k ih => simp only [bind]; congr 1; funext r; exact ih r

instance : LawfulMonad RM := LawfulMonad.mk'
  (id_map := fun x => by
    show RM.bind x (fun a => RM.pure (id a)) = x
    exact bind_pure x)
  (pure_bind := fun _ _ => rfl)
  (bind_assoc := fun x f g => bind_assoc x f g)

/-- The flat machine. -/
def run {α : Type} : RM α → RState → α × RState
  | .pure a, s => (a, s)
  | .op o k, s =>
    if o.need ≤ s.rem.length then
      (k (.ok (o.resp (s.rem.take o.need) s.pos))).run ⟨s.rem.drop o.need, s.pos + o.need⟩
    else
      (k (.error (o.fail s).1)).run (o.fail s).2

theorem run_bind {α β : Type} (x : RM α) (f : α → RM β) (s : RState) :
    (x.bind f).run s = (f (x.run s).1).run (x.run s).2 := by
  induction x generalizing s with
  | pure a => rfl
  | op o k ih => simp only [bind, run, ih]; split <;> rfl

end RM

/-- A Go function that reads and returns `(α, error)`. -/
abbrev Rd := ExceptT Err RM

/-- Result and final state of a read function. -/
def rrun {α : Type} (p : Rd α) (s : RState) : Except Err α × RState := RM.run (ExceptT.run p) s

/-- A single interface call whose error the caller looks at. -/
def Rd.call (o : ROp) : Rd o.Res := ExceptT.mk (RM.op o RM.pure)

namespace Rd

/-- `r.ReadBits(n)` -/
def bits (n : Nat) : Rd (BitVec 64) := call (.bits n)
/-- `r.ReadBool()` -/
def bool : Rd Bool := call .bool
/-- `r.ReadByte()` -/
def byte : Rd (BitVec 8) := call .byte
/-- `io.ReadFull(r, make([]byte, n))` -/
def full (n : Nat) : Rd (List (BitVec 8)) := call (.full n)
/-- the bit counter -/
def pos : Rd Nat := call .pos

/-- Go code that calls a function for its effect, ignoring value and error (a panic still unwinds). -/
def dropErr {α : Type} (dflt : α) (p : Rd α) : Rd α :=
  ExceptT.mk <| RM.bind (ExceptT.run p) fun r =>
    match r with
    | .ok a => RM.pure (.ok a)
    | .error e => if e.isPanic then RM.pure (.error e) else RM.pure (.ok dflt)

end Rd

section rrun
variable {α β : Type}

theorem rrun_pure (a : α) (s : RState) : rrun (pure a : Rd α) s = (.ok a, s) := rfl

theorem rrun_throw (e : Err) (s : RState) : rrun (throw e : Rd α) s = (.error e, s) := rfl

theorem rrun_bind (p : Rd α) (f : α → Rd β) (s : RState) :
    rrun (p >>= f) s = match rrun p s with
      | (.ok a, s') => rrun (f a) s'
      | (.error e, s') => (.error e, s') := by
  show RM.run (RM.bind (ExceptT.run p) (ExceptT.bindCont f)) s = _
  rw [RM.run_bind]
  unfold rrun
  generalize (ExceptT.run p).run s = q
  obtain ⟨r, s'⟩ := q
  cases r <;> rfl

theorem rrun_call (o : ROp) (s : RState) :
    rrun (Rd.call o) s =
      if o.need ≤ s.rem.length then
        (.ok (o.resp (s.rem.take o.need) s.pos), ⟨s.rem.drop o.need, s.pos + o.need⟩)
      else (.error (o.fail s).1, (o.fail s).2) := by
  show RM.run (RM.op o RM.pure) s = _
  simp only [RM.run]

theorem rrun_call_append (o : ROp) (l rest : List Bool) (p : Nat) (h : l.length = o.need) :
    rrun (Rd.call o) ⟨l ++ rest, p⟩ = (.ok (o.resp l p), ⟨rest, p + l.length⟩) := by
  rw [rrun_call, if_pos (by simp [← h]), ← h]
  rw [List.take_left, List.drop_left]

theorem rrun_bits_append (n : Nat) (l rest : List Bool) (p : Nat) (h : l.length = n) :
    rrun (Rd.bits n) ⟨l ++ rest, p⟩ = (.ok (BitVec.ofNat 64 (bitsVal l)), ⟨rest, p + n⟩) := by
  subst h; exact rrun_call_append (.bits l.length) l rest p rfl

theorem rrun_bool_cons (b : Bool) (rest : List Bool) (p : Nat) :
    rrun Rd.bool ⟨b :: rest, p⟩ = (.ok b, ⟨rest, p + 1⟩) :=
  rrun_call_append .bool [b] rest p rfl

theorem rrun_byte_append (b : BitVec 8) (rest : List Bool) (p : Nat) :
    rrun Rd.byte ⟨natBits 8 b.toNat ++ rest, p⟩ = (.ok b, ⟨rest, p + 8⟩) := by
  have h := rrun_call_append .byte (natBits 8 b.toNat) rest p (natBits_length 8 _)
  simp only [natBits_length] at h
  refine h.trans ?_
  congr 2
  show BitVec.ofNat 8 (bitsVal (natBits 8 b.toNat)) = b
  rw [bitsVal_natBits_of_lt b.isLt]; simp

theorem rrun_full_append (bs : List (BitVec 8)) (rest : List Bool) (p n : Nat) (h : bs.length = n) :
    rrun (Rd.full n) ⟨bytesBits bs ++ rest, p⟩ = (.ok bs, ⟨rest, p + 8 * n⟩) := by
  subst h
  have h := rrun_call_append (.full bs.length) (bytesBits bs) rest p (by simp [ROp.need])
  simp only [bytesBits_length] at h
  refine h.trans ?_
  congr 2
  exact bitsBytes_bytesBits bs

theorem rrun_pos (s : RState) : rrun Rd.pos s = (.ok s.pos, s) := by
  show rrun (Rd.call .pos) s = _
  rw [rrun_call]; cases s; rfl

theorem rrun_dropErr (d : α) (p : Rd α) (s : RState) :
    rrun (Rd.dropErr d p) s = match rrun p s with
      | (.ok a, s') => (.ok a, s')
      | (.error e, s') => (if e.isPanic then .error e else .ok d, s') := by
  show RM.run (RM.bind (ExceptT.run p) _) s = _
  rw [RM.run_bind]
  unfold rrun
  generalize (ExceptT.run p).run s = q
  obtain ⟨r, s'⟩ := q
  cases r with
  | ok a => rfl
  | error e => dsimp only; split <;> rfl

end rrun

end Verif
