import Verif.Align
import Verif.Strict

/-!
# The byte-and-cache bit stream

`zstream.BitWriter` and `zstream.BitReader` (/repo/zstream/writer.go, /repo/zstream/reader.go) are thin wrappers around
`bitio.CountWriter` and `bitio.CountReader` of github.com/icza/bitio, version 1.1.0 in /repo/go.mod.  The package itself
is not in the sandbox, the definitions below are written from its published source.  The sink and the source are an
`io.ByteWriter`/`io.ByteReader`, so bitio adds no buffer of its own (/repo/zstream/writer.go:29-38).
-/

namespace Verif

/-! ## Writer -/

/-- State of a `bitio.CountWriter` over a sink: the bytes the sink accepted, the number of calls made to it, the cache
byte (pending bits at the top, the rest zero), the number of pending bits, and the bit counter. -/
structure BW where
  out : List (BitVec 8)
  tries : Nat
  cache : BitVec 8
  bits : Nat
  count : Nat
  deriving DecidableEq, Repr

/-- Programs on the concrete writer state. -/
abbrev BWM := ExceptT Err (StateM BW)

/-- Run a program on the concrete writer. -/
def BWM.go {α : Type} (p : BWM α) (w : BW) : Except Err α × BW := p.run.run w

/-- One `WriteByte` call on the sink; call number `i` fails if `fault i`. -/
def sinkByte (fault : Nat → Bool) (b : BitVec 8) : BWM Unit := fun w =>
  if fault w.tries then (.error .sink, { w with tries := w.tries + 1 })
  else (.ok (), { w with out := w.out ++ [b], tries := w.tries + 1 })

/-- One `Write` call on the sink.  A failing call accepts nothing here (a sink that accepts a part of the slice before
failing is not distinguished). -/
def sinkBytes (fault : Nat → Bool) (bs : List (BitVec 8)) : BWM Unit := fun w =>
  if fault w.tries then (.error .sink, { w with tries := w.tries + 1 })
  else (.ok (), { w with out := w.out ++ bs, tries := w.tries + 1 })

/-- Set the cache. -/
def setCache (cache : BitVec 8) (bits : Nat) : BWM Unit := fun w => (.ok (), { w with cache := cache, bits := bits })

/-- Add to the bit counter. -/
def addCount (n : Nat) : BWM Unit := fun w => (.ok (), { w with count := w.count + n })

/-- Current state. -/
def getBW : BWM BW := fun w => (.ok w, w)

/-- The loop `for n >= 8 { n -= 8; out.WriteByte(byte(r >> n)) }` of bitio `WriteBitsUnsafe`; returns what is left. -/
def wholeBytes (fault : Nat → Bool) (r : BitVec 64) : Nat → BWM Nat
  | n + 8 => do
    sinkByte fault ((r >>> n).setWidth 8)
    wholeBytes fault r n
  | n => pure n

/-- bitio `Writer.WriteBitsUnsafe`.  `w.bits + n` is a uint8 in Go; it does not wrap for `n ≤ 248`. -/
def bwWriteBitsUnsafe (fault : Nat → Bool) (r : BitVec 64) (n : Nat) : BWM Unit := do
  let w ← getBW
  let newbits := w.bits + n
  if newbits < 8 then
    setCache (w.cache ||| (r.setWidth 8 <<< (8 - newbits))) newbits
  else if newbits > 8 then do
    let free := 8 - w.bits
    sinkByte fault (w.cache ||| (r >>> (n - free)).setWidth 8)
    let n' ← wholeBytes fault r (n - free)
    if n' > 0 then setCache ((r.setWidth 8 &&& ((1#8 <<< n') - 1#8)) <<< (8 - n')) n' else setCache 0#8 0
  else do
    let bb := w.cache ||| r.setWidth 8
    setCache 0#8 0
    sinkByte fault bb

/-- bitio `Writer.WriteBits`: mask, then `WriteBitsUnsafe`. -/
def bwWriteBits (fault : Nat → Bool) (r : BitVec 64) (n : Nat) : BWM Unit :=
  bwWriteBitsUnsafe fault (r &&& ((1#64 <<< n) - 1#64)) n

/-- bitio `Writer.writeUnalignedByte`. -/
def bwUnalignedByte (fault : Nat → Bool) (b : BitVec 8) : BWM Unit := do
  let w ← getBW
  sinkByte fault (w.cache ||| (b >>> w.bits))
  setCache ((b &&& ((1#8 <<< w.bits) - 1#8)) <<< (8 - w.bits)) w.bits

/-- bitio `Writer.WriteByte`. -/
def bwWriteByte (fault : Nat → Bool) (b : BitVec 8) : BWM Unit := do
  let w ← getBW
  if w.bits = 0 then sinkByte fault b else bwUnalignedByte fault b

/-- The unaligned branch of bitio `Writer.Write`; the counter grows with every byte that went through. -/
def bwWriteLoop (fault : Nat → Bool) : List (BitVec 8) → BWM Unit
  | [] => pure ()
  | b :: bs => do
    bwUnalignedByte fault b
    addCount 8
    bwWriteLoop fault bs

/-- bitio `CountWriter.Write`. -/
def bwWrite (fault : Nat → Bool) (bs : List (BitVec 8)) : BWM Unit := do
  let w ← getBW
  if w.bits = 0 then do
    sinkBytes fault bs
    addCount (8 * bs.length)
  else bwWriteLoop fault bs

/-- bitio `Writer.WriteBool`. -/
def bwWriteBool (fault : Nat → Bool) (b : Bool) : BWM Unit := do
  let w ← getBW
  if w.bits = 7 then do
    sinkByte fault (if b then w.cache ||| 1#8 else w.cache)
    setCache 0#8 0
  else setCache (if b then w.cache ||| (1#8 <<< (8 - (w.bits + 1))) else w.cache) (w.bits + 1)

/-- bitio `Writer.Close` (`Align`, no buffer to flush). -/
def bwClose (fault : Nat → Bool) : BWM Unit := do
  let w ← getBW
  if w.bits > 0 then do
    sinkByte fault w.cache
    setCache 0#8 0
  else pure ()

/-- The interface methods of `bitio.CountWriter`. -/
def bwStep (fault : Nat → Bool) : WOp → BWM Nat
  | .bits v n => do bwWriteBits fault v n; addCount n; pure 0
  | .bitsUnsafe v n => do bwWriteBitsUnsafe fault v n; addCount n; pure 0
  | .bool b => do bwWriteBool fault b; addCount 1; pure 0
  | .byte b => do bwWriteByte fault b; addCount 8; pure 0
  | .bytes bs => do bwWrite fault bs; pure 0
  | .pos => do let w ← getBW; pure w.count

/-- Run a writer program on the concrete machine. -/
def WM.runC {α : Type} (fault : Nat → Bool) : WM α → BW → α × BW
  | .pure a, w => (a, w)
  | .op o k, w => (k (BWM.go (bwStep fault o) w).1).runC fault (BWM.go (bwStep fault o) w).2

/-- A fresh writer: /repo/zstream/writer.go:29-38 `NewWriter`. -/
def BW.new : BW := ⟨[], 0, 0#8, 0, 0⟩

/-- No faults: bytes.Buffer, /repo/marshal.go:14. -/
def noFault : Nat → Bool := fun _ => false

/-- /repo/marshal.go:13-26 `Marshal`, `m.MarshalZserio` being the given program. -/
def marshal (m : Wr Unit) : Except Err (List (BitVec 8)) :=
  match WM.runC noFault (ExceptT.run m) BW.new with
  | (.error e, _) => .error e
  | (.ok (), w) =>
    match BWM.go (bwClose noFault) w with
    | (.error e, _) => .error e
    | (.ok (), w) => .ok w.out

/-- Writing an object to a sink and closing, as a caller of `zstream.NewWriter` does; returns the result and the final
state, with the bytes the sink accepted and the number of calls made to it. -/
def writeToSink (fault : Nat → Bool) (m : Wr Unit) : Except Err Unit × BW :=
  match WM.runC fault (ExceptT.run m) BW.new with
  | (.error e, w) => (.error e, w)
  | (.ok (), w) => BWM.go (bwClose fault) w

/-! ## Reader -/

/-- State of a `bitio.CountReader`: the bytes not yet taken from the source, the cache (unread bits at the bottom), the
number of unread cached bits, and the bit counter. -/
structure BR where
  inp : List (BitVec 8)
  cache : BitVec 8
  bits : Nat
  count : Nat
  deriving DecidableEq, Repr

/-- The loop `for n >= 8 { b := in.ReadByte(); u = u<<8 + b; n -= 8 }` of bitio `ReadBits`. -/
def readWhole : Nat → BitVec 64 → List (BitVec 8) → Option (BitVec 64 × Nat) × List (BitVec 8)
  | n + 8, u, b :: inp => readWhole n ((u <<< 8) + b.setWidth 64) inp
  | _ + 8, _, [] => (none, [])
  | n, u, inp => (some (u, n), inp)

/-- bitio `CountReader.ReadBits`. -/
def brReadBits (n : Nat) (r : BR) : Except Err (BitVec 64) × BR :=
  if n < r.bits then
    let shift := r.bits - n
    (.ok ((r.cache >>> shift).setWidth 64),
      { r with cache := r.cache &&& ((1#8 <<< shift) - 1#8), bits := shift, count := r.count + n })
  else if n > r.bits then
    let u : BitVec 64 := if r.bits > 0 then r.cache.setWidth 64 else 0#64
    match readWhole (n - r.bits) u r.inp with
    | (none, inp) => (.error .eof, { r with inp := inp })
    | (some (u, n'), inp) =>
      if n' > 0 then
        match inp with
        | [] => (.error .eof, { r with inp := [], cache := 0#8 })
        | b :: inp =>
          let shift := 8 - n'
          (.ok ((u <<< n') + (b >>> shift).setWidth 64),
            { inp := inp, cache := b &&& ((1#8 <<< shift) - 1#8), bits := shift, count := r.count + n })
      else (.ok u, { r with inp := inp, bits := 0, count := r.count + n })
  else (.ok (r.cache.setWidth 64), { r with bits := 0, count := r.count + n })

/-- bitio `Reader.readUnalignedByte`, with the counter. -/
def brUnalignedByte (r : BR) : Except Err (BitVec 8) × BR :=
  match r.inp with
  | [] => (.error .eof, { r with cache := 0#8 })
  | b :: inp =>
    (.ok ((r.cache <<< (8 - r.bits)) ||| (b >>> r.bits)),
      { r with inp := inp, cache := b &&& ((1#8 <<< r.bits) - 1#8), count := r.count + 8 })

/-- bitio `CountReader.ReadByte`. -/
def brReadByte (r : BR) : Except Err (BitVec 8) × BR :=
  if r.bits = 0 then
    match r.inp with
    | [] => (.error .eof, r)
    | b :: inp => (.ok b, { r with inp := inp, count := r.count + 8 })
  else brUnalignedByte r

/-- bitio `CountReader.ReadBool`. -/
def brReadBool (r : BR) : Except Err Bool × BR :=
  if r.bits = 0 then
    match r.inp with
    | [] => (.error .eof, { r with cache := 0#8 })
    | b :: inp =>
      (.ok (b &&& 0x80#8 ≠ 0#8), { inp := inp, cache := b &&& 0x7f#8, bits := 7, count := r.count + 1 })
  else
    (.ok (r.cache &&& (1#8 <<< (r.bits - 1)) ≠ 0#8),
      { r with cache := r.cache &&& ((1#8 <<< (r.bits - 1)) - 1#8), bits := r.bits - 1, count := r.count + 1 })

/-- The unaligned branch of bitio `Reader.Read` under `io.ReadFull`: read `n` bytes or fail after `done` bytes. -/
def brFullLoop : Nat → List (BitVec 8) → BR → Except Err (List (BitVec 8)) × BR
  | 0, acc, r => (.ok acc, r)
  | n + 1, acc, r =>
    match brUnalignedByte r with
    | (.ok b, r) => brFullLoop n (acc ++ [b]) r
    | (.error _, r) => (.error (if acc = [] then .eof else .unexpectedEof), r)

/-- `io.ReadFull` over bitio `CountReader.Read`; when aligned the bytes come straight from the source
(bytes.Reader). -/
def brFull (n : Nat) (r : BR) : Except Err (List (BitVec 8)) × BR :=
  if r.bits = 0 then
    if n ≤ r.inp.length then
      (.ok (r.inp.take n), { r with inp := r.inp.drop n, count := r.count + 8 * n })
    else
      (.error (if r.inp = [] then .eof else .unexpectedEof),
        { r with inp := [], count := r.count + 8 * r.inp.length })
  else brFullLoop n [] r

/-- The interface methods of `bitio.CountReader`. -/
def brStep : (o : ROp) → BR → Except Err o.Res × BR
  | .bits n, r => brReadBits n r
  | .bool, r => brReadBool r
  | .byte, r => brReadByte r
  | .full n, r => brFull n r
  | .pos, r => (.ok r.count, r)

/-- Run a reader program on the concrete machine. -/
def RM.runC {α : Type} : RM α → BR → α × BR
  | .pure a, r => (a, r)
  | .op o k, r => (k (brStep o r).1).runC (brStep o r).2

/-- A fresh reader: /repo/zstream/reader.go:23-27 `NewReader`. -/
def BR.new (b : List (BitVec 8)) : BR := ⟨b, 0#8, 0, 0⟩

/-- /repo/marshal.go:31-38 `Unmarshal`, `m.UnmarshalZserio` being the given program and the object its result. -/
def unmarshal {α : Type} (b : List (BitVec 8)) (m : Rd α) : Except Err α :=
  (RM.runC (ExceptT.run m) (BR.new b)).1

/-! ## Simulation, writer -/

/-- The concrete writer state represents the flat bit list. -/
def BW.Rep (w : BW) (s : List Bool) : Prop :=
  w.bits < 8 ∧ w.count = s.length ∧
  ∃ p, p < 2 ^ w.bits ∧ w.cache.toNat = p * 2 ^ (8 - w.bits) ∧ s = bytesBits w.out ++ natBits w.bits p

/-- Operations inside the contract of the writer interface: widths that do not wrap a uint8 together with the cache,
and `WriteBitsUnsafe` only with a value that fits. -/
def WOp.Safe : WOp → Prop
  | .bits _ n => n ≤ 248
  | .bitsUnsafe v n => n ≤ 248 ∧ v.toNat < 2 ^ n
  | _ => True

/-- Programs that only perform safe operations, whatever the responses. -/
inductive WM.Safe {α : Type} : WM α → Prop
  | pure (a : α) : Safe (.pure a)
  | op (o : WOp) (k : Except Err Nat → WM α) : o.Safe → (∀ r, Safe (k r)) → Safe (.op o k)

theorem go_bind {α β : Type} (p : BWM α) (f : α → BWM β) (w : BW) :
    BWM.go (p >>= f) w = match BWM.go p w with
      | (.ok a, w') => BWM.go (f a) w'
      | (.error e, w') => (.error e, w') := by
  show (p w |> fun x => (ExceptT.bindCont f x.1) x.2) = _
  show _ = match p w with
      | (.ok a, w') => (f a) w'
      | (.error e, w') => (.error e, w')
  rcases p w with ⟨r, w'⟩
  cases r <;> rfl

theorem go_pure {α : Type} (a : α) (w : BW) : BWM.go (pure a) w = (.ok a, w) := rfl
theorem go_getBW (w : BW) : BWM.go getBW w = (.ok w, w) := rfl
theorem go_setCache (c : BitVec 8) (n : Nat) (w : BW) :
    BWM.go (setCache c n) w = (.ok (), { w with cache := c, bits := n }) := rfl
theorem go_addCount (n : Nat) (w : BW) : BWM.go (addCount n) w = (.ok (), { w with count := w.count + n }) := rfl
theorem go_sinkByte (b : BitVec 8) (w : BW) :
    BWM.go (sinkByte noFault b) w = (.ok (), { w with out := w.out ++ [b], tries := w.tries + 1 }) := rfl
theorem go_sinkBytes (bs : List (BitVec 8)) (w : BW) :
    BWM.go (sinkBytes noFault bs) w = (.ok (), { w with out := w.out ++ bs, tries := w.tries + 1 }) := rfl
theorem go_ite {α : Type} (c : Prop) [Decidable c] (p q : BWM α) (w : BW) :
    BWM.go (if c then p else q) w = if c then BWM.go p w else BWM.go q w := by split <;> rfl

theorem shr_byte_toNat (r : BitVec 64) (n : Nat) : ((r >>> n).setWidth 8).toNat = r.toNat / 2 ^ n % 256 := by
  rw [BitVec.toNat_setWidth, BitVec.toNat_ushiftRight, Nat.shiftRight_eq_div_pow]

theorem natBits8_mod (x : Nat) : natBits 8 (x % 256) = natBits 8 x := by
  have := natBits_mod 8 x (Nat.le_refl 8)
  rwa [show (2 : Nat) ^ 8 = 256 from rfl] at this

theorem mask8 (b : BitVec 8) {k : Nat} (hk : k ≤ 8) : (b &&& ((1#8 <<< k) - 1#8)).toNat = b.toNat % 2 ^ k := by
  rw [BitVec.toNat_and]
  have : ((1#8 <<< k) - 1#8).toNat = 2 ^ k - 1 := by
    have : ∀ j : Fin 9, ((1#8 <<< j.val) - 1#8).toNat = 2 ^ j.val - 1 := by decide
    exact this ⟨k, by omega⟩
  rw [this, Nat.and_two_pow_sub_one_eq_mod]

theorem wholeBytes_ok (r : BitVec 64) (n : Nat) (w : BW) :
    ∃ bs t, BWM.go (wholeBytes noFault r n) w = (.ok (n % 8), { w with out := w.out ++ bs, tries := t }) ∧
      bytesBits bs ++ natBits (n % 8) r.toNat = natBits n r.toNat := by
  induction n using Nat.strongRecOn generalizing w with
  | _ n ih =>
    by_cases h : n < 8
    · refine ⟨[], w.tries, ?_, ?_⟩
      · have : wholeBytes noFault r n = pure n := by
          match n, h with
          | 0, _ => rfl
          | 1, _ => rfl
          | 2, _ => rfl
          | 3, _ => rfl
          | 4, _ => rfl
          | 5, _ => rfl
          | 6, _ => rfl
          | 7, _ => rfl
        rw [this, go_pure, Nat.mod_eq_of_lt h, List.append_nil]
      · rw [Nat.mod_eq_of_lt h]; rfl
    · obtain ⟨m, rfl⟩ : ∃ m, n = m + 8 := ⟨n - 8, by omega⟩
      obtain ⟨bs, t, h1, h2⟩ := ih m (by omega) { w with out := w.out ++ [(r >>> m).setWidth 8], tries := w.tries + 1 }
      refine ⟨(r >>> m).setWidth 8 :: bs, t, ?_, ?_⟩
      · rw [wholeBytes, go_bind, go_sinkByte]
        dsimp only
        rw [h1, show (m + 8) % 8 = m % 8 by omega]
        simp
      · rw [bytesBits_cons, shr_byte_toNat, natBits8_mod, show (m + 8) % 8 = m % 8 by omega, List.append_assoc, h2,
          Nat.add_comm m 8, natBits_add]

/-- or of the pending bits with a value that fits below them -/
theorem cache_or {p bits x : Nat} (hb : bits ≤ 8) (_hp : p < 2 ^ bits) (hx : x < 2 ^ (8 - bits)) (c d : BitVec 8)
    (hc : c.toNat = p * 2 ^ (8 - bits)) (hd : d.toNat = x) :
    (c ||| d).toNat = p * 2 ^ (8 - bits) + x ∧ natBits 8 (c ||| d).toNat = natBits bits p ++ natBits (8 - bits) x := by
  have h1 : (c ||| d).toNat = p * 2 ^ (8 - bits) + x := by
    rw [BitVec.toNat_or, hc, hd, Nat.mul_comm, Nat.two_pow_add_eq_or_of_lt hx p]
  refine ⟨h1, ?_⟩
  rw [h1, show natBits 8 (p * 2 ^ (8 - bits) + x) = natBits (bits + (8 - bits)) (p * 2 ^ (8 - bits) + x) by
    rw [show bits + (8 - bits) = 8 by omega], natBits_mul_add _ _ _ _ hx]

theorem shl_byte_toNat {x k n : Nat} (b : BitVec 8) (hb : b.toNat = x) (hx : x < 2 ^ n) (h : n + k ≤ 8) :
    (b <<< k).toNat = x * 2 ^ k := by
  rw [BitVec.toNat_shiftLeft, hb, Nat.shiftLeft_eq]
  apply Nat.mod_eq_of_lt
  calc x * 2 ^ k < 2 ^ n * 2 ^ k := Nat.mul_lt_mul_of_pos_right hx (Nat.two_pow_pos k)
    _ = 2 ^ (n + k) := (Nat.pow_add 2 n k).symm
    _ ≤ 2 ^ 8 := Nat.pow_le_pow_right (by omega) h

theorem bwWriteBitsUnsafe_ok (r : BitVec 64) (n : Nat) (hr : r.toNat < 2 ^ n) (w : BW) (s : List Bool)
    (h : w.Rep s) :
    ∃ w', BWM.go (do bwWriteBitsUnsafe noFault r n; addCount n; pure 0) w = (.ok 0, w') ∧
      w'.Rep (s ++ natBits n r.toNat) := by
  obtain ⟨hb, hcnt, p, hp, hc, hs⟩ := h
  unfold bwWriteBitsUnsafe
  rw [go_bind, go_bind, go_getBW]
  dsimp only
  have hpow : ∀ a b : Nat, a ≤ b → 2 ^ a ≤ 2 ^ b := fun a b h => Nat.pow_le_pow_right (by omega) h
  by_cases h1 : w.bits + n < 8
  · rw [if_pos h1, go_setCache]
    dsimp only
    rw [go_bind, go_addCount]
    dsimp only
    refine ⟨_, go_pure _ _, by dsimp only; exact h1, by simp [hcnt], p * 2 ^ n + r.toNat, ?_, ?_, ?_⟩
    · dsimp only
      rw [Nat.pow_add]
      calc p * 2 ^ n + r.toNat < p * 2 ^ n + 2 ^ n := by omega
        _ = (p + 1) * 2 ^ n := by rw [Nat.add_mul, Nat.one_mul]
        _ ≤ 2 ^ w.bits * 2 ^ n := Nat.mul_le_mul_right _ (by omega)
    · dsimp only
      have e1 : (r.setWidth 8).toNat = r.toNat := by
        rw [BitVec.toNat_setWidth]; exact Nat.mod_eq_of_lt (Nat.lt_of_lt_of_le hr (hpow n 8 (by omega)))
      have e2 : (r.setWidth 8 <<< (8 - (w.bits + n))).toNat = r.toNat * 2 ^ (8 - (w.bits + n)) :=
        shl_byte_toNat _ e1 hr (by omega)
      have e3 : r.toNat * 2 ^ (8 - (w.bits + n)) < 2 ^ (8 - w.bits) := by
        rw [show 8 - w.bits = n + (8 - (w.bits + n)) by omega, Nat.pow_add]
        exact Nat.mul_lt_mul_of_pos_right hr (Nat.two_pow_pos _)
      rw [(cache_or (by omega) hp e3 _ _ hc e2).1, Nat.add_mul, Nat.mul_assoc, ← Nat.pow_add,
        show n + (8 - (w.bits + n)) = 8 - w.bits by omega]
    · dsimp only
      rw [hs, natBits_mul_add _ _ _ _ hr, List.append_assoc]
  · rw [if_neg h1]
    by_cases h2 : w.bits + n > 8
    · rw [if_pos h2, go_bind, go_sinkByte]
      dsimp only
      rw [go_bind]
      obtain ⟨bs, t, h3, h4⟩ := wholeBytes_ok r (n - (8 - w.bits))
        { w with out := w.out ++ [w.cache ||| (r >>> (n - (8 - w.bits))).setWidth 8], tries := w.tries + 1 }
      rw [h3]
      dsimp only
      have e1 : r.toNat / 2 ^ (n - (8 - w.bits)) < 2 ^ (8 - w.bits) := by
        rw [Nat.div_lt_iff_lt_mul (Nat.two_pow_pos _), ← Nat.pow_add,
          show 8 - w.bits + (n - (8 - w.bits)) = n by omega]
        exact hr
      have e2 : ((r >>> (n - (8 - w.bits))).setWidth 8).toNat = r.toNat / 2 ^ (n - (8 - w.bits)) := by
        rw [shr_byte_toNat]; exact Nat.mod_eq_of_lt (Nat.lt_of_lt_of_le e1 (hpow _ 8 (by omega)))
      have e3 := (cache_or (by omega) hp e1 _ _ hc e2).2
      have e4 : natBits n r.toNat = natBits (8 - w.bits) (r.toNat / 2 ^ (n - (8 - w.bits))) ++
          natBits (n - (8 - w.bits)) r.toNat := by
        rw [← natBits_add, show 8 - w.bits + (n - (8 - w.bits)) = n by omega]
      have e5 : s ++ natBits n r.toNat = bytesBits (w.out ++ [w.cache ||| (r >>> (n - (8 - w.bits))).setWidth 8] ++ bs) ++
          natBits ((n - (8 - w.bits)) % 8) r.toNat := by
        rw [bytesBits_append, bytesBits_append, bytesBits_cons, bytesBits_nil, List.append_nil, e3, hs, e4, ← h4]
        simp only [List.append_assoc]
      by_cases h5 : (n - (8 - w.bits)) % 8 > 0
      · rw [if_pos h5, go_setCache]
        dsimp only
        rw [go_bind, go_addCount]
        dsimp only
        have hlt8 : (n - (8 - w.bits)) % 8 < 8 := Nat.mod_lt _ (by omega)
        refine ⟨_, go_pure _ _, hlt8, by simp [hcnt], r.toNat % 2 ^ ((n - (8 - w.bits)) % 8), ?_, ?_, ?_⟩
        · exact Nat.mod_lt _ (Nat.two_pow_pos _)
        · dsimp only
          refine shl_byte_toNat (n := (n - (8 - w.bits)) % 8) _ ?_ (Nat.mod_lt _ (Nat.two_pow_pos _)) (by omega)
          rw [mask8 _ (by omega), BitVec.toNat_setWidth,
            Nat.mod_mod_of_dvd _ (Nat.pow_dvd_pow 2 (Nat.le_of_lt hlt8))]
        · dsimp only
          rw [e5, natBits_mod _ _ (Nat.le_refl _)]
      · rw [if_neg h5, go_setCache]
        dsimp only
        rw [go_bind, go_addCount]
        dsimp only
        refine ⟨_, go_pure _ _, by simp, by simp [hcnt], 0, by simp, by simp, ?_⟩
        dsimp only
        rw [e5, show (n - (8 - w.bits)) % 8 = 0 by omega]
        rfl
    · rw [if_neg h2, go_bind, go_setCache]
      dsimp only
      rw [go_sinkByte]
      dsimp only
      rw [go_bind, go_addCount]
      dsimp only
      have hn : n = 8 - w.bits := by omega
      have e1 : (r.setWidth 8).toNat = r.toNat := by
        rw [BitVec.toNat_setWidth]; exact Nat.mod_eq_of_lt (Nat.lt_of_lt_of_le hr (hpow n 8 (by omega)))
      refine ⟨_, go_pure _ _, by simp, by simp [hcnt], 0, by simp, by simp, ?_⟩
      dsimp only
      rw [bytesBits_append, bytesBits_cons, bytesBits_nil, (cache_or (by omega) hp (hn ▸ hr) _ _ hc e1).2, hs, ← hn]
      simp [natBits]

theorem bwWriteBits_ok (r : BitVec 64) (n : Nat) (w : BW) (s : List Bool) (h : w.Rep s) :
    ∃ w', BWM.go (do bwWriteBits noFault r n; addCount n; pure 0) w = (.ok 0, w') ∧
      w'.Rep (s ++ natBits n r.toNat) := by
  have e : (r &&& ((1#64 <<< n) - 1#64)).toNat = r.toNat % 2 ^ n := by
    by_cases hn : n < 64
    · have hle : 2 ^ n ≥ 1 := Nat.one_le_two_pow
      have : ((1#64 <<< n) - 1#64).toNat = 2 ^ n - 1 := by
        have hs : (1#64 <<< n).toNat = 2 ^ n := by
          rw [BitVec.toNat_shiftLeft, Nat.shiftLeft_eq]
          have : 2 ^ n < 2 ^ 64 := Nat.pow_lt_pow_right (by omega) hn
          simp only [BitVec.toNat_ofNat]
          omega
        rw [BitVec.toNat_sub, hs]
        have : 2 ^ n < 2 ^ 64 := Nat.pow_lt_pow_right (by omega) hn
        simp only [BitVec.toNat_ofNat]
        omega
      rw [BitVec.toNat_and, this, Nat.and_two_pow_sub_one_eq_mod]
    · have hz : (1#64 <<< n) = 0#64 := BitVec.shiftLeft_eq_zero (by omega)
      rw [hz, show (0#64 - 1#64) = BitVec.allOnes 64 by decide, BitVec.and_allOnes]
      exact (Nat.mod_eq_of_lt (Nat.lt_of_lt_of_le r.isLt (Nat.pow_le_pow_right (by omega) (by omega)))).symm
  obtain ⟨w', h1, h2⟩ := bwWriteBitsUnsafe_ok (r &&& ((1#64 <<< n) - 1#64)) n
    (by rw [e]; exact Nat.mod_lt _ (Nat.two_pow_pos _)) w s h
  refine ⟨w', h1, ?_⟩
  rwa [e, natBits_mod _ _ (Nat.le_refl _)] at h2

theorem bwUnalignedByte_ok (b : BitVec 8) (w : BW) (s : List Bool) (h : w.Rep s) :
    ∃ w', BWM.go (do bwUnalignedByte noFault b; addCount 8) w = (.ok (), w') ∧ w'.Rep (s ++ natBits 8 b.toNat) ∧
      w'.bits = w.bits := by
  obtain ⟨hb, hcnt, p, hp, hc, hs⟩ := h
  unfold bwUnalignedByte
  rw [go_bind, go_bind, go_getBW]
  dsimp only
  rw [go_bind, go_sinkByte]
  dsimp only
  rw [go_setCache]
  dsimp only
  have e1 : (b >>> w.bits).toNat = b.toNat / 2 ^ w.bits := by
    rw [BitVec.toNat_ushiftRight, Nat.shiftRight_eq_div_pow]
  have e2 : b.toNat / 2 ^ w.bits < 2 ^ (8 - w.bits) := by
    rw [Nat.div_lt_iff_lt_mul (Nat.two_pow_pos _), ← Nat.pow_add, show 8 - w.bits + w.bits = 8 by omega]
    exact b.isLt
  refine ⟨_, go_addCount _ _, ⟨hb, by simp [hcnt], b.toNat % 2 ^ w.bits, Nat.mod_lt _ (Nat.two_pow_pos _), ?_, ?_⟩, rfl⟩
  · dsimp only
    exact shl_byte_toNat (n := w.bits) _ (mask8 _ (by omega)) (Nat.mod_lt _ (Nat.two_pow_pos _)) (by omega)
  · dsimp only
    rw [bytesBits_append, bytesBits_cons, bytesBits_nil, (cache_or (by omega) hp e2 _ _ hc e1).2, hs,
      natBits_mod _ _ (Nat.le_refl _), show natBits 8 b.toNat = natBits (8 - w.bits + w.bits) b.toNat by
        rw [show 8 - w.bits + w.bits = 8 by omega], natBits_add]
    simp only [List.append_assoc, List.nil_append]

theorem bwWriteLoop_ok (bs : List (BitVec 8)) (w : BW) (s : List Bool) (h : w.Rep s) :
    ∃ w', BWM.go (bwWriteLoop noFault bs) w = (.ok (), w') ∧ w'.Rep (s ++ bytesBits bs) := by
  induction bs generalizing w s with
  | nil => exact ⟨w, go_pure _ _, by simpa using h⟩
  | cons b bs ih =>
    obtain ⟨w1, h1, h2, _⟩ := bwUnalignedByte_ok b w s h
    obtain ⟨w2, h3, h4⟩ := ih w1 _ h2
    refine ⟨w2, ?_, by simpa using h4⟩
    rw [bwWriteLoop, go_bind]
    rw [go_bind] at h1
    revert h1
    cases hq : BWM.go (bwUnalignedByte noFault b) w with
    | mk r w0 =>
      cases r with
      | error e => intro h1; simp at h1
      | ok u =>
        intro h1
        dsimp only at h1 ⊢
        rw [go_bind, h1]
        exact h3

theorem bwStep_ok (o : WOp) (ho : o.Safe) (w : BW) (s : List Bool) (h : w.Rep s) :
    ∃ w', BWM.go (bwStep noFault o) w = (.ok (if o = .pos then s.length else 0), w') ∧ w'.Rep (s ++ o.out) := by
  cases o with
  | bits v n => exact bwWriteBits_ok v n w s h
  | bitsUnsafe v n => exact bwWriteBitsUnsafe_ok v n ho.2 w s h
  | pos => exact ⟨w, by rw [if_pos rfl, ← h.2.1]; rfl, by simpa [WOp.out] using h⟩
  | byte b =>
    have h' := h
    obtain ⟨hb, hcnt, p, hp, hc, hs⟩ := h
    unfold bwStep bwWriteByte
    dsimp only
    rw [if_neg (by simp), go_bind, go_bind, go_getBW]
    dsimp only
    by_cases h0 : w.bits = 0
    · rw [if_pos h0, go_sinkByte]
      dsimp only
      rw [go_bind, go_addCount]
      dsimp only
      refine ⟨_, go_pure _ _, hb, by simp [hcnt, WOp.out], p, hp, hc, ?_⟩
      simp [hs, h0, natBits, WOp.out]
    · rw [if_neg h0]
      obtain ⟨w', h1, h2, _⟩ := bwUnalignedByte_ok b w s h'
      refine ⟨w', ?_, h2⟩
      rw [go_bind] at h1
      revert h1
      cases hq : BWM.go (bwUnalignedByte noFault b) w with
      | mk r w0 =>
        cases r with
        | error e => intro h1; simp at h1
        | ok u =>
          intro h1
          dsimp only at h1 ⊢
          rw [go_bind, h1]
          rfl
  | bytes bs =>
    have h' := h
    obtain ⟨hb, hcnt, p, hp, hc, hs⟩ := h
    unfold bwStep bwWrite
    dsimp only
    rw [if_neg (by simp), go_bind, go_bind, go_getBW]
    dsimp only
    by_cases h0 : w.bits = 0
    · rw [if_pos h0, go_bind, go_sinkBytes]
      dsimp only
      rw [go_addCount]
      dsimp only
      refine ⟨_, go_pure _ _, hb, by simp [hcnt, WOp.out], p, hp, hc, ?_⟩
      simp [hs, h0, natBits, WOp.out]
    · rw [if_neg h0]
      obtain ⟨w', h1, h2⟩ := bwWriteLoop_ok bs w s h'
      rw [h1]
      exact ⟨w', go_pure _ _, h2⟩
  | bool b =>
    obtain ⟨hb, hcnt, p, hp, hc, hs⟩ := h
    unfold bwStep bwWriteBool
    dsimp only
    rw [if_neg (by simp), go_bind, go_bind, go_getBW]
    dsimp only
    by_cases h7 : w.bits = 7
    · rw [if_pos h7, go_bind, go_sinkByte]
      dsimp only
      rw [go_setCache]
      dsimp only
      rw [go_bind, go_addCount]
      dsimp only
      refine ⟨_, go_pure _ _, by simp, by simp [hcnt, WOp.out], 0, by simp, by simp, ?_⟩
      have e : natBits 8 (if b then w.cache ||| 1#8 else w.cache).toNat = natBits w.bits p ++ [b] := by
        cases b
        · have := (cache_or (x := 0) (by omega) hp (Nat.two_pow_pos _) w.cache 0#8 hc rfl).2
          rw [BitVec.or_zero] at this
          rw [if_neg (by simp), this, h7]; rfl
        · have := (cache_or (x := 1) (by omega) hp (by rw [h7]; decide) w.cache 1#8 hc rfl).2
          rw [if_pos rfl, this, h7]; rfl
      dsimp only [WOp.out]
      rw [bytesBits_append, bytesBits_cons, bytesBits_nil, e, hs]
      simp [natBits]
    · rw [if_neg h7, go_setCache]
      dsimp only
      rw [go_bind, go_addCount]
      dsimp only
      refine ⟨_, go_pure _ _, by dsimp only; omega, by simp [hcnt, WOp.out], p * 2 + b.toNat, ?_, ?_, ?_⟩
      · dsimp only; rw [Nat.pow_succ]; cases b <;> simp <;> omega
      · dsimp only
        have e2 : 2 ^ (8 - w.bits) = 2 * 2 ^ (8 - (w.bits + 1)) := by
          rw [← Nat.pow_succ', show (8 - (w.bits + 1)).succ = 8 - w.bits by omega]
        cases b
        · rw [if_neg (by simp), hc, e2, Bool.toNat_false, ← Nat.mul_assoc, Nat.add_zero (p * 2)]
        · rw [if_pos rfl]
          have e1 : (1#8 <<< (8 - (w.bits + 1))).toNat = 2 ^ (8 - (w.bits + 1)) := by
            have := shl_byte_toNat (x := 1) (k := 8 - (w.bits + 1)) (n := 1) 1#8 rfl (by omega) (by omega)
            rw [this, Nat.one_mul]
          have e3 : 2 ^ (8 - (w.bits + 1)) < 2 ^ (8 - w.bits) := by
            have := Nat.two_pow_pos (8 - (w.bits + 1)); omega
          rw [(cache_or (by omega) hp e3 _ _ hc e1).1, e2, Bool.toNat_true, Nat.add_mul, Nat.one_mul, Nat.mul_assoc]
      · dsimp only
        have := natBits_mul_add 1 p b.toNat w.bits (by cases b <;> simp)
        rw [Nat.pow_one] at this
        rw [this, hs, List.append_assoc]
        cases b <;> rfl

/-- Simulation: on the concrete machine a safe program does what it does on the flat machine. -/
theorem WM.runC_sim {α : Type} {p : WM α} (hp : p.Safe) (w : BW) (s : List Bool) (h : w.Rep s) :
    (p.runC noFault w).1 = (p.run s).1 ∧ (p.runC noFault w).2.Rep (p.run s).2 := by
  induction hp generalizing w s with
  | pure a => exact ⟨rfl, h⟩
  | op o k ho hk ih =>
    obtain ⟨w', h1, h2⟩ := bwStep_ok o ho w s h
    rw [WM.runC, h1]
    cases o with
    | pos =>
      simp only [WOp.out, List.append_nil] at h2
      rw [if_pos rfl]
      exact ih _ w' s h2
    | _ => exact ih _ w' _ h2

theorem bwClose_ok (w : BW) (s : List Bool) (h : w.Rep s) :
    ∃ w', BWM.go (bwClose noFault) w = (.ok (), w') ∧
      bytesBits w'.out = s ++ List.replicate (padBits s.length 8) false := by
  obtain ⟨hb, hcnt, p, hp, hc, hs⟩ := h
  have hlen : s.length = 8 * w.out.length + w.bits := by rw [hs]; simp
  unfold bwClose
  rw [go_bind, go_getBW]
  dsimp only
  by_cases h0 : w.bits > 0
  · rw [if_pos h0, go_bind, go_sinkByte]
    dsimp only
    refine ⟨_, go_setCache _ _ _, ?_⟩
    have := (cache_or (x := 0) (by omega) hp (Nat.two_pow_pos _) w.cache 0#8 hc rfl).2
    rw [BitVec.or_zero, natBits_zero] at this
    have hpad : padBits s.length 8 = 8 - w.bits := by unfold padBits; omega
    dsimp only
    rw [bytesBits_append, bytesBits_cons, bytesBits_nil, List.append_nil, this, hpad, ← List.append_assoc, ← hs]
  · rw [if_neg h0]
    refine ⟨_, go_pure _ _, ?_⟩
    have hpad : padBits s.length 8 = 0 := by unfold padBits; omega
    rw [hpad, hs, show w.bits = 0 by omega]
    simp [natBits]

theorem BW.new_rep : BW.new.Rep [] := ⟨by decide, rfl, 0, by decide, by decide, rfl⟩

/-! ## Sink faults on the concrete machine -/

/-- Whenever `p` succeeds on the faulty sink, `q` does the same on any sink, and none of the calls made to the sink on
the way was a failing one. -/
def BWM.Sub {α : Type} (fault : Nat → Bool) (p q : BWM α) : Prop := ∀ w a w', BWM.go p w = (.ok a, w') →
  BWM.go q w = (.ok a, w') ∧ w.tries ≤ w'.tries ∧ ∀ j, w.tries ≤ j → j < w'.tries → fault j = false

/-- Programs that do not call the sink. -/
def BWM.Quiet {α : Type} (p : BWM α) : Prop := ∀ w, (BWM.go p w).2.tries = w.tries

theorem BWM.Quiet.bind {α β : Type} {p : BWM α} {f : α → BWM β} (h : p.Quiet) (hf : ∀ a, (f a).Quiet) :
    BWM.Quiet (p >>= f) := by
  intro w
  rw [go_bind]
  have := h w
  cases hp : BWM.go p w with
  | mk r w1 =>
    rw [hp] at this
    cases r with
    | error e => exact this
    | ok a => exact (hf a w1).trans this

theorem BWM.Quiet.ite {α : Type} {c : Prop} [Decidable c] {p q : BWM α} (h : p.Quiet) (h' : q.Quiet) :
    BWM.Quiet (if c then p else q) := by split <;> assumption

theorem BWM.Quiet.pure {α : Type} (a : α) : BWM.Quiet (Pure.pure a) := fun _ => rfl
theorem BWM.Quiet.getBW : BWM.Quiet getBW := fun _ => rfl
theorem BWM.Quiet.setCache (c : BitVec 8) (n : Nat) : BWM.Quiet (setCache c n) := fun _ => rfl
theorem BWM.Quiet.addCount (n : Nat) : BWM.Quiet (addCount n) := fun _ => rfl

section sub
variable {fault : Nat → Bool}

theorem BWM.Sub.quiet {α : Type} {p : BWM α} (h : p.Quiet) : BWM.Sub fault p p := by
  intro w a w' hp
  have := h w
  rw [hp] at this
  dsimp only at this
  exact ⟨hp, by omega, fun j h1 h2 => by omega⟩

theorem BWM.Sub.bind {α β : Type} {p q : BWM α} {f g : α → BWM β} (h : BWM.Sub fault p q)
    (hf : ∀ a, BWM.Sub fault (f a) (g a)) : BWM.Sub fault (p >>= f) (q >>= g) := by
  intro w b w' hb
  rw [go_bind] at hb
  rw [go_bind]
  cases hp : BWM.go p w with
  | mk r w1 =>
    cases r with
    | error e => rw [hp] at hb; simp at hb
    | ok a =>
      rw [hp] at hb
      obtain ⟨h1, h2, h3⟩ := h w a w1 hp
      obtain ⟨i1, i2, i3⟩ := hf a w1 b w' hb
      rw [h1]
      refine ⟨i1, by omega, fun j j1 j2 => ?_⟩
      by_cases hj : j < w1.tries
      · exact h3 j j1 hj
      · exact i3 j (by omega) j2

theorem BWM.Sub.ite {α : Type} {c : Prop} [Decidable c] {p q p' q' : BWM α} (h : BWM.Sub fault p q)
    (h' : BWM.Sub fault p' q') : BWM.Sub fault (if c then p else p') (if c then q else q') := by split <;> assumption

theorem sinkByte_sub (b : BitVec 8) : BWM.Sub fault (sinkByte fault b) (sinkByte noFault b) := by
  intro w a w' h
  change (if fault w.tries then _ else _) = _ at h
  split at h
  · simp at h
  · rename_i hf
    rw [go_sinkByte]
    refine ⟨h, ?_⟩
    have hw := congrArg Prod.snd h
    dsimp only at hw
    rw [← hw]
    dsimp only
    refine ⟨by omega, fun j h1 h2 => ?_⟩
    rw [show j = w.tries by omega]
    simpa using hf

theorem sinkBytes_sub (b : List (BitVec 8)) : BWM.Sub fault (sinkBytes fault b) (sinkBytes noFault b) := by
  intro w a w' h
  change (if fault w.tries then _ else _) = _ at h
  split at h
  · simp at h
  · rename_i hf
    rw [go_sinkBytes]
    refine ⟨h, ?_⟩
    have hw := congrArg Prod.snd h
    dsimp only at hw
    rw [← hw]
    dsimp only
    refine ⟨by omega, fun j h1 h2 => ?_⟩
    rw [show j = w.tries by omega]
    simpa using hf

theorem wholeBytes_sub (r : BitVec 64) (n : Nat) : BWM.Sub fault (wholeBytes fault r n) (wholeBytes noFault r n) := by
  induction n using Nat.strongRecOn with
  | _ n ih =>
    match n, ih with
    | 0, _ => exact .quiet (.pure _)
    | 1, _ => exact .quiet (.pure _)
    | 2, _ => exact .quiet (.pure _)
    | 3, _ => exact .quiet (.pure _)
    | 4, _ => exact .quiet (.pure _)
    | 5, _ => exact .quiet (.pure _)
    | 6, _ => exact .quiet (.pure _)
    | 7, _ => exact .quiet (.pure _)
    | m + 8, ih => exact .bind (sinkByte_sub _) fun _ => ih m (by omega)

theorem bwWriteBitsUnsafe_sub (r : BitVec 64) (n : Nat) :
    BWM.Sub fault (bwWriteBitsUnsafe fault r n) (bwWriteBitsUnsafe noFault r n) := by
  unfold bwWriteBitsUnsafe
  refine .bind (.quiet .getBW) fun w => ?_
  refine .ite (.quiet (.setCache _ _)) (.ite ?_ ?_)
  · exact .bind (sinkByte_sub _) fun _ => .bind (wholeBytes_sub _ _) fun _ =>
      .quiet (.ite (.setCache _ _) (.setCache _ _))
  · exact .bind (.quiet (.setCache _ _)) fun _ => sinkByte_sub _

theorem bwUnalignedByte_sub (b : BitVec 8) : BWM.Sub fault (bwUnalignedByte fault b) (bwUnalignedByte noFault b) :=
  .bind (.quiet .getBW) fun _ => .bind (sinkByte_sub _) fun _ => .quiet (.setCache _ _)

theorem bwWriteLoop_sub (bs : List (BitVec 8)) : BWM.Sub fault (bwWriteLoop fault bs) (bwWriteLoop noFault bs) := by
  induction bs with
  | nil => exact .quiet (.pure _)
  | cons b bs ih => exact .bind (bwUnalignedByte_sub _) fun _ => .bind (.quiet (.addCount _)) fun _ => ih

theorem bwStep_sub (o : WOp) : BWM.Sub fault (bwStep fault o) (bwStep noFault o) := by
  have tail : ∀ n, BWM.Quiet (do addCount n; pure (0 : Nat)) := fun n => .bind (.addCount n) fun _ => .pure _
  cases o with
  | bits v n => exact .bind (bwWriteBitsUnsafe_sub _ _) fun _ => .quiet (tail n)
  | bitsUnsafe v n => exact .bind (bwWriteBitsUnsafe_sub _ _) fun _ => .quiet (tail n)
  | bool b =>
    refine .bind (.bind (.quiet .getBW) fun w => .ite ?_ (.quiet (.setCache _ _))) fun _ => .quiet (tail 1)
    exact .bind (sinkByte_sub _) fun _ => .quiet (.setCache _ _)
  | byte b =>
    refine .bind (.bind (.quiet .getBW) fun w => .ite ?_ ?_) fun _ => .quiet (tail 8)
    · exact sinkByte_sub _
    · exact bwUnalignedByte_sub _
  | bytes bs =>
    refine .bind (.bind (.quiet .getBW) fun w => .ite ?_ ?_) fun _ => .quiet (.pure _)
    · exact .bind (sinkBytes_sub _) fun _ => .quiet (.addCount _)
    · exact bwWriteLoop_sub _
  | pos => exact .quiet (.bind .getBW fun _ => .pure _)

theorem bwClose_sub : BWM.Sub fault (bwClose fault) (bwClose noFault) := by
  refine .bind (.quiet .getBW) fun w => .ite ?_ (.quiet (.pure _))
  exact .bind (sinkByte_sub _) fun _ => .quiet (.setCache _ _)

/-- A strict program that succeeds on a faulty sink did the same as on a perfect one, and made no failing call. -/
theorem Wr.Strict.runC_sub {α : Type} {p : Wr α} (hp : p.Strict) {w w' : BW} {v : α}
    (h : WM.runC fault (ExceptT.run p) w = (.ok v, w')) :
    WM.runC noFault (ExceptT.run p) w = (.ok v, w') ∧ w.tries ≤ w'.tries ∧
      ∀ j, w.tries ≤ j → j < w'.tries → fault j = false := by
  have hp' : WStrict (ExceptT.run p) := hp
  generalize ExceptT.run p = q at hp' h
  induction hp' generalizing w with
  | pure a =>
    refine ⟨h, ?_⟩
    have := congrArg Prod.snd h
    change w = w' at this
    subst this
    exact ⟨Nat.le_refl _, fun j h1 h2 => by omega⟩
  | op o k he hk ih =>
    rw [WM.runC] at h
    rw [WM.runC]
    cases hq : BWM.go (bwStep fault o) w with
    | mk r w1 =>
      rw [hq] at h
      cases r with
      | error e =>
        obtain ⟨e', h'⟩ := he e
        dsimp only at h
        rw [h'] at h
        simp [WM.runC] at h
      | ok a =>
        obtain ⟨h1, h2, h3⟩ := bwStep_sub o w a w1 hq
        obtain ⟨i1, i2, i3⟩ := ih a h
        dsimp only at i2 i3
        rw [h1]
        refine ⟨i1, by omega, fun j j1 j2 => ?_⟩
        by_cases hj : j < w1.tries
        · exact h3 j j1 hj
        · exact i3 j (by omega) j2

end sub

end Verif
