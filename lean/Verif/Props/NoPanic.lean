import Verif.SchemaAccept
import Verif.Props.Object

/-!
# C91: decoding arbitrary input does not panic

`Quiet` and `Unpanicked` say what a program may end with, for every input.  The conditions on the schema are `Decl.Tame` (no array
length is negative, no signed bit field is wider than 64 bits, for any values of the fields and parameters the expressions
are evaluated with) and, for the second theorem, that no type contains itself.  Running out of memory is not modelled.
-/

namespace Verif

/-- A result `Q`, or an error that is no panic; if `deep` is allowed, running out of stack is not counted. -/
def Quiet {α : Type} (deep : Prop) (Q : α → Prop) : Except Err α → Prop
  | .ok a => Q a
  | .error e => e.isPanic = true → deep ∧ e = overflow

/-- Whatever the input is, the program does not panic, and what it returns is `Q`. -/
def Unpanicked {α : Type} (deep : Prop) (p : Rd α) (Q : α → Prop) : Prop := ∀ s, Quiet deep Q (rrun p s).1

namespace Unpanicked
variable {α β : Type} {deep : Prop} {Q : α → Prop}

theorem pure {a : α} (h : Q a) : Unpanicked deep (Pure.pure a : Rd α) Q := fun s => by
  rw [rrun_pure]; exact h

theorem raise {e : Err} (h : e.isPanic = true → deep ∧ e = overflow) : Unpanicked deep (throw e : Rd α) Q := fun s => by
  rw [rrun_throw]; exact h

theorem throw {e : Err} (h : e.isPanic = false) : Unpanicked deep (MonadExcept.throw e : Rd α) Q :=
  raise fun h' => by rw [h] at h'; cases h'

theorem bind {p : Rd α} {f : α → Rd β} {R : β → Prop} (h : Unpanicked deep p Q) (hf : ∀ a, Q a → Unpanicked deep (f a) R) : Unpanicked deep (p >>= f) R := fun s => by
  rw [rrun_bind]
  have := h s
  revert this
  generalize rrun p s = q
  obtain ⟨r, s'⟩ := q
  cases r with
  | ok a => exact fun this => hf a this s'
  | error e => exact id

theorem mono {p : Rd α} {R : α → Prop} (h : Unpanicked deep p Q) (hq : ∀ a, Q a → R a) : Unpanicked deep p R := fun s => by
  have := h s
  revert this
  cases (rrun p s).1 with
  | ok a => exact hq a
  | error e => exact id

theorem call (o : ROp) : Unpanicked deep (Rd.call o) fun r => ∃ l p, l.length = o.need ∧ r = o.resp l p := fun s => by
  rw [rrun_call]
  by_cases h : o.need ≤ s.rem.length
  · rw [if_pos h]
    exact ⟨_, _, by simpa using h, rfl⟩
  · rw [if_neg h]
    cases o with
    | full n =>
      dsimp only [ROp.fail]
      split <;> exact fun h => by cases h
    | _ => exact fun h => by cases h

theorem dropErr {p : Rd α} {d : α} (h : Unpanicked deep p Q) (hd : Q d) : Unpanicked deep (Rd.dropErr d p) Q := fun s => by
  have := h s
  revert this
  show Quiet deep Q (RM.run (ExceptT.run p) s).1 → Quiet deep Q (RM.run (RM.bind _ _) s).1
  rw [RM.run_bind]
  generalize RM.run (ExceptT.run p) s = q
  obtain ⟨r, s'⟩ := q
  cases r with
  | ok a => exact id
  | error e =>
    intro this
    by_cases he : e.isPanic = true
    · simp only [he, if_true]; exact this
    · simp only [he]; exact hd

end Unpanicked

variable {deep : Prop}

/-! ## Builtin types -/

theorem calm_bits (n : Nat) : Unpanicked deep (Rd.bits n) fun v => n ≤ 64 → v.toNat < 2 ^ n :=
  (Unpanicked.call (.bits n)).mono fun v ⟨l, p, hl, hv⟩ hn => by
    subst hv
    have h1 : bitsVal l < 2 ^ n := by
      have := bitsVal_lt l
      rwa [hl] at this
    show (BitVec.ofNat 64 (bitsVal l)).toNat < 2 ^ n
    rw [BitVec.toNat_ofNat]
    exact lt_of_le_of_lt (Nat.mod_le _ _) h1

theorem calm_byte : Unpanicked deep Rd.byte fun _ => True := (Unpanicked.call .byte).mono fun _ _ => trivial
theorem calm_bool : Unpanicked deep Rd.bool fun _ => True := (Unpanicked.call .bool).mono fun _ _ => trivial
theorem calm_full (n : Nat) : Unpanicked deep (Rd.full n) fun _ => True := (Unpanicked.call (.full n)).mono fun _ _ => trivial
theorem calm_pos : Unpanicked deep Rd.pos fun _ => True := (Unpanicked.call .pos).mono fun _ _ => trivial

theorem calm_signed {n : Nat} (h : n ≤ 64) : Unpanicked deep (readSignedBits n) fun _ => True := by
  unfold readSignedBits
  rw [if_neg (by omega)]
  refine (calm_bits n).bind fun u _ => ?_
  split <;> exact .pure trivial

theorem calm_varTail (w : Nat) : ∀ (n : Nat) (v : BitVec w) (b : Bool), Unpanicked deep (readVarTail w n v b) fun _ => True
  | 0, v, b => by
    unfold readVarTail
    split
    · exact calm_byte.bind fun _ _ => .pure trivial
    · exact .pure trivial
  | n + 1, v, b => by
    unfold readVarTail
    split
    · exact calm_byte.bind fun _ _ => calm_varTail w n _ _
    · exact .pure trivial

theorem calm_varU (w n : Nat) : Unpanicked deep (readVarU w n) fun _ => True := calm_byte.bind fun _ _ => calm_varTail w n _ _

theorem calm_varSCont (w n : Nat) (b : BitVec 8) : Unpanicked deep (readVarSCont w n b) fun _ => True :=
  (calm_varTail w n _ _).bind fun _ _ => .pure trivial

theorem calm_varS (w n : Nat) : Unpanicked deep (readVarS w n) fun _ => True := calm_byte.bind fun _ _ => calm_varSCont w n _

theorem calm_varint : Unpanicked deep readVarint fun _ => True := calm_byte.bind fun b _ => by
  split
  · exact .pure trivial
  · exact calm_varSCont 64 7 _

theorem calm_varsize : Unpanicked deep readVarsize fun _ => True := (calm_varU 64 3).bind fun v _ => by
  split
  · exact .throw rfl
  · exact .pure trivial

theorem calm_string : Unpanicked deep readString fun _ => True := calm_varsize.bind fun _ _ => calm_full _

theorem calm_bytes : Unpanicked deep readBytes fun _ => True := calm_varsize.bind fun _ _ => (calm_full _).bind fun _ _ => .pure trivial

theorem calm_extern : Unpanicked deep readExtern fun _ => True := calm_varsize.bind fun _ _ => (calm_full _).bind fun _ _ => by
  split
  · exact (calm_bits _).bind fun _ _ => .pure trivial
  · exact .pure trivial

theorem calm_binary (n : Nat) : Unpanicked deep (binaryRead n) fun _ => True := (calm_full _).bind fun _ _ => .pure trivial

theorem calm_align (b : Nat) (h : b ≠ 0) : Unpanicked deep (alignR b) fun _ => True := by
  unfold alignR
  refine calm_pos.bind fun c _ => ?_
  have : Unpanicked deep ((discard c b : ExceptT Err RM Nat)) fun _ => True := by
    unfold discard
    rw [if_neg h]
    dsimp only
    split <;> exact Unpanicked.pure (deep := deep) (Q := fun _ : Nat => True) trivial
  refine this.bind fun d _ => ?_
  split
  · exact .pure trivial
  · exact (calm_bits _).bind fun _ _ => calm_pos

/-- The width of a signed bit field that can be read. -/
def Elem.Readable : Elem → Prop
  | .sbits _ n => n ≤ 64
  | _ => True

theorem calm_traits (k : Elem) : Unpanicked deep k.traits.read fun _ => True := by
  cases k with
  | bits w n => exact (calm_bits n).bind fun _ _ => .pure trivial
  | sbits w n => exact (calm_bits n).bind fun _ _ => .pure trivial
  | bool => exact calm_bool
  | string => exact calm_string
  | bytes => exact calm_bytes.bind fun _ _ => .pure trivial
  | extern => exact calm_extern.bind fun _ _ => .pure trivial
  | float16 => exact (calm_binary 2).bind fun _ _ => .pure trivial
  | float32 => exact calm_binary 4
  | float64 => exact calm_binary 8
  | varint => exact calm_varint
  | varint16 => exact calm_varS 16 0
  | varint32 => exact calm_varS 32 2
  | varint64 => exact calm_varS 64 6
  | varuint => exact calm_varU 64 7
  | varuint16 => exact calm_varU 16 0
  | varuint32 => exact calm_varU 32 2
  | varuint64 => exact calm_varU 64 6
  | varsize => exact calm_varsize

theorem calm_readS (k : Elem) (h : k.Readable) : Unpanicked deep k.readS fun _ => True := by
  cases k with
  | bits w n => exact (calm_bits n).bind fun _ _ => .pure trivial
  | sbits w n => exact (calm_signed h).bind fun _ _ => .pure trivial
  | _ => exact calm_traits _

theorem calm_vt (k : Elem) : Unpanicked deep k.vt.read fun _ => True := (calm_traits k).bind fun _ _ => .pure trivial

/-! ## Packing contexts -/

/-- A context that has seen an element knows it, and deltas have at most 64 bits. -/
def DCtx.Reading (c : DCtx) : Prop := (c.started = true → c.prev.isSome = true) ∧ c.maxBit ≤ 63

theorem calm_delta {T : Type} {tr : Traits T} (h : Unpanicked deep tr.read fun _ => True) {c : DCtx} (hc : c.Reading) :
    Unpanicked deep (DCtx.read tr c) fun r => r.2.Reading := by
  have hun : ∀ c : DCtx, c.maxBit ≤ 63 → Unpanicked deep (DCtx.readUnpacked tr c) fun r => r.2.Reading := fun c h63 =>
    h.bind fun _ _ => .pure ⟨fun _ => rfl, h63⟩
  unfold DCtx.read
  split
  · refine Unpanicked.bind (Q := fun c => c.maxBit ≤ 63) ?_ fun c h => hun c h
    unfold DCtx.readDescriptorDropped
    refine Unpanicked.bind (calm_bool.dropErr trivial) fun b _ => ?_
    split
    · refine Unpanicked.bind ((calm_bits 6).dropErr (by simp)) fun m hm => .pure ?_
      have := hm (by omega)
      dsimp only
      omega
    · exact .pure hc.2
  · rename_i hs
    have hs : c.started = true := by simpa using hs
    split
    · exact hun c hc.2
    · have last : ∀ c : DCtx, c.Reading → c.prev.isSome = true → Unpanicked deep (match c.prev with
          | none => throw (.panic "nil pointer dereference")
          | some p => pure (tr.fromU64 p, c) : Rd (T × DCtx)) fun r => r.2.Reading := fun c hr hp => by
        obtain ⟨p, e⟩ := Option.isSome_iff_exists.1 hp
        rw [e]
        exact .pure hr
      dsimp only
      split
      · have : (c.maxBit + 1) % 256 ≤ 64 := by have := hc.2; omega
        refine (calm_signed this).bind fun d _ => ?_
        obtain ⟨p, e⟩ := Option.isSome_iff_exists.1 (hc.1 hs)
        rw [e]
        exact Unpanicked.bind (Q := fun c : DCtx => c.Reading ∧ c.prev.isSome = true) (.pure ⟨⟨fun _ => rfl, hc.2⟩, rfl⟩) fun c h => last c h.1 h.2
      · exact Unpanicked.bind (Q := fun c : DCtx => c.Reading ∧ c.prev.isSome = true) (.pure ⟨hc, hc.1 hs⟩) fun c h => last c h.1 h.2

/-! ## Fields -/

/-- Go values of the type of a field: objects have to have their fields. -/
def Field.Holds (S : Nat → Val → Prop) (f : Field) (v : Val) : Prop :=
  match f.optional, f.arr, f.ty with
  | false, none, .comp m => S m v
  | _, _, _ => True

/-- A node whose delta context can be read with. -/
def Ctx.Reading (c : Ctx) : Prop := ∀ d kids, c = .node (some d) kids → d.Reading

/-- The packing context of a field. -/
def Field.Keeps (K : Nat → Ctx → Prop) (f : Field) (c : Ctx) : Prop :=
  match f.arr, f.ty with
  | none, .comp m => K m c
  | none, .prim _ => c.Reading
  | some _, _ => True

/-- Fields whose expressions always have values that can be used: no negative array length, no signed bit field with more than 64 bits. -/
def Field.Tame (f : Field) : Prop :=
  ∀ env, (∀ l, (f.exprs env).len = some l → 0 ≤ l) ∧ ∀ k, f.ty = .prim k → (k.withWidth (f.exprs env).width).Readable

/-- What is known of the methods of a type. -/
structure Meth.Quiet (deep : Prop) (m : Meth) (S : Val → Prop) (K : Ctx → Prop) : Prop where
  zero : S m.zero
  args : ∀ x i v, S v → S (Field.setArgs x i v)
  unmarshal : ∀ old, S old → Unpanicked deep (m.unmarshal old) S
  create : Verif.Quiet deep K (m.create Ctx.empty)
  unmarshalP : ∀ old c, S old → K c → Unpanicked deep (m.unmarshalP old c) fun r => S r.1 ∧ K r.2

section
variable {ms : Nat → Meth} {S : Nat → Val → Prop} {K : Nat → Ctx → Prop}

theorem calm_offset (check : Bool) : Unpanicked deep (offsetAlignR check) fun _ => True := by
  unfold offsetAlignR
  split
  · exact (calm_align 8 (by decide)).bind fun _ _ => .pure trivial
  · exact .pure trivial

theorem calm_alignRd (f : Field) : Unpanicked deep f.alignRd fun _ => True := by
  unfold Field.alignRd
  split
  · exact .pure trivial
  · rename_i h
    exact (calm_align _ h).bind fun _ _ => .pure trivial

theorem calm_plainRead {T : Type} {tr : Traits T} (h : Unpanicked deep tr.read fun _ => True) (check : Bool) :
    ∀ n, Unpanicked deep (Arr.plainRead tr check n) fun _ => True
  | 0 => .pure trivial
  | n + 1 => (calm_offset check).bind fun _ _ => h.bind fun _ _ => (calm_plainRead h check n).bind fun _ _ => .pure trivial

theorem calm_packedRead {T : Type} {tr : Traits T} (h : Unpanicked deep tr.read fun _ => True) (check : Bool) :
    ∀ (n : Nat) (c : DCtx), c.Reading → Unpanicked deep (Arr.packedRead tr check n c) fun _ => True
  | 0, _, _ => .pure trivial
  | n + 1, _, hc => (calm_offset check).bind fun _ _ => (calm_delta h hc).bind fun r hr =>
    (calm_packedRead h check n r.2 hr).bind fun _ _ => .pure trivial

theorem calm_size (cfg : ArrCfg) :
    Unpanicked deep (if cfg.isAuto then (do let n ← readVarsize; pure n.toNat) else pure cfg.fixedSize : Rd Nat) fun _ => True := by
  split
  · exact calm_varsize.bind fun _ _ => .pure trivial
  · exact .pure trivial

theorem calm_arr {T : Type} {tr : Traits T} (h : Unpanicked deep tr.read fun _ => True) (cfg : ArrCfg) : Unpanicked deep (Arr.unmarshal tr cfg) fun _ => True := by
  unfold Arr.unmarshal
  refine (calm_size cfg).bind fun n _ => ?_
  split
  · exact calm_packedRead h _ n _ ⟨nofun, by decide⟩
  · exact calm_plainRead h _ n

theorem calm_objPlain {m : Meth} {S : Val → Prop} {K : Ctx → Prop} (h : m.Quiet deep S K) (check : Bool) (x : Exprs) :
    ∀ i n, Unpanicked deep (ObjArr.plainRead m check (Field.setArgs x) i n) fun _ => True
  | _, 0 => .pure trivial
  | i, n + 1 => (calm_offset check).bind fun _ _ => (h.unmarshal _ (h.args x i _ h.zero)).bind fun _ _ =>
    (calm_objPlain h check x (i + 1) n).bind fun _ _ => .pure trivial

theorem calm_objPacked {m : Meth} {S : Val → Prop} {K : Ctx → Prop} (h : m.Quiet deep S K) (check : Bool) (x : Exprs) :
    ∀ i n c, K c → Unpanicked deep (ObjArr.packedRead m check (Field.setArgs x) i n c) fun _ => True
  | _, 0, _, _ => .pure trivial
  | i, n + 1, _, hc => (calm_offset check).bind fun _ _ => (h.unmarshalP _ _ (h.args x i _ h.zero) hc).bind fun r hr =>
    (calm_objPacked h check x (i + 1) n r.2 hr.2).bind fun _ _ => .pure trivial

theorem calm_objArr {m : Meth} {S : Val → Prop} {K : Ctx → Prop} (h : m.Quiet deep S K) (cfg : ArrCfg) (x : Exprs) :
    Unpanicked deep (ObjArr.unmarshal m cfg (Field.setArgs x)) fun _ => True := by
  unfold ObjArr.unmarshal
  refine (calm_size cfg).bind fun n _ => ?_
  split
  · exact .pure trivial
  · split
    · have := h.create
      cases hc : m.create Ctx.empty with
      | error e => rw [hc] at this; exact .raise this
      | ok c => rw [hc] at this; exact calm_objPacked h _ x 0 n c this
    · exact calm_objPlain h _ x 0 n

variable {f : Field} {x : Exprs}

/-- The fields of a declaration whose types are understood. -/
def Field.Known (deep : Prop) (ms : Nat → Meth) (S : Nat → Val → Prop) (K : Nat → Ctx → Prop) (f : Field) : Prop :=
  ∀ m, f.ty = .comp m → (ms m).Quiet deep (S m) (K m)

/-- The expressions of a field have values that can be used. -/
def Field.TameAt (f : Field) (x : Exprs) : Prop :=
  (∀ l, x.len = some l → 0 ≤ l) ∧ ∀ k, f.ty = .prim k → (k.withWidth x.width).Readable

theorem calm_readArr (hk : f.Known deep ms S K) (hx : f.TameAt x) (packed : Bool) : Unpanicked deep (f.readArr ms x packed) fun _ => True := by
  unfold Field.readArr
  rw [if_neg (by
    cases h : x.len with
    | none => decide
    | some l => have := hx.1 l h; simpa using this)]
  cases ht : f.ty with
  | prim k => exact (calm_arr (calm_vt _) _).bind fun _ _ => .pure trivial
  | comp n => exact (calm_objArr (hk n ht) _ x).bind fun _ _ => .pure trivial

/-- What the value of a present field is. -/
def Field.HoldsV (S : Nat → Val → Prop) (f : Field) (v : Val) : Prop :=
  match f.arr, f.ty with
  | none, .comp m => S m v
  | _, _ => True

theorem zeroVal_holds (hk : f.Known deep ms S K) : f.HoldsV S (f.zeroVal ms) := by
  unfold Field.HoldsV Field.zeroVal
  cases ha : f.arr with
  | some p => trivial
  | none =>
    cases ht : f.ty with
    | prim k => trivial
    | comp m => exact (hk m ht).zero

theorem holdsV_iff (ho : f.optional = false) {v : Val} : f.HoldsV S v ↔ f.Holds S v := by
  unfold Field.Holds Field.HoldsV
  rw [ho]
  cases f.arr <;> cases f.ty <;> rfl

theorem zero_holds (hk : f.Known deep ms S K) : f.Holds S (f.zero ms) := by
  have := zeroVal_holds hk
  cases ho : f.optional with
  | true => unfold Field.Holds; rw [ho]; trivial
  | false =>
    rw [← holdsV_iff ho]
    unfold Field.zero
    rw [if_neg (by simp [ho])]
    exact this

theorem calm_readVal (hk : f.Known deep ms S K) (hx : f.TameAt x) {old : Val} (h : f.HoldsV S old) : Unpanicked deep (f.readVal ms x old) (f.HoldsV S) := by
  unfold Field.readVal
  unfold Field.HoldsV at h ⊢
  cases ha : f.arr with
  | some p => exact calm_readArr hk hx p
  | none =>
    rw [ha] at h
    cases ht : f.ty with
    | prim k => exact (calm_readS _ (hx.2 k ht)).bind fun _ _ => .pure trivial
    | comp m =>
      rw [ht] at h
      exact (hk m ht).unmarshal _ ((hk m ht).args x 0 _ h)

theorem calm_decode (hk : f.Known deep ms S K) (hx : f.TameAt x) {old : Val} (h : f.Holds S old) : Unpanicked deep (f.decode ms x old) (f.Holds S) := by
  unfold Field.decode
  split
  · refine (calm_alignRd f).bind fun _ _ => ?_
    cases ho : f.optional with
    | true =>
      have ht : ∀ v, f.Holds S v := fun v => by unfold Field.Holds; rw [ho]; trivial
      rw [if_pos rfl]
      refine calm_bool.bind fun b _ => ?_
      split
      · exact (calm_readVal hk hx (zeroVal_holds hk)).bind fun _ _ => .pure (ht _)
      · exact .pure (ht _)
    | false =>
      have he : ∀ v, f.HoldsV S v ↔ f.Holds S v := fun v => holdsV_iff ho
      rw [if_neg (by decide)]
      exact (calm_readVal hk hx ((he _).2 h)).mono fun v => (he v).1
  · exact .pure h

theorem calm_deltaRead (k : Elem) {c : Ctx} (h : c.Reading) : Unpanicked deep (Field.deltaRead k.vt c) fun r => r.2.Reading := by
  unfold Field.deltaRead
  rcases c with ⟨_ | d, kids⟩
  · exact .throw rfl
  · exact (calm_delta (calm_vt k) (h d kids rfl)).bind fun r hr => .pure fun d' kids' e => by cases e; exact hr

theorem calm_readValP (hk : f.Known deep ms S K) (hx : f.TameAt x) {old : Val} {c : Ctx} (h : f.HoldsV S old) (hc : f.Keeps K c) :
    Unpanicked deep (f.readValP ms x old c) fun r => f.HoldsV S r.1 ∧ f.Keeps K r.2 := by
  unfold Field.readValP
  refine (calm_alignRd f).bind fun _ _ => ?_
  unfold Field.HoldsV at h ⊢
  unfold Field.Keeps at hc ⊢
  cases ha : f.arr with
  | some p => exact (calm_readArr hk hx true).bind fun _ _ => .pure ⟨trivial, trivial⟩
  | none =>
    rw [ha] at h hc
    cases ht : f.ty with
    | prim k =>
      rw [ht] at hc
      dsimp only
      split
      · exact (calm_deltaRead _ hc).mono fun r hr => ⟨trivial, hr⟩
      · exact (calm_readS _ (hx.2 k ht)).bind fun _ _ => .pure ⟨trivial, hc⟩
    | comp m =>
      rw [ht] at h hc
      exact (hk m ht).unmarshalP _ _ ((hk m ht).args x 0 _ h) hc

theorem calm_decodeP (hk : f.Known deep ms S K) (hx : f.TameAt x) {old : Val} {c : Ctx} (h : f.Holds S old) (hc : f.Keeps K c) :
    Unpanicked deep (f.decodeP ms x old c) fun r => f.Holds S r.1 ∧ f.Keeps K r.2 := by
  unfold Field.decodeP
  split
  · cases ho : f.optional with
    | true =>
      have ht : ∀ v, f.Holds S v := fun v => by unfold Field.Holds; rw [ho]; trivial
      rw [if_pos rfl]
      refine calm_bool.bind fun b _ => ?_
      split
      · exact (calm_readValP hk hx (zeroVal_holds hk) hc).bind fun _ hr => .pure ⟨ht _, hr.2⟩
      · exact .pure ⟨ht _, hc⟩
    | false =>
      have he : ∀ v, f.HoldsV S v ↔ f.Holds S v := fun v => holdsV_iff ho
      rw [if_neg (by decide)]
      exact (calm_readValP hk hx ((he _).2 h) hc).mono fun r hr => ⟨(he _).1 hr.1, hr.2⟩
  · exact .pure ⟨h, hc⟩

theorem create_keeps (hk : f.Known deep ms S K) : Quiet deep (f.Keeps K) (f.create ms) := by
  unfold Field.create Field.Keeps
  cases ha : f.arr with
  | some p => trivial
  | none =>
    cases ht : f.ty with
    | comp m => exact (hk m ht).create
    | prim k =>
      dsimp only
      split
      · show Ctx.Reading _
        intro d kids e
        cases e
        exact ⟨nofun, by decide⟩
      · show Ctx.Reading _
        intro d kids e
        cases e

/-! ## Declarations -/

theorem forall₂_snoc {α β : Type} {R : α → β → Prop} {as : List α} {bs : List β} {a : α} {b : β} (h : List.Forall₂ R as bs) (h' : R a b) :
    List.Forall₂ R (as ++ [a]) (bs ++ [b]) := by
  induction h with
  | nil => exact .cons h' .nil
  | cons h1 _ ih => exact .cons h1 ih

theorem forall₂_zeros {α β : Type} {R : α → β → Prop} {g : α → β} : ∀ {as : List α}, (∀ a ∈ as, R a (g a)) → List.Forall₂ R as (as.map g)
  | [], _ => .nil
  | a :: _, h => .cons (h a (by simp)) (forall₂_zeros fun b hb => h b (by simp [hb]))

theorem calm_decLoop {fs : List Field} (hk : ∀ f ∈ fs, f.Known deep ms S K) (hx : ∀ f ∈ fs, f.Tame) (ps : List Val) {gs : List Field} {done olds : List Val}
    (hd : List.Forall₂ (Field.Holds S) gs done) (ho : List.Forall₂ (Field.Holds S) fs olds) :
    Unpanicked deep (decLoop ms ps done fs olds) (List.Forall₂ (Field.Holds S) (gs ++ fs)) := by
  induction ho generalizing gs done with
  | nil => rw [List.append_nil]; exact .pure hd
  | @cons f o fs olds h1 h2 ih =>
    refine (calm_decode (hk f (by simp)) (hx f (by simp) _) h1).bind fun v hv => ?_
    have := ih (fun g hg => hk g (by simp [hg])) (fun g hg => hx g (by simp [hg])) (gs := gs ++ [f]) (done := done ++ [v])
      (forall₂_snoc hd hv)
    simpa using this

theorem calm_decLoopP {fs : List Field} (hk : ∀ f ∈ fs, f.Known deep ms S K) (hx : ∀ f ∈ fs, f.Tame) (ps : List Val) {gs : List Field} {done olds : List Val}
    {cs : List Ctx} (hd : List.Forall₂ (Field.Holds S) gs done) (ho : List.Forall₂ (Field.Holds S) fs olds) (hc : List.Forall₂ (Field.Keeps K) fs cs) :
    Unpanicked deep (decLoopP ms ps done fs olds cs) fun r => List.Forall₂ (Field.Holds S) (gs ++ fs) r.1 ∧ List.Forall₂ (Field.Keeps K) fs r.2 := by
  induction ho generalizing gs done cs with
  | nil => cases hc; rw [List.append_nil]; exact .pure ⟨hd, .nil⟩
  | @cons f o fs olds h1 h2 ih =>
    cases hc with
    | cons h3 h4 =>
      refine (calm_decodeP (hk f (by simp)) (hx f (by simp) _) h1 h3).bind fun v hv => ?_
      have := ih (fun g hg => hk g (by simp [hg])) (fun g hg => hx g (by simp [hg])) (gs := gs ++ [f]) (done := done ++ [v.1])
        (forall₂_snoc hd hv.1) h4
      refine this.bind fun r hr => .pure ⟨by simpa using hr.1, .cons hv.2 hr.2⟩

theorem createLoop_keeps {fs : List Field} (hk : ∀ f ∈ fs, f.Known deep ms S K) : Quiet deep (List.Forall₂ (Field.Keeps K) fs) (createLoop ms fs) := by
  induction fs with
  | nil => exact List.Forall₂.nil
  | cons f fs ih =>
    have h1 := create_keeps (hk f (by simp))
    have h2 := ih fun g hg => hk g (by simp [hg])
    unfold createLoop
    cases hc : f.create ms with
    | error e => rw [hc] at h1; exact h1
    | ok c =>
      rw [hc] at h1
      cases hl : createLoop ms fs with
      | error e => rw [hl] at h2; exact h2
      | ok cs => rw [hl] at h2; exact List.Forall₂.cons h1 h2

/-- Objects with their fields. -/
def ObjHolds (S : Nat → Val → Prop) (fs : List Field) (v : Val) : Prop := ∃ t ps vs, v = .obj t ps vs ∧ List.Forall₂ (Field.Holds S) fs vs

/-- Contexts with a child for every field. -/
def ObjKeeps (K : Nat → Ctx → Prop) (fs : List Field) (c : Ctx) : Prop := ∃ d kids, c = .node d kids ∧ List.Forall₂ (Field.Keeps K) fs kids

theorem ObjHolds.args {fs : List Field} (x : Exprs) (i : Nat) (v : Val) (h : ObjHolds S fs v) : ObjHolds S fs (Field.setArgs x i v) := by
  obtain ⟨t, ps, vs, rfl, h⟩ := h
  unfold Field.setArgs
  cases x.args with
  | none => exact ⟨t, ps, vs, rfl, h⟩
  | some a => exact ⟨t, _, vs, rfl, h⟩

theorem zeros_hold {fs : List Field} (hk : ∀ f ∈ fs, f.Known deep ms S K) : ObjHolds S fs (.obj 0 [] (fs.map (Field.zero ms))) :=
  ⟨0, [], _, rfl, forall₂_zeros fun f hf => zero_holds (hk f hf)⟩

theorem createObj {fs : List Field} (hk : ∀ f ∈ fs, f.Known deep ms S K) :
    Quiet deep (ObjKeeps K fs) (do let cs ← createLoop ms fs; pure (.node none ([] ++ cs))) := by
  have := createLoop_keeps hk
  cases hl : createLoop ms fs with
  | error e => rw [hl] at this; exact this
  | ok cs => rw [hl] at this; exact ⟨none, cs, rfl, this⟩

theorem struct_quiet {fs : List Field} (hk : ∀ f ∈ fs, f.Known deep ms S K) (hx : ∀ f ∈ fs, f.Tame) :
    (structMeth ms fs).Quiet deep (ObjHolds S fs) (ObjKeeps K fs) where
  zero := zeros_hold hk
  args := ObjHolds.args
  unmarshal := by
    rintro old ⟨t, ps, olds, rfl, h⟩
    exact (calm_decLoop hk hx ps (gs := []) .nil h).bind fun vs hv => .pure ⟨t, ps, vs, rfl, hv⟩
  create := createObj hk
  unmarshalP := by
    rintro old c ⟨t, ps, olds, rfl, h⟩ ⟨d, kids, rfl, hc⟩
    exact (calm_decLoopP hk hx ps (gs := []) .nil h hc).bind fun r hr => .pure ⟨⟨t, ps, r.1, rfl, hr.1⟩, ⟨d, r.2, rfl, hr.2⟩⟩

theorem forall₂_get {α β : Type} {R : α → β → Prop} {as : List α} {bs : List β} (h : List.Forall₂ R as bs) {i : Nat} (hi : i < as.length) :
    ∃ a b, as[i]? = some a ∧ bs[i]? = some b ∧ a ∈ as ∧ R a b := by
  induction h generalizing i with
  | nil => simp at hi
  | @cons a b as bs h _ ih =>
    cases i with
    | zero => exact ⟨a, b, rfl, rfl, by simp, h⟩
    | succ i =>
      obtain ⟨a', b', h1, h2, h3, h4⟩ := ih (by simpa using hi)
      exact ⟨a', b', by simpa using h1, by simpa using h2, by simp [h3], h4⟩

theorem forall₂_set {α β : Type} {R : α → β → Prop} {as : List α} {bs : List β} (h : List.Forall₂ R as bs) {i : Nat} {a : α} {b : β}
    (ha : as[i]? = some a) (hb : R a b) : List.Forall₂ R as (bs.set i b) := by
  induction h generalizing i with
  | nil => simp at ha
  | @cons a' b' as bs h h' ih =>
    cases i with
    | zero => cases ha; exact .cons hb h'
    | succ i => exact .cons h (ih (by simpa using ha))

theorem calm_decAt {fs : List Field} (hk : ∀ f ∈ fs, f.Known deep ms S K) (hx : ∀ f ∈ fs, f.Tame) {i : Nat} (hi : i < fs.length) (ps : List Val)
    {olds : List Val} (h : List.Forall₂ (Field.Holds S) fs olds) : Unpanicked deep (decAt ms fs i ps olds) (List.Forall₂ (Field.Holds S) fs) := by
  obtain ⟨f, o, h1, h2, h3, h4⟩ := forall₂_get h hi
  unfold decAt
  rw [h1, h2]
  exact (calm_decode (hk f h3) (hx f h3 _) h4).bind fun v hv => .pure (forall₂_set h h1 hv)

theorem union_quiet {fs : List Field} (hk : ∀ f ∈ fs, f.Known deep ms S K) (hx : ∀ f ∈ fs, f.Tame) :
    (unionMeth ms fs).Quiet deep (ObjHolds S fs) (ObjKeeps K fs) where
  zero := zeros_hold hk
  args := ObjHolds.args
  unmarshal := by
    rintro old ⟨t, ps, olds, rfl, h⟩
    refine calm_varsize.bind fun u _ => ?_
    dsimp only
    split
    · rename_i ht
      exact (calm_decAt hk hx (by omega) ps h).bind fun vs hv => .pure ⟨_, ps, vs, rfl, hv⟩
    · exact .pure ⟨_, ps, olds, rfl, h⟩
  create := createObj hk
  unmarshalP := fun old c h hc => .pure ⟨h, hc⟩

theorem pickCase_bound (x : Int) (cases : List (List Int × Option Field)) (i j : Nat) (h : pickCase x cases i = some j) :
    j < i + (cases.filterMap (·.2)).length := by
  induction cases generalizing i with
  | nil => cases h
  | cons c cs ih =>
    rcases c with ⟨ls, _ | f⟩
    · simpa using ih i h
    · unfold pickCase at h
      by_cases hl : ls.head? = some x
      · rw [if_pos hl] at h
        cases h
        simp
      · rw [if_neg hl] at h
        have := ih (i + 1) h
        simp
        omega

theorem pick_bound {x : Int} {cases : List (List Int × Option Field)} {dflt : Option Field} {j : Nat} (h : pick x cases dflt = some j) :
    j < (choiceFields cases dflt).length := by
  unfold pick at h
  unfold choiceFields
  rw [List.length_append]
  cases hp : pickCase x cases 0 with
  | some i =>
    rw [hp] at h
    cases h
    have := pickCase_bound x cases 0 _ hp
    omega
  | none =>
    rw [hp] at h
    cases dflt with
    | none => cases h
    | some f =>
      cases h
      simp

theorem choice_quiet {sel : List Val → Int} {cases : List (List Int × Option Field)} {dflt : Option Field}
    (hk : ∀ f ∈ choiceFields cases dflt, f.Known deep ms S K) (hx : ∀ f ∈ choiceFields cases dflt, f.Tame) :
    (choiceMeth ms sel cases dflt).Quiet deep (ObjHolds S (choiceFields cases dflt)) (ObjKeeps K (choiceFields cases dflt)) where
  zero := zeros_hold hk
  args := ObjHolds.args
  unmarshal := by
    rintro old ⟨t, ps, olds, rfl, h⟩
    show Unpanicked deep (match pick (sel ps) cases dflt with
      | some i => do let vs ← decAt ms (choiceFields cases dflt) i ps olds; pure (Val.obj t ps vs)
      | none => pure (Val.obj t ps olds)) _
    cases hp : pick (sel ps) cases dflt with
    | none => exact .pure ⟨_, ps, olds, rfl, h⟩
    | some i => exact (calm_decAt hk hx (pick_bound hp) ps h).bind fun vs hv => .pure ⟨_, ps, vs, rfl, hv⟩
  create := createObj hk
  unmarshalP := by
    rintro old c ⟨t, ps, olds, rfl, h⟩ ⟨d, kids, rfl, hc⟩
    show Unpanicked deep (if cases.isEmpty then pure (Val.obj t ps olds, Ctx.node d kids) else
      match pick (sel ps) cases dflt with
      | some i =>
        match (choiceFields cases dflt)[i]?, olds[i]?, kids[i]? with
        | some f, some o, some k => do
          let (v, k) ← f.decodeP ms (f.exprs ⟨ps, olds⟩) o k
          pure (Val.obj t ps (olds.set i v), Ctx.node d (kids.set i k))
        | _, _, _ => throw (.panic "index out of range")
      | none => pure (Val.obj t ps olds, Ctx.node d kids)) _
    split
    · exact .pure ⟨⟨_, ps, olds, rfl, h⟩, ⟨_, kids, rfl, hc⟩⟩
    · cases hp : pick (sel ps) cases dflt with
      | none => exact .pure ⟨⟨_, ps, olds, rfl, h⟩, ⟨_, kids, rfl, hc⟩⟩
      | some i =>
        obtain ⟨f, o, h1, h2, h3, h4⟩ := forall₂_get h (pick_bound hp)
        obtain ⟨f', k, h1', h5, -, h6⟩ := forall₂_get hc (pick_bound hp)
        obtain rfl : f = f' := by rw [h1] at h1'; cases h1'; rfl
        dsimp only
        rw [h1, h2, h5]
        exact (calm_decodeP (hk f h3) (hx f h3 _) h4 h6).bind fun r hr =>
          .pure ⟨⟨_, ps, _, rfl, forall₂_set h h1 hr.1⟩, ⟨_, _, rfl, forall₂_set hc h1 hr.2⟩⟩

theorem enum_quiet {k : Elem} (hk : k.Readable) : (enumMeth k).Quiet deep (fun _ => True) Ctx.Reading where
  zero := trivial
  args _ _ _ _ := trivial
  unmarshal _ _ := (calm_readS k hk).bind fun _ _ => .pure trivial
  create := by
    show Ctx.Reading _
    intro d kids e
    cases e
    exact ⟨nofun, by decide⟩
  unmarshalP _ c _ hc := (calm_deltaRead k hc).mono fun r hr => ⟨trivial, hr⟩

end

/-! ## Schemas -/

/-- The fields of a declaration. -/
def Decl.allFields : Decl → List Field
  | .struct fs | .union fs => fs
  | .choice _ cases dflt => choiceFields cases dflt
  | .enum _ => []

/-- Declarations whose expressions always have values that can be used. -/
def Decl.Tame (d : Decl) : Prop := (∀ f ∈ d.allFields, f.Tame) ∧ ∀ k, d = .enum k → k.Readable

/-- Go values of the declared type: objects, down to `n` levels, with a value for each field. -/
def IsObject (schema : Nat → Decl) : Nat → Nat → Val → Prop
  | 0, _, _ => True
  | n + 1, name, v =>
    match schema name with
    | .enum _ => True
    | d => ObjHolds (IsObject schema n) d.allFields v

/-- Packing contexts made by `ZserioCreatePackingContext`, also after use. -/
def IsContext (schema : Nat → Decl) : Nat → Nat → Ctx → Prop
  | 0, _, _ => True
  | n + 1, name, c =>
    match schema name with
    | .enum _ => c.Reading
    | d => ObjKeeps (IsContext schema n) d.allFields c

theorem decl_quiet (schema : Nat → Decl) (n name : Nat) (ht : (schema name).Tame)
    (hk : ∀ f ∈ (schema name).allFields, f.Known deep (methods schema n) (IsObject schema n) (IsContext schema n)) :
    (methods schema (n + 1) name).Quiet deep (IsObject schema (n + 1) name) (IsContext schema (n + 1) name) := by
  have hs : IsObject schema (n + 1) name = match schema name with
    | .enum _ => fun _ => True
    | d => ObjHolds (IsObject schema n) d.allFields := by
    funext v
    show (match schema name with
      | .enum _ => True
      | d => ObjHolds (IsObject schema n) d.allFields v) = _
    cases schema name <;> rfl
  have hc : IsContext schema (n + 1) name = match schema name with
    | .enum _ => Ctx.Reading
    | d => ObjKeeps (IsContext schema n) d.allFields := by
    funext v
    show (match schema name with
      | .enum _ => v.Reading
      | d => ObjKeeps (IsContext schema n) d.allFields v) = _
    cases schema name <;> rfl
  show ((schema name).meth (methods schema n)).Quiet _ _ _
  rw [hs, hc]
  cases hd : schema name with
  | struct fs => rw [hd] at ht hk; exact struct_quiet hk ht.1
  | union fs => rw [hd] at ht hk; exact union_quiet hk ht.1
  | choice sel cases dflt => rw [hd] at ht hk; exact choice_quiet hk ht.1
  | enum k => rw [hd] at ht; exact enum_quiet (ht.2 k rfl)

theorem schema_quiet (schema : Nat → Decl) (ht : ∀ name, (schema name).Tame) (n : Nat) :
    ∀ name, (methods schema n name).Quiet True (IsObject schema n name) (IsContext schema n name) := by
  induction n with
  | zero =>
    intro name
    exact ⟨trivial, fun _ _ _ _ => trivial, fun _ _ => .raise fun _ => ⟨trivial, rfl⟩, fun _ => ⟨trivial, rfl⟩, fun _ _ _ _ => .raise fun _ => ⟨trivial, rfl⟩⟩
  | succ n ih => exact fun name => decl_quiet schema n name (ht name) fun f _ m _ => ih m

theorem ranked_quiet (schema : Nat → Decl) (ht : ∀ name, (schema name).Tame) (rank : Nat → Nat)
    (hr : ∀ name, ∀ f ∈ (schema name).allFields, ∀ m, f.ty = .comp m → rank m < rank name) (n : Nat) :
    ∀ name, rank name < n → (methods schema n name).Quiet False (IsObject schema n name) (IsContext schema n name) := by
  induction n with
  | zero => exact fun name h => absurd h (by omega)
  | succ n ih => exact fun name h => decl_quiet schema n name (ht name) fun f hf m hm => ih m (by have := hr name f hf m hm; omega)

/-! ## The claims -/

theorem zero_object (schema : Nat → Decl) (ht : ∀ name, (schema name).Tame) (n name : Nat) : IsObject schema n name (methods schema n name).zero :=
  (schema_quiet schema ht n name).zero

/-- C91, the only panic: whatever the input, the position in it and the state of the object that is decoded into, decoding returns an object
of its type or an error, unless the stack is exhausted. -/
theorem C91_only_stack (schema : Nat → Decl) (ht : ∀ name, (schema name).Tame) (n name : Nat) (old : Val) (ho : IsObject schema n name old) (s : RState) :
    (∃ v, (rrun ((methods schema n name).unmarshal old) s).1 = .ok v ∧ IsObject schema n name v) ∨
    ∃ e, (rrun ((methods schema n name).unmarshal old) s).1 = .error e ∧ (e.isPanic = true → e = overflow) := by
  have := (schema_quiet schema ht n name).unmarshal old ho s
  cases hr : (rrun ((methods schema n name).unmarshal old) s).1 with
  | ok v => rw [hr] at this; exact .inl ⟨v, rfl, this⟩
  | error e => rw [hr] at this; exact .inr ⟨e, rfl, fun h => (this h).2⟩

/-- C91 for schemas in which no type contains itself (`rank` goes down from a type to the types of its fields): nothing panics. -/
theorem C91_decode (schema : Nat → Decl) (ht : ∀ name, (schema name).Tame) (rank : Nat → Nat)
    (hr : ∀ name, ∀ f ∈ (schema name).allFields, ∀ m, f.ty = .comp m → rank m < rank name) (n name : Nat) (hn : rank name < n)
    (old : Val) (ho : IsObject schema n name old) (s : RState) :
    (∃ v, (rrun ((methods schema n name).unmarshal old) s).1 = .ok v ∧ IsObject schema n name v) ∨
    ∃ e, (rrun ((methods schema n name).unmarshal old) s).1 = .error e ∧ e.isPanic = false := by
  have := (ranked_quiet schema ht rank hr n name hn).unmarshal old ho s
  cases hr : (rrun ((methods schema n name).unmarshal old) s).1 with
  | ok v => rw [hr] at this; exact .inl ⟨v, rfl, this⟩
  | error e =>
    rw [hr] at this
    refine .inr ⟨e, rfl, ?_⟩
    cases h : e.isPanic with
    | false => rfl
    | true => exact (this h).1.elim

/-- C91 for a new object. -/
theorem C91_decode_new (schema : Nat → Decl) (ht : ∀ name, (schema name).Tame) (rank : Nat → Nat)
    (hr : ∀ name, ∀ f ∈ (schema name).allFields, ∀ m, f.ty = .comp m → rank m < rank name) (n name : Nat) (hn : rank name < n) (s : RState) (e : Err)
    (he : (rrun ((methods schema n name).unmarshal (methods schema n name).zero) s).1 = .error e) : e.isPanic = false := by
  rcases C91_decode schema ht rank hr n name hn _ (zero_object schema ht n name) s with ⟨v, h, -⟩ | ⟨e', h, h'⟩
  · rw [h] at he; cases he
  · rw [h] at he; cases he; exact h'

/-! ## Cases -/

theorem exSchema_tame (name : Nat) : (exSchema name).Tame := by
  have bits : ∀ (w n : Nat) (g : Env → Exprs) a o r c, (∀ env, (g env).len = none) → Field.Tame ⟨g, a, o, .prim (.bits w n), r, c⟩ := by
    intro w n g a o r c h env
    refine ⟨fun l hl => ?_, fun k hk => ?_⟩
    · have := h env
      rw [show (g env).len = some l from hl] at this
      cases this
    · cases hk
      show Elem.Readable (Elem.withWidth _ (g env).width)
      cases (g env).width <;> trivial
  have comp : ∀ (m : Nat) (g : Env → Exprs) a o r c, (∀ env, (g env).len = none) → Field.Tame ⟨g, a, o, .comp m, r, c⟩ := by
    intro m g a o r c h env
    refine ⟨fun l hl => ?_, nofun⟩
    have := h env
    rw [show (g env).len = some l from hl] at this
    cases this
  have other : ∀ (k : Elem) a o r c, k.Readable → Field.Tame ⟨noExprs, a, o, .prim k, r, c⟩ := by
    intro k a o r c h env
    refine ⟨nofun, fun k' hk => ?_⟩
    cases hk
    show Elem.Readable (Elem.withWidth _ none)
    cases k <;> exact h
  have point : ∀ f ∈ exPoint, f.Tame := by
    intro f hf
    simp only [exPoint, List.mem_cons, List.not_mem_nil, or_false] at hf
    rcases hf with rfl | rfl | rfl | rfl
    · exact other _ _ _ _ _ (by unfold Elem.Readable; decide)
    · exact other _ _ _ _ _ trivial
    · exact other _ _ _ _ _ trivial
    · intro env
      refine ⟨fun l hl => ?_, fun k hk => by cases hk; trivial⟩
      cases hl
      split <;> omega
  have scene : ∀ f ∈ exScene, f.Tame := by
    intro f hf
    simp only [exScene, List.mem_cons, List.not_mem_nil, or_false] at hf
    rcases hf with rfl | rfl | rfl | rfl | rfl | rfl | rfl
    · exact bits _ _ _ _ _ _ _ fun _ => rfl
    · exact comp _ _ _ _ _ _ fun _ => rfl
    · exact comp _ _ _ _ _ _ fun _ => rfl
    · exact bits _ _ _ _ _ _ _ fun _ => rfl
    · exact comp _ _ _ _ _ _ fun _ => rfl
    · exact comp _ _ _ _ _ _ fun _ => rfl
    · exact bits _ _ _ _ _ _ _ fun _ => rfl
  match name with
  | 0 => exact ⟨point, nofun⟩
  | 1 => exact ⟨nofun, fun k hk => by cases hk; trivial⟩
  | 2 => exact ⟨scene, nofun⟩
  | 3 =>
    refine ⟨fun f hf => ?_, nofun⟩
    simp only [Decl.allFields, exSchema, List.mem_cons, List.not_mem_nil, or_false] at hf
    rcases hf with rfl | rfl
    · exact bits _ _ _ _ _ _ _ fun _ => rfl
    · exact comp _ _ _ _ _ _ fun _ => rfl
  | 4 =>
    refine ⟨fun f hf => ?_, nofun⟩
    simp [Decl.allFields, exSchema, choiceFields] at hf
    rcases hf with rfl | rfl | rfl
    · exact bits _ _ _ _ _ _ _ fun _ => rfl
    · exact other _ _ _ _ _ trivial
    · exact other _ _ _ _ _ trivial
  | _ + 5 => exact ⟨nofun, nofun⟩

/-- `rank` of the example schema. -/
def exSchemaRank : Nat → Nat
  | 2 => 1
  | 3 => 2
  | _ => 0

/-- The example schema meets the hypotheses: decoding a shape from any input does not panic. -/
example (s : RState) (e : Err) (he : (rrun ((methods exSchema 3 3).unmarshal (methods exSchema 3 3).zero) s).1 = .error e) : e.isPanic = false := by
  refine C91_decode_new exSchema exSchema_tame exSchemaRank ?_ 3 3 (by decide) s e he
  intro name f hf m hm
  match name with
  | 0 =>
    replace hf : f ∈ exPoint := hf
    simp only [exPoint, List.mem_cons, List.not_mem_nil, or_false] at hf
    rcases hf with rfl | rfl | rfl | rfl <;> cases hm
  | 1 => cases hf
  | 2 =>
    replace hf : f ∈ exScene := hf
    simp only [exScene, List.mem_cons, List.not_mem_nil, or_false] at hf
    rcases hf with rfl | rfl | rfl | rfl | rfl | rfl | rfl <;> cases hm <;> decide
  | 3 =>
    simp only [Decl.allFields, exSchema, List.mem_cons, List.not_mem_nil, or_false] at hf
    rcases hf with rfl | rfl <;> cases hm
    decide
  | 4 =>
    simp [Decl.allFields, exSchema, choiceFields] at hf
    rcases hf with rfl | rfl | rfl <;> cases hm
  | _ + 5 => cases hf

/-- The error of an input that ends too early is reported. -/
example : (rrun ((methods exSchema 3 3).unmarshal (methods exSchema 3 3).zero) ⟨natBits 8 1 ++ natBits 4 3, 0⟩).1.isOk = false := by decide +kernel

/-- `struct S { int8 n; uint8 a[n]; };` -/
def exNegative : Nat → Decl := fun _ => .struct [⟨noExprs, 0, false, .prim (.sbits 8 8), none, false⟩,
  ⟨fun e => ⟨true, none, some (((e.fields.head?.getD .none).asBits 8).toInt), none⟩, 0, false, .prim (.bits 8 8), some false, false⟩]

/-- C91 does not hold for array lengths that can be negative: one byte panics. -/
theorem C91_violated_length :
    ((rrun ((methods exNegative 1 0).unmarshal (methods exNegative 1 0).zero) ⟨List.replicate 8 true, 0⟩).1.map fun _ => ()) = .error (.panic "makeslice: len out of range") := by
  decide +kernel

/-- `struct S { uint8 n; int<n> a; };` -/
def exWide : Nat → Decl := fun _ => .struct [exByte, ⟨fun e => ⟨true, some (e.num 0), none, none⟩, 0, false, .prim (.sbits 64 64), none, false⟩]

/-- C91 does not hold for signed bit fields whose width can be above 64. -/
theorem C91_violated_width :
    (∃ e, ((rrun ((methods exWide 1 0).unmarshal (methods exWide 1 0).zero) ⟨natBits 8 65 ++ List.replicate 80 true, 0⟩).1.map fun _ => ()) = .error e ∧ e.isPanic = true) := by
  refine ⟨_, rfl, ?_⟩
  decide +kernel

/-- `struct T { optional T next; };` -/
def exChain : Nat → Decl := fun _ => .struct [⟨noExprs, 0, true, .comp 0, none, false⟩]

theorem chain_overflow (n : Nat) : ∀ pos, (rrun ((methods exChain n 0).unmarshal (methods exChain n 0).zero) ⟨List.replicate n true, pos⟩).1 = .error overflow := by
  induction n with
  | zero => intro pos; rfl
  | succ n ih =>
    intro pos
    show (rrun (do
      let vs ← decLoop (methods exChain n) [] [] [⟨noExprs, 0, true, .comp 0, none, false⟩] [.none]
      pure (Val.obj 0 [] vs)) _).1 = _
    have hd : ∀ x, (rrun (Field.decode (methods exChain n) ⟨noExprs, 0, true, .comp 0, none, false⟩ (noExprs x) .none) ⟨List.replicate (n + 1) true, pos⟩).1 = .error overflow := by
      intro x
      show (rrun (do
        let present ← Rd.bool
        if present then do
          let v ← (methods exChain n 0).unmarshal (methods exChain n 0).zero
          pure (Val.some v)
        else pure Val.none) _).1 = _
      rw [rrun_bind, List.replicate_succ, rrun_bool_cons]
      dsimp only
      rw [if_pos rfl, rrun_bind]
      have := ih (pos + 1)
      revert this
      generalize rrun ((methods exChain n 0).unmarshal (methods exChain n 0).zero) ⟨List.replicate n true, pos + 1⟩ = q
      obtain ⟨r, s'⟩ := q
      intro this
      cases this
      rfl
    rw [rrun_bind]
    unfold decLoop
    rw [rrun_bind]
    have := hd ⟨[], [] ++ [.none]⟩
    revert this
    dsimp only
    generalize rrun (Field.decode _ _ _ _) _ = q
    obtain ⟨r, s'⟩ := q
    intro this
    cases this
    rfl

/-- C91 does not hold for types that contain themselves: however large the stack is, there is an input that exhausts it. -/
theorem C91_violated_recursive (n : Nat) :
    ∃ s, (rrun ((methods exChain n 0).unmarshal (methods exChain n 0).zero) s).1 = .error overflow := ⟨⟨List.replicate n true, 0⟩, chain_overflow n 0⟩

end Verif
