import Verif.Props.Stream
import Verif.Props.Array
import Verif.Props.NoPanic
import Verif.WireDefined

/-!
# C12 and C13 for generated objects

Decoding an object of a schema without packed arrays reports every error it sees, so that bits behind the object make no difference and truncated input
is reported.  `Reading` collects what the proof needs, for the two kinds of programs (`Rd.Strict`, and `Rd.Good` that also does not use the bit
reader in ways for which it is not a flat bit sequence).
-/

namespace Verif

/-- A kind of read programs. -/
structure Reading (C : {α : Type} → Rd α → Prop) : Prop where
  pure : ∀ {α : Type} (a : α), C (Pure.pure a : Rd α)
  throw : ∀ {α : Type} (e : Err), C (MonadExcept.throw e : Rd α)
  bind : ∀ {α β : Type} {p : Rd α} {f : α → Rd β}, C p → (∀ a, C (f a)) → C (p >>= f)
  bool : C readBool
  size : C readVarsize
  align : ∀ b, C (alignR b)

theorem reading_strict : Reading @Rd.Strict :=
  ⟨.pure, .throw, .bind, readBool_good.1, readVarsize_good.1, fun b => (alignR_good b).1⟩

theorem reading_good : Reading @Rd.Good := ⟨.pure, .throw, .bind, readBool_good, readVarsize_good, alignR_good⟩

/-- Fields that are not packed arrays and whose builtin values can be read. -/
structure Field.ReadsIn (C : {α : Type} → Rd α → Prop) (f : Field) : Prop where
  unpacked : f.arr ≠ some true
  scalar : ∀ k, f.ty = .prim k → ∀ env, C (k.withWidth (f.exprs env).width).readS ∧ C (k.withWidth (f.exprs env).width).traits.read

/-- Declarations of such fields. -/
def Decl.ReadsIn (C : {α : Type} → Rd α → Prop) (d : Decl) : Prop := (∀ f ∈ d.allFields, f.ReadsIn C) ∧ ∀ k, d = .enum k → C k.readS

section
variable {C : {α : Type} → Rd α → Prop} (hC : Reading @C) {ms : Nat → Meth} (hm : ∀ m old, C ((ms m).unmarshal old))
include hC

theorem Reading.check (b : Bool) : C (offsetAlignR b) := by
  unfold offsetAlignR
  split
  · exact hC.bind (hC.align 8) fun _ => hC.pure ()
  · exact hC.pure ()

theorem Reading.length (cfg : ArrCfg) : C (if cfg.isAuto then do let n ← readVarsize; Pure.pure n.toNat else Pure.pure cfg.fixedSize : Rd Nat) := by
  split
  · exact hC.bind hC.size fun _ => hC.pure _
  · exact hC.pure _

theorem Reading.array {T : Type} {tr : Traits T} (h : C tr.read) (cfg : ArrCfg) (hu : cfg.isPacked = false) : C (Arr.unmarshal tr cfg) := by
  unfold Arr.unmarshal
  refine hC.bind (hC.length cfg) fun n => ?_
  rw [hu, if_neg (by decide)]
  induction n with
  | zero => exact hC.pure []
  | succ n ih => exact hC.bind (hC.check _) fun _ => hC.bind h fun _ => hC.bind ih fun _ => hC.pure _

theorem Reading.objects {m : Meth} (h : ∀ old, C (m.unmarshal old)) (cfg : ArrCfg) (hu : cfg.isPacked = false) (setp : Nat → Val → Val) :
    C (ObjArr.unmarshal m cfg setp) := by
  unfold ObjArr.unmarshal
  refine hC.bind (hC.length cfg) fun n => ?_
  rw [hu]
  split
  · exact hC.pure []
  · rw [if_neg (by decide)]
    generalize 0 = i
    induction n generalizing i with
    | zero => exact hC.pure []
    | succ n ih => exact hC.bind (hC.check _) fun _ => hC.bind (h _) fun _ => hC.bind (by
        rcases n with _ | n
        · exact hC.pure []
        · exact ih (by omega) _) fun _ => hC.pure _

include hm

theorem Reading.value {f : Field} (hf : f.ReadsIn C) (env : Env) (old : Val) : C (f.readVal ms (f.exprs env) old) := by
  unfold Field.readVal
  cases ha : f.arr with
  | some packed =>
    have hp : packed = false := by
      have := hf.unpacked
      rw [ha] at this
      simpa using this
    subst hp
    dsimp only
    unfold Field.readArr
    split
    · exact hC.throw _
    · cases ht : f.ty with
      | prim k =>
        refine hC.bind (hC.array ?_ _ rfl) fun _ => hC.pure _
        exact hC.bind (hf.scalar k ht env).2 fun _ => hC.pure _
      | comp m => exact hC.bind (hC.objects (hm m) _ rfl _) fun _ => hC.pure _
  | none =>
    cases ht : f.ty with
    | prim k => exact hC.bind (hf.scalar k ht env).1 fun _ => hC.pure _
    | comp m => exact hm m _

theorem Reading.field {f : Field} (hf : f.ReadsIn C) (env : Env) (old : Val) : C (f.decode ms (f.exprs env) old) := by
  unfold Field.decode
  split
  · refine hC.bind ?_ fun _ => ?_
    · unfold Field.alignRd
      split
      · exact hC.pure ()
      · exact hC.bind (hC.align _) fun _ => hC.pure ()
    · split
      · refine hC.bind hC.bool fun b => ?_
        split
        · exact hC.bind (hC.value hm hf env _) fun _ => hC.pure _
        · exact hC.pure _
      · exact hC.value hm hf env old
  · exact hC.pure old

theorem Reading.fields (ps : List Val) : ∀ {fs : List Field}, (∀ f ∈ fs, f.ReadsIn C) → ∀ done olds, C (decLoop ms ps done fs olds)
  | [], _, done, [] => hC.pure done
  | [], _, _, _ :: _ => hC.throw _
  | _ :: _, _, _, [] => hC.throw _
  | f :: _, h, _, old :: _ => hC.bind (hC.field hm (h f List.mem_cons_self) _ old) fun _ =>
      Reading.fields ps (fun g hg => h g (List.mem_cons_of_mem _ hg)) _ _

theorem Reading.one {fs : List Field} (h : ∀ f ∈ fs, f.ReadsIn C) (i : Nat) (ps olds : List Val) : C (decAt ms fs i ps olds) := by
  unfold decAt
  split
  · rename_i f old hf _
    exact hC.bind (hC.field hm (h f (List.mem_of_getElem? hf)) _ old) fun _ => hC.pure _
  · exact hC.throw _

theorem Reading.decl {d : Decl} (h : d.ReadsIn C) (old : Val) : C ((d.meth ms).unmarshal old) := by
  cases d with
  | struct fs =>
    cases old with
    | obj t ps olds => exact hC.bind (hC.fields hm ps h.1 [] olds) fun _ => hC.pure _
    | _ => exact hC.throw _
  | union fs =>
    cases old with
    | obj t ps olds =>
      refine hC.bind hC.size fun u => ?_
      dsimp only
      split
      · exact hC.bind (hC.one hm h.1 _ ps olds) fun _ => hC.pure _
      · exact hC.pure _
    | _ => exact hC.throw _
  | choice sel cases dflt =>
    cases old with
    | obj t ps olds =>
      simp only [Decl.meth, choiceMeth]
      split
      · exact hC.bind (hC.one hm h.1 _ ps olds) fun _ => hC.pure _
      · exact hC.pure _
    | _ => exact hC.throw _
  | enum k => exact hC.bind (h.2 k rfl) fun _ => hC.pure _

end

theorem Reading.schema {C : {α : Type} → Rd α → Prop} (hC : Reading @C) {schema : Nat → Decl} (h : ∀ i, (schema i).ReadsIn C) :
    ∀ n name old, C ((methods schema n name).unmarshal old)
  | 0, _, _ => hC.throw _
  | n + 1, name, old => Reading.decl hC (Reading.schema hC h n) (h name) old

/-! ## Builtin types -/

/-- Bit fields of at least one bit. -/
def Elem.Positive : Elem → Prop
  | .bits _ n | .sbits _ n => 0 < n
  | _ => True

theorem strict_signed (n : Nat) : (readSignedBits n).Strict := by
  unfold readSignedBits
  exact .ite (.throw _) (.bind (.bits n) fun _ => .ite (.pure _) (.pure _))

theorem strict_traits (k : Elem) : k.traits.read.Strict := by
  cases k with
  | bits w n => exact .bind (.bits n) fun _ => .pure _
  | sbits w n => exact .bind (.bits n) fun _ => .pure _
  | bool => exact readBool_good.1
  | string => exact readString_good.1
  | bytes => exact .bind readBytes_good.1 fun _ => .pure _
  | extern => exact .bind readExtern_good.1 fun _ => .pure _
  | float16 => exact readFloat16_good.1
  | float32 => exact readFloat32_good.1
  | float64 => exact readFloat64_good.1
  | varint => exact readVarint_good.1
  | varint16 => exact (readVarS_good 16 0).1
  | varint32 => exact (readVarS_good 32 2).1
  | varint64 => exact (readVarS_good 64 6).1
  | varuint => exact (readVarU_good 64 7).1
  | varuint16 => exact (readVarU_good 16 0).1
  | varuint32 => exact (readVarU_good 32 2).1
  | varuint64 => exact (readVarU_good 64 6).1
  | varsize => exact readVarsize_good.1

theorem strict_readS (k : Elem) : k.readS.Strict := by
  cases k with
  | bits w n => exact .bind (.bits n) fun _ => .pure _
  | sbits w n => exact .bind (strict_signed n) fun _ => .pure _
  | _ => exact strict_traits _

theorem good_traits {k : Elem} (h : k.Positive) : k.traits.read.Good := by
  cases k with
  | bits w n => exact .bind (readUnsignedBits_good h) fun _ => .pure _
  | sbits w n => exact .bind (readUnsignedBits_good h) fun _ => .pure _
  | bool => exact readBool_good
  | string => exact readString_good
  | bytes => exact .bind readBytes_good fun _ => .pure _
  | extern => exact .bind readExtern_good fun _ => .pure _
  | float16 => exact readFloat16_good
  | float32 => exact readFloat32_good
  | float64 => exact readFloat64_good
  | varint => exact readVarint_good
  | varint16 => exact readVarS_good 16 0
  | varint32 => exact readVarS_good 32 2
  | varint64 => exact readVarS_good 64 6
  | varuint => exact readVarU_good 64 7
  | varuint16 => exact readVarU_good 16 0
  | varuint32 => exact readVarU_good 32 2
  | varuint64 => exact readVarU_good 64 6
  | varsize => exact readVarsize_good

theorem good_readS {k : Elem} (h : k.Positive) : k.readS.Good := by
  cases k with
  | bits w n => exact .bind (readUnsignedBits_good h) fun _ => .pure _
  | sbits w n => exact .bind (readSignedBits_good h) fun _ => .pure _
  | _ => exact good_traits trivial

theorem Wire.Unpacked.fields {d : Decl} (h : Wire.Unpacked d) : ∀ f ∈ d.allFields, f.arr ≠ some true := by
  cases d with
  | enum => exact fun f hf => by cases hf
  | _ => exact h

/-- No field has bit fields of no bits. -/
def Decl.Positive (d : Decl) : Prop :=
  (∀ f ∈ d.allFields, ∀ k, f.ty = .prim k → ∀ env, (k.withWidth (f.exprs env).width).Positive) ∧ ∀ k, d = .enum k → k.Positive

theorem objects_strict {schema : Nat → Decl} (hu : ∀ i, Wire.Unpacked (schema i)) (n name : Nat) (old : Val) :
    ((methods schema n name).unmarshal old).Strict :=
  reading_strict.schema (fun i => ⟨fun f hf => ⟨(hu i).fields f hf, fun _ _ _ => ⟨strict_readS _, strict_traits _⟩⟩, fun _ _ => strict_readS _⟩) n name old

theorem objects_good {schema : Nat → Decl} (hu : ∀ i, Wire.Unpacked (schema i)) (hp : ∀ i, (schema i).Positive) (n name : Nat) (old : Val) :
    ((methods schema n name).unmarshal old).Good :=
  reading_good.schema (fun i => ⟨fun f hf => ⟨(hu i).fields f hf, fun k hk env => ⟨good_readS ((hp i).1 f hf k hk env), good_traits ((hp i).1 f hf k hk env)⟩⟩,
    fun k hk => good_readS ((hp i).2 k hk)⟩) n name old

/-! ## The claims -/

/-- **C12** for generated objects of schemas without packed arrays: bits behind the object make no difference.

Missing: packed arrays, for which it is false (`C12_violated_packed`). -/
theorem C12_objects_partial {schema : Nat → Decl} (hu : ∀ i, Wire.Unpacked (schema i)) (n name : Nat) (old v : Val) (l rest t : List Bool) (pos pos' : Nat)
    (h : rrun ((methods schema n name).unmarshal old) ⟨l, pos⟩ = (.ok v, ⟨rest, pos'⟩)) :
    rrun ((methods schema n name).unmarshal old) ⟨l ++ t, pos⟩ = (.ok v, ⟨rest ++ t, pos'⟩) :=
  C12_flat _ (objects_strict hu n name old) l rest pos pos' v h t

/-- **C12** for generated objects through `Unmarshal`: bytes behind the object make no difference.

Missing: packed arrays (`C12_violated_packed`), and bit fields whose width can be 0. -/
theorem C12_bytes_partial {schema : Nat → Decl} (hu : ∀ i, Wire.Unpacked (schema i)) (hp : ∀ i, (schema i).Positive) (n name : Nat) (old v : Val)
    (b t : List Byte) (h : unmarshal b ((methods schema n name).unmarshal old) = .ok v) : unmarshal (b ++ t) ((methods schema n name).unmarshal old) = .ok v :=
  C12_unmarshal _ (objects_good hu hp n name old) b t v h

/-- **C13** for generated objects of schemas without packed arrays: if an object took `pos' - pos` bits, an input with fewer of them is an error.

Missing: packed arrays, for which it is false (`C13_packed_violates`). -/
theorem C13_objects_partial {schema : Nat → Decl} (hu : ∀ i, Wire.Unpacked (schema i)) (n name : Nat) (old v : Val) (l rest l' : List Bool) (pos pos' : Nat)
    (h : rrun ((methods schema n name).unmarshal old) ⟨l, pos⟩ = (.ok v, ⟨rest, pos'⟩)) (hpre : l' <+: l) (hshort : l'.length < pos' - pos) :
    ∃ e st, rrun ((methods schema n name).unmarshal old) ⟨l', pos⟩ = (.error e, st) :=
  C13_truncation _ (objects_strict hu n name old) l rest l' pos pos' v h hpre hshort

/-- **C13** for generated objects through `Unmarshal`.

Missing: as above, and bit fields whose width can be 0. -/
theorem C13_bytes_partial {schema : Nat → Decl} (hu : ∀ i, Wire.Unpacked (schema i)) (hp : ∀ i, (schema i).Positive) (n name : Nat) (old v : Val)
    (b b' : List Byte) (st : RState) (h : rrun ((methods schema n name).unmarshal old) ⟨bytesBits b, 0⟩ = (.ok v, st)) (hpre : b' <+: b)
    (hshort : 8 * b'.length < st.pos) : ∃ e, unmarshal b' ((methods schema n name).unmarshal old) = .error e :=
  C13_unmarshal _ (objects_good hu hp n name old) b b' v st h hpre hshort

/-! ## Cases -/

/-- `struct S { int:5 a; align(8): optional string b; bool c[]; U d; };` with `union U { bit:11 x; varuint y; };`: a signed bit field, an optional aligned string, an array
and a union. -/
def exStreamed : Nat → Decl
  | 0 => .struct [⟨noExprs, 0, false, .prim (.sbits 8 5), none, false⟩, ⟨noExprs, 8, true, .prim .string, none, false⟩,
      ⟨noExprs, 0, false, .prim .bool, some false, false⟩, ⟨noExprs, 0, false, .comp 1, none, false⟩]
  | 1 => .union [⟨noExprs, 0, false, .prim (.bits 16 11), none, false⟩, ⟨noExprs, 0, false, .prim .varuint, none, false⟩]
  | _ => .enum (.bits 8 3)

theorem exStreamed_unpacked (i : Nat) : Wire.Unpacked (exStreamed i) := by
  rcases i with _ | _ | i
  · intro f hf
    simp only [List.mem_cons, List.not_mem_nil, or_false] at hf
    rcases hf with rfl | rfl | rfl | rfl <;> decide
  · intro f hf
    simp only [List.mem_cons, List.not_mem_nil, or_false] at hf
    rcases hf with rfl | rfl <;> decide
  · trivial

theorem exStreamed_positive (i : Nat) : (exStreamed i).Positive := by
  rcases i with _ | _ | i
  · refine ⟨fun f hf k hk env => ?_, nofun⟩
    simp only [exStreamed, Decl.allFields, List.mem_cons, List.not_mem_nil, or_false] at hf
    rcases hf with rfl | rfl | rfl | rfl <;> cases hk <;> first | trivial | exact (by decide : 0 < 5)
  · refine ⟨fun f hf k hk env => ?_, nofun⟩
    simp only [exStreamed, Decl.allFields, List.mem_cons, List.not_mem_nil, or_false] at hf
    rcases hf with rfl | rfl <;> cases hk <;> first | trivial | exact (by decide : 0 < 11)
  · exact ⟨nofun, fun k hk => by cases hk; exact (by decide : 0 < 3)⟩

/-- -1, the string "a", two truth values, and 3 in the second member of the union: 51 bits. -/
def exStreamedBits : List Bool := Wire.msb 5 31 ++ [false, false, false] ++ [true] ++ Wire.msb 8 1 ++ Wire.msb 8 97 ++ Wire.msb 8 2 ++ [true, false] ++
  Wire.msb 8 2 ++ Wire.msb 8 3

/-- Before decoding. -/
def exStreamedOld : Val := .obj 0 [] [.bits 8 0#8, .none, .list [], .obj 0 [] [.bits 16 0#16, .bits 64 0#64]]

theorem exStreamed_read : ∃ v, rrun ((methods exStreamed 2 0).unmarshal exStreamedOld) ⟨exStreamedBits, 0⟩ = (.ok v, ⟨[], 51⟩) := by
  have h : (match rrun ((methods exStreamed 2 0).unmarshal exStreamedOld) ⟨exStreamedBits, 0⟩ with
    | (.ok _, st) => decide (st = ⟨[], 51⟩)
    | _ => false) = true := by decide +kernel
  revert h
  generalize rrun ((methods exStreamed 2 0).unmarshal exStreamedOld) ⟨exStreamedBits, 0⟩ = r
  obtain ⟨_ | v, st⟩ := r
  · exact nofun
  · exact fun h => ⟨v, by rw [of_decide_eq_true h]⟩

/-- C12 and C13 for these bits: anything may follow, and no proper prefix is accepted. -/
example : (∃ v, ∀ t, rrun ((methods exStreamed 2 0).unmarshal exStreamedOld) ⟨exStreamedBits ++ t, 0⟩ = (.ok v, ⟨t, 51⟩)) ∧
    ∀ l, l <+: exStreamedBits → l.length < 51 → ∃ e st, rrun ((methods exStreamed 2 0).unmarshal exStreamedOld) ⟨l, 0⟩ = (.error e, st) := by
  obtain ⟨v, h⟩ := exStreamed_read
  exact ⟨⟨v, fun t => C12_objects_partial exStreamed_unpacked 2 0 _ v _ [] t 0 51 h⟩,
    fun l hl hs => C13_objects_partial exStreamed_unpacked 2 0 _ v _ [] l 0 51 h hl (by omega)⟩

/-- The same through `Unmarshal`, with the bits padded to seven bytes. -/
def exStreamedBytes : List Byte := [0xf8#8, 0x80#8, 0xb0#8, 0x81#8, 0x40#8, 0x40#8, 0x60#8]

example : bytesBits exStreamedBytes = exStreamedBits ++ [false, false, false, false, false] := by decide +kernel

example : (∃ v, ∀ t, unmarshal (exStreamedBytes ++ t) ((methods exStreamed 2 0).unmarshal exStreamedOld) = .ok v) ∧
    ∀ b, b <+: exStreamedBytes → b.length < 7 → ∃ e, unmarshal b ((methods exStreamed 2 0).unmarshal exStreamedOld) = .error e := by
  obtain ⟨v, h0⟩ := exStreamed_read
  have h := C12_objects_partial exStreamed_unpacked 2 0 _ v _ [] [false, false, false, false, false] 0 51 h0
  rw [show exStreamedBits ++ [false, false, false, false, false] = bytesBits exStreamedBytes by decide +kernel] at h
  refine ⟨⟨v, fun t => C12_bytes_partial exStreamed_unpacked exStreamed_positive 2 0 _ v _ t ?_⟩,
    fun b hb hs => C13_bytes_partial exStreamed_unpacked exStreamed_positive 2 0 _ v _ b _ h hb (by show 8 * b.length < 51; omega)⟩
  unfold unmarshal
  rw [C11_reader_partial _ (objects_good exStreamed_unpacked exStreamed_positive 2 0 _).safe]
  exact congrArg Prod.fst h

/-- `struct S { bit:4 x; packed bool a[3]; };` -/
def exPackedTail : Nat → Decl := fun _ => .struct [⟨noExprs, 0, false, .prim (.bits 8 4), none, false⟩,
  ⟨fun _ => { active := true, width := none, len := some 3, args := none }, 0, false, .prim .bool, some true, false⟩]

/-- Before decoding: `S{}`. -/
def exPackedTailOld : Val := .obj 0 [] [.bits 8 0#8, .list []]

/-- **C12** is false for packed arrays: the error of the descriptor is dropped, so one byte is read as three times false, and the same byte followed by
another one is read as true, false, true. -/
theorem C12_violated_packed :
    unmarshal [0x08#8] ((methods exPackedTail 1 0).unmarshal exPackedTailOld) =
      .ok (.obj 0 [] [.bits 8 0#8, .list [.bool false, .bool false, .bool false]]) ∧
    unmarshal ([0x08#8] ++ [0x3d#8]) ((methods exPackedTail 1 0).unmarshal exPackedTailOld) =
      .ok (.obj 0 [] [.bits 8 0#8, .list [.bool true, .bool false, .bool true]]) :=
  ⟨Val.ok_of_beq (by decide +kernel), Val.ok_of_beq (by decide +kernel)⟩

end Verif
