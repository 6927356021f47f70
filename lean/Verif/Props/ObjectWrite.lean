import Verif.Props.ObjectStream
import Verif.Props.Object

/-!
# C25 and C14 for generated objects, through `Marshal`, `Unmarshal` and a sink that can fail

The round trip of C25 is stated for sequences of bits.  Here it is taken to the bytes that `Marshal` returns and `Unmarshal` gets, for schemas without
packed arrays.  Objects without arrays report every error of the sink (C14).
-/

namespace Verif

/-- A kind of write programs. -/
structure Writing (C : {α : Type} → Wr α → Prop) : Prop where
  pure : ∀ {α : Type} (a : α), C (Pure.pure a : Wr α)
  throw : ∀ {α : Type} (e : Err), C (MonadExcept.throw e : Wr α)
  bind : ∀ {α β : Type} {p : Wr α} {f : α → Wr β}, C p → (∀ a, C (f a)) → C (p >>= f)
  bool : ∀ b, C (writeBool b)
  size : ∀ v, C (writeVarsize v)

theorem writing_strict : Writing @Wr.Strict := ⟨.pure, .throw, .bind, fun b => (writeBool_good b).1, fun v => (writeVarsize_good v).1⟩

theorem writing_safe : Writing @Wr.Safe := ⟨.pure, .throw, .bind, fun b => (writeBool_good b).2, fun v => (writeVarsize_good v).2⟩

/-- Fields whose padding, builtin values and arrays can be written. -/
structure Field.WritesIn (C : {α : Type} → Wr α → Prop) (ms : Nat → Meth) (f : Field) : Prop where
  align : C (alignW f.align)
  scalar : ∀ k, f.ty = .prim k → ∀ env v, C ((k.withWidth (f.exprs env).width).writeS v)
  array : ∀ packed, f.arr = some packed → ∀ env v, C (f.writeArr ms (f.exprs env) packed v)

/-- Declarations of such fields. -/
def Decl.WritesIn (C : {α : Type} → Wr α → Prop) (ms : Nat → Meth) (d : Decl) : Prop :=
  (∀ f ∈ d.allFields, f.WritesIn C ms) ∧ ∀ k, d = .enum k → ∀ v, C (k.writeS v)

section
variable {C : {α : Type} → Wr α → Prop} (hC : Writing @C) {ms : Nat → Meth} (hm : ∀ m v, C ((ms m).marshal v))
include hC hm

omit hC in
theorem Writing.value {f : Field} (hf : f.WritesIn C ms) (env : Env) (v : Val) : C (f.writeVal ms (f.exprs env) v) := by
  unfold Field.writeVal
  cases ha : f.arr with
  | some packed => exact hf.array packed ha env v
  | none =>
    cases ht : f.ty with
    | prim k => exact hf.scalar k ht env _
    | comp m => exact hm m _

theorem Writing.field {f : Field} (hf : f.WritesIn C ms) (env : Env) (v : Val) : C (f.encode ms (f.exprs env) v) := by
  unfold Field.encode
  split
  · refine hC.bind ?_ fun _ => ?_
    · unfold Field.alignWr
      split
      · exact hC.pure ()
      · exact hC.bind hf.align fun _ => hC.pure ()
    · split
      · split
        · exact hC.bool false
        · exact hC.bind (hC.bool true) fun _ => Writing.value hm hf env _
        · exact hC.throw _
      · exact Writing.value hm hf env v
  · exact hC.pure ()

theorem Writing.fields (env : Env) : ∀ {fs : List Field}, (∀ f ∈ fs, f.WritesIn C ms) → ∀ vs, C (encLoop ms env fs vs)
  | [], _, [] => hC.pure ()
  | [], _, _ :: _ => hC.throw _
  | _ :: _, _, [] => hC.throw _
  | f :: _, h, v :: vs => hC.bind (hC.field hm (h f List.mem_cons_self) env v) fun _ =>
      Writing.fields env (fun g hg => h g (List.mem_cons_of_mem _ hg)) vs

theorem Writing.one {fs : List Field} (h : ∀ f ∈ fs, f.WritesIn C ms) (i : Nat) (ps vs : List Val) : C (encAt ms fs i ps vs) := by
  unfold encAt
  split
  · rename_i f v hf _
    exact hC.field hm (h f (List.mem_of_getElem? hf)) _ v
  · exact hC.throw _

theorem Writing.decl {d : Decl} (h : d.WritesIn C ms) (v : Val) : C ((d.meth ms).marshal v) := by
  cases d with
  | struct fs =>
    cases v with
    | obj t ps vs => exact hC.fields hm _ h.1 vs
    | _ => exact hC.throw _
  | union fs =>
    cases v with
    | obj t ps vs =>
      refine hC.bind (hC.size _) fun u => ?_
      split
      · exact hC.one hm h.1 _ ps vs
      · exact hC.pure _
    | _ => exact hC.throw _
  | choice sel cases dflt =>
    cases v with
    | obj t ps vs =>
      simp only [Decl.meth, choiceMeth]
      split
      · exact hC.one hm h.1 _ ps vs
      · exact hC.pure _
    | _ => exact hC.throw _
  | enum k => exact h.2 k rfl _

end

theorem Writing.schema {C : {α : Type} → Wr α → Prop} (hC : Writing @C) {schema : Nat → Decl}
    (h : ∀ (ms : Nat → Meth), (∀ m v, C ((ms m).marshal v)) → ∀ i, (schema i).WritesIn C ms) : ∀ n name v, C ((methods schema n name).marshal v)
  | 0, _, _ => hC.throw _
  | n + 1, name, v => Writing.decl hC (Writing.schema hC h n) (h _ (Writing.schema hC h n) name) v

/-! ## Builtin types -/

/-- Bit fields of at most 248 bits, so that Go's uint8 counter of bits does not wrap around. -/
def Elem.Narrow : Elem → Prop
  | .bits _ n | .sbits _ n => n ≤ 248
  | _ => True

theorem strict_alignW (b : Nat) : (alignW b).Strict := by
  unfold alignW
  exact .bind .pos fun c => .bind (.lift _) fun d => .ite (.pure _) (.bind (.bits _ _) fun _ => .pos)

theorem strict_write (k : Elem) (v : k.T) : (k.traits.write v).Strict := by
  cases k with
  | bits w n => exact .bits _ n
  | sbits w n => exact .bits _ n
  | bool => exact (writeBool_good _).1
  | string => exact (writeString_good _).1
  | bytes => cases v <;> first | exact (writeBytes_good _).1 | exact .throw _
  | extern => cases v <;> first | exact (writeExtern_good _).1 | exact .throw _
  | float16 => exact (writeFloat16_good _).1
  | float32 => exact (writeFloat32_good _).1
  | float64 => exact (writeFloat64_good _).1
  | varint => exact (writeVarint_good _).1
  | varint16 => exact (writeVarInt_good _ _).1
  | varint32 => exact (writeVarInt_good _ _).1
  | varint64 => exact (writeVarInt_good _ _).1
  | varuint => exact (writeVarUint_good _ _).1
  | varuint16 => exact (writeVarUint_good _ _).1
  | varuint32 => exact (writeVarUint_good _ _).1
  | varuint64 => exact (writeVarUint_good _ _).1
  | varsize => exact (writeVarsize_good _).1

theorem strict_writeS (k : Elem) (v : k.T) : (k.writeS v).Strict := by
  cases k with
  | bits w n => exact .ite (.throw _) (.bits _ n)
  | sbits w n => exact (writeSignedBits_good _ n).1
  | _ => exact strict_write _ v

theorem safe_write {k : Elem} (h : k.Narrow) (v : k.T) : (k.traits.write v).Safe := by
  cases k with
  | bits w n => exact .bits _ h
  | sbits w n => exact .bits _ h
  | bool => exact (writeBool_good _).2
  | string => exact (writeString_good _).2
  | bytes => cases v <;> first | exact (writeBytes_good _).2 | exact .throw _
  | extern => cases v <;> first | exact (writeExtern_good _).2 | exact .throw _
  | float16 => exact (writeFloat16_good _).2
  | float32 => exact (writeFloat32_good _).2
  | float64 => exact (writeFloat64_good _).2
  | varint => exact (writeVarint_good _).2
  | varint16 => exact (writeVarInt_good _ _).2
  | varint32 => exact (writeVarInt_good _ _).2
  | varint64 => exact (writeVarInt_good _ _).2
  | varuint => exact (writeVarUint_good _ _).2
  | varuint16 => exact (writeVarUint_good _ _).2
  | varuint32 => exact (writeVarUint_good _ _).2
  | varuint64 => exact (writeVarUint_good _ _).2
  | varsize => exact (writeVarsize_good _).2

theorem safe_writeS {k : Elem} (h : k.Narrow) (v : k.T) : (k.writeS v).Safe := by
  cases k with
  | bits w n => exact (writeUnsignedBits_good _ h).2
  | sbits w n => exact (writeSignedBits_good _ n).2
  | _ => exact safe_write h v

/-! ## Arrays that are not packed -/

theorem safe_check (b : Bool) : (offsetAlignW b).Safe := by
  unfold offsetAlignW
  split
  · exact .bind (alignW_good (by decide)).2 fun _ => .pure ()
  · exact .pure ()

theorem safe_header (cfg : ArrCfg) (n : Nat) : (Arr.header cfg n).Safe := by
  unfold Arr.header
  split
  · exact (writeVarsize_good _).2
  · exact .pure ()

theorem safe_array {T : Type} {tr : Traits T} (h : ∀ v, (tr.write v).Safe) {cfg : ArrCfg} (hu : cfg.isPacked = false) (es : List T) :
    (Arr.marshalW tr cfg es).Safe := by
  have hp : ∀ es : List T, (Arr.plainLoop tr cfg.hasCheck es).Safe := by
    intro es
    induction es with
    | nil => exact .pure ()
    | cons e es ih => exact .bind (safe_check _) fun _ => .bind (.dropErr (h e)) fun _ => ih
  refine WM.Safe.bind (WM.Safe.bind (safe_header _ _) fun r => ?_) fun r => .pure _
  cases r with
  | error x => exact .pure _
  | ok u =>
    dsimp only
    split
    · exact .pure _
    · rw [hu, if_neg (by decide)]
      exact WM.Safe.bind (hp es) fun r => .pure _

theorem safe_objects {m : Meth} (h : ∀ v, (m.marshal v).Safe) {cfg : ArrCfg} (hu : cfg.isPacked = false) (vs : List Val) :
    (ObjArr.marshal m cfg vs).Safe := by
  have hp : ∀ vs : List Val, (ObjArr.plainLoop m cfg.hasCheck vs).Safe := by
    intro vs
    induction vs with
    | nil => exact .pure ()
    | cons v vs ih => exact .bind (safe_check _) fun _ => .bind (.dropErr (h v)) fun _ => ih
  refine .bind (safe_header _ _) fun _ => .ite (fun _ => .pure ()) fun _ => ?_
  rw [hu, if_neg (by decide)]
  exact hp vs

/-- Alignments and bit fields of at most 248 bits. -/
def Decl.Narrow (d : Decl) : Prop :=
  (∀ f ∈ d.allFields, f.align ≤ 248 ∧ ∀ k, f.ty = .prim k → ∀ env, (k.withWidth (f.exprs env).width).Narrow) ∧ ∀ k, d = .enum k → k.Narrow

/-- No arrays. -/
def Decl.Arrayless (d : Decl) : Prop := ∀ f ∈ d.allFields, f.arr = Option.none

theorem objects_safe {schema : Nat → Decl} (hu : ∀ i, Wire.Unpacked (schema i)) (hn : ∀ i, (schema i).Narrow) (n name : Nat) (v : Val) :
    ((methods schema n name).marshal v).Safe := by
  refine writing_safe.schema (fun ms hm i => ⟨fun f hf => ⟨(alignW_good ((hn i).1 f hf).1).2, fun k hk env v => safe_writeS (((hn i).1 f hf).2 k hk env) v, ?_⟩,
    fun k hk v => safe_writeS ((hn i).2 k hk) v⟩) n name v
  intro packed ha env v
  have hp : packed = false := by
    have := (hu i).fields f hf
    rw [ha] at this
    simpa using this
  subst hp
  unfold Field.writeArr
  split
  · split
    · cases ht : f.ty with
      | prim k =>
        refine safe_array (tr := (k.withWidth (f.exprs env).width).vt) (fun v => ?_) ?_ _
        · exact safe_write (((hn i).1 f hf).2 k ht env) ((k.withWidth (f.exprs env).width).val v)
        · rfl
      | comp m =>
        refine safe_objects (hm m) ?_ _
        rfl
    · exact .throw _
  · exact .throw _

theorem objects_report {schema : Nat → Decl} (ha : ∀ i, (schema i).Arrayless) (n name : Nat) (v : Val) : ((methods schema n name).marshal v).Strict :=
  writing_strict.schema (fun ms _ i => ⟨fun f hf => ⟨strict_alignW _, fun k _ env v => strict_writeS _ v, fun p h => by rw [ha i f hf] at h; cases h⟩,
    fun k _ v => strict_writeS k v⟩) n name v

/-! ## The claims -/

/-- **C25** through `Marshal` and `Unmarshal`, for schemas without packed arrays: the bytes that `Marshal` returns for an object, whatever bytes follow
them, make the same object again.  `Typed` are the values of the generated Go type that agree with `old` where nothing is transmitted.

Missing: packed arrays, and what `Typed` and `Wf` exclude (see C25). -/
theorem C25_bytes_partial {schema : Nat → Decl} (hw : ∀ i, (schema i).Wf) (hu : ∀ i, Wire.Unpacked (schema i)) (hn : ∀ i, (schema i).Narrow)
    (hp : ∀ i, (schema i).Positive) (n name : Nat) (old v : Val) (ht : Typed schema n name old v) (bytes : List Byte)
    (hm : marshal ((methods schema n name).marshal v) = .ok bytes) (t : List Byte) :
    unmarshal (bytes ++ t) ((methods schema n name).unmarshal old) = .ok v := by
  have hs := objects_safe hu hn n name v
  cases hr : wrun ((methods schema n name).marshal v) [] with
  | mk r s =>
    cases r with
    | error e =>
      rw [C10_marshal_error _ hs e s hr] at hm
      cases hm
    | ok u =>
      have hrt := (schema_laws schema hw n name).1 _ _ (schema_accept schema hw n name old v [] ht (by rw [Succeeds, hr]))
      obtain ⟨b, h1, h2⟩ := C10_roundtrip _ _ v hs (objects_good hu hp n name old).safe hrt
      rw [hm] at h1
      cases h1
      exact h2 t

/-- **C14** for generated objects without arrays: if the sink fails when the object or its last bits are written, the failure is reported.  The sink gets
the bytes of `Marshal` if no error is reported.

Missing: arrays, for which it is false (`C14_array_violates`). -/
theorem C14_objects_partial {schema : Nat → Decl} (ha : ∀ i, (schema i).Arrayless) (n name : Nat) (v : Val) (fault : Nat → Bool) :
    (∀ w, writeToSink fault ((methods schema n name).marshal v) = (.ok (), w) →
      marshal ((methods schema n name).marshal v) = .ok w.out ∧ ∀ j, j < w.tries → fault j = false) ∧
    ∀ w, writeToSink noFault ((methods schema n name).marshal v) = (.ok (), w) → ∀ j, j < w.tries → fault j = true →
      ∃ e w', writeToSink fault ((methods schema n name).marshal v) = (.error e, w') :=
  have hs := objects_report ha n name v
  ⟨fun w h => ⟨(C14_sink _ hs fault w h).1, (C14_sink _ hs fault w h).2.2⟩, fun w h j hj hf => C14_sink_error _ hs fault w h j hj hf⟩

/-! ## Cases -/

/-- The object of `exStreamedBits`. -/
def exStreamedVal : Val := .obj 0 [] [.bits 8 (-1), .some (.str [97#8]), .list [.bool true, .bool false], .obj 2 [] [.bits 16 0#16, .bits 64 3#64]]

theorem exStreamed_wf (i : Nat) : (exStreamed i).Wf := by
  rcases i with _ | _ | i
  · exact ⟨fun _ _ _ _ => rfl, fun _ _ _ _ => rfl, fun _ _ _ _ => rfl, fun _ _ _ _ => rfl, trivial⟩
  · intro f hf
    simp only [List.mem_cons, List.not_mem_nil, or_false] at hf
    rcases hf with rfl | rfl <;> exact fun _ _ _ _ => rfl
  · exact ⟨⟨by decide, by decide, by decide⟩, rfl⟩

theorem exStreamed_narrow (i : Nat) : (exStreamed i).Narrow := by
  rcases i with _ | _ | i
  · refine ⟨fun f hf => ?_, nofun⟩
    simp only [exStreamed, Decl.allFields, List.mem_cons, List.not_mem_nil, or_false] at hf
    rcases hf with rfl | rfl | rfl | rfl <;>
      exact ⟨by decide, fun k hk env => by cases hk <;> first | trivial | exact (by decide : 5 ≤ 248)⟩
  · refine ⟨fun f hf => ?_, nofun⟩
    simp only [exStreamed, Decl.allFields, List.mem_cons, List.not_mem_nil, or_false] at hf
    rcases hf with rfl | rfl <;>
      exact ⟨by decide, fun k hk env => by cases hk; first | trivial | exact (by decide : 11 ≤ 248)⟩
  · exact ⟨nofun, fun k hk => by cases hk; exact (by decide : 3 ≤ 248)⟩

theorem exStreamed_typed : Typed exStreamed 2 0 exStreamedOld exStreamedVal := by
  refine ⟨0, [], _, _, rfl, rfl, ⟨by decide, ⟨by decide, by decide, by decide⟩, ⟨(-1 : BitVec 8), rfl, trivial⟩⟩,
    ⟨by decide, Or.inr ⟨_, rfl, trivial, ([97#8] : List Byte), rfl, ?_⟩⟩, ⟨by decide, ?_⟩, ⟨by decide, rfl, ?_⟩, trivial⟩
  · show 1 < 2 ^ 63
    decide
  · refine ⟨_, rfl, by decide, trivial, nofun, fun v hv => ?_⟩
    simp only [List.mem_cons, List.not_mem_nil, or_false] at hv
    rcases hv with rfl | rfl
    · exact ⟨true, rfl, trivial⟩
    · exact ⟨false, rfl, trivial⟩
  · exact ⟨0, 2, [], _, _, rfl, rfl, by decide, ⟨_, _, _, rfl, rfl, rfl, by decide, trivial, (3#64 : BitVec 64), rfl, trivial⟩⟩

/-- The bytes of this object, with anything behind them, make the object again. -/
example : marshal ((methods exStreamed 2 0).marshal exStreamedVal) = .ok exStreamedBytes ∧
    ∀ t, unmarshal (exStreamedBytes ++ t) ((methods exStreamed 2 0).unmarshal exStreamedOld) = .ok exStreamedVal :=
  have h : marshal ((methods exStreamed 2 0).marshal exStreamedVal) = .ok exStreamedBytes := by decide +kernel
  ⟨h, C25_bytes_partial exStreamed_wf exStreamed_unpacked exStreamed_narrow exStreamed_positive 2 0 _ _ exStreamed_typed _ h⟩

/-- The union alone has no arrays: a sink that fails at the second byte is noticed. -/
example : ∃ e w, writeToSink (fun j => j == 1) ((methods (fun _ => exStreamed 1) 1 0).marshal (.obj 2 [] [.bits 16 0#16, .bits 64 3#64])) = (.error e, w) := by
  refine (C14_objects_partial (schema := fun _ => exStreamed 1) (fun i f hf => ?_) 1 0 _ _).2 _ (Prod.ext (by decide +kernel) rfl) 1 (by decide +kernel) rfl
  simp only [exStreamed, Decl.allFields, List.mem_cons, List.not_mem_nil, or_false] at hf
  rcases hf with rfl | rfl <;> rfl

end Verif
