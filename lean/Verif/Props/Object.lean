import Verif.SchemaAccept

/-!
# Generated code: C24, C25, C27, C28, C29, C47
-/

namespace Verif

/-! ## C24 arrays of objects -/

/-- C24: whatever the element type is, if every element `v` written by its `MarshalZserio` is what its
`UnmarshalZserio` makes of the zero element with the parameters for that index, then the whole array round-trips. -/
theorem C24_object_array_roundtrip (m : Meth) (cfg : ArrCfg) (hu : cfg.isPacked = false) (setp : Nat → Val → Val)
    (vs : List Val) (hlen : if cfg.isAuto then vs.length ≤ maxVarsize else cfg.fixedSize = vs.length)
    (hrt : ∀ i v, vs[i]? = some v → RoundTrip (m.marshal v) (m.unmarshal (setp i m.zero)) v) :
    RoundTrip (ObjArr.marshal m cfg vs) (ObjArr.unmarshal m cfg setp) vs := by
  let ok : Val → Val → Prop := fun old v => RoundTrip (m.marshal v) (m.unmarshal old) v
  have h : ∀ (us : List Val) (j : Nat), (∀ (i : Nat) (v : Val), us[i]? = some v → ok (setp (j + i) m.zero) v) →
      ElemsOk ok m.zero setp j us := by
    intro us
    induction us with
    | nil => intro j _; trivial
    | cons u us ih =>
      intro j h
      refine ⟨h 0 u rfl, ih (j + 1) fun i v hv => ?_⟩
      have := h (i + 1) v (by simpa using hv)
      rwa [show j + (i + 1) = j + 1 + i by omega] at this
  exact ObjArr.marshal_rt (ok := ok) (fun _ _ h => h) cfg hu setp vs
    (h vs 0 fun i v hv => by rw [Nat.zero_add]; exact hrt i v hv) hlen

/-- C24, packed: if the element type's packed methods keep writer and reader in step. -/
theorem C24_packed_object_array_roundtrip (m : Meth) (ok : Val → Val → Prop) (hp : m.Packs ok) (c0 : Ctx)
    (hc : m.create Ctx.empty = .ok c0) (cfg : ArrCfg) (hu : cfg.isPacked = true) (setp : Nat → Val → Val) (vs : List Val)
    (hlen : if cfg.isAuto then vs.length ≤ maxVarsize else cfg.fixedSize = vs.length)
    (hok : ∀ i v, vs[i]? = some v → ok (setp i m.zero) v) :
    RoundTrip (ObjArr.marshal m cfg vs) (ObjArr.unmarshal m cfg setp) vs := by
  have h : ∀ (us : List Val) (j : Nat), (∀ (i : Nat) (v : Val), us[i]? = some v → ok (setp (j + i) m.zero) v) →
      ElemsOk ok m.zero setp j us := by
    intro us
    induction us with
    | nil => intro j _; trivial
    | cons u us ih =>
      intro j h
      refine ⟨h 0 u rfl, ih (j + 1) fun i v hv => ?_⟩
      have := h (i + 1) v (by simpa using hv)
      rwa [show j + (i + 1) = j + 1 + i by omega] at this
  exact ObjArr.marshal_packed_rt hp hc cfg hu setp vs (h vs 0 fun i v hv => by rw [Nat.zero_add]; exact hok i v hv) hlen

/-! ### A schema for the examples

```
struct Point(uint8 n) { int:5 x; varuint y; optional string label; uint8 vals[n]; };
enum uint8 Color { … };
struct Scene {
    uint8 n;
    align(8) Point(n) centre;
    Color c if n > 2;
    packed uint16 hist[];
    Point(n) pts[];
    packed Color colors[];
    bit<n> dyn;
};
union Shape { uint8 radius; Scene scene; };
choice Pick(uint8 sel) on sel { case 1: uint8 a; case 2: string b; default: bool c; };
```
-/

/-- Expressions without clause, width, length or arguments. -/
def noExprs : Env → Exprs := fun _ => ⟨true, none, none, none⟩

/-- Field `i` of the environment as a natural number. -/
def Env.num (e : Env) (i : Nat) : Nat := match e.fields[i]? with | some v => (v.asBits 64).toNat | none => 0

def exPoint : List Field :=
  [⟨noExprs, 0, false, .prim (.sbits 8 5), none, false⟩,
   ⟨noExprs, 0, false, .prim .varuint, none, false⟩,
   ⟨noExprs, 0, true, .prim .string, none, false⟩,
   ⟨fun e => ⟨true, none, some (match e.params[0]? with | some v => ((v.asBits 64).toNat : Int) | none => 0), none⟩, 0, false,
     .prim (.bits 8 8), some false, false⟩]

def exScene : List Field :=
  [⟨noExprs, 0, false, .prim (.bits 8 8), none, false⟩,
   ⟨fun e => ⟨true, none, none, some fun _ => [.bits 8 (BitVec.ofNat 8 (e.num 0))]⟩, 8, false, .comp 0, none, false⟩,
   ⟨fun e => ⟨decide (e.num 0 > 2), none, none, none⟩, 0, false, .comp 1, none, false⟩,
   ⟨noExprs, 0, false, .prim (.bits 16 16), some true, false⟩,
   ⟨fun e => ⟨true, none, none, some fun _ => [.bits 8 (BitVec.ofNat 8 (e.num 0))]⟩, 0, false, .comp 0, some false, false⟩,
   ⟨noExprs, 0, false, .comp 1, some true, false⟩,
   ⟨fun e => ⟨true, some (e.num 0), none, none⟩, 0, false, .prim (.bits 64 64), none, false⟩]

def exSchema : Nat → Decl
  | 0 => .struct exPoint
  | 1 => .enum (.bits 8 8)
  | 2 => .struct exScene
  | 3 => .union [⟨noExprs, 0, false, .prim (.bits 8 8), none, false⟩, ⟨noExprs, 0, false, .comp 2, none, false⟩]
  | 4 => .choice (fun ps => match ps[0]? with | some v => ((v.asBits 64).toNat : Int) | none => 0)
      [([1], some ⟨noExprs, 0, false, .prim (.bits 8 8), none, false⟩),
       ([2], some ⟨noExprs, 0, false, .prim .string, none, false⟩)]
      (some ⟨noExprs, 0, false, .prim .bool, none, false⟩)
  | _ => .struct []

theorem noExprs_local (j : Nat) (a : Nat) (o c : Bool) (t : FTy) (r : Option Bool) :
    Field.Local j ⟨noExprs, a, o, t, r, c⟩ := fun _ _ _ _ => rfl

theorem num_local {j i : Nat} (h : i < j) {ps as bs : List Val} (e : as.take j = bs.take j) :
    Env.num ⟨ps, as⟩ i = Env.num ⟨ps, bs⟩ i := by
  have h1 : as[i]? = bs[i]? := by
    have := congrArg (fun l : List Val => l[i]?) e
    simpa [List.getElem?_take, h] using this
  simp only [Env.num, h1]

theorem exSchema_wf : ∀ name, (exSchema name).Wf
  | 0 => ⟨fun _ _ _ _ => rfl, fun _ _ _ _ => rfl, fun _ _ _ _ => rfl, fun _ _ _ _ => rfl, trivial⟩
  | 1 => ⟨by unfold Elem.Wf; decide, rfl⟩
  | 2 => ⟨fun _ _ _ _ => rfl, fun _ _ _ h => by dsimp only; rw [num_local (by decide) h],
      fun _ _ _ h => by dsimp only; rw [num_local (by decide) h], fun _ _ _ _ => rfl,
      fun _ _ _ h => by dsimp only; rw [num_local (by decide) h], fun _ _ _ _ => rfl,
      fun _ _ _ h => by dsimp only; rw [num_local (by decide) h], trivial⟩
  | 3 => by
    intro f hf
    simp only [List.mem_cons, List.not_mem_nil, or_false] at hf
    rcases hf with rfl | rfl <;> exact fun _ _ _ _ => rfl
  | 4 => by
    intro f hf
    simp only [choiceFields, List.filterMap_cons, List.filterMap_nil, Option.toList, List.mem_append, List.mem_cons,
      List.not_mem_nil, or_false] at hf
    rcases hf with (rfl | rfl) | rfl <;> exact fun _ _ _ _ => rfl
  | _ + 5 => trivial

/-- Two points with two values each. -/
def exPt (x : BitVec 8) (y : BitVec 64) (label : Val) : Val :=
  .obj 0 [.bits 8 2#8] [.bits 8 x, .bits 64 y, label, .list [.bits 8 7#8, .bits 8 9#8]]

def exPtOld : Val := .obj 0 [.bits 8 2#8] [.bits 8 0#8, .bits 64 0#64, .none, .list []]

theorem exPt_ok (p : Bool) (n : Nat) (x : BitVec 8) (y : BitVec 64) (hx : FitsS 5 x) (label : Val)
    (hl : label = .none ∨ label = .some (.str [0x61#8])) :
    Accepts exSchema (n + 1) p 0 exPtOld (exPt x y label) := by
  refine ⟨0, [.bits 8 2#8], _, _, rfl, rfl, ⟨by decide, ⟨by decide, by decide, by decide⟩, ⟨x, rfl, hx⟩⟩,
    ⟨by decide, trivial, ⟨y, rfl, trivial⟩⟩, ⟨by decide, ?_⟩, ⟨by decide, ?_⟩, trivial⟩
  · rcases hl with rfl | rfl
    · exact Or.inl rfl
    · refine Or.inr ⟨_, rfl, trivial, ⟨([0x61#8] : List Byte), rfl, ?_⟩⟩
      show 1 ≤ maxVarsize
      decide
  · have h : ∀ v ∈ [Val.bits 8 7#8, Val.bits 8 9#8], (Elem.bits 8 8).OkV v := by
      intro v hv
      simp only [List.mem_cons, List.not_mem_nil, or_false] at hv
      rcases hv with rfl | rfl
      · exact ⟨(7#8 : BitVec 8), rfl, by unfold Elem.Ok FitsU; decide⟩
      · exact ⟨(9#8 : BitVec 8), rfl, by unfold Elem.Ok FitsU; decide⟩
    refine ⟨_, rfl, ?_, ?_, ⟨by decide, by decide, by decide⟩, fun _ => trivial, h⟩
    · intro l hl
      injection hl with hl
      exact hl.symm.trans rfl
    · intro hl
      exact absurd hl (by simp)

/-- An array of two points, through the generated methods of `Point`. -/
example : RoundTrip
    (ObjArr.marshal (methods exSchema 1 0) ⟨0, true, false, false, true⟩ [exPt 3#8 1000#64 .none, exPt 0xfe#8 5#64 .none])
    (ObjArr.unmarshal (methods exSchema 1 0) ⟨0, true, false, false, true⟩
      fun _ v => match v with | .obj t _ fs => .obj t [.bits 8 2#8] fs | v => v)
    [exPt 3#8 1000#64 .none, exPt 0xfe#8 5#64 .none] := by
  refine C24_object_array_roundtrip _ _ rfl _ _ (by decide) fun i v hv => ?_
  have h : ∀ v, Accepts exSchema 1 false 0 exPtOld v → RoundTrip ((methods exSchema 1 0).marshal v)
      ((methods exSchema 1 0).unmarshal exPtOld) v := fun v h => (schema_laws exSchema exSchema_wf 1 0).1 _ v h
  match i with
  | 0 => injection hv with hv; subst hv; exact h _ (exPt_ok false 0 _ _ (by unfold FitsS SignedFits; decide) _ (Or.inl rfl))
  | 1 => injection hv with hv; subst hv; exact h _ (exPt_ok false 0 _ _ (by unfold FitsS SignedFits; decide) _ (Or.inl rfl))
  | i + 2 => simp at hv

/-! ## C25 structs -/

/-- C25: for every schema, every struct of it, every parameters and field values that `MarshalZserio` accepts (at some
position), unmarshalling into the zero value with these parameters gives the same value, at every position.
`Typed` says that the value has the Go type, that fields switched off by their clause have their zero value, that nested
objects already carry the parameters the schema prescribes and that array elements are in range; it contains neither
ranges nor lengths of anything whose write function reports errors.  Missing from the full claim: the varint64 value
-2^63 and singles that are no halves in float16 fields (excluded by `Elem.Sound`), packed arrays of anything but integers
and bools. -/
theorem C25_struct_roundtrip_partial (schema : Nat → Decl) (hw : ∀ name, (schema name).Wf) (n name : Nat) (fs : List Field)
    (_hd : schema name = .struct fs) (ps vs : List Val)
    (ht : Typed schema (n + 1) name (.obj 0 ps (fs.map (Field.zero (methods schema n)))) (.obj 0 ps vs)) (s : List Bool)
    (hs : (wrun ((methods schema (n + 1) name).marshal (.obj 0 ps vs)) s).1 = .ok ()) :
    RoundTrip ((methods schema (n + 1) name).marshal (.obj 0 ps vs))
      ((methods schema (n + 1) name).unmarshal (.obj 0 ps (fs.map (Field.zero (methods schema n))))) (.obj 0 ps vs) :=
  (schema_laws schema hw (n + 1) name).1 _ _ (schema_accept schema hw (n + 1) name _ _ s ht hs)

def exPtZero : Val := .obj 0 [] [.bits 8 0#8, .bits 64 0#64, .none, .list []]

def exSceneVals : List Val :=
  [.bits 8 2#8, exPt 3#8 1000#64 (.some (.str [0x61#8])), .bits 8 0#8, .list [.bits 16 5#16, .bits 16 9#16, .bits 16 70#16],
    .list [exPt 1#8 2#64 .none, exPt 0xfe#8 5#64 .none], .list [.bits 8 1#8, .bits 8 200#8], .bits 64 3#64]

theorem exColors_ok (n : Nat) (v : BitVec 8) : Accepts exSchema (n + 1) true 1 (.bits 8 0#8) (.bits 8 v) :=
  ⟨v, rfl, v.isLt⟩

theorem exPt_typed (n : Nat) : Typed exSchema (n + 1) 0 exPtOld (exPt 3#8 1000#64 (.some (.str [0x61#8]))) := by
  refine ⟨0, [.bits 8 2#8], _, _, rfl, rfl, ⟨by decide, ⟨by decide, by decide, by decide⟩, ⟨(3#8 : BitVec 8), rfl, trivial⟩⟩,
    ⟨by decide, trivial, ⟨(1000#64 : BitVec 64), rfl, trivial⟩⟩, ⟨by decide, Or.inr ⟨_, rfl, trivial, ([0x61#8] : List Byte), rfl, ?_⟩⟩,
    ⟨by decide, ?_⟩, trivial⟩
  · show 1 < 2 ^ 63
    decide
  · have h : ∀ v ∈ [Val.bits 8 7#8, Val.bits 8 9#8], (Elem.bits 8 8).OkV v := by
      intro v hv
      simp only [List.mem_cons, List.not_mem_nil, or_false] at hv
      rcases hv with rfl | rfl
      · exact ⟨(7#8 : BitVec 8), rfl, by unfold Elem.Ok FitsU; decide⟩
      · exact ⟨(9#8 : BitVec 8), rfl, by unfold Elem.Ok FitsU; decide⟩
    exact ⟨_, rfl, by decide, ⟨by decide, by decide, by decide⟩, fun _ => trivial, h⟩

theorem exScene_typed : Typed exSchema 2 2 (.obj 0 [] (exScene.map (Field.zero (methods exSchema 1)))) (.obj 0 [] exSceneVals) := by
  refine ⟨0, [], _, _, rfl, rfl, ⟨by decide, ⟨by decide, by decide, by decide⟩, ⟨(2#8 : BitVec 8), rfl, trivial⟩⟩,
    ⟨by decide, rfl, exPt_typed 0⟩, rfl, ⟨by decide, ?_⟩, ⟨by decide, ?_⟩, ⟨by decide, ?_⟩,
    ⟨by decide, ⟨by decide, by decide, by decide⟩, ⟨(3#64 : BitVec 64), rfl, trivial⟩⟩, trivial⟩
  · refine ⟨_, rfl, by decide, ⟨by decide, by decide, by decide⟩, fun _ => trivial, ?_⟩
    intro v hv
    simp only [List.mem_cons, List.not_mem_nil, or_false] at hv
    rcases hv with rfl | rfl | rfl
    · exact ⟨(5#16 : BitVec 16), rfl, BitVec.isLt (5#16)⟩
    · exact ⟨(9#16 : BitVec 16), rfl, BitVec.isLt (9#16)⟩
    · exact ⟨(70#16 : BitVec 16), rfl, BitVec.isLt (70#16)⟩
  · refine ⟨_, rfl, by decide, rfl, ⟨?_, ?_, trivial⟩, fun h => (by cases h)⟩
    · exact exPt_ok false 0 _ _ (by unfold FitsS SignedFits; decide) _ (Or.inl rfl)
    · exact exPt_ok false 0 _ _ (by unfold FitsS SignedFits; decide) _ (Or.inl rfl)
  · exact ⟨_, rfl, by decide, rfl, ⟨exColors_ok 0 _, exColors_ok 0 _, trivial⟩, fun _ => ⟨_, rfl⟩⟩

/-- A scene with a nested parameterised struct, an inactive optional field, packed and unpacked arrays of integers,
structs and enums, and a bit field of dynamic width. -/
example : RoundTrip ((methods exSchema 2 2).marshal (.obj 0 [] exSceneVals))
    ((methods exSchema 2 2).unmarshal (.obj 0 [] (exScene.map (Field.zero (methods exSchema 1))))) (.obj 0 [] exSceneVals) :=
  C25_struct_roundtrip_partial exSchema exSchema_wf 1 2 exScene rfl [] exSceneVals exScene_typed [] (by decide +kernel)

/-- `struct V { varint64 v; };` -/
def exVarint64 : Nat → Decl := fun _ => .struct [⟨noExprs, 0, false, .prim .varint64, none, false⟩]

/-- `struct S { packed string v[]; };` -/
def exStrings : Nat → Decl := fun _ => .struct [⟨noExprs, 0, false, .prim .string, some true, false⟩]

/-- C25 does not hold as stated: a struct with a varint64 field accepts -2^63 and reads back 0. -/
theorem C25_violated_varint64 :
    let w := wrun ((methods exVarint64 1 0).marshal (.obj 0 [] [.bits 64 minInt64])) []
    w.1 = .ok () ∧
      (rrun ((methods exVarint64 1 0).unmarshal (.obj 0 [] [.bits 64 0#64])) ⟨w.2, 0⟩).1 = .ok (.obj 0 [] [.bits 64 0#64]) := by
  exact ⟨by decide +kernel, Val.ok_of_beq (by decide +kernel)⟩

/-- C25 does not hold as stated: a packed array of two strings is accepted and read back as something else. -/
theorem C25_violated_packed_strings :
    let w := wrun ((methods exStrings 1 0).marshal (.obj 0 [] [.list [.str [0x61#8], .str [0x62#8]]])) []
    w.1 = .ok () ∧
      (rrun ((methods exStrings 1 0).unmarshal (.obj 0 [] [.list []])) ⟨w.2, 0⟩).1 =
        .ok (.obj 0 [] [.list [.str [0x61#8], .str []]]) := by
  exact ⟨by decide +kernel, Val.ok_of_beq (by decide +kernel)⟩

/-! ## C27 unions -/

/-- C27: marshalling a union whose tag selects member `t` writes the tag and then that member. -/
theorem C27_union_writes_member (ms : Nat → Meth) (fs : List Field) (t : Nat) (ps vs : List Val) (f : Field) (v : Val)
    (ht : 1 ≤ t) (hf : fs[t - 1]? = some f) (hv : vs[t - 1]? = some v) :
    (unionMeth ms fs).marshal (.obj t ps vs) =
      (do writeVarsize (BitVec.ofNat 64 t); f.encode ms (f.exprs ⟨ps, vs⟩) v) := by
  have hlt : t - 1 < fs.length := by
    by_contra hc
    rw [List.getElem?_eq_none (by omega)] at hf
    cases hf
  show (do writeVarsize (BitVec.ofNat 64 t); if 1 ≤ t ∧ t ≤ fs.length then encAt ms fs (t - 1) ps vs else pure ()) = _
  rw [if_pos ⟨ht, by omega⟩]
  unfold encAt
  rw [hf, hv]

/-- C27: a union with a selected member that `MarshalZserio` accepts comes back with its tag.  Missing from the full claim:
see C25, and unknown tags are not rejected. -/
theorem C27_union_roundtrip_partial (schema : Nat → Decl) (hw : ∀ name, (schema name).Wf) (n name : Nat) (fs : List Field)
    (_hd : schema name = .union fs) (t : Nat) (ps vs : List Val) (_ht : 1 ≤ t ∧ t ≤ fs.length)
    (hv : Typed schema (n + 1) name (.obj 0 ps (fs.map (Field.zero (methods schema n)))) (.obj t ps vs)) (s : List Bool)
    (hs : (wrun ((methods schema (n + 1) name).marshal (.obj t ps vs)) s).1 = .ok ()) :
    RoundTrip ((methods schema (n + 1) name).marshal (.obj t ps vs))
      ((methods schema (n + 1) name).unmarshal (.obj 0 ps (fs.map (Field.zero (methods schema n))))) (.obj t ps vs) :=
  (schema_laws schema hw (n + 1) name).1 _ _ (schema_accept schema hw (n + 1) name _ _ s hv hs)

/-- C27 does not hold as stated: every tag that names no member is decoded without an error, by every union. -/
theorem C27_violated_unknown_tag (ms : Nat → Meth) (fs : List Field) (t t₀ : Nat) (ps olds : List Val)
    (ht : t = 0 ∨ fs.length < t) (hm : t ≤ maxVarsize) (s : List Bool) :
    ∃ out, Writes (writeVarsize (BitVec.ofNat 64 t)) s out ∧
      Reads ((unionMeth ms fs).unmarshal (.obj t₀ ps olds)) out s.length (.obj t ps olds) := by
  have e : (BitVec.ofNat 64 t).toNat = t := ofNat64_toNat (by unfold maxVarsize at hm; omega)
  obtain ⟨o, _, a, b⟩ := varsize_rt (BitVec.ofNat 64 t) (by rw [e]; exact hm) s
  refine ⟨o, a, ?_⟩
  have hk : Reads (if 1 ≤ (BitVec.ofNat 64 t).toNat ∧ (BitVec.ofNat 64 t).toNat ≤ fs.length then do
        let vs ← decAt ms fs ((BitVec.ofNat 64 t).toNat - 1) ps olds
        pure (.obj (BitVec.ofNat 64 t).toNat ps vs)
      else pure (.obj (BitVec.ofNat 64 t).toNat ps olds) : Rd Val) [] (s.length + o.length) (.obj t ps olds) := by
    rw [e, if_neg (by omega)]
    exact Reads.pure _ _
  have := b.bind (k := fun u : BitVec 64 => (if 1 ≤ u.toNat ∧ u.toNat ≤ fs.length then do
        let vs ← decAt ms fs (u.toNat - 1) ps olds
        pure (.obj u.toNat ps vs)
      else pure (.obj u.toNat ps olds) : Rd Val)) hk
  rwa [List.append_nil] at this

/-- The second member, a scene. -/
example : RoundTrip ((methods exSchema 3 3).marshal (.obj 2 [] [.bits 8 0#8, .obj 0 [] exSceneVals]))
    ((methods exSchema 3 3).unmarshal (.obj 0 [] [.bits 8 0#8, .obj 0 [] (exScene.map (Field.zero (methods exSchema 1)))]))
    (.obj 2 [] [.bits 8 0#8, .obj 0 [] exSceneVals]) :=
  C27_union_roundtrip_partial exSchema exSchema_wf 2 3 _ rfl 2 [] _ (by decide)
    ⟨0, 2, [], [.bits 8 0#8, .obj 0 [] (exScene.map (Field.zero (methods exSchema 1)))], _, rfl, rfl, by decide,
      ⟨_, _, _, rfl, rfl, rfl, by decide, rfl, exScene_typed⟩⟩ [] (by decide +kernel)

/-! ## C28 choices -/

/-- The specification: the first case one of whose labels is the selector, as the field to transmit (if it has one);
the default if there is no such case. -/
def choiceSpec (x : Int) (cases : List (List Int × Option Field)) (dflt : Option Field) : Option Field :=
  match cases.find? (fun c => decide (x ∈ c.1)) with
  | some c => c.2
  | none => dflt

/-- Selectors for which the generated `switch` is the one of the schema: no case lists the selector other than as its
first label, and a case without field lists it only if there is neither a default nor another case with it. -/
def SwitchOk (x : Int) (cases : List (List Int × Option Field)) (dflt : Option Field) : Prop :=
  (∀ c ∈ cases, x ∈ c.1 → c.2.isSome → c.1.head? = some x) ∧
  (∀ c ∈ cases, x ∈ c.1 → c.2 = none → dflt = none ∧ ∀ c' ∈ cases, x ∈ c'.1 → c'.2 = none)

theorem pickCase_spec (x : Int) (cases : List (List Int × Option Field)) (k : Nat)
    (h1 : ∀ c ∈ cases, x ∈ c.1 → c.2.isSome → c.1.head? = some x)
    (h2 : ∀ c ∈ cases, x ∈ c.1 → c.2 = none → ∀ c' ∈ cases, x ∈ c'.1 → c'.2 = none) :
    match pickCase x cases k with
    | some i => k ≤ i ∧ ∃ c, cases.find? (fun c => decide (x ∈ c.1)) = some c ∧ c.2.isSome ∧
        (cases.filterMap (·.2))[i - k]? = c.2
    | none => ∀ c, cases.find? (fun c => decide (x ∈ c.1)) = some c → c.2 = none := by
  induction cases generalizing k with
  | nil => intro c h; cases h
  | cons c cs ih =>
    have h1' : ∀ c ∈ cs, x ∈ c.1 → c.2.isSome → c.1.head? = some x := fun c hc => h1 c (List.mem_cons_of_mem _ hc)
    have h2' : ∀ c ∈ cs, x ∈ c.1 → c.2 = none → ∀ c' ∈ cs, x ∈ c'.1 → c'.2 = none :=
      fun c hc hx hn c' hc' => h2 c (List.mem_cons_of_mem _ hc) hx hn c' (List.mem_cons_of_mem _ hc')
    obtain ⟨ls, f⟩ := c
    cases f with
    | none =>
      have := ih k h1' h2'
      by_cases hx : x ∈ ls
      · have hall := h2 (ls, none) List.mem_cons_self hx rfl
        have he : pickCase x ((ls, none) :: cs) k = pickCase x cs k := rfl
        rw [he]
        have hf : ((ls, (none : Option Field)) :: cs).find? (fun c => decide (x ∈ c.1)) = some (ls, none) := by
          rw [List.find?_cons]; simp [hx]
        cases hp : pickCase x cs k with
        | none => intro c hc; rw [hf] at hc; injection hc with hc; subst hc; rfl
        | some i =>
          rw [hp] at this
          obtain ⟨_, c, hc, hs, _⟩ := this
          have hm := List.mem_of_find?_eq_some hc
          have hxc : x ∈ c.1 := by simpa using List.find?_some hc
          rw [hall c (List.mem_cons_of_mem _ hm) hxc] at hs
          cases hs
      · have he : pickCase x ((ls, none) :: cs) k = pickCase x cs k := rfl
        have hf : ((ls, (none : Option Field)) :: cs).find? (fun c => decide (x ∈ c.1)) =
            cs.find? (fun c => decide (x ∈ c.1)) := by
          rw [List.find?_cons]; simp [hx]
        rw [he, hf]
        exact this
    | some f =>
      have he : pickCase x ((ls, some f) :: cs) k = if ls.head? = some x then some k else pickCase x cs (k + 1) := rfl
      by_cases hx : x ∈ ls
      · have hh := h1 (ls, some f) List.mem_cons_self hx rfl
        rw [he, if_pos hh]
        refine ⟨le_refl k, (ls, some f), ?_, rfl, ?_⟩
        · rw [List.find?_cons]; simp [hx]
        · rw [Nat.sub_self, List.filterMap_cons]
          rfl
      · have hh : ¬ ls.head? = some x := fun h => hx (List.mem_of_mem_head? h)
        have hf : ((ls, some f) :: cs).find? (fun c => decide (x ∈ c.1)) = cs.find? (fun c => decide (x ∈ c.1)) := by
          rw [List.find?_cons]; simp [hx]
        rw [he, if_neg hh, hf]
        have := ih (k + 1) h1' h2'
        cases hp : pickCase x cs (k + 1) with
        | none => rw [hp] at this; exact this
        | some i =>
          rw [hp] at this
          obtain ⟨hk, c, hc, hs, hg⟩ := this
          refine ⟨by omega, c, hc, hs, ?_⟩
          rw [List.filterMap_cons]
          dsimp only
          rw [show i - k = (i - (k + 1)) + 1 by omega, List.getElem?_cons_succ]
          exact hg

theorem pick_spec (x : Int) (cases : List (List Int × Option Field)) (dflt : Option Field) (h : SwitchOk x cases dflt) :
    (match pick x cases dflt with | some i => (choiceFields cases dflt)[i]? | none => none) = choiceSpec x cases dflt := by
  have hs := pickCase_spec x cases 0 h.1 (fun c hc hx hn => (h.2 c hc hx hn).2)
  unfold pick choiceSpec choiceFields
  cases hp : pickCase x cases 0 with
  | some i =>
    rw [hp] at hs
    obtain ⟨_, c, hc, hsome, hg⟩ := hs
    rw [hc]
    dsimp only
    rw [Nat.sub_zero] at hg
    obtain ⟨f, hf⟩ := Option.isSome_iff_exists.mp hsome
    rw [hf] at hg ⊢
    rw [List.getElem?_append_left (by
      by_contra hcn
      rw [List.getElem?_eq_none (by omega)] at hg
      cases hg)]
    exact hg
  | none =>
    rw [hp] at hs
    dsimp only at hs ⊢
    cases hf : cases.find? (fun c => decide (x ∈ c.1)) with
    | none =>
      cases dflt with
      | none => rfl
      | some f => simp
    | some c =>
      have hn := hs c hf
      have hm := List.mem_of_find?_eq_some hf
      have hxc : x ∈ c.1 := by simpa using List.find?_some hf
      have hd := (h.2 c hm hxc hn).1
      subst hd
      simpa using hn.symm

/-- C28: for selectors that are no second label and hit no empty case beside a default, marshalling writes exactly the field
of the case that lists the selector, or the default, or nothing.  Missing from the full claim: the other selectors, for which
it is wrong. -/
theorem C28_choice_writes_partial (ms : Nat → Meth) (sel : List Val → Int) (cases : List (List Int × Option Field))
    (dflt : Option Field) (t : Nat) (ps vs : List Val) (hlen : vs.length = (choiceFields cases dflt).length)
    (h : SwitchOk (sel ps) cases dflt) :
    match choiceSpec (sel ps) cases dflt with
    | some f => ∃ v ∈ vs, (choiceMeth ms sel cases dflt).marshal (.obj t ps vs) = f.encode ms (f.exprs ⟨ps, vs⟩) v
    | none => (choiceMeth ms sel cases dflt).marshal (.obj t ps vs) = pure () := by
  have hp := pick_spec (sel ps) cases dflt h
  have hm : (choiceMeth ms sel cases dflt).marshal (.obj t ps vs) =
      match pick (sel ps) cases dflt with
      | some i => encAt ms (choiceFields cases dflt) i ps vs
      | none => pure () := rfl
  rw [hm, ← hp]
  cases hi : pick (sel ps) cases dflt with
  | none => rfl
  | some i =>
    dsimp only
    cases hf : (choiceFields cases dflt)[i]? with
    | none =>
      exfalso
      have : i < (choiceFields cases dflt).length := by
        unfold pick at hi
        cases hc : pickCase (sel ps) cases 0 with
        | some j =>
          rw [hc] at hi
          injection hi with hi
          subst hi
          have := pickCase_lt hc
          unfold choiceFields
          rw [List.length_append]
          omega
        | none =>
          rw [hc] at hi
          dsimp only at hi
          cases dflt with
          | none => cases hi
          | some f =>
            injection hi with hi
            subst hi
            unfold choiceFields
            rw [List.length_append]
            simp
      rw [List.getElem?_eq_getElem this] at hf
      cases hf
    | some f =>
      have hlt : i < vs.length := by
        by_contra hc
        rw [List.getElem?_eq_none (by omega)] at hf
        cases hf
      refine ⟨vs[i], List.getElem_mem hlt, ?_⟩
      unfold encAt
      rw [hf, List.getElem?_eq_getElem hlt]

/-- C28: a choice that `MarshalZserio` accepts is read back by a reader with the same parameters (hence the same selector).
Missing from the full claim: see C25. -/
theorem C28_choice_roundtrip_partial (schema : Nat → Decl) (hw : ∀ name, (schema name).Wf) (n name : Nat) (sel : List Val → Int)
    (cases : List (List Int × Option Field)) (dflt : Option Field) (_hd : schema name = .choice sel cases dflt)
    (ps vs : List Val)
    (hv : Typed schema (n + 1) name (.obj 0 ps ((choiceFields cases dflt).map (Field.zero (methods schema n)))) (.obj 0 ps vs))
    (s : List Bool) (hs : (wrun ((methods schema (n + 1) name).marshal (.obj 0 ps vs)) s).1 = .ok ()) :
    RoundTrip ((methods schema (n + 1) name).marshal (.obj 0 ps vs))
      ((methods schema (n + 1) name).unmarshal (.obj 0 ps ((choiceFields cases dflt).map (Field.zero (methods schema n)))))
      (.obj 0 ps vs) :=
  (schema_laws schema hw (n + 1) name).1 _ _ (schema_accept schema hw (n + 1) name _ _ s hv hs)

/-- Selector 2 selects the string. -/
example : RoundTrip ((methods exSchema 1 4).marshal (.obj 0 [.bits 8 2#8] [.bits 8 0#8, .str [0x61#8], .bool false]))
    ((methods exSchema 1 4).unmarshal (.obj 0 [.bits 8 2#8] [.bits 8 0#8, .str [], .bool false]))
    (.obj 0 [.bits 8 2#8] [.bits 8 0#8, .str [0x61#8], .bool false]) :=
  C28_choice_roundtrip_partial exSchema exSchema_wf 0 4 _ _ _ rfl [.bits 8 2#8] _
    ⟨0, _, [.bits 8 0#8, .str [], .bool false], _, rfl, rfl,
      ⟨⟨noExprs, 0, false, .prim .string, none, false⟩, .str [], .str [0x61#8], rfl, rfl, rfl, by decide, trivial,
        ([0x61#8] : List Byte), rfl, show 1 < 2 ^ 63 by decide⟩⟩ [] (by decide +kernel)

example : SwitchOk 2 [([1], some ⟨noExprs, 0, false, .prim (.bits 8 8), none, false⟩),
    ([2], some ⟨noExprs, 0, false, .prim .string, none, false⟩)] (some ⟨noExprs, 0, false, .prim .bool, none, false⟩) := by
  constructor <;> intro c hc <;> simp only [List.mem_cons, List.not_mem_nil, or_false] at hc <;>
    rcases hc with rfl | rfl <;> simp

/-- A field of type `bit:8`. -/
def exByte : Field := ⟨noExprs, 0, false, .prim (.bits 8 8), none, false⟩

/-- C28 does not hold as stated: with `case 1, 2: uint8 a; default: uint8 b;` the selector 2 writes `b`. -/
theorem C28_violated_second_label :
    choiceSpec 2 [([1, 2], some exByte)] (some exByte) = some exByte ∧
    (wrun ((choiceMeth (methods exSchema 0) (fun _ => 2) [([1, 2], some exByte)] (some exByte)).marshal
      (.obj 0 [] [.bits 8 7#8, .bits 8 9#8])) []).2 = natBits 8 9 := by
  constructor
  · simp [choiceSpec]
  · decide +kernel

/-- C28 does not hold as stated: with `case 1: ; default: uint8 b;` the selector 1 writes `b` instead of nothing. -/
theorem C28_violated_empty_case :
    choiceSpec 1 [([1], none)] (some exByte) = none ∧
    (wrun ((choiceMeth (methods exSchema 0) (fun _ => 1) [([1], none)] (some exByte)).marshal (.obj 0 [] [.bits 8 9#8])) []).2 = natBits 8 9 := by
  constructor
  · simp [choiceSpec]
  · decide +kernel

/-! ## C29 packed arrays of objects -/

/-- The fields of a declaration. -/
def Decl.fields : Decl → List Field
  | .struct fs | .union fs => fs
  | .choice _ cases dflt => choiceFields cases dflt
  | .enum _ => []

/-- No type contains itself other than through arrays. -/
def NonRec (schema : Nat → Decl) (rank : Nat → Nat) : Prop :=
  ∀ name, ∀ f ∈ (schema name).fields, f.arr = none → ∀ m, f.ty = .comp m → rank m < rank name

theorem createLoop_ok {ms : Nat → Meth} {fs : List Field} (h : ∀ f ∈ fs, ∃ c, f.create ms = .ok c) :
    ∃ cs, createLoop ms fs = .ok cs := by
  induction fs with
  | nil => exact ⟨_, rfl⟩
  | cons f fs ih =>
    obtain ⟨c, hc⟩ := h f List.mem_cons_self
    obtain ⟨cs, hcs⟩ := ih fun f hf => h f (List.mem_cons_of_mem _ hf)
    refine ⟨c :: cs, ?_⟩
    unfold createLoop
    rw [hc, hcs]
    rfl

theorem create_ok {schema : Nat → Decl} {rank : Nat → Nat} (hr : NonRec schema rank) (n name : Nat) (h : rank name < n) :
    ∃ c, (methods schema n name).create Ctx.empty = .ok c := by
  induction n generalizing name with
  | zero => omega
  | succ n ih =>
    have hf : ∀ f ∈ (schema name).fields, ∃ c, f.create (methods schema n) = .ok c := by
      intro f hf
      unfold Field.create
      cases ha : f.arr with
      | some p => exact ⟨_, rfl⟩
      | none =>
        cases ht : f.ty with
        | comp m => exact ih m (by have := hr name f hf ha m ht; omega)
        | prim k =>
          dsimp only
          split
          · exact ⟨_, rfl⟩
          · exact ⟨_, rfl⟩
    show ∃ c, ((schema name).meth (methods schema n)).create Ctx.empty = .ok c
    cases hd : schema name with
    | struct fs =>
      rw [hd] at hf
      obtain ⟨cs, hcs⟩ := createLoop_ok (fs := fs) hf
      refine ⟨.node none ([] ++ cs), ?_⟩
      show (do let cs ← createLoop (methods schema n) fs; pure (Ctx.node none ([] ++ cs)) : Except Err Ctx) = _
      rw [hcs]; rfl
    | union fs =>
      rw [hd] at hf
      obtain ⟨cs, hcs⟩ := createLoop_ok (fs := fs) hf
      refine ⟨.node none ([] ++ cs), ?_⟩
      show (do let cs ← createLoop (methods schema n) fs; pure (Ctx.node none ([] ++ cs)) : Except Err Ctx) = _
      rw [hcs]; rfl
    | choice sel cases dflt =>
      rw [hd] at hf
      obtain ⟨cs, hcs⟩ := createLoop_ok (fs := choiceFields cases dflt) hf
      refine ⟨.node none ([] ++ cs), ?_⟩
      show (do let cs ← createLoop (methods schema n) (choiceFields cases dflt); pure (Ctx.node none ([] ++ cs)) :
        Except Err Ctx) = _
      rw [hcs]; rfl
    | enum k => exact ⟨_, rfl⟩

/-- C29: for every schema without types containing themselves and every list of acceptable elements of a type (structs,
choices, enums, nested to any depth, with optional and conditional fields, alignment and arrays inside), the packed array
round-trips at every position.  Missing from the full claim: elements containing unions or choices with nothing but a default,
nested arrays of other than integers and bools, types containing themselves. -/
theorem C29_packed_objects_partial (schema : Nat → Decl) (hw : ∀ name, (schema name).Wf) (rank : Nat → Nat)
    (hr : NonRec schema rank) (n name : Nat) (hn : rank name < n) (cfg : ArrCfg) (hp : cfg.isPacked = true)
    (setp : Nat → Val → Val) (vs : List Val) (hlen : if cfg.isAuto then vs.length ≤ maxVarsize else cfg.fixedSize = vs.length)
    (hok : ∀ i v, vs[i]? = some v → Accepts schema n true name (setp i (methods schema n name).zero) v) :
    RoundTrip (ObjArr.marshal (methods schema n name) cfg vs) (ObjArr.unmarshal (methods schema n name) cfg setp) vs := by
  obtain ⟨c, hc⟩ := create_ok hr n name hn
  exact C24_packed_object_array_roundtrip _ _ (schema_laws schema hw n name).2 c hc cfg hp setp vs hlen hok

theorem exSchema_nonRec : NonRec exSchema id := by
  intro name f hf ha m hm
  match name, hf with
  | 0, hf =>
    simp only [exSchema, Decl.fields, exPoint, List.mem_cons, List.not_mem_nil, or_false] at hf
    rcases hf with rfl | rfl | rfl | rfl <;> cases hm
  | 1, hf => cases hf
  | 2, hf =>
    simp only [exSchema, Decl.fields, exScene, List.mem_cons, List.not_mem_nil, or_false] at hf
    rcases hf with rfl | rfl | rfl | rfl | rfl | rfl | rfl <;> cases hm <;> cases ha <;> decide
  | 3, hf =>
    simp only [exSchema, Decl.fields, List.mem_cons, List.not_mem_nil, or_false] at hf
    rcases hf with rfl | rfl <;> cases hm
    decide
  | 4, hf =>
    simp only [exSchema, Decl.fields, choiceFields, List.filterMap_cons, List.filterMap_nil, Option.toList, List.mem_append,
      List.mem_cons, List.not_mem_nil, or_false] at hf
    rcases hf with (rfl | rfl) | rfl <;> cases hm
  | _ + 5, hf => cases hf

/-- A packed array of three points. -/
example (a b c : BitVec 64) : RoundTrip
    (ObjArr.marshal (methods exSchema 1 0) ⟨0, true, true, false, true⟩
      [exPt 3#8 a .none, exPt 0xfe#8 b (.some (.str [0x61#8])), exPt 15#8 c .none])
    (ObjArr.unmarshal (methods exSchema 1 0) ⟨0, true, true, false, true⟩
      fun _ v => match v with | .obj t _ fs => .obj t [.bits 8 2#8] fs | v => v)
    [exPt 3#8 a .none, exPt 0xfe#8 b (.some (.str [0x61#8])), exPt 15#8 c .none] := by
  refine C29_packed_objects_partial exSchema exSchema_wf id exSchema_nonRec 1 0 (by decide) _ rfl _ _ (show 3 ≤ maxVarsize by decide) ?_
  intro i v hv
  match i with
  | 0 => injection hv with hv; subst hv; exact exPt_ok true 0 _ _ (by unfold FitsS SignedFits; decide) _ (Or.inl rfl)
  | 1 => injection hv with hv; subst hv; exact exPt_ok true 0 _ _ (by unfold FitsS SignedFits; decide) _ (Or.inr rfl)
  | 2 => injection hv with hv; subst hv; exact exPt_ok true 0 _ _ (by unfold FitsS SignedFits; decide) _ (Or.inl rfl)
  | i + 3 => simp at hv

/-- `union U { uint8 a; }; struct S { U u; };` -/
def exUnionIn : Nat → Decl
  | 0 => .union [exByte]
  | _ => .struct [⟨noExprs, 0, false, .comp 0, none, false⟩]

/-- C29 does not hold for structs containing a union: the union is not transmitted. -/
theorem C29_violated_union :
    let w := wrun (ObjArr.marshal (methods exUnionIn 2 1) ⟨0, true, true, false, false⟩ [.obj 0 [] [.obj 1 [] [.bits 8 7#8]]]) []
    w.1 = .ok () ∧ w.2 = natBits 8 1 ∧
      ((rrun (ObjArr.unmarshal (methods exUnionIn 2 1) ⟨0, true, true, false, false⟩ fun _ v => v) ⟨w.2, 0⟩).1).map Val.list =
        .ok (.list [.obj 0 [] [.obj 0 [] [.bits 8 0#8]]]) :=
  ⟨by decide +kernel, by decide +kernel, Val.ok_of_beq (by decide +kernel)⟩

/-- `struct L { uint8 v; optional L next; };` -/
def exList : Nat → Decl := fun _ => .struct [exByte, ⟨noExprs, 0, true, .comp 0, none, false⟩]

/-- C29 does not hold for types that contain themselves: creating the packing context runs out of stack, whatever its
size. -/
theorem C29_violated_recursive (n : Nat) (v : Val) (vs : List Val) (s : List Bool) :
    (wrun (ObjArr.marshal (methods exList n 0) ⟨0, false, true, false, false⟩ (v :: vs)) s).1 = .error overflow := by
  have h : ∀ n, (methods exList n 0).create Ctx.empty = .error overflow := by
    intro n
    induction n with
    | zero => rfl
    | succ n ih =>
      show (do
        let cs ← createLoop (methods exList n) [exByte, ⟨noExprs, 0, true, .comp 0, none, false⟩]
        pure (Ctx.node none ([] ++ cs)) : Except Err Ctx) = _
      simp only [createLoop, Field.create, ih]
      rfl
  unfold ObjArr.marshal Arr.header
  rw [wrun_bind]
  simp only [Bool.false_eq_true, if_false, wrun_pure, List.isEmpty_cons, if_true]
  unfold ObjArr.packed
  simp only [h]
  rw [wrun_throw]

end Verif
