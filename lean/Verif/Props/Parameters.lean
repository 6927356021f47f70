import Mathlib.Data.List.Forall2
import Verif.Schema
import Verif.SchemaAccept
import Verif.Props.Object

/-!
# C99: parameters of nested objects need not be set before encoding

The parameters of a parameterised type are exported fields of the Go struct, next to its members.  The methods of the outer object set them from the type
arguments before they call a method of the inner one, so whatever a user has left there does not matter.
-/

namespace Verif

/-! ## Specification -/

/-- Two Go values that differ in the parameters of objects only, at any depth. -/
inductive Val.Like : Val → Val → Prop
  | refl (v : Val) : Val.Like v v
  | some {v w : Val} : Val.Like v w → Val.Like (.some v) (.some w)
  | list {vs ws : List Val} : List.Forall₂ Val.Like vs ws → Val.Like (.list vs) (.list ws)
  | obj {vs ws : List Val} (t : Nat) (ps qs : List Val) : List.Forall₂ Val.Like vs ws → Val.Like (.obj t ps vs) (.obj t qs ws)

/-- The fields of a declaration. -/
def Decl.memberFields : Decl → List Field
  | .struct fs | .union fs => fs
  | .choice _ cases dflt => choiceFields cases dflt
  | .enum _ => []

/-- No expression of the declaration looks at the parameters of an object that is a member. -/
def Decl.OwnOnly (d : Decl) : Prop :=
  ∀ f ∈ d.memberFields, ∀ ps vs ws, List.Forall₂ Val.Like vs ws → f.exprs ⟨ps, vs⟩ = f.exprs ⟨ps, ws⟩

/-- The declaration has no parameters that it looks at. -/
def Decl.NoParams (d : Decl) : Prop :=
  (∀ f ∈ d.memberFields, ∀ ps qs vs, f.exprs ⟨ps, vs⟩ = f.exprs ⟨qs, vs⟩) ∧
    ∀ sel cases dflt, d = .choice sel cases dflt → ∀ ps qs, sel ps = sel qs

/-- Members of types with parameters have type arguments. -/
def Decl.Given (schema : Nat → Decl) (d : Decl) : Prop :=
  ∀ f ∈ d.memberFields, ∀ n, f.ty = .comp n → (schema n).NoParams ∨ ∀ env, (f.exprs env).args ≠ none

/-- The methods do not tell two values apart: `MarshalZserio`, `ZserioBitSize` and those for packed arrays have the same outcome and write the same. -/
structure Meth.Same (m : Meth) (v w : Val) : Prop where
  marshal : m.marshal v = m.marshal w
  bitSize : m.bitSize v = m.bitSize w
  init : m.init v = m.init w
  marshalP : m.marshalP v = m.marshalP w
  bitSizeP : m.bitSizeP v = m.bitSizeP w

/-! ## Proofs -/

theorem Val.likes_refl (vs : List Val) : List.Forall₂ Val.Like vs vs := by
  induction vs with
  | nil => exact .nil
  | cons v vs ih => exact .cons (.refl v) ih

theorem Val.Like.list_left {vs : List Val} {w : Val} (h : Val.Like (.list vs) w) : ∃ ws, w = .list ws ∧ List.Forall₂ Val.Like vs ws := by
  cases h with
  | refl => exact ⟨_, rfl, Val.likes_refl vs⟩
  | list h => exact ⟨_, rfl, h⟩

theorem Val.Like.val {v w : Val} (h : Val.Like v w) (k : Elem) : k.val v = k.val w := by
  cases h with
  | refl => rfl
  | some _ => cases k <;> rfl
  | list _ => cases k <;> rfl
  | obj _ _ _ _ => cases k <;> rfl

/-- The parameters of an object. -/
def Val.ownParams : Val → List Val
  | .obj _ ps _ => ps
  | _ => []

/-- Alike, and with the same parameters if there are any. -/
def Near (closed : Prop) (v w : Val) : Prop := Val.Like v w ∧ (closed ∨ v.ownParams = w.ownParams)

/-! ### Arrays of builtin values -/

section prim
variable {k : Elem} {vs ws : List Val}

theorem vt_asU64_like {v w : Val} (h : Val.Like v w) : k.vt.asU64 v = k.vt.asU64 w := congrArg k.traits.asU64 (h.val k)

theorem vt_size_like {v w : Val} (h : Val.Like v w) : k.vt.bitSizeOf v = k.vt.bitSizeOf w := congrArg k.traits.bitSizeOf (h.val k)

theorem vt_write_like {v w : Val} (h : Val.Like v w) : k.vt.write v = k.vt.write w := congrArg k.traits.write (h.val k)

theorem delta_init_like {v w : Val} (h : Val.Like v w) (d : DCtx) : DCtx.init k.vt d v = DCtx.init k.vt d w := by
  unfold DCtx.init
  rw [vt_asU64_like h, vt_size_like h]

theorem delta_write_like {v w : Val} (h : Val.Like v w) : DCtx.write k.vt v = DCtx.write k.vt w := by
  funext c
  unfold DCtx.write DCtx.writeUnpacked
  rw [vt_asU64_like h, vt_write_like h]

theorem delta_size_like {v w : Val} (h : Val.Like v w) (d : DCtx) : DCtx.bitSizeOf k.vt d v = DCtx.bitSizeOf k.vt d w := by
  unfold DCtx.bitSizeOf
  rw [vt_size_like h]

theorem initAll_like (h : List.Forall₂ Val.Like vs ws) : DCtx.initAll k.vt vs = DCtx.initAll k.vt ws := by
  unfold DCtx.initAll
  generalize DCtx.new = c
  induction h generalizing c with
  | nil => rfl
  | cons h _ ih => rw [List.foldl_cons, List.foldl_cons, delta_init_like h, ih]

theorem plainLoop_like (check : Bool) (h : List.Forall₂ Val.Like vs ws) : Arr.plainLoop k.vt check vs = Arr.plainLoop k.vt check ws := by
  induction h with
  | nil => rfl
  | cons h _ ih =>
    simp only [Arr.plainLoop, ih, vt_write_like h]

theorem packedLoop_like (check : Bool) (h : List.Forall₂ Val.Like vs ws) : Arr.packedLoop k.vt check vs = Arr.packedLoop k.vt check ws := by
  induction h with
  | nil => rfl
  | cons h _ ih =>
    funext c
    simp only [Arr.packedLoop, ih, delta_write_like h]

theorem marshalW_like (cfg : ArrCfg) (h : List.Forall₂ Val.Like vs ws) : Arr.marshalW k.vt cfg vs = Arr.marshalW k.vt cfg ws := by
  have e : vs.isEmpty = ws.isEmpty := by cases h <;> rfl
  simp only [Arr.marshalW, Arr.marshal, h.length_eq, plainLoop_like _ h, packedLoop_like _ h, initAll_like h, e]

theorem arr_size_like (cfg : ArrCfg) (h : List.Forall₂ Val.Like vs ws) (p : Int) : Arr.bitSize k.vt cfg vs p = Arr.bitSize k.vt cfg ws p := by
  have e : ∀ p, Arr.sizeLoop k.vt cfg.hasSet vs p = Arr.sizeLoop k.vt cfg.hasSet ws p := by
    induction h with
    | nil => exact fun _ => rfl
    | cons h _ ih =>
      intro p
      simp only [Arr.sizeLoop, ih, vt_size_like h]
  simp only [Arr.bitSize, h.length_eq, e]

theorem arr_sizeP_like (cfg : ArrCfg) (h : List.Forall₂ Val.Like vs ws) (p : Int) :
    Arr.bitSizePacked k.vt cfg vs none p = Arr.bitSizePacked k.vt cfg ws none p := by
  have e : vs.isEmpty = ws.isEmpty := by cases h <;> rfl
  simp only [Arr.bitSizePacked, h.length_eq, e]

end prim

/-! ### Arrays of objects -/

section objects
variable {m : Meth} {vs ws : List Val} (h : List.Forall₂ m.Same vs ws)
include h

theorem objPlain_same (check : Bool) : ObjArr.plainLoop m check vs = ObjArr.plainLoop m check ws := by
  induction h with
  | nil => rfl
  | cons h _ ih => simp only [ObjArr.plainLoop, ih, h.marshal]

theorem objInit_same : ObjArr.initAll m vs = ObjArr.initAll m ws := by
  induction h with
  | nil => rfl
  | cons h _ ih => funext c; simp only [ObjArr.initAll, ih, h.init]

theorem objPackedLoop_same (check : Bool) : ObjArr.packedLoop m check vs = ObjArr.packedLoop m check ws := by
  induction h with
  | nil => rfl
  | cons h _ ih => funext c; simp only [ObjArr.packedLoop, ih, h.marshalP]

theorem objMarshal_same (cfg : ArrCfg) : ObjArr.marshal m cfg vs = ObjArr.marshal m cfg ws := by
  have e : vs.isEmpty = ws.isEmpty := by cases h <;> rfl
  simp only [ObjArr.marshal, ObjArr.packed, h.length_eq, e, objPlain_same h, objInit_same h, objPackedLoop_same h]

theorem objSize_same (cfg : ArrCfg) (p : Int) : ObjArr.bitSize m cfg vs p = ObjArr.bitSize m cfg ws p := by
  have e : ∀ p, ObjArr.sizeLoop m cfg.hasSet vs p = ObjArr.sizeLoop m cfg.hasSet ws p := by
    induction h with
    | nil => exact fun _ => rfl
    | cons h _ ih => intro p; simp only [ObjArr.sizeLoop, ih, h.bitSize]
  simp only [ObjArr.bitSize, h.length_eq, e]

theorem objSizeP_same (cfg : ArrCfg) (p : Int) : ObjArr.bitSizePacked m cfg vs none p = ObjArr.bitSizePacked m cfg ws none p := by
  have e : vs.isEmpty = ws.isEmpty := by cases h <;> rfl
  simp only [ObjArr.bitSizePacked, h.length_eq, e]

end objects

/-! ### Fields -/

section fields
variable {schema : Nat → Decl} {ms : Nat → Meth} (H : ∀ n v w, Near (schema n).NoParams v w → (ms n).Same v w)

theorem setArgs_near {x : Exprs} {n : Nat} (hx : (schema n).NoParams ∨ x.args ≠ none) (i : Nat) {v w : Val} (h : Val.Like v w) :
    Near (schema n).NoParams (Field.setArgs x i v) (Field.setArgs x i w) := by
  cases ha : x.args with
  | none =>
    rcases hx with hx | hx
    · simp only [Field.setArgs, ha]
      exact ⟨h, .inl hx⟩
    · exact absurd ha hx
  | some a =>
    cases h with
    | refl => exact ⟨.refl _, .inr rfl⟩
    | some h => simp only [Field.setArgs, ha]; exact ⟨.some h, .inr rfl⟩
    | list h => simp only [Field.setArgs, ha]; exact ⟨.list h, .inr rfl⟩
    | obj t ps qs h => simp only [Field.setArgs, ha]; exact ⟨.obj t _ _ h, .inr rfl⟩

include H in
theorem setAll_same {x : Exprs} {n : Nat} (hx : (schema n).NoParams ∨ x.args ≠ none) (i : Nat) {vs ws : List Val} (h : List.Forall₂ Val.Like vs ws) :
    List.Forall₂ (ms n).Same (Field.setAll x i vs) (Field.setAll x i ws) := by
  induction h generalizing i with
  | nil => exact .nil
  | cons h _ ih => exact .cons (H n _ _ (setArgs_near hx i h)) (ih (i + 1))

variable {f : Field} {x : Exprs} (hx : ∀ n, f.ty = .comp n → (schema n).NoParams ∨ x.args ≠ none) {v w : Val} (h : Val.Like v w)
include H hx h

theorem writeArr_like (packed : Bool) : f.writeArr ms x packed v = f.writeArr ms x packed w := by
  cases h with
  | refl => rfl
  | some _ => rfl
  | obj _ _ _ _ => rfl
  | list h =>
    unfold Field.writeArr
    cases ht : f.ty with
    | prim k => simp only [h.length_eq, marshalW_like _ h]
    | comp n => simp only [h.length_eq, objMarshal_same (setAll_same H (hx n ht) 0 h)]

theorem writeVal_like : f.writeVal ms x v = f.writeVal ms x w := by
  unfold Field.writeVal
  cases ha : f.arr with
  | some packed => exact writeArr_like H hx h packed
  | none =>
    cases ht : f.ty with
    | prim k => simp only [h.val]
    | comp n => exact (H n _ _ (setArgs_near (hx n ht) 0 h)).marshal

theorem sizeVal_like (p : Int) : f.sizeVal ms x v p = f.sizeVal ms x w p := by
  unfold Field.sizeVal
  cases ha : f.arr with
  | some packed =>
    cases h with
    | refl => rfl
    | some _ => cases f.ty <;> rfl
    | obj _ _ _ _ => cases f.ty <;> rfl
    | list h =>
      cases ht : f.ty with
      | prim k =>
        cases f.cast with
        | true => simp only [if_true, arr_size_like _ h]
        | false => rfl
      | comp n => simp only [objSize_same (setAll_same H (hx n ht) 0 h)]
  | none =>
    cases ht : f.ty with
    | prim k => simp only [h.val]
    | comp n => simp only [(H n _ _ (setArgs_near (hx n ht) 0 h)).bitSize]

theorem initVal_like (c : Ctx) : f.initVal ms x v c = f.initVal ms x w c := by
  unfold Field.initVal
  cases ha : f.arr with
  | some packed => rfl
  | none =>
    cases ht : f.ty with
    | prim k => simp only [delta_init_like h]
    | comp n => simp only [(H n _ _ (setArgs_near (hx n ht) 0 h)).init]

theorem writeValP_like : f.writeValP ms x v = f.writeValP ms x w := by
  unfold Field.writeValP
  congr 1
  cases ha : f.arr with
  | some packed => simp only [writeArr_like H hx h]
  | none =>
    cases ht : f.ty with
    | prim k =>
      have e : Field.deltaWrite (k.withWidth x.width).vt v = Field.deltaWrite (k.withWidth x.width).vt w := by
        funext c
        simp only [Field.deltaWrite, delta_write_like h]
      simp only [h.val, e]
    | comp n => simp only [(H n _ _ (setArgs_near (hx n ht) 0 h)).marshalP]

theorem sizeValP_like (c : Ctx) (p : Int) : f.sizeValP ms x v c p = f.sizeValP ms x w c p := by
  unfold Field.sizeValP
  cases ha : f.arr with
  | some packed =>
    cases h with
    | refl => rfl
    | some _ => cases f.ty <;> rfl
    | obj _ _ _ _ => cases f.ty <;> rfl
    | list h =>
      cases ht : f.ty with
      | prim k =>
        cases f.cast with
        | true => simp only [if_true, arr_sizeP_like _ h]
        | false => rfl
      | comp n => simp only [objSizeP_same (setAll_same H (hx n ht) 0 h)]
  | none =>
    cases ht : f.ty with
    | prim k => simp only [delta_size_like h, h.val]
    | comp n => simp only [(H n _ _ (setArgs_near (hx n ht) 0 h)).bitSizeP]

/-- A case for each shape, with an induction hypothesis about what is behind a pointer. -/
theorem encode_like : f.encode ms x v = f.encode ms x w := by
  unfold Field.encode
  cases f.optional with
  | false => simp only [Bool.false_eq_true, if_false, writeVal_like H hx h]
  | true =>
    cases h with
    | refl => rfl
    | some h => simp only [if_true, writeVal_like H hx h]
    | list _ => rfl
    | obj _ _ _ _ => rfl

theorem size_like (p : Int) : f.size ms x v p = f.size ms x w p := by
  unfold Field.size
  cases f.optional with
  | false => simp only [Bool.false_eq_true, if_false, sizeVal_like H hx h]
  | true =>
    cases h with
    | refl => rfl
    | some h => simp only [if_true, sizeVal_like H hx h]
    | list _ => rfl
    | obj _ _ _ _ => rfl

theorem init_like (c : Ctx) : f.init ms x v c = f.init ms x w c := by
  unfold Field.init
  cases f.optional with
  | false => simp only [Bool.false_eq_true, if_false, initVal_like H hx h]
  | true =>
    cases h with
    | refl => rfl
    | some h => simp only [if_true, initVal_like H hx h]
    | list _ => rfl
    | obj _ _ _ _ => rfl

theorem encodeP_like : f.encodeP ms x v = f.encodeP ms x w := by
  unfold Field.encodeP
  cases f.optional with
  | false => simp only [Bool.false_eq_true, if_false, writeValP_like H hx h]
  | true =>
    cases h with
    | refl => rfl
    | some h => simp only [if_true, writeValP_like H hx h]
    | list _ => rfl
    | obj _ _ _ _ => rfl

theorem sizeP_like (c : Ctx) (p : Int) : f.sizeP ms x v c p = f.sizeP ms x w c p := by
  unfold Field.sizeP
  cases f.optional with
  | false => simp only [Bool.false_eq_true, if_false, sizeValP_like H hx h]
  | true =>
    cases h with
    | refl => rfl
    | some h => simp only [if_true, sizeValP_like H hx h]
    | list _ => rfl
    | obj _ _ _ _ => rfl

end fields

/-! ### Declarations -/

section loops
variable {schema : Nat → Decl} {ms : Nat → Meth} (H : ∀ n v w, Near (schema n).NoParams v w → (ms n).Same v w) {e e' : Env}

/-- What is known of the fields of a declaration when values `e` and `e'` are alike. -/
def Alike (schema : Nat → Decl) (e e' : Env) (f : Field) : Prop :=
  f.exprs e = f.exprs e' ∧ ∀ n, f.ty = .comp n → (schema n).NoParams ∨ (f.exprs e').args ≠ none

include H

theorem encLoop_like {fs : List Field} (hf : ∀ f ∈ fs, Alike schema e e' f) {vs ws : List Val} (h : List.Forall₂ Val.Like vs ws) :
    encLoop ms e fs vs = encLoop ms e' fs ws := by
  induction h generalizing fs with
  | nil => cases fs <;> rfl
  | cons h _ ih =>
    cases fs with
    | nil => rfl
    | cons f fs =>
      have hh := hf f (.head _)
      simp only [encLoop, hh.1, encode_like H hh.2 h, ih fun g hg => hf g (.tail _ hg)]

theorem sizeLoop_like {fs : List Field} (hf : ∀ f ∈ fs, Alike schema e e' f) {vs ws : List Val} (h : List.Forall₂ Val.Like vs ws) (p : Int) :
    sizeLoop ms e fs vs p = sizeLoop ms e' fs ws p := by
  induction h generalizing fs p with
  | nil => cases fs <;> rfl
  | cons h _ ih =>
    cases fs with
    | nil => rfl
    | cons f fs =>
      have hh := hf f (.head _)
      simp only [sizeLoop, hh.1, size_like H hh.2 h, ih fun g hg => hf g (.tail _ hg)]

theorem initLoop_like {fs : List Field} (hf : ∀ f ∈ fs, Alike schema e e' f) {vs ws : List Val} (h : List.Forall₂ Val.Like vs ws) (cs : List Ctx) :
    initLoop ms e fs vs cs = initLoop ms e' fs ws cs := by
  induction h generalizing fs cs with
  | nil => cases fs <;> rfl
  | cons h _ ih =>
    cases fs with
    | nil => rfl
    | cons f fs =>
      cases cs with
      | nil => rfl
      | cons c cs =>
        have hh := hf f (.head _)
        simp only [initLoop, hh.1, init_like H hh.2 h, ih fun g hg => hf g (.tail _ hg)]

theorem encLoopP_like {fs : List Field} (hf : ∀ f ∈ fs, Alike schema e e' f) {vs ws : List Val} (h : List.Forall₂ Val.Like vs ws) (cs : List Ctx) :
    encLoopP ms e fs vs cs = encLoopP ms e' fs ws cs := by
  induction h generalizing fs cs with
  | nil => cases fs <;> rfl
  | cons h _ ih =>
    cases fs with
    | nil => rfl
    | cons f fs =>
      cases cs with
      | nil => rfl
      | cons c cs =>
        have hh := hf f (.head _)
        simp only [encLoopP, hh.1, encodeP_like H hh.2 h, ih fun g hg => hf g (.tail _ hg)]

theorem sizeLoopP_like {fs : List Field} (hf : ∀ f ∈ fs, Alike schema e e' f) {vs ws : List Val} (h : List.Forall₂ Val.Like vs ws) (cs : List Ctx)
    (p : Int) : sizeLoopP ms e fs vs cs p = sizeLoopP ms e' fs ws cs p := by
  induction h generalizing fs cs p with
  | nil => cases fs <;> rfl
  | cons h _ ih =>
    cases fs with
    | nil => rfl
    | cons f fs =>
      cases cs with
      | nil => rfl
      | cons c cs =>
        have hh := hf f (.head _)
        simp only [sizeLoopP, hh.1, sizeP_like H hh.2 h, ih fun g hg => hf g (.tail _ hg)]

end loops

/-- The values at a position, in both lists. -/
theorem likes_get {vs ws : List Val} (h : List.Forall₂ Val.Like vs ws) (i : Nat) :
    (vs[i]? = none ∧ ws[i]? = none) ∨ ∃ v w, vs[i]? = some v ∧ ws[i]? = some w ∧ Val.Like v w := by
  induction h generalizing i with
  | nil => exact .inl ⟨rfl, rfl⟩
  | cons h _ ih =>
    cases i with
    | zero => exact .inr ⟨_, _, rfl, rfl, h⟩
    | succ i => simpa using ih i

theorem decl_same_enum {ms : Nat → Meth} {k : Elem} {v w : Val} (h : Val.Like v w) : ((Decl.enum k).meth ms).Same v w := by
  refine ⟨?_, funext fun p => ?_, funext fun c => ?_, funext fun c => ?_, funext fun c => funext fun p => ?_⟩
  · simp only [Decl.meth, enumMeth, h.val]
  · simp only [Decl.meth, enumMeth, h.val]
  · simp only [Decl.meth, enumMeth, delta_init_like h]
  · simp only [Decl.meth, enumMeth, Field.deltaWrite, delta_write_like h]
  · simp only [Decl.meth, enumMeth, delta_size_like h]

section decls
variable {schema : Nat → Decl} {ms : Nat → Meth} (H : ∀ n v w, Near (schema n).NoParams v w → (ms n).Same v w)
include H

theorem encAt_like {fs : List Field} {ps qs vs ws : List Val} (hf : ∀ f ∈ fs, Alike schema ⟨ps, vs⟩ ⟨qs, ws⟩ f) (h : List.Forall₂ Val.Like vs ws)
    (i : Nat) : encAt ms fs i ps vs = encAt ms fs i qs ws := by
  unfold encAt
  cases hi : fs[i]? with
  | none => rfl
  | some f =>
    have hh := hf f (List.mem_of_getElem? hi)
    rcases likes_get h i with ⟨e1, e2⟩ | ⟨v, w, e1, e2, hv⟩
    · rw [e1, e2]
    · rw [e1, e2]
      simp only [hh.1, encode_like H hh.2 hv]

theorem sizeAt_like {fs : List Field} {ps qs vs ws : List Val} (hf : ∀ f ∈ fs, Alike schema ⟨ps, vs⟩ ⟨qs, ws⟩ f) (h : List.Forall₂ Val.Like vs ws)
    (i : Nat) (p : Int) : sizeAt ms fs i ps vs p = sizeAt ms fs i qs ws p := by
  unfold sizeAt
  cases hi : fs[i]? with
  | none => rfl
  | some f =>
    have hh := hf f (List.mem_of_getElem? hi)
    rcases likes_get h i with ⟨e1, e2⟩ | ⟨v, w, e1, e2, hv⟩
    · rw [e1, e2]
    · rw [e1, e2]
      simp only [hh.1, size_like H hh.2 hv]

theorem decl_same {d : Decl} (h1 : d.OwnOnly) (h2 : d.Given schema) {v w : Val} (h : Near d.NoParams v w) : (d.meth ms).Same v w := by
  obtain ⟨hl, hn⟩ := h
  cases hl with
  | refl => exact ⟨rfl, rfl, rfl, rfl, rfl⟩
  | some hl => cases d with
    | enum k => exact decl_same_enum (.some hl)
    | _ => exact ⟨rfl, rfl, rfl, rfl, rfl⟩
  | list hl => cases d with
    | enum k => exact decl_same_enum (.list hl)
    | _ => exact ⟨rfl, rfl, rfl, rfl, rfl⟩
  | @obj vs ws t ps qs hl =>
    have hf : ∀ f ∈ d.memberFields, Alike schema ⟨ps, vs⟩ ⟨qs, ws⟩ f := by
      intro f hf
      refine ⟨(h1 f hf ps vs ws hl).trans ?_, fun n hn => (h2 f hf n hn).imp_right fun h => h _⟩
      rcases hn with hn | hn
      · exact hn.1 f hf ps qs ws
      · rw [show ps = qs from hn]
    cases d with
    | enum k => exact decl_same_enum (.obj t ps qs hl)
    | struct fs =>
      have hf : ∀ f ∈ fs, Alike schema ⟨ps, vs⟩ ⟨qs, ws⟩ f := hf
      refine ⟨encLoop_like H hf hl, funext fun p => ?_, funext fun c => ?_, funext fun c => ?_, funext fun c => funext fun p => ?_⟩
      · simp only [Decl.meth, structMeth, sizeLoop_like H hf hl]
      · cases c; simp only [Decl.meth, structMeth, initLoop_like H hf hl]
      · cases c; simp only [Decl.meth, structMeth, encLoopP_like H hf hl]
      · cases c; simp only [Decl.meth, structMeth, sizeLoopP_like H hf hl]
    | union fs =>
      have hf : ∀ f ∈ fs, Alike schema ⟨ps, vs⟩ ⟨qs, ws⟩ f := hf
      refine ⟨?_, funext fun p => ?_, funext fun c => ?_, rfl, rfl⟩
      · simp only [Decl.meth, unionMeth, encAt_like H hf hl]
      · simp only [Decl.meth, unionMeth, sizeAt_like H hf hl]
      · cases c; simp only [Decl.meth, unionMeth, initLoop_like H hf hl]
    | choice sel cases dflt =>
      have hs : sel ps = sel qs := by
        rcases hn with hn | hn
        · exact hn.2 sel cases dflt rfl ps qs
        · rw [show ps = qs from hn]
      have hf : ∀ f ∈ choiceFields cases dflt, Alike schema ⟨ps, vs⟩ ⟨qs, ws⟩ f := hf
      refine ⟨?_, funext fun p => ?_, funext fun c => ?_, funext fun c => ?_, funext fun c => funext fun p => ?_⟩
      · simp only [Decl.meth, choiceMeth, encAt_like H hf hl, hs]
      · simp only [Decl.meth, choiceMeth, sizeAt_like H hf hl, hs]
      · obtain ⟨delta, kids⟩ := c
        simp only [Decl.meth, choiceMeth, hs]
        cases pickCase (sel qs) cases 0 with
        | none => rfl
        | some i =>
          cases hi : (choiceFields cases dflt)[i]? with
          | none => simp only [hi]
          | some f =>
            have hh := hf f (List.mem_of_getElem? hi)
            rcases likes_get hl i with ⟨e1, e2⟩ | ⟨v, w, e1, e2, hv⟩
            · simp only [hi, e1, e2]
            · simp only [hi, e1, e2]
              cases kids[i]? with
              | none => rfl
              | some k => simp only [hh.1, init_like H hh.2 hv]
      · obtain ⟨delta, kids⟩ := c
        simp only [Decl.meth, choiceMeth, hs]
        cases pick (sel qs) cases dflt with
        | none => rfl
        | some i =>
          cases hi : (choiceFields cases dflt)[i]? with
          | none => simp only [hi]
          | some f =>
            have hh := hf f (List.mem_of_getElem? hi)
            rcases likes_get hl i with ⟨e1, e2⟩ | ⟨v, w, e1, e2, hv⟩
            · simp only [hi, e1, e2]
            · simp only [hi, e1, e2]
              cases kids[i]? with
              | none => rfl
              | some k => simp only [hh.1, encodeP_like H hh.2 hv]
      · obtain ⟨delta, kids⟩ := c
        simp only [Decl.meth, choiceMeth, hs]
        cases pick (sel qs) cases dflt with
        | none => rfl
        | some i =>
          cases hi : (choiceFields cases dflt)[i]? with
          | none => simp only [hi]
          | some f =>
            have hh := hf f (List.mem_of_getElem? hi)
            rcases likes_get hl i with ⟨e1, e2⟩ | ⟨v, w, e1, e2, hv⟩
            · simp only [hi, e1, e2]
            · simp only [hi, e1, e2]
              cases kids[i]? with
              | none => rfl
              | some k => simp only [hh.1, sizeP_like H hh.2 hv]

end decls

theorem methods_same {schema : Nat → Decl} (h1 : ∀ n, (schema n).OwnOnly) (h2 : ∀ n, (schema n).Given schema) (n : Nat) :
    ∀ name v w, Near (schema name).NoParams v w → (methods schema n name).Same v w := by
  induction n with
  | zero => exact fun _ _ _ _ => ⟨rfl, rfl, rfl, rfl, rfl⟩
  | succ n ih => exact fun name v w h => decl_same ih (h1 name) (h2 name) h

/-! ## The theorems -/

/-- **C99**: objects that differ in the parameters of their members only, at any depth, are encoded alike: `MarshalZserio` and `ZserioBitSize`, and the methods
for packed arrays, have the same result and write the same bits.  So parameters of members need not be set. -/
theorem C99_stale {schema : Nat → Decl} (h1 : ∀ n, (schema n).OwnOnly) (h2 : ∀ n, (schema n).Given schema) (n name t : Nat) (ps vs ws : List Val)
    (hv : List.Forall₂ Val.Like vs ws) : (methods schema n name).Same (.obj t ps vs) (.obj t ps ws) :=
  methods_same h1 h2 n name _ _ ⟨.obj t ps ps hv, .inr rfl⟩

/-- **C99**: if an object is a value of its type with the parameters that the type arguments give, then one with other parameters in its members is accepted
whenever the first one is, and `UnmarshalZserio` gives the first one.

Missing: as in C25. -/
theorem C99_roundtrip_partial {schema : Nat → Decl} (hw : ∀ n, (schema n).Wf) (h1 : ∀ n, (schema n).OwnOnly) (h2 : ∀ n, (schema n).Given schema)
    (n name t : Nat) (ps vs ws : List Val) (hv : List.Forall₂ Val.Like vs ws) (old : Val) (ht : Typed schema n name old (.obj t ps vs)) (before : List Bool)
    (hs : (wrun ((methods schema n name).marshal (.obj t ps ws)) before).1 = .ok ()) :
    RoundTrip ((methods schema n name).marshal (.obj t ps ws)) ((methods schema n name).unmarshal old) (.obj t ps vs) := by
  have e := (C99_stale h1 h2 n name t ps vs ws hv).marshal
  rw [← e] at hs ⊢
  exact (schema_laws schema hw n name).1 _ _ (schema_accept schema hw n name _ _ before ht hs)

/-! ## A case -/

/-- `struct S { uint8 k; B(k) b; }; struct B(uint8 n) { uint8 a[n]; };` -/
def exStale : Nat → Decl
  | 0 => .struct [⟨noExprs, 0, false, .prim (.bits 8 8), none, false⟩,
      ⟨fun env => ⟨true, none, none, some fun _ => [.bits 8 ((env.fields.getD 0 .none).asBits 8)]⟩, 0, false, .comp 1, none, false⟩]
  | 1 => .struct [⟨fun env => ⟨true, none, some (((env.params.getD 0 .none).asBits 8).toNat : Int), none⟩, 0, false, .prim (.bits 8 8), some false, false⟩]
  | _ => .struct []

/-- The members of an object of type `S`, with the parameter of `b` set to `n`. -/
def exStaleVals (n : BitVec 8) : List Val := [.bits 8 2#8, .obj 0 [.bits 8 n] [.list [.bits 8 7#8, .bits 8 9#8]]]

/-- `S{}` -/
def exStaleOld : Val := .obj 0 [] [.bits 8 0#8, .obj 0 [.bits 8 0#8] [.list []]]

theorem exStale_own (n : Nat) : (exStale n).OwnOnly := by
  intro f hf ps vs ws hv
  match n, hf with
  | 0, hf =>
    simp only [exStale, Decl.memberFields, List.mem_cons, List.not_mem_nil, or_false] at hf
    rcases hf with rfl | rfl
    · rfl
    · have : (vs.getD 0 .none).asBits 8 = (ws.getD 0 .none).asBits 8 := by
        rw [List.getD_eq_getElem?_getD, List.getD_eq_getElem?_getD]
        rcases likes_get hv 0 with ⟨e1, e2⟩ | ⟨v, w, e1, e2, hv⟩
        · rw [e1, e2]
        · rw [e1, e2]; cases hv <;> rfl
      simp only [this]
  | 1, hf =>
    simp only [exStale, Decl.memberFields, List.mem_cons, List.not_mem_nil, or_false] at hf
    subst hf
    rfl
  | n + 2, hf => cases hf

theorem exStale_given (n : Nat) : (exStale n).Given exStale := by
  intro f hf m e
  match n, hf with
  | 0, hf =>
    simp only [exStale, Decl.memberFields, List.mem_cons, List.not_mem_nil, or_false] at hf
    rcases hf with rfl | rfl
    · cases e
    · exact .inr fun _ => nofun
  | 1, hf =>
    simp only [exStale, Decl.memberFields, List.mem_cons, List.not_mem_nil, or_false] at hf
    subst hf
    cases e
  | n + 2, hf => cases hf

theorem exStale_wf (n : Nat) : (exStale n).Wf := by
  match n with
  | 0 =>
    refine ⟨fun _ _ _ _ => rfl, fun ps vs vs' h => ?_, trivial⟩
    have : vs.getD 0 .none = vs'.getD 0 .none := by
      cases vs <;> cases vs' <;> simp_all
    simp only [this]
  | 1 => exact ⟨fun _ _ _ _ => rfl, trivial⟩
  | n + 2 => trivial

theorem exStale_typed : Typed exStale 2 0 exStaleOld (.obj 0 [] (exStaleVals 2#8)) := by
  refine ⟨0, [], _, _, rfl, rfl, ⟨by decide, ⟨by decide, by decide, by decide⟩, 2#8, rfl, trivial⟩, ⟨by decide, rfl, ?_⟩, trivial⟩
  refine ⟨0, [.bits 8 2#8], _, _, rfl, rfl, ⟨by decide, ?_⟩, trivial⟩
  refine ⟨_, rfl, by decide, ⟨by decide, by decide, by decide⟩, fun _ => trivial, fun v hv => ?_⟩
  simp only [List.mem_cons, List.not_mem_nil, or_false] at hv
  rcases hv with rfl | rfl
  · exact ⟨7#8, rfl, BitVec.isLt (7#8)⟩
  · exact ⟨9#8, rfl, BitVec.isLt (9#8)⟩

/-- C99 for this type: the parameter of `b` was left at 200, and is 2 after decoding. -/
example : RoundTrip ((methods exStale 2 0).marshal (.obj 0 [] (exStaleVals 200#8))) ((methods exStale 2 0).unmarshal exStaleOld)
    (.obj 0 [] (exStaleVals 2#8)) :=
  C99_roundtrip_partial exStale_wf exStale_own exStale_given 2 0 0 [] _ _ (.cons (.refl _) (.cons (.obj 0 _ _ (Val.likes_refl _)) .nil)) exStaleOld
    exStale_typed [] (by decide +kernel)

end Verif
