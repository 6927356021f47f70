import Verif.Props.ObjectWrite
import Verif.Props.NoPanicText

/-!
# C90 from the text of a schema to the bytes of `Marshal`

The chain of C85 (reading the text), C90 (what is generated), C61 (the format), C10 and C11 (the byte writer and reader).
-/

namespace Verif

/-- Alignments are at most 248, and bit fields whose width is computed have between 1 and 248 bits. -/
def Decl.Bytewise (D : Decl) : Prop := ∀ f ∈ D.allFields, f.align ≤ 248 ∧ ∀ env n, (f.exprs env).width = some n → 0 < n ∧ n ≤ 248

theorem RefersTo.wf {p : CPackage} {r : CTypeRef} {d : Nat} {ty : FTy} (h : RefersTo p r d ty) : ∀ k, ty = .prim k → k.Wf := by
  induction h with
  | builtin hd => rintro k ⟨⟩; exact hd.wf
  | own => rintro k ⟨⟩
  | subtype _ _ ih => exact ih

/-- Either the width is that of the type, or it is computed. -/
def WidthGiven (ty : FTy) (width : Env → Option Nat) : Prop := ∀ k, ty = .prim k → ∀ env, (width env = Option.none ∧ k.Wf) ∨ ∃ n, width env = some n

theorem InstMeans.widths {a : Place} {isArray : Bool} {t : CTypeInst} {ty : FTy} {cast : Bool} {width : Env → Option Nat} {args : Env → Option (Nat → List Val)}
    (h : InstMeans a isArray t ty cast width args) : WidthGiven ty width := by
  cases h with
  | plain _ h => exact fun k hk env => Or.inl ⟨rfl, h.wf k hk⟩
  | bits => exact fun k hk env => Or.inr ⟨_, rfl⟩
  | args => rintro k ⟨⟩

/-- Of every field, and of enums. -/
def Decl.WidthsGiven (D : Decl) : Prop := (∀ f ∈ D.allFields, WidthGiven f.ty fun env => (f.exprs env).width) ∧ ∀ k, D = .enum k → k.Wf

theorem SchemaMeans.widths {p : CPackage} {ds : List Decl} (h : SchemaMeans p ds) : ∀ D ∈ ds, D.WidthsGiven := by
  obtain ⟨os, hm, rfl⟩ := h
  intro D hD
  obtain ⟨o, ho, e⟩ := List.mem_filterMap.1 hD
  cases e
  obtain ⟨d, _, hd⟩ := forall₂_right hm _ ho
  have field : ∀ {a : Place} {c : CField} {g : Field}, FieldMeans a c g → WidthGiven g.ty fun env => (g.exprs env).width := by
    intro a c g hg
    obtain ⟨_, _, _, _, _, h6, _⟩ := hg
    exact h6.widths
  have member : ∀ {a : Place} {c : CChoiceField} {g : Field}, MemberMeans a c g → WidthGiven g.ty fun env => (g.exprs env).width := by
    intro a c g hg
    obtain ⟨_, h6, _⟩ := hg
    exact h6.widths
  cases hd with
  | @«structure» n ps cs fs gs h0 h1 _ _ h2 =>
    refine ⟨fun g hg => ?_, nofun⟩
    obtain ⟨j, hj⟩ := List.mem_iff_getElem?.1 hg
    have hlt : j < fs.length := (List.getElem?_eq_some_iff.1 hj).1
    exact field (h1 j cs[j] g (List.getElem?_eq_getElem (by omega)) hj)
  | union h1 => exact ⟨fun g hg => (forall₂_right h1 g hg).elim fun _ h => member h.2, nofun⟩
  | @choice n x ps i s k o w cs es d g gs h1 hs h2 h3 h4 =>
    refine ⟨fun f hf => ?_, nofun⟩
    rcases List.mem_append.1 hf with hf' | hf'
    · obtain ⟨e, he, e1⟩ := List.mem_filterMap.1 hf'
      obtain ⟨c, _, hc⟩ := forall₂_right h3 e he
      obtain @⟨ls, g', _, hg⟩ := hc
      generalize c.field = y at hg
      cases hg with
      | no => cases e1
      | yes hg => cases e1; exact member hg
    · cases h4 with
      | no => cases hf'
      | empty => cases hf'
      | yes _ h =>
        obtain rfl : f = _ := by simpa using hf'
        exact member h
  | enum h1 => exact ⟨nofun, fun k e => by cases e; exact h1.wf⟩
  | bitmask h1 => exact ⟨nofun, fun k e => by cases e; exact h1.wf⟩

theorem Elem.Wf.positive {k : Elem} (h : k.Wf) : k.Positive := by
  cases k <;> first | exact h.1 | trivial

theorem Elem.Wf.atMost {k : Elem} (h : k.Wf) : k.Narrow := by
  cases k <;> first | exact Nat.le_trans (Nat.le_trans h.2.1 h.2.2) (by decide) | trivial

theorem given_element {k : Elem} {w : Option Nat} (h : (w = Option.none ∧ k.Wf) ∨ ∃ n, w = some n) (hw : ∀ n, w = some n → 0 < n ∧ n ≤ 248) :
    (k.withWidth w).Positive ∧ (k.withWidth w).Narrow := by
  rcases h with ⟨rfl, h⟩ | ⟨n, rfl⟩
  · have : k.withWidth Option.none = k := by cases k <;> rfl
    rw [this]
    exact ⟨h.positive, h.atMost⟩
  · have := hw n rfl
    cases k <;> first | exact this | exact ⟨trivial, trivial⟩

theorem Decl.WidthsGiven.positive {D : Decl} (h : D.WidthsGiven) (hb : D.Bytewise) : D.Positive :=
  ⟨fun f hf k hk env => (given_element (h.1 f hf k hk env) ((hb f hf).2 env)).1, fun k hk => (h.2 k hk).positive⟩

theorem Decl.WidthsGiven.narrow {D : Decl} (h : D.WidthsGiven) (hb : D.Bytewise) : D.Narrow :=
  ⟨fun f hf => ⟨(hb f hf).1, fun k hk env => (given_element (h.1 f hf k hk env) ((hb f hf).2 env)).2⟩, fun k hk => (h.2 k hk).atMost⟩

/-- **C90** from the text of a schema to bytes: the code that is generated makes bytes of a value from which it makes the same value again, whatever
follows them.

Missing: as for `C90_schema_partial`, packed arrays, alignments above 248, and computed widths that are 0 or above 248. -/
theorem C90_bytes_partial {p : CPackage} {s : List Char} (ht : TextOf p s) (hc : Closed p) {ds : List Decl} (hm : SchemaMeans p ds)
    (hp : ∀ D ∈ ds, Wire.Unpacked D) (hb : ∀ D ∈ ds, D.Bytewise) :
    ∃ code, compileText s = some code ∧ ∀ (n name : Nat) (old v : Val) (bytes : List Byte), Typed (byNumber code) n name old v →
      marshal ((methods (byNumber code) n name).marshal v) = .ok bytes →
      ∀ t, unmarshal (bytes ++ t) ((methods (byNumber code) n name).unmarshal old) = .ok v := by
  refine ⟨ds, C90_schema_partial ht hc hm, fun n name old v bytes h1 h2 => ?_⟩
  refine C25_bytes_partial (fun i => ?_) (fun i => ?_) (fun i => ?_) (fun i => ?_) n name old v h1 bytes h2
  · exact byNumber_all (Q := Decl.Wf) (fun D hD => (hm.fine D hD).wf) trivial i
  · exact byNumber_all (Q := Wire.Unpacked) hp (fun _ h => by cases h) i
  · exact byNumber_all (Q := Decl.Narrow) (fun D hD => (hm.widths D hD).narrow (hb D hD)) ⟨nofun, nofun⟩ i
  · exact byNumber_all (Q := Decl.Positive) (fun D hD => (hm.widths D hD).positive (hb D hD)) ⟨nofun, nofun⟩ i

/-- **C90**: these bytes are the encoding that the zserio format gives for the schema, and fewer than eight zero bits behind it.

Missing: as above, and unions and choices with several labels in a case (C61). -/
theorem C90_padded_partial {p : CPackage} {s : List Char} (ht : TextOf p s) (hc : Closed p) {ds : List Decl} (hm : SchemaMeans p ds)
    (hu : ∀ D ∈ ds, ∀ fs, D ≠ .union fs) (hp : ∀ D ∈ ds, Wire.Unpacked D) (hb : ∀ D ∈ ds, D.Bytewise)
    (hl : ∀ D ∈ ds, ∀ sel cases dflt, D = .choice sel cases dflt → Wire.LabelsSafe cases dflt) :
    ∃ code, compileText s = some code ∧ ∀ (n name : Nat) (old v : Val) (bytes : List Byte), Typed (byNumber code) n name old v →
      marshal ((methods (byNumber code) n name).marshal v) = .ok bytes →
      ∃ out k, (Wire.format 0 Wire.standard (byNumber ds) n name).plain v 0 = some out ∧ k < 8 ∧ bytesBits bytes = out ++ List.replicate k false := by
  obtain ⟨code, h1, h2⟩ := C90_bits_partial ht hc hm hu hp hl
  obtain rfl : ds = code := Option.some.inj ((C90_schema_partial ht hc hm).symm.trans h1)
  refine ⟨ds, h1, fun n name old v bytes h3 h4 => ?_⟩
  have hs : ((methods (byNumber ds) n name).marshal v).Safe := by
    refine objects_safe (fun i => ?_) (fun i => ?_) n name v
    · exact byNumber_all (Q := Wire.Unpacked) hp (fun _ h => by cases h) i
    · exact byNumber_all (Q := Decl.Narrow) (fun D hD => (hm.widths D hD).narrow (hb D hD)) ⟨nofun, nofun⟩ i
  cases hr : wrun ((methods (byNumber ds) n name).marshal v) [] with
  | mk r st =>
    cases r with
    | error e =>
      rw [C10_marshal_error _ hs e st hr] at h4
      cases h4
    | ok u =>
      obtain ⟨out, g1, g2, _⟩ := h2 n name old v [] h3 (by rw [hr])
      obtain ⟨b, k, e1, e2, e3, _⟩ := C10_marshal_ok _ hs st hr
      rw [h4] at e1
      cases e1
      have : st = out := by
        unfold Writes at g2
        rw [hr] at g2
        simpa using congrArg Prod.snd g2
      exact ⟨out, k, g1, e2, this ▸ e3⟩

/-! ## Cases -/

theorem exGenerated_unpacked : ∀ D ∈ exGenerated, Wire.Unpacked D := by
  intro D hD
  simp only [exGenerated, List.mem_cons, List.not_mem_nil, or_false] at hD
  rcases hD with rfl | rfl
  · trivial
  · intro f hf
    simp only [List.mem_cons, List.not_mem_nil, or_false] at hf
    rcases hf with rfl | rfl | rfl | rfl | rfl | rfl | rfl <;> decide

theorem exGenerated_bytewise : ∀ D ∈ exGenerated, D.Bytewise := by
  intro D hD f hf
  simp only [exGenerated, List.mem_cons, List.not_mem_nil, or_false] at hD
  rcases hD with rfl | rfl
  · cases hf
  · simp only [Decl.allFields, List.mem_cons, List.not_mem_nil, or_false] at hf
    rcases hf with rfl | rfl | rfl | rfl | rfl | rfl | rfl <;> exact ⟨by decide, fun env n h => by cases h⟩

/-- The eight bytes of `{e: 5, u: 258, n: 2, t: true, b: [3, 1027], s: nil, c: 9}`, 63 bits and a zero. -/
def exGeneratedBytes : List Byte := [0xa0#8, 0x20#8, 0x40#8, 0x50#8, 0x00#8, 0x70#8, 0x0c#8, 0x12#8]

/-- C90 for the text `package p; enum bit:3 E { a }; subtype uint16 U; struct S { E e; U u; uint8 n; bool t; align(8): bit:11 b[n]; optional S s; uint8 c
if t && n > 1; };` and this value. -/
example : ∃ code, compileText (piecesText (spaced exGenerateTokens)) = some code ∧
    marshal ((methods (byNumber code) 2 1).marshal exGeneratedVal) = .ok exGeneratedBytes ∧
    (∀ t, unmarshal (exGeneratedBytes ++ t) ((methods (byNumber code) 2 1).unmarshal exGeneratedOld) = .ok exGeneratedVal) ∧
    ∃ out k, (Wire.format 0 Wire.standard (byNumber exGenerated) 2 1).plain exGeneratedVal 0 = some out ∧ k < 8 ∧
      bytesBits exGeneratedBytes = out ++ List.replicate k false := by
  obtain ⟨code, h1, h2⟩ := C90_bytes_partial exGenerate_text exGenerate_closed exGenerate_means exGenerated_unpacked exGenerated_bytewise
  obtain rfl : code = exGenerated := Option.some.inj (h1.symm.trans exGenerate_compiles)
  obtain ⟨code, h3, h4⟩ := C90_padded_partial exGenerate_text exGenerate_closed exGenerate_means
    (fun D hD fs h => by
      simp only [exGenerated, List.mem_cons, List.not_mem_nil, or_false] at hD
      rcases hD with rfl | rfl <;> cases h)
    exGenerated_unpacked exGenerated_bytewise
    (fun D hD sel cases dflt h => by
      simp only [exGenerated, List.mem_cons, List.not_mem_nil, or_false] at hD
      rcases hD with rfl | rfl <;> cases h)
  obtain rfl : code = exGenerated := Option.some.inj (h3.symm.trans exGenerate_compiles)
  have hm : marshal ((methods (byNumber exGenerated) 2 1).marshal exGeneratedVal) = .ok exGeneratedBytes := by decide +kernel
  exact ⟨_, h1, hm, h2 2 1 exGeneratedOld exGeneratedVal _ exGenerated_typed hm, h4 2 1 exGeneratedOld exGeneratedVal _ exGenerated_typed hm⟩

end Verif
