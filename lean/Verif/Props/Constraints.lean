import Verif.Props.Generate

/-!
# C100: constraints of fields

The generator evaluates constraints, but generates no code for them.
-/

namespace Verif

/-- The object has what the constraints of a structure ask of it. -/
def MeetsConstraints (p : CPackage) (params : List CParam) (cs : List CField) (env : Env) : Prop :=
  ∀ (j : Nat) (c : CField) (met : Env → Bool), cs[j]? = some c → ConstraintMeans ⟨p, params, cs, j⟩ c.constraint met → met env = true

/-! ## The same schema without constraints -/

/-- A declaration without the constraints of its fields. -/
def CDirective.free : CDirective → CDirective
  | .structure h cs gs => .structure h (cs.map fun c => { c with constraint := none }) gs
  | d => d

/-- A schema without the constraints of the fields of structures. -/
def CPackage.free (p : CPackage) : CPackage := { p with directives := p.directives.map CDirective.free }

/-- A place in the schema without constraints. -/
def Place.free (a : Place) : Place := ⟨a.schema.free, a.params, a.fields.map fun c => { c with constraint := none }, a.before⟩

section
variable {p : CPackage} {a : Place}

theorem free_declared : p.free.directives.map CDirective.declared = p.directives.map CDirective.declared := by
  rw [CPackage.free, List.map_map]
  exact List.map_congr_left fun d _ => by cases d <;> rfl

theorem free_typeNames : p.free.typeNames = p.typeNames := by
  unfold CPackage.typeNames
  rw [CPackage.free, List.filterMap_map]
  congr 1
  funext d
  cases d <;> rfl

theorem free_mem {d : CDirective} (h : d ∈ p.directives) : d.free ∈ p.free.directives := List.mem_map_of_mem h

/-- Enums and bitmasks are those of the schema. -/
theorem free_enum {t : CTypeInst} {n : Ident} {is : List CEnumItem} : .enum t n is ∈ p.free.directives ↔ .enum t n is ∈ p.directives := by
  refine ⟨fun h => ?_, free_mem⟩
  obtain ⟨d, hd, e⟩ := List.mem_map.1 h
  cases d <;> first | cases e; done | (cases e; exact hd)

theorem free_bitmask {t : CTypeInst} {n : Ident} {vs : List CBitmaskValue} : .bitmask t n vs ∈ p.free.directives ↔ .bitmask t n vs ∈ p.directives := by
  refine ⟨fun h => ?_, free_mem⟩
  obtain ⟨d, hd, e⟩ := List.mem_map.1 h
  cases d <;> first | cases e; done | (cases e; exact hd)

theorem RefersTo.free {r : CTypeRef} {d : Nat} {ty : FTy} (h : RefersTo p r d ty) : RefersTo p.free r d ty := by
  induction h with
  | builtin h => exact .builtin h
  | own h => exact .own (by rw [free_typeNames]; exact h)
  | subtype h _ ih => exact .subtype (free_mem h) ih

theorem MemberType.free {r : CTypeRef} {k : Elem} {o : Option (Nat × Bool)} (h : MemberType p r k o) : MemberType p.free r k o := by
  cases h with
  | builtin h1 h2 h3 => exact .builtin h1.free h2 h3
  | enum h1 h2 h3 h4 h5 h6 => exact .enum h1.free h2 h3 (by rw [free_typeNames]; exact h4) (free_mem h5) h6
  | bitmask h1 h2 h3 h4 h5 h6 => exact .bitmask h1.free h2 h3 (by rw [free_typeNames]; exact h4) (free_mem h5) h6

theorem NamesParam.free {n : Ident} {i : Nat} {k : Elem} {o : Option (Nat × Bool)} (h : NamesParam a n i k o) : NamesParam a.free n i k o := by
  obtain ⟨h1, h2, h3, h4⟩ := h
  exact ⟨h1, h2, h3.free, by rw [Place.free, free_declared]; exact h4⟩

theorem free_field {i : Nat} {c : CField} (h : a.fields[i]? = some c) : a.free.fields[i]? = some { c with constraint := none } := by
  simp only [Place.free, List.getElem?_map, h, Option.map_some]

theorem NamesField.free {n : Ident} {i : Nat} {k : Elem} {o : Option (Nat × Bool)} (h : NamesField a n i k o) : NamesField a.free n i k o := by
  obtain ⟨h1, h2, h3, h4, h5, h6, h7, h8⟩ := h
  exact ⟨free_field h1, h2, h3, h4, h5, h6, h7.free, by rw [Place.free, free_declared]; exact h8⟩

theorem NamesArray.free {n : Ident} {i : Nat} (h : NamesArray a n i) : NamesArray a.free n i := by
  obtain ⟨h1, h2, h3, h4, h5, h6, h7, h8, h9⟩ := h
  exact ⟨free_field h1, h2, h3, h4, h5, h6.free, h7, h8, by rw [Place.free, free_declared]; exact h9⟩

theorem ItemMeans.free {r : CTypeRef} {n : Ident} {w : Bool} {z : Int} (h : ItemMeans p r n w z) : ItemMeans p.free r n w z := by
  obtain ⟨h1, h2, h3, h4, h5, h6, h7, h8, h9, h10⟩ := h
  exact ⟨h1.free, h2, by rw [free_typeNames]; exact h3, free_mem h4, h5, h6, h7, h8, h9, h10⟩

theorem ItemConstant.free {t n : Ident} {i : Nat} {g : GoNum} {z : Int} (h : ItemConstant p t n i g z) : ItemConstant p.free t n i g z := by
  obtain ⟨h1, h2, h3, h4, h5, h6, h7, h8, h9, h10, h11, h12, h13⟩ := h
  exact ⟨by rw [free_typeNames]; exact h1, h2, free_mem h3, h4, h5, h6, h7, h8, h9, h10, h11, h12, fun ty m is c h => h13 ty m is c (free_enum.1 h)⟩

theorem FlagConstant.free {t n : Ident} {i : Nat} {g : GoNum} {z : Int} (h : FlagConstant p t n i g z) : FlagConstant p.free t n i g z := by
  obtain ⟨h1, h2, h3, h4, h5, h6, h7, h8, h9, h10, h11, h12, h13⟩ := h
  exact ⟨by rw [free_typeNames]; exact h1, h2, free_mem h3, h4, h5, h6, h7, h8, h9, h10, h11, fun ty m is c h => h12 ty m is c (free_bitmask.1 h),
    fun ty m is c h => h13 ty m is c (free_enum.1 h)⟩

theorem NumMeans.free {e : CExpr} {g : NumTy} {f : Env → Int} (h : NumMeans a e g f) : NumMeans a.free e g f := by
  induction h with
  | field h1 h2 => exact .field h1.free h2
  | param h1 h2 => exact .param h1.free h2
  | literal h => exact .literal h
  | item h => exact .item h.free
  | constant h => exact .constant h.free
  | lengthof h => exact .lengthof h.free
  | parenthesized _ ih => exact .parenthesized ih
  | additive _ _ h1 h2 h3 i1 i2 => exact .additive i1 i2 h1 h2 h3
  | additiveMixed _ _ h1 h2 h3 i1 i2 => exact .additiveMixed i1 i2 h1 h2 h3
  | multiplyMixed _ _ h1 h2 h3 i1 i2 => exact .multiplyMixed i1 i2 h1 h2 h3
  | multiplicative _ _ h1 h2 h3 h4 i1 i2 => exact .multiplicative i1 i2 h1 h2 h3 h4
  | bitwiseAnd _ _ h1 h2 h3 i1 i2 => exact .bitwiseAnd i1 i2 h1 h2 h3
  | bitwiseOr _ _ h1 h2 h3 i1 i2 => exact .bitwiseOr i1 i2 h1 h2 h3
  | bitwiseXor _ _ h1 h2 h3 i1 i2 => exact .bitwiseXor i1 i2 h1 h2 h3
  | shift _ _ h1 h2 i1 i2 => exact .shift i1 i2 h1 h2

theorem CondMeans.free {e : CExpr} {f : Env → Bool} (h : CondMeans a e f) : CondMeans a.free e f := by
  induction h with
  | field h => exact .field h.free
  | param h => exact .param h.free
  | parenthesized _ ih => exact .parenthesized ih
  | relational h1 h2 h3 => exact .relational h1.free h2.free h3
  | equality h1 h2 h3 => exact .equality h1.free h2.free h3
  | and _ _ h1 h2 i1 i2 => exact .and i1 i2 h1 h2
  | or _ _ h1 i1 i2 => exact .or i1 i2 h1
  | not _ h1 i1 => exact .not i1 h1
  | isset h1 h2 h3 => exact .isset h1.free h2 h3.free

theorem ClauseMeans.free {e : Option CExpr} {f : Env → Bool} (h : ClauseMeans a e f) : ClauseMeans a.free e f := by
  cases h with
  | no => exact .no
  | yes h => exact .yes h.free

theorem ArrayOf.free {packed : Bool} {x : Option (Option CExpr)} {arr : Option Bool} {len : Env → Option Int} (h : ArrayOf a packed x arr len) :
    ArrayOf a.free packed x arr len := by
  cases h with
  | no => exact .no
  | auto => exact .auto
  | fixed h1 h2 => exact .fixed h1.free h2

theorem ArgMeans.free {b : Bool} {c : CParam} {x : CTypeArg} {v : Env → Nat → Val} (h : ArgMeans a b c x v) : ArgMeans a.free b c x v := by
  cases h with
  | num h1 h2 h3 h4 => exact .num h1.free h2 h3.free h4
  | bool h1 h2 => exact .bool h1.free h2.free
  | index h1 h2 h3 => exact .index h1 h2.free h3

theorem ArgsMean.free {b : Bool} {cs : List CParam} {xs : List CTypeArg} {v : Env → Nat → List Val} (h : ArgsMean a b cs xs v) : ArgsMean a.free b cs xs v := by
  induction h with
  | nil => exact .nil
  | cons h _ ih => exact .cons h.free ih

theorem HasParams.free {ty : FTy} {ps : List CParam} (h : HasParams p ty ps) : HasParams p.free ty ps := by
  cases h with
  | builtin => exact .builtin
  | @own d i n h1 h2 h3 =>
    have e : d.params = d.free.params := by cases d <;> rfl
    rw [e]
    exact .own (free_mem h1) (n := n) (by cases d <;> exact h2) (by rw [free_typeNames]; exact h3)

theorem InstMeans.free {b : Bool} {t : CTypeInst} {ty : FTy} {cast : Bool} {width : Env → Option Nat} {args : Env → Option (Nat → List Val)}
    (h : InstMeans a b t ty cast width args) : InstMeans a.free b t ty cast width args := by
  cases h with
  | plain h1 h2 h3 h4 h5 h6 => exact .plain h1 h2.free h3 h4 h5.free h6
  | bits h1 h2 h3 => exact .bits h1 h2.free h3
  | args h1 h2 h3 h4 h5 h6 => exact .args h1 h2.free h3 h4.free h5.free h6

theorem InitialMeans.free {t : CTypeInst} {e : Option CExpr} (h : InitialMeans a t e) : InitialMeans a.free t e := by
  cases h with
  | no => exact .no
  | number h1 h2 h3 h4 h5 => exact .number h1.free h2 h3 h4 h5

theorem FieldMeans.free {f : CField} {g : Field} (h : FieldMeans a f g) : FieldMeans a.free { f with constraint := none } g := by
  obtain ⟨h1, h2, h3, h4, h5, h6, h7, h8, _⟩ := h
  exact .mk h1.free h2 h3 h4 h5 h6.free h7.free h8.free

theorem MemberMeans.free {f : CChoiceField} {g : Field} (h : MemberMeans a f g) : MemberMeans a.free f g := by
  obtain ⟨h1, h2, h3⟩ := h
  exact .mk h1 h2.free h3.free

theorem CaseFieldMeans.free {f : Option CChoiceField} {g : Option Field} (h : CaseFieldMeans a f g) : CaseFieldMeans a.free f g := by
  cases h with
  | no => exact .no
  | yes h => exact .yes h.free

theorem DefaultMeans.free {f : Option (Option CChoiceField)} {g : Option Field} (h : DefaultMeans a f g) : DefaultMeans a.free f g := by
  cases h with
  | no => exact .no
  | empty => exact .empty
  | yes h1 h2 => exact .yes h1 h2.free

theorem LabelMeans.free {names : List (List Char)} {r : CTypeRef} {w : GoNum} {e : CExpr} {z : Int} (h : LabelMeans a names r w e z) :
    LabelMeans a.free names r w e z := by
  cases h with
  | const h1 h2 h3 => exact .const h1.free h2 h3
  | item h1 h2 h3 h4 => exact .item h1.free (by rw [Place.free, free_declared]; exact h2) h3 h4

theorem CaseMeans.free {names : List (List Char)} {r : CTypeRef} {w : GoNum} {c : CChoiceCases} {e : List Int × Option Field} (h : CaseMeans a names r w c e) :
    CaseMeans a.free names r w c e := by
  obtain ⟨h1, h2⟩ := h
  exact .mk (h1.imp fun _ _ => LabelMeans.free) h2.free

theorem Known.free {r : CTypeRef} (h : Known p r) : Known p.free r := by
  unfold Known at h ⊢
  rw [free_declared]
  exact h

theorem DirectiveMeans.free {d : CDirective} {o : Option Decl} (h : DirectiveMeans p d o) : DirectiveMeans p.free d.free o := by
  cases h with
  | const h1 h2 => exact .const h1 h2.free
  | subtype h1 => exact .subtype h1.free
  | @«structure» n ps cs fs gs h1 h2 h3 h4 h5 =>
    refine .«structure» (by rw [List.length_map]; exact h1) (fun j c f hc hf => ?_) (by rw [List.map_map]; exact h3) (fun c hc => (h4 c hc).free)
      fun g hg => (h5 g hg).free
    rw [List.getElem?_map] at hc
    obtain ⟨c', hc', rfl⟩ := Option.map_eq_some_iff.1 hc
    exact (h2 j c' f hc' hf).free
  | union h1 h2 h3 => exact .union (h1.imp fun _ _ => MemberMeans.free) h2 fun c hc => (h3 c hc).free
  | choice h1 h2 h3 h4 h5 h6 h7 h8 => exact .choice h1.free h2 h3 (h4.imp fun _ _ => CaseMeans.free) h5.free h6 h7 fun c hc => (h8 c hc).free
  | enum h1 h2 h3 h4 => exact .enum h1 h2 h3 h4
  | bitmask h1 h2 h3 => exact .bitmask h1 h2 h3

theorem SchemaMeans.free {ds : List Decl} (h : SchemaMeans p ds) : SchemaMeans p.free ds := by
  obtain ⟨os, h1, h2⟩ := h
  refine ⟨os, ?_, h2⟩
  show List.Forall₂ _ (p.directives.map CDirective.free) os
  rw [List.forall₂_map_left_iff]
  exact h1.imp fun _ _ => DirectiveMeans.free

end

/-- **C100**: constraints of the fields of structures make no difference: the methods generated for a schema are those generated for the schema without
its constraints.

Missing: schemas outside the domain of C90.  What the property asks for instead is false, see `C100_violated`. -/
theorem C100_ignored_partial {p : CPackage} {s s' : List Char} (ht : TextOf p s) (ht' : TextOf p.free s') (hc : Closed p) {ds : List Decl}
    (hm : SchemaMeans p ds) : compileText s = some ds ∧ compileText s' = some ds :=
  ⟨C90_schema_partial ht hc hm, C90_schema_partial ht' ⟨hc.named, hc.alone, by rw [free_declared]; exact hc.nodup⟩ hm.free⟩

/-- `uint8 a : a < 9; uint8 b = 3 : a != b;` -/
def exLimitFields : List CField :=
  [{ exField (.builtin (.word .uint8)) (exIdent 'a') with constraint := some (.relational .lt (exRef 'a') (.literal .decimal ['9'])) },
    { exField (.builtin (.word .uint8)) (exIdent 'b') with
      initializer := some (.literal .decimal ['3'])
      constraint := some (.equality .ne (exRef 'a') (exRef 'b')) }]

/-- `package p; struct S { uint8 a : a < 9; uint8 b = 3 : a != b; };` -/
def exLimit : CPackage := ⟨none, some (exIdent 'p', []), [], [.structure ⟨exIdent 'S', [], []⟩ exLimitFields []]⟩

/-- What it declares. -/
def exLimitDecls : List Decl :=
  [.struct [⟨noExprs, 0, false, .prim (.bits 8 8), none, false⟩, ⟨noExprs, 0, false, .prim (.bits 8 8), none, false⟩]]

/-- The field `a`. -/
def exLimitA (env : Env) : Int := ((env.fields.getD 0 .none).asBits 8).toNat

/-- The field `b`. -/
def exLimitB (env : Env) : Int := ((env.fields.getD 1 .none).asBits 8).toNat

theorem exLimit_constraints : ConstraintMeans ⟨exLimit, [], exLimitFields, 0⟩ (exLimitFields[0]).constraint (fun env => decide (exLimitA env < 9)) ∧
    ConstraintMeans ⟨exLimit, [], exLimitFields, 1⟩ (exLimitFields[1]).constraint (fun env => decide (exLimitA env ≠ exLimitB env)) := by
  have n8 : TypeDenotes ⟨.builtin (.word .uint8), .none⟩ 0 (.bits 8 8) := .unsigned (.word .uint8) 8 0 trivial rfl
  have hda : ['a'] ∉ exLimit.directives.map CDirective.declared := by decide
  have hdb : ['b'] ∉ exLimit.directives.map CDirective.declared := by decide
  have ha : ∀ j, 0 < j → NumMeans ⟨exLimit, [], exLimitFields, j⟩ (exRef 'a') (.num ⟨false, 8⟩) exLimitA :=
    fun j hj => .field (k := .bits 8 8) (o := none) (.mk rfl hj rfl rfl rfl rfl (.builtin (.builtin n8) (by omega) nofun) hda) rfl
  have hb : ∀ j, 1 < j → NumMeans ⟨exLimit, [], exLimitFields, j⟩ (exRef 'b') (.num ⟨false, 8⟩) exLimitB :=
    fun j hj => .field (k := .bits 8 8) (o := none) (.mk rfl hj rfl rfl rfl rfl (.builtin (.builtin n8) (by omega) nofun) hdb) rfl
  refine ⟨.yes (.relational (op := .lt) (ha 1 (by decide)) (.literal (digit_means (c := '9') (d := 9) (.inl (by decide)) (by decide) (by decide)))
    (.right (g := ⟨false, 8⟩) rfl fun _ => by decide)), .yes (.equality (op := .ne) (ha 2 (by decide)) (hb 2 (by decide)) (.same nofun))⟩

theorem exLimit_means : SchemaMeans exLimit exLimitDecls := by
  have n8 : TypeDenotes ⟨.builtin (.word .uint8), .none⟩ 0 (.bits 8 8) := .unsigned (.word .uint8) 8 0 trivial rfl
  refine ⟨[some (.struct _)], .cons ?_ .nil, rfl⟩
  refine .structure rfl (fun j c f hc hf => ?_) (by decide) (fun g hg => by cases hg) (fun g hg => by cases hg)
  rcases j with _ | _ | j
  · cases hc; cases hf
    exact .plain rfl rfl rfl .no rfl (.builtin n8) .no (h9 := exLimit_constraints.1)
  · cases hc; cases hf
    exact .plain rfl rfl rfl .no rfl (.builtin n8) .no
      (h8 := .number (.literal (digit_means (c := '3') (d := 3) (.inl (by decide)) (by decide) (by decide))) (fun _ => rfl) n8 rfl (by decide))
      (h9 := exLimit_constraints.2)
  · cases hc

theorem exLimit_readable : ∀ d ∈ exLimit.directives, d.Readable := by
  have plain : ∀ f : CField, f.typeId.type.type = .builtin (.word .uint8) → ∀ (e : CExpr) (g : CField), f.bodyTokens ≠ e.tokens ++ .sym .colon :: g.bodyTokens :=
    fun f h => C85_plain (by simp [CField.Plain, h])
  intro d hd
  simp only [exLimit, List.mem_cons, List.not_mem_nil, or_false] at hd
  subst hd
  refine ⟨fun f hf => ?_, by simp⟩
  simp only [exLimitFields, List.mem_cons, List.not_mem_nil, or_false] at hf
  rcases hf with rfl | rfl
  all_goals
    refine ⟨?_, trivial, ?_, ?_, ?_, ?_, fun _ => plain _ rfl⟩
    all_goals simp [CFieldTypeId.Readable, CTypeInst.Readable, OptGrouped, CExpr.Grouped, exField, exRef, LeftToRight, CExpr.binds]

/-- Its tokens. -/
def exLimitTokens : List Token := List.flatten
  [[.keyword .package, .id (exIdent 'p'), .sym .semicolon, .keyword .struct, .id (exIdent 'S'), .sym .lbrace],
    CTypeRef.tokens (.builtin (.word .uint8)), [.id (exIdent 'a'), .sym .colon, .id (exIdent 'a'), .sym .lt, .literal .decimal ['9'], .sym .semicolon],
    CTypeRef.tokens (.builtin (.word .uint8)), [.id (exIdent 'b'), .sym .assign, .literal .decimal ['3'], .sym .colon, .id (exIdent 'a'), .sym .ne],
    [.id (exIdent 'b'), .sym .semicolon, .sym .rbrace, .sym .semicolon]]

/-- The text. -/
example : piecesText (spaced exLimitTokens) = "package p ; struct S { uint8 a : a < 9 ; uint8 b = 3 : a != b ; } ; ".toList := by
  decide +kernel

theorem exLimit_text : TextOf exLimit (piecesText (spaced exLimitTokens)) := by
  have h : PackageWritten exLimit exLimitTokens := ⟨_, .cons (.structure _ _ _) .nil, by decide +kernel⟩
  have hf := spaced_fits (ts := exLimitTokens) fun t ht => fineToken_proper ((List.all_eq_true (p := fineToken)).1 (by decide +kernel) t ht)
  exact ⟨⟨_, rfl, hf.1, hf.2.1, by rw [hf.2.2]; exact h⟩, exLimit_readable⟩

theorem exLimit_freeReadable : ∀ d ∈ exLimit.free.directives, d.Readable := by
  intro d hd
  simp only [CPackage.free, exLimit, List.map_cons, List.map_nil, CDirective.free, List.mem_cons, List.not_mem_nil, or_false] at hd
  subst hd
  refine ⟨fun f hf => ?_, by simp⟩
  simp only [exLimitFields, List.map_cons, List.map_nil, List.mem_cons, List.not_mem_nil, or_false] at hf
  rcases hf with rfl | rfl
  all_goals
    refine ⟨?_, trivial, ?_, ?_, ?_, ?_, fun _ => C85_plain (by simp [CField.Plain, exField])⟩
    all_goals simp [CFieldTypeId.Readable, CTypeInst.Readable, OptGrouped, CExpr.Grouped, exField]

/-- The tokens without the constraints. -/
def exLimitFree : List Token := List.flatten
  [[.keyword .package, .id (exIdent 'p'), .sym .semicolon, .keyword .struct, .id (exIdent 'S'), .sym .lbrace],
    CTypeRef.tokens (.builtin (.word .uint8)), [.id (exIdent 'a'), .sym .semicolon],
    CTypeRef.tokens (.builtin (.word .uint8)), [.id (exIdent 'b'), .sym .assign, .literal .decimal ['3'], .sym .semicolon, .sym .rbrace, .sym .semicolon]]

/-- The text without the constraints. -/
example : piecesText (spaced exLimitFree) = "package p ; struct S { uint8 a ; uint8 b = 3 ; } ; ".toList := by decide +kernel

theorem exLimit_freeText : TextOf exLimit.free (piecesText (spaced exLimitFree)) := by
  have h : PackageWritten exLimit.free exLimitFree := ⟨_, .cons (.structure _ _ _) .nil, by decide +kernel⟩
  have hf := spaced_fits (ts := exLimitFree) fun t ht => fineToken_proper ((List.all_eq_true (p := fineToken)).1 (by decide +kernel) t ht)
  exact ⟨⟨_, rfl, hf.1, hf.2.1, by rw [hf.2.2]; exact h⟩, exLimit_freeReadable⟩

theorem exLimit_closed : Closed exLimit := ⟨nofun, rfl, by decide⟩

/-- Both texts give the same code. -/
example : compileText (piecesText (spaced exLimitTokens)) = some exLimitDecls ∧ compileText (piecesText (spaced exLimitFree)) = some exLimitDecls :=
  C100_ignored_partial exLimit_text exLimit_freeText exLimit_closed exLimit_means

/-- `{a: 200, b: 200}` -/
def exLimitVal : Val := .obj 0 [] [.bits 8 200#8, .bits 8 200#8]

/-- Before decoding: `S{}`. -/
def exLimitOld : Val := .obj 0 [] [.bits 8 0#8, .bits 8 0#8]

/-- **C100**: `struct S { uint8 a : a < 9; uint8 b = 3 : a != b; };` is accepted, and `{a: 200, b: 200}`, which meets neither constraint, is encoded and
decoded without error. -/
theorem C100_violated : ∃ code, compileText (piecesText (spaced exLimitTokens)) = some code ∧
    ¬ MeetsConstraints exLimit [] exLimitFields ⟨[], [.bits 8 200#8, .bits 8 200#8]⟩ ∧
    Writes ((methods (byNumber code) 1 0).marshal exLimitVal) [] (Wire.msb 8 200 ++ Wire.msb 8 200) ∧
    Reads ((methods (byNumber code) 1 0).unmarshal exLimitOld) (Wire.msb 8 200 ++ Wire.msb 8 200) 0 exLimitVal := by
  obtain ⟨code, h1, h2⟩ := C90_bits_partial exLimit_text exLimit_closed exLimit_means
    (fun D hD fs h => by
      simp only [exLimitDecls, List.mem_cons, List.not_mem_nil, or_false] at hD
      subst hD
      cases h)
    (fun D hD => by
      simp only [exLimitDecls, List.mem_cons, List.not_mem_nil, or_false] at hD
      subst hD
      intro f hf
      simp only [List.mem_cons, List.not_mem_nil, or_false, or_self] at hf
      subst hf
      decide)
    (fun D hD sel cases dflt h => by
      simp only [exLimitDecls, List.mem_cons, List.not_mem_nil, or_false] at hD
      subst hD
      cases h)
  have hcode : code = exLimitDecls := by
    have := C90_schema_partial exLimit_text exLimit_closed exLimit_means
    rw [h1] at this
    exact Option.some.inj this
  subst hcode
  have hw : wrun ((methods (byNumber exLimitDecls) 1 0).marshal exLimitVal) [] = (.ok (), Wire.msb 8 200 ++ Wire.msb 8 200) := by decide +kernel
  obtain ⟨out, _, h4, h5⟩ := h2 1 0 exLimitOld exLimitVal []
    ⟨0, [], _, _, rfl, rfl, ⟨by decide, ⟨by decide, by decide, by decide⟩, 200#8, rfl, trivial⟩, ⟨by decide, ⟨by decide, by decide, by decide⟩, 200#8, rfl, trivial⟩, trivial⟩ (by rw [hw])
  have ho : out = Wire.msb 8 200 ++ Wire.msb 8 200 := by
    unfold Writes at h4
    rw [hw] at h4
    exact (congrArg Prod.snd h4).symm
  subst ho
  refine ⟨_, h1, fun h => ?_, h4, h5⟩
  exact absurd (h 0 _ _ rfl exLimit_constraints.1) (by decide)

/-- **C100**: constraints are evaluated: no code is generated for a field with a constraint that names nothing.

Missing: names inside larger expressions, and the step from the text. -/
theorem C100_named_partial (q : APackage) (owner : Option (List Char)) (ms : Members) (f : AField) (n : List Char) (hc : f.constraint = some (.leaf .id n))
    (hn : memberNamed q owner n = none) : fieldCode q owner ms f = none := by
  have h : optionalCode (evaluates q owner) f.constraint = none := by
    rw [hc]
    simp [optionalCode, evaluates, evalTEx, hn]
  unfold fieldCode
  simp only [h, bind, Option.bind_none, Option.bind_fun_none]

/-- `struct S { uint8 a : x; };`, and the same with `a != 1`. -/
example : compileText "package p; struct S { uint8 a : x; };".toList = none ∧ (compileText "package p; struct S { uint8 a : a != 1; };".toList).isSome = true := by
  decide +kernel

end Verif
