import Verif.Props.Generate

/-!
# C90: a schema with an enum in expressions

The theorems of Verif/Props/Generate.lean for a schema whose choice has a selector of a subtype of an enum and labels that are items, one of which has
a number that is written and one of which has not, and whose structure has conditions with both.
-/

namespace Verif

/-- `a, b = 4, c` -/
def exItems : List CEnumItem := [⟨none, exIdent 'a', none⟩, ⟨none, exIdent 'b', some (.literal .decimal ['4'])⟩, ⟨none, exIdent 'c', none⟩]

/-- `enum uint8 E { a, b = 4, c };` -/
def exItemsEnum : CDirective := .enum ⟨.builtin (.word .uint8), .none⟩ (exIdent 'E') exItems

/-- `choice C(F x) on x { case a: uint16 d; case c: uint8 e; };` -/
def exItemsChoice : CDirective :=
  .choice ⟨exIdent 'C', [], [⟨exType 'F', exIdent 'x'⟩]⟩ (exRef 'x')
    [⟨exRef 'a', [], some ⟨⟨false, false, ⟨.builtin (.word .uint16), .none⟩, exIdent 'd', none⟩, none⟩⟩,
      ⟨exRef 'c', [], some ⟨⟨false, false, ⟨.builtin (.word .uint8), .none⟩, exIdent 'e', none⟩, none⟩⟩] none []

/-- `E f; C(f) g; uint8 h if f == E.b; uint8 k if f == E.c;` -/
def exItemsFields : List CField :=
  [exField (exType 'E') (exIdent 'f'),
    ⟨none, none, false, false, ⟨false, false, ⟨exType 'C', .typeArgs (.expression (exRef 'f')) []⟩, exIdent 'g', none⟩, none, none, none⟩,
    { exField (.builtin (.word .uint8)) (exIdent 'h') with optionalClause := some (.equality .eq (exRef 'f') (.dot (exRef 'E') (exIdent 'b'))) },
    { exField (.builtin (.word .uint8)) (exIdent 'k') with optionalClause := some (.equality .eq (exRef 'f') (.dot (exRef 'E') (exIdent 'c'))) }]

/-- `package p; enum uint8 E { a, b = 4, c }; subtype E F; choice C(F x) on x { case a: uint16 d; case c: uint8 e; };
struct S { E f; C(f) g; uint8 h if f == E.b; uint8 k if f == E.c; };` -/
def exItemsSchema : CPackage :=
  ⟨none, some (exIdent 'p', []), [], [exItemsEnum, .subtype (exType 'E') (exIdent 'F'), exItemsChoice, .structure ⟨exIdent 'S', [], []⟩ exItemsFields []]⟩

/-- What it declares. -/
def exItemsDecls : List Decl :=
  [.enum (.bits 8 8),
    .choice (fun vs => ((vs.getD 0 .none).asBits 8).toNat)
      [([0], some ⟨noExprs, 0, false, .prim (.bits 16 16), none, false⟩), ([5], some ⟨noExprs, 0, false, .prim (.bits 8 8), none, false⟩)] none,
    .struct [⟨noExprs, 0, false, .comp 0, none, false⟩,
      ⟨fun env => ⟨true, none, none, some fun _ => [.bits 8 (BitVec.ofInt 8 (((env.fields.getD 0 .none).asBits 8).toNat : Int))]⟩, 0, false, .comp 1, none,
        false⟩,
      ⟨fun env => ⟨decide ((((env.fields.getD 0 .none).asBits 8).toNat : Int) = 4), none, none, none⟩, 0, false, .prim (.bits 8 8), none, false⟩,
      ⟨fun env => ⟨decide ((((env.fields.getD 0 .none).asBits 8).toNat : Int) = 5), none, none, none⟩, 0, false, .prim (.bits 8 8), none, false⟩]]

/-- The numbers of the items. -/
theorem exItems_values : ItemValue exItems 0 0 ∧ ItemValue exItems 1 4 ∧ ItemValue exItems 2 5 := by
  have h1 : ItemValue exItems 1 4 := .given rfl rfl (digit_means (c := '4') (d := 4) (.inl (by decide)) (by decide) (by decide))
  exact ⟨.first rfl rfl, h1, .next rfl rfl h1 (by norm_num)⟩

theorem exItems_all : ∀ j < exItems.length, ∃ z, ItemValue exItems j z := by
  intro j hj
  have : j < 3 := hj
  obtain ⟨h0, h1, h2⟩ := exItems_values
  rcases j with _ | _ | _ | j
  · exact ⟨_, h0⟩
  · exact ⟨_, h1⟩
  · exact ⟨_, h2⟩
  · omega

theorem exItems_own : RefersTo exItemsSchema (exType 'E') 0 (.comp 0) := .own rfl

theorem exItems_sub : RefersTo exItemsSchema (exType 'F') 1 (.comp 0) := .subtype (r := exType 'E') (by simp [exItemsSchema, exIdent]) exItems_own

theorem exItems_in : CDirective.enum ⟨.builtin (.word .uint8), .none⟩ (exIdent 'E') exItems ∈ exItemsSchema.directives := by
  simp [exItemsSchema, exItemsEnum]

/-- `E.c` is a Go constant, `EC`. -/
theorem exItems_constant : ItemConstant exItemsSchema (exIdent 'E') (exIdent 'c') 0 ⟨false, 8⟩ 5 := by
  refine .mk (k := .bits 8 8) rfl (capital_letter 'E' _ (by decide)) exItems_in (.unsigned (.word .uint8) 8 0 trivial rfl) rfl (by decide) exItems_all
    (j := 2) rfl rfl rfl exItems_values.2.2 (by decide) ?_
  intro ty m is c hd hc he
  simp only [exItemsSchema, exItemsEnum, exItemsChoice, List.mem_cons, List.not_mem_nil, or_false, reduceCtorEq, CDirective.enum.injEq] at hd
  obtain ⟨rfl, rfl, rfl⟩ := hd
  simp only [exItems, List.mem_cons, List.not_mem_nil, or_false] at hc
  rcases hc with rfl | rfl | rfl
  · exact absurd he (by decide)
  · exact absurd he (by decide)
  · exact ⟨rfl, rfl⟩

theorem exItems_means : SchemaMeans exItemsSchema exItemsDecls := by
  have n8 : TypeDenotes ⟨.builtin (.word .uint8), .none⟩ 0 (.bits 8 8) := .unsigned (.word .uint8) 8 0 trivial rfl
  have n16 : TypeDenotes ⟨.builtin (.word .uint16), .none⟩ 0 (.bits 16 16) := .unsigned (.word .uint16) 16 0 trivial rfl
  have hdf : ['f'] ∉ exItemsSchema.directives.map CDirective.declared := by decide
  have hdx : ['x'] ∉ exItemsSchema.directives.map CDirective.declared := by decide
  have tE : MemberType exItemsSchema (exType 'E') (.bits 8 8) (some (0, false)) :=
    .enum exItems_own (by omega) (by rintro n ⟨⟩; exact capital_letter 'E' _ (by decide)) rfl exItems_in n8
  have tF : MemberType exItemsSchema (exType 'F') (.bits 8 8) (some (0, false)) :=
    .enum exItems_sub (by omega) (by rintro n ⟨⟩; exact capital_letter 'F' _ (by decide)) rfl exItems_in n8
  have item : ∀ (r : CTypeRef) (d : Nat), RefersTo exItemsSchema r d (.comp 0) → d ≤ 99 → ∀ (j : Nat) c z, exItems[j]? = some c → ItemValue exItems j z →
      ItemMeans exItemsSchema r c.name c.value.isSome z :=
    fun r d hr hd j c z hc hz => .mk hr hd rfl exItems_in (by decide) exItems_all hc rfl rfl hz
  have hx : NamesParam ⟨exItemsSchema, [⟨exType 'F', exIdent 'x'⟩], [], 0⟩ (exIdent 'x') 0 (.bits 8 8) (some (0, false)) := .mk rfl rfl tF hdx
  have hf : ∀ j, 0 < j → NumMeans ⟨exItemsSchema, [], exItemsFields, j⟩ (exRef 'f') (.own 0 false ⟨false, 8⟩)
      (fun env => ((Val.asBits 8 (env.fields.getD 0 .none)).toNat : Int)) :=
    fun j hj => .field (k := .bits 8 8) (o := some (0, false)) (.mk rfl hj rfl rfl rfl rfl tE hdf) rfl
  have byte : ∀ x : BitVec 8, (0 : Int) ≤ x.toNat ∧ (x.toNat : Int) < 256 := fun x => ⟨by omega, by have := x.isLt; omega⟩
  obtain ⟨v0, v1, v2⟩ := exItems_values
  refine ⟨[some (.enum (.bits 8 8)), none, some (.choice _ _ _), some (.struct _)], .cons ?_ (.cons ?_ (.cons ?_ (.cons ?_ .nil))), rfl⟩
  · exact .enum n8 rfl rfl rfl
  · exact .subtype (by simp [Known, exType, exItemsSchema, exItemsEnum, CDirective.declared, exIdent])
  · refine .choice (w := ⟨false, 8⟩) hx rfl rfl
      (.cons (.mk (.cons (.item (item _ _ exItems_sub (by omega) 0 _ _ rfl v0) (by decide) (by decide) (by decide)) .nil) (.yes ?_))
        (.cons (.mk (.cons (.item (item _ _ exItems_sub (by omega) 2 _ _ rfl v2) (by decide) (by decide) (by decide)) .nil) (.yes ?_)) .nil))
      .no (by decide) (by decide) ?_
    · exact .mk (len := fun _ => none) (width := fun _ => none) (args := fun _ => none) rfl (.builtin n16) .no
    · exact .mk (len := fun _ => none) (width := fun _ => none) (args := fun _ => none) rfl (.builtin n8) .no
    · intro c hc
      obtain rfl : c = _ := by simpa using hc
      simp [Known, exType, exItemsSchema, CDirective.declared, exIdent]
  · refine .structure rfl (fun j c f hc hf' => ?_) (by decide) (fun g hg => by cases hg) (fun g hg => by cases hg)
    rcases j with _ | _ | _ | _ | j
    · cases hc; cases hf'
      exact .plain rfl rfl rfl .no rfl (.plain (d := 0) rfl exItems_own (by decide) (.inl rfl) (.own (d := exItemsEnum) (by simp [exItemsSchema]) rfl rfl)
        (by rintro n ⟨⟩; exact capital_letter 'E' _ (by decide))) .no
    · cases hc; cases hf'
      refine .mk (cond := fun _ => true) (len := fun _ => none) (width := fun _ => none) .no rfl rfl .no rfl (.args (d := 0) (i := 1) rfl (.own rfl) (by decide)
        (.own (d := exItemsChoice) (by simp [exItemsSchema]) rfl rfl) ?_ (by rintro n ⟨⟩; exact capital_letter 'C' _ (by decide))) .no
      exact .cons (.num (w := ⟨false, 8⟩) tF rfl (hf 1 (by decide)) fun env => byte _) .nil
    · cases hc; cases hf'
      exact .mk (cond := fun env => EqOp.eq.holds ((Val.asBits 8 (env.fields.getD 0 .none)).toNat : Int) 4)
        (len := fun _ => none) (width := fun _ => none) (args := fun _ => none)
        (.yes (.equality (hf 2 (by decide)) (.item (item _ _ exItems_own (by omega) 1 _ _ rfl v1)) (.right (g := ⟨false, 8⟩) rfl fun _ => by decide)))
        rfl rfl .no rfl (.builtin n8) .no
    · cases hc; cases hf'
      exact .mk (cond := fun env => EqOp.eq.holds ((Val.asBits 8 (env.fields.getD 0 .none)).toNat : Int) 5)
        (len := fun _ => none) (width := fun _ => none) (args := fun _ => none)
        (.yes (.equality (hf 3 (by decide)) (.constant exItems_constant) .itemRight)) rfl rfl .no rfl (.builtin n8) .no
    · cases hc

theorem exItems_readable : ∀ d ∈ exItemsSchema.directives, d.Readable := by
  have plain : ∀ f : CField, f.constraint = none → f.offset = none → ∀ (e : CExpr) (g : CField), f.bodyTokens ≠ e.tokens ++ .sym .colon :: g.bodyTokens :=
    fun f h _ => C85_plain (Or.inr (Or.inr (Or.inr (Or.inr (Or.inr (Or.inr (Or.inl h)))))))
  intro d hd
  simp only [exItemsSchema, List.mem_cons, List.not_mem_nil, or_false] at hd
  rcases hd with rfl | rfl | rfl | rfl
  · simp [exItemsEnum, exItems, CDirective.Readable, CTypeInst.Readable, OptGrouped, CExpr.Grouped]
  · simp [CDirective.Readable]
  · refine ⟨by simp, ?_, fun c hc => ?_, nofun, by simp⟩
    · simp [exRef, CExpr.Grouped]
    · simp only [List.mem_cons, List.not_mem_nil, or_false] at hc
      rcases hc with rfl | rfl <;>
        simp [CChoiceCases.Readable, CChoiceField.Readable, CFieldTypeId.Readable, CTypeInst.Readable, OptGrouped, CExpr.Grouped, exRef]
  · refine ⟨fun f hf => ?_, by simp⟩
    simp only [exItemsFields, List.mem_cons, List.not_mem_nil, or_false] at hf
    rcases hf with rfl | rfl | rfl | rfl
    all_goals
      refine ⟨?_, trivial, ?_, trivial, ?_, trivial, plain _ rfl⟩
      all_goals simp [CFieldTypeId.Readable, CTypeInst.Readable, CTypeArg.Grouped, OptGrouped, CExpr.Grouped, exField, exRef, LeftToRight, CExpr.binds]

/-- Its tokens. -/
def exItemsTokens : List Token := List.flatten
  [[.keyword .package, .id (exIdent 'p'), .sym .semicolon, .keyword .enum], CTypeRef.tokens (.builtin (.word .uint8)),
    [.id (exIdent 'E'), .sym .lbrace, .id (exIdent 'a'), .sym .comma, .id (exIdent 'b'), .sym .assign, .literal .decimal ['4'], .sym .comma],
    [.id (exIdent 'c'), .sym .rbrace, .sym .semicolon, .keyword .subtype, .id (exIdent 'E'), .id (exIdent 'F'), .sym .semicolon],
    [.keyword .choice, .id (exIdent 'C'), .sym .lparen, .id (exIdent 'F'), .id (exIdent 'x'), .sym .rparen, .keyword .on, .id (exIdent 'x'), .sym .lbrace],
    [.keyword .case, .id (exIdent 'a'), .sym .colon], CTypeRef.tokens (.builtin (.word .uint16)), [.id (exIdent 'd'), .sym .semicolon],
    [.keyword .case, .id (exIdent 'c'), .sym .colon], CTypeRef.tokens (.builtin (.word .uint8)), [.id (exIdent 'e'), .sym .semicolon],
    [.sym .rbrace, .sym .semicolon, .keyword .struct, .id (exIdent 'S'), .sym .lbrace, .id (exIdent 'E'), .id (exIdent 'f'), .sym .semicolon],
    [.id (exIdent 'C'), .sym .lparen, .id (exIdent 'f'), .sym .rparen, .id (exIdent 'g'), .sym .semicolon],
    CTypeRef.tokens (.builtin (.word .uint8)), [.id (exIdent 'h'), .keyword .if, .id (exIdent 'f'), .sym .eq, .id (exIdent 'E'), .sym .dot],
    [.id (exIdent 'b'), .sym .semicolon],
    CTypeRef.tokens (.builtin (.word .uint8)), [.id (exIdent 'k'), .keyword .if, .id (exIdent 'f'), .sym .eq, .id (exIdent 'E'), .sym .dot],
    [.id (exIdent 'c'), .sym .semicolon, .sym .rbrace, .sym .semicolon]]

theorem exItems_text : TextOf exItemsSchema (piecesText (spaced exItemsTokens)) := by
  have h : PackageWritten exItemsSchema exItemsTokens :=
    ⟨_, .cons (.enum _ _ _ _ (.plain _ _)) (.cons (.subtype _ _) (.cons (.choice _ _ _ _ _ (by decide)) (.cons (.structure _ _ _) .nil))), by decide +kernel⟩
  have hf := spaced_fits (ts := exItemsTokens) fun t ht => fineToken_proper ((List.all_eq_true (p := fineToken)).1 (by decide +kernel) t ht)
  exact ⟨⟨_, rfl, hf.1, hf.2.1, by rw [hf.2.2]; exact h⟩, exItems_readable⟩

theorem exItems_closed : Closed exItemsSchema := ⟨nofun, rfl, by decide⟩

/-- The text. -/
example : piecesText (spaced exItemsTokens) = ("package p ; enum uint8 E { a , b = 4 , c } ; subtype E F ; " ++
    "choice C ( F x ) on x { case a : uint16 d ; case c : uint8 e ; } ; struct S { E f ; C ( f ) g ; uint8 h if f == E . b ; uint8 k if f == E . c ; } ; ").toList := by
  decide +kernel

/-- C90 for this text. -/
theorem exItems_compiles : compileText (piecesText (spaced exItemsTokens)) = some exItemsDecls :=
  C90_schema_partial exItems_text exItems_closed exItems_means

/-- A value of `S`: `{f: c, g: {x: c, e: 7}, k: 9}`. -/
def exItemsVal : Val := .obj 0 [] [.bits 8 5#8, .obj 0 [.bits 8 5#8] [.bits 16 0#16, .bits 8 7#8], .bits 8 0#8, .bits 8 9#8]

/-- Before decoding: `S{}`. -/
def exItemsOld : Val := .obj 0 [] [.bits 8 0#8, .obj 0 [.bits 8 0#8] [.bits 16 0#16, .bits 8 0#8], .bits 8 0#8, .bits 8 0#8]

theorem exItems_typed : Typed (byNumber exItemsDecls) 2 2 exItemsOld exItemsVal := by
  refine ⟨0, [], _, _, rfl, rfl, ⟨by decide, rfl, 5#8, rfl, trivial⟩, ⟨by decide, rfl, ?_⟩, ?_, ⟨by decide, ⟨by decide, by decide, by decide⟩, 9#8, rfl, trivial⟩, trivial⟩
  · exact ⟨0, [.bits 8 5#8], [.bits 16 0#16, .bits 8 0#8], _, rfl, rfl, _, _, .bits 8 7#8, rfl, rfl, rfl,
      by decide, ⟨by decide, by decide, by decide⟩, 7#8, rfl, trivial⟩
  · exact rfl

/-- C90 for this value: 8 bits for the item, 8 bits for the field of case `c`, 8 bits for `k`. -/
theorem exItems_bits : wrun ((methods (byNumber exItemsDecls) 2 2).marshal exItemsVal) [] = (.ok (), Wire.msb 8 5 ++ Wire.msb 8 7 ++ Wire.msb 8 9) := by
  decide +kernel

example : ∃ code, compileText (piecesText (spaced exItemsTokens)) = some code ∧ ∃ out,
    (Wire.format 0 Wire.standard (byNumber exItemsDecls) 2 2).plain exItemsVal 0 = some out ∧
      Writes ((methods (byNumber code) 2 2).marshal exItemsVal) [] out ∧
      Reads ((methods (byNumber code) 2 2).unmarshal exItemsOld) out 0 exItemsVal := by
  obtain ⟨code, h1, h2⟩ := C90_bits_partial exItems_text exItems_closed exItems_means
    (fun D hD fs h => by
      simp only [exItemsDecls, List.mem_cons, List.not_mem_nil, or_false] at hD
      rcases hD with rfl | rfl | rfl <;> cases h)
    (fun D hD => by
      simp only [exItemsDecls, List.mem_cons, List.not_mem_nil, or_false] at hD
      rcases hD with rfl | rfl | rfl
      · trivial
      · intro f hf
        simp only [choiceFields, List.filterMap_cons, List.filterMap_nil, Option.toList, List.append_nil, List.mem_cons, List.not_mem_nil, or_false] at hf
        rcases hf with rfl | rfl <;> decide
      · intro f hf
        simp only [List.mem_cons, List.not_mem_nil, or_false] at hf
        rcases hf with rfl | rfl | rfl | rfl <;> decide)
    (fun D hD sel cases dflt h => by
      simp only [exItemsDecls, List.mem_cons, List.not_mem_nil, or_false] at hD
      rcases hD with rfl | rfl | rfl
      · cases h
      · cases h
        refine ⟨fun c hc => ?_, by decide, nofun⟩
        simp only [List.mem_cons, List.not_mem_nil, or_false] at hc
        rcases hc with rfl | rfl <;> exact ⟨_, rfl⟩
      · cases h)
  have : code = exItemsDecls := Option.some.inj (h1.symm.trans exItems_compiles)
  subst this
  exact ⟨_, h1, h2 2 2 exItemsOld exItemsVal [] exItems_typed (by rw [exItems_bits])⟩

end Verif
