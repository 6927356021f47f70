import Verif.Props.Generate

/-!
# C90: a schema with `@index`

Arguments of types that are elements of an array can be the index of the element (`ArgMeans.index`).
-/

namespace Verif

/-- `C(@index) c[3];` -/
def exIndexFields : List CField :=
  [⟨none, none, false, false, ⟨false, false, ⟨exType 'C', .typeArgs (.expression .index) []⟩, exIdent 'c', some (some (.literal .decimal ['3']))⟩,
    none, none, none⟩]

/-- `package p; choice C(uint8 x) on x { case 1: uint16 a; case 2: bit<x> b; }; struct S { C(@index) c[3]; };` -/
def exIndex : CPackage :=
  ⟨none, some (exIdent 'p', []), [], [exChoiceDecl, .structure ⟨exIdent 'S', [], []⟩ exIndexFields []]⟩

/-- What it declares. -/
def exIndexed : List Decl :=
  [.choice (fun vs => ((vs.getD 0 .none).asBits 8).toNat)
      [([1], some ⟨noExprs, 0, false, .prim (.bits 16 16), none, false⟩),
        ([2], some ⟨fun env => ⟨true, some ((((env.params.getD 0 .none).asBits 8).toNat : Int).toNat), none, none⟩, 0, false, .prim (.bits 64 64), none, false⟩)]
      none,
    .struct [⟨fun _ => ⟨true, none, some 3, some fun i => [.bits 8 (BitVec.ofNat 8 i)]⟩, 0, false, .comp 0, some false, false⟩]]

theorem exIndex_means : SchemaMeans exIndex exIndexed := by
  have n8 : TypeDenotes ⟨.builtin (.word .uint8), .none⟩ 0 (.bits 8 8) := .unsigned (.word .uint8) 8 0 trivial rfl
  have n16 : TypeDenotes ⟨.builtin (.word .uint16), .none⟩ 0 (.bits 16 16) := .unsigned (.word .uint16) 16 0 trivial rfl
  have hdx : ['x'] ∉ exIndex.directives.map CDirective.declared := by decide
  have hx : NamesParam ⟨exIndex, [⟨.builtin (.word .uint8), exIdent 'x'⟩], [], 0⟩ (exIdent 'x') 0 (.bits 8 8) none :=
    .mk rfl rfl (.builtin (.builtin n8) (by omega) nofun) hdx
  have hl : ∀ (c : Char) (d : Nat), IsDigit c d → d ≠ 0 → d < 10 → LabelMeans ⟨exIndex, [⟨.builtin (.word .uint8), exIdent 'x'⟩], [], 0⟩
      [['x'], ['a'], ['b']] (.builtin (.word .uint8)) ⟨false, 8⟩ (.literal .decimal [c]) d := fun c d h h0 h1 =>
    .const (f := fun _ => (d : Int)) (.literal (digit_means h h0 h1)) (fun _ => rfl) ⟨by omega, by show (d : Int) < 2 ^ 8; norm_num; omega⟩
  have byte : ∀ x : BitVec 8, (0 : Int) ≤ x.toNat ∧ (x.toNat : Int) < 256 := fun x => ⟨by omega, by have := x.isLt; omega⟩
  refine ⟨[some (.choice _ _ _), some (.struct _)], .cons ?_ (.cons ?_ .nil), rfl⟩
  · refine .choice (w := ⟨false, 8⟩) hx rfl rfl (.cons (.mk (.cons (hl '1' 1 (.inl (by decide)) (by decide) (by decide)) .nil) (.yes ?_))
      (.cons (.mk (.cons (hl '2' 2 (.inl (by decide)) (by decide) (by decide)) .nil) (.yes ?_)) .nil)) .no (by decide) (by decide) ?_
    · exact .mk (len := fun _ => none) (width := fun _ => none) (args := fun _ => none) rfl (.builtin n16) .no
    · exact .mk (len := fun _ => none) (width := fun env => some (((env.params.getD 0 .none).asBits 8).toNat : Int).toNat) (args := fun _ => none) rfl
        (.bits (signed := false) (e := exRef 'x') rfl (.param hx rfl) fun _ => byte _) .no
    · intro c hc
      obtain rfl : c = _ := by simpa using hc
      trivial
  · refine .structure rfl (fun j c f hc hf => ?_) (by decide) (fun g hg => by cases hg) (fun g hg => by cases hg)
    rcases j with _ | j
    · cases hc; cases hf
      refine .mk (cond := fun _ => true) (len := fun _ => some 3) (width := fun _ => none) .no rfl rfl .no rfl (.args (d := 0) (i := 0) rfl (.own rfl) (by decide)
        (.own (d := exChoiceDecl) (by simp [exIndex]) rfl rfl) ?_ (by rintro n ⟨⟩; exact capital_letter 'C' _ (by decide)))
        (.fixed (f := fun _ => 3) (.literal (digit_means (.inl (by decide)) (by decide) (by decide))) nofun)
      exact .cons (.index rfl (.builtin (.builtin n8) (by omega) nofun) rfl) .nil
    · cases hc

theorem exIndex_readable : ∀ d ∈ exIndex.directives, d.Readable := by
  intro d hd
  simp only [exIndex, List.mem_cons, List.not_mem_nil, or_false] at hd
  rcases hd with rfl | rfl
  · exact exChoice_readable _ (by simp [exChoice])
  · have plain : ∀ f : CField, f.constraint = none → f.offset = none → ∀ (e : CExpr) (g : CField), f.bodyTokens ≠ e.tokens ++ .sym .colon :: g.bodyTokens :=
      fun f h _ => C85_plain (Or.inr (Or.inr (Or.inr (Or.inr (Or.inr (Or.inr (Or.inl h)))))))
    refine ⟨fun f hf => ?_, by simp⟩
    simp only [exIndexFields, List.mem_cons, List.not_mem_nil, or_false] at hf
    subst hf
    refine ⟨?_, trivial, ?_, trivial, ?_, trivial, plain _ rfl⟩
    all_goals simp [CFieldTypeId.Readable, CTypeInst.Readable, CTypeArg.Grouped, OptGrouped, CExpr.Grouped]

/-- Its tokens. -/
def exIndexTokens : List Token := exChoiceTokens.take 32 ++
  [.id (exIdent 'C'), .sym .lparen, .keyword .index, .sym .rparen, .id (exIdent 'c'), .sym .lbracket, .literal .decimal ['3'], .sym .rbracket, .sym .semicolon,
    .sym .rbrace, .sym .semicolon]

/-- The text. -/
example : piecesText (spaced exIndexTokens) = ("package p ; choice C ( uint8 x ) on x { case 1 : uint16 a ; case 2 : bit < x > b ; } ; " ++
    "struct S { C ( @index ) c [ 3 ] ; } ; ").toList := by
  decide +kernel

theorem exIndex_text : TextOf exIndex (piecesText (spaced exIndexTokens)) := by
  have h : PackageWritten exIndex exIndexTokens :=
    ⟨_, .cons (.choice _ _ _ _ _ (by decide)) (.cons (.structure _ _ _) .nil), by decide +kernel⟩
  have hf := spaced_fits (ts := exIndexTokens) fun t ht => fineToken_proper ((List.all_eq_true (p := fineToken)).1 (by decide +kernel) t ht)
  exact ⟨⟨_, rfl, hf.1, hf.2.1, by rw [hf.2.2]; exact h⟩, exIndex_readable⟩

theorem exIndex_closed : Closed exIndex := ⟨nofun, rfl, by decide⟩

/-- C90 for this text. -/
theorem exIndex_compiles : compileText (piecesText (spaced exIndexTokens)) = some exIndexed :=
  C90_schema_partial exIndex_text exIndex_closed exIndex_means

/-- An element with its parameter. -/
def exIndexElem (x : BitVec 8) (a : BitVec 16) (b : BitVec 64) : Val := .obj 0 [.bits 8 x] [.bits 16 a, .bits 64 b]

/-- A value of `S`: `{c: [{x: 0}, {x: 1, a: 5}, {x: 2, b: 3}]}`. -/
def exIndexVal : Val := .obj 0 [] [.list [exIndexElem 0 0 0, exIndexElem 1 5 0, exIndexElem 2 0 3]]

/-- Nothing for the first element, 16 bits for the second one, 2 bits for the third one. -/
example : ∃ code, compileText (piecesText (spaced exIndexTokens)) = some code ∧
    wrun ((methods (byNumber code) 2 1).marshal exIndexVal) [] = (.ok (), Wire.msb 16 5 ++ Wire.msb 2 3) ∧
    (Wire.format 0 Wire.standard (byNumber exIndexed) 2 1).plain exIndexVal 0 = some (Wire.msb 16 5 ++ Wire.msb 2 3) ∧
    (rrun ((methods (byNumber code) 2 1).unmarshal (.obj 0 [] [.list []])) ⟨Wire.msb 16 5 ++ Wire.msb 2 3, 0⟩).1 = .ok exIndexVal :=
  ⟨_, exIndex_compiles, by decide +kernel, by decide +kernel, Val.ok_of_beq (by decide +kernel)⟩

theorem argCodes_index (q : APackage) (owner : Option (List Char)) (ms : Members) : ∀ (ps : List AParam) {es : List AExpr}, AExpr.leaf .index "@index".toList ∈ es →
    argCodes q owner ms false ps es = none
  | [], e :: es, _ => rfl
  | a :: as, e :: es, h => by
    unfold argCodes
    rcases List.mem_cons.1 h with rfl | h
    · have : indexedArg q owner ms false a.type (.leaf .index "@index".toList) = none := rfl
      rw [this]
    · rw [argCodes_index q owner ms as h]
      cases indexedArg q owner ms false a.type e <;> rfl

/-- **C90**: outside arrays `@index` has no meaning: no methods are generated that Go compiles. -/
theorem C90_index_alone (q : APackage) (owner : Option (List Char)) (ms : Members) (f : AField) (ha : f.array = none)
    (hi : AExpr.leaf .index "@index".toList ∈ f.type.typeArguments) : fieldCode q owner ms f = none := by
  have hc : (capRef f.type).typeArguments = f.type.typeArguments := by
    obtain ⟨b, pk, n, bits, targs, args, length⟩ := f.type
    cases b <;> rfl
  have h : fieldArgs q owner ms f.array.isSome (capField f).type = none := by
    rw [ha]
    unfold fieldArgs
    simp only [capField, hc]
    rw [if_neg (by intro e; rw [List.isEmpty_iff.1 e] at hi; cases hi)]
    split
    · rw [Option.isSome_none, argCodes_index _ _ _ _ hi]; rfl
    · rfl
  unfold fieldCode
  simp only [h, bind, Option.bind_none, Option.bind_fun_none]

/-- `C(@index) c;` in package `p`. -/
example : fieldCode ⟨['p'], [], []⟩ none ⟨[], []⟩ ⟨['c'], false, 0, .mk false ['p'] ['C'] 0 [] [.leaf .index "@index".toList] none, none, none, none, none⟩ = none :=
  C90_index_alone _ _ _ _ rfl (List.mem_singleton.2 rfl)

end Verif
