import Verif.Props.GenerateArith

/-!
# C90: a schema with operands of different types

The theorems of Verif/Props/Generate.lean for a schema with a sum of numbers with and without sign and with lengths of arrays, and a value for which
the sum of the generated code is not that of the schema.
-/

namespace Verif

/-- `uint8 n; int16 m; uint8 a[n]; uint8 b if n + m < 5; uint8 c[lengthof(a) + 1];` -/
def exMixedFields : List CField :=
  [exField (.builtin (.word .uint8)) (exIdent 'n'), exField (.builtin (.word .int16)) (exIdent 'm'),
    ⟨none, none, false, false, ⟨false, false, ⟨.builtin (.word .uint8), .none⟩, exIdent 'a', some (some (exRef 'n'))⟩, none, none, none⟩,
    { exField (.builtin (.word .uint8)) (exIdent 'b') with
      optionalClause := some (.relational .lt (.additive .plus (exRef 'n') (exRef 'm')) (exDigit '5')) },
    ⟨none, none, false, false, ⟨false, false, ⟨.builtin (.word .uint8), .none⟩, exIdent 'c', some (some (.additive .plus (.lengthof (exRef 'a')) (exDigit '1')))⟩,
      none, none, none⟩]

/-- `package p; struct S { uint8 n; int16 m; uint8 a[n]; uint8 b if n + m < 5; uint8 c[lengthof(a) + 1]; };` -/
def exMixed : CPackage := ⟨none, some (exIdent 'p', []), [], [.structure ⟨exIdent 'S', [], []⟩ exMixedFields []]⟩

/-- The value of `m`. -/
def exMixedM (env : Env) : Int := (Val.asBits 16 (env.fields.getD 1 .none)).toInt

/-- What it declares: the sum of `n` and `m` is one of 16 bits without sign, that of the length and 1 one of 64 bits. -/
def exMixedDecls : List Decl :=
  [.struct [⟨noExprs, 0, false, .prim (.bits 8 8), none, false⟩, ⟨noExprs, 0, false, .prim (.sbits 16 16), none, false⟩,
      ⟨fun env => ⟨true, none, some (exArithN env), none⟩, 0, false, .prim (.bits 8 8), some false, false⟩,
      ⟨fun env => ⟨decide (wrapTo ⟨false, 16⟩ (exArithN env + exMixedM env) < 5), none, none, none⟩, 0, false, .prim (.bits 8 8), none, false⟩,
      ⟨fun env => ⟨true, none, some (wrapTo ⟨true, 64⟩ (wrapTo ⟨true, 64⟩ (env.fields.getD 2 .none).size + 1)), none⟩, 0, false,
        .prim (.bits 8 8), some false, false⟩]]

theorem exMixed_means : SchemaMeans exMixed exMixedDecls := by
  have n8 : TypeDenotes ⟨.builtin (.word .uint8), .none⟩ 0 (.bits 8 8) := .unsigned (.word .uint8) 8 0 trivial rfl
  have s16 : TypeDenotes ⟨.builtin (.word .int16), .none⟩ 0 (.sbits 16 16) := .signed (.word .int16) 16 0 trivial rfl
  have hd : ∀ x ∈ ([['n'], ['m'], ['a']] : List (List Char)), x ∉ exMixed.directives.map CDirective.declared := by decide
  have hn : ∀ j, 0 < j → NumMeans ⟨exMixed, [], exMixedFields, j⟩ (exRef 'n') (.num ⟨false, 8⟩) exArithN :=
    fun j hj => .field (k := .bits 8 8) (o := none) (.mk rfl hj rfl rfl rfl rfl (.builtin (.builtin n8) (by omega) nofun) (hd _ (by decide))) rfl
  have hm : ∀ j, 1 < j → NumMeans ⟨exMixed, [], exMixedFields, j⟩ (exRef 'm') (.num ⟨true, 16⟩) exMixedM :=
    fun j hj => .field (k := .sbits 16 16) (o := none) (.mk rfl hj rfl rfl rfl rfl (.builtin (.builtin s16) (by omega) nofun) (hd _ (by decide))) rfl
  have ha : NumMeans ⟨exMixed, [], exMixedFields, 4⟩ (.lengthof (exRef 'a')) (.num ⟨true, 64⟩)
      (fun env => wrapTo ⟨true, 64⟩ (env.fields.getD 2 .none).size) :=
    .lengthof (.mk (i := 2) rfl (by decide) rfl rfl nofun (.builtin n8) (by omega) nofun (hd _ (by decide)))
  refine ⟨[some (.struct _)], .cons ?_ .nil, rfl⟩
  refine .structure rfl (fun j c f hc hf => ?_) (by decide) (fun g hg => by cases hg) (fun g hg => by cases hg)
  rcases j with _ | _ | _ | _ | _ | j
  · cases hc; cases hf
    exact .plain rfl rfl rfl .no rfl (.builtin n8) .no
  · cases hc; cases hf
    exact .plain rfl rfl rfl .no rfl (.builtin s16) .no
  · cases hc; cases hf
    exact .mk (cond := fun _ => true) (len := fun env => some (exArithN env)) (width := fun _ => none) (args := fun _ => none)
      .no rfl rfl .no rfl (.builtin n8) (.fixed (hn 2 (by decide)) (by simp [NumTy.int]))
  · cases hc; cases hf
    exact .mk (cond := fun env => RelOp.lt.holds (wrapTo ⟨false, 16⟩ (exArithN env + exMixedM env)) 5) (len := fun _ => none) (width := fun _ => none)
      (args := fun _ => none)
      (.yes (.relational (.additiveMixed (hn 3 (by decide)) (hm 3 (by decide)) (w := ⟨false, 16⟩) (.mk (g := ⟨false, 8⟩) (g' := ⟨true, 16⟩) (by decide) (by decide))
        (by decide) (by decide)) (.literal (digit_means (d := 5) (.inl (by decide)) (by decide) (by decide)))
        (.right (g := ⟨false, 16⟩) rfl fun _ => ⟨by decide, by decide⟩)))
      rfl rfl .no rfl (.builtin n8) .no
  · cases hc; cases hf
    exact .mk (cond := fun _ => true)
      (len := fun env => some (wrapTo ⟨true, 64⟩ (wrapTo ⟨true, 64⟩ (env.fields.getD 2 .none).size + 1))) (width := fun _ => none)
      (args := fun _ => none) .no rfl rfl .no rfl (.builtin n8)
      (.fixed (.additive ha (.literal (digit_means (d := 1) (.inl (by decide)) (by decide) (by decide))) (.right fun _ => ⟨by decide, by decide⟩) (by decide)
        (by decide)) (by simp [NumTy.int]))
  · cases hc

theorem exMixed_readable : ∀ d ∈ exMixed.directives, d.Readable := by
  have plain : ∀ f : CField, f.constraint = none → f.offset = none → ∀ (e : CExpr) (g : CField), f.bodyTokens ≠ e.tokens ++ .sym .colon :: g.bodyTokens :=
    fun f h _ => C85_plain (Or.inr (Or.inr (Or.inr (Or.inr (Or.inr (Or.inr (Or.inl h)))))))
  intro d hd
  simp only [exMixed, List.mem_cons, List.not_mem_nil, or_false] at hd
  subst hd
  refine ⟨fun f hf => ?_, by simp⟩
  simp only [exMixedFields, List.mem_cons, List.not_mem_nil, or_false] at hf
  rcases hf with rfl | rfl | rfl | rfl | rfl
  all_goals
    refine ⟨?_, trivial, ?_, trivial, ?_, trivial, plain _ rfl⟩
    all_goals simp [CFieldTypeId.Readable, CTypeInst.Readable, OptGrouped, CExpr.Grouped, exField, exRef, exDigit, LeftToRight, CExpr.binds]

/-- Its tokens. -/
def exMixedTokens : List Token := List.flatten
  [[.keyword .package, .id (exIdent 'p'), .sym .semicolon, .keyword .struct, .id (exIdent 'S'), .sym .lbrace],
    CTypeRef.tokens (.builtin (.word .uint8)), [.id (exIdent 'n'), .sym .semicolon],
    CTypeRef.tokens (.builtin (.word .int16)), [.id (exIdent 'm'), .sym .semicolon],
    CTypeRef.tokens (.builtin (.word .uint8)), [.id (exIdent 'a'), .sym .lbracket, .id (exIdent 'n'), .sym .rbracket, .sym .semicolon],
    CTypeRef.tokens (.builtin (.word .uint8)), [.id (exIdent 'b'), .keyword .if, .id (exIdent 'n'), .sym .plus, .id (exIdent 'm'), .sym .lt],
    [.literal .decimal ['5'], .sym .semicolon],
    CTypeRef.tokens (.builtin (.word .uint8)), [.id (exIdent 'c'), .sym .lbracket, .keyword .lengthof, .sym .lparen, .id (exIdent 'a'), .sym .rparen],
    [.sym .plus, .literal .decimal ['1'], .sym .rbracket, .sym .semicolon, .sym .rbrace, .sym .semicolon]]

theorem exMixed_text : TextOf exMixed (piecesText (spaced exMixedTokens)) := by
  have h : PackageWritten exMixed exMixedTokens := ⟨_, .cons (.structure _ _ _) .nil, by decide +kernel⟩
  have hf := spaced_fits (ts := exMixedTokens) fun t ht => fineToken_proper ((List.all_eq_true (p := fineToken)).1 (by decide +kernel) t ht)
  exact ⟨⟨_, rfl, hf.1, hf.2.1, by rw [hf.2.2]; exact h⟩, exMixed_readable⟩

theorem exMixed_closed : Closed exMixed := ⟨nofun, rfl, by decide⟩

/-- The text. -/
example : piecesText (spaced exMixedTokens) = ("package p ; struct S { uint8 n ; int16 m ; uint8 a [ n ] ; uint8 b if n + m < 5 ; " ++
    "uint8 c [ lengthof ( a ) + 1 ] ; } ; ").toList := by
  decide +kernel

/-- C90 for this text. -/
theorem exMixed_compiles : compileText (piecesText (spaced exMixedTokens)) = some exMixedDecls :=
  C90_schema_partial exMixed_text exMixed_closed exMixed_means

/-- A value of `S`: `{n: 3, m: -1, a: [1, 2, 3], b: 9, c: 4 times 4}`. -/
def exMixedVal : Val :=
  .obj 0 [] [.bits 8 3#8, .bits 16 (-1 : BitVec 16), .list [.bits 8 1#8, .bits 8 2#8, .bits 8 3#8], .bits 8 9#8, .list (List.replicate 4 (.bits 8 4#8))]

example : wrun ((methods (byNumber exMixedDecls) 1 0).marshal exMixedVal) [] =
    (.ok (), Wire.msb 8 3 ++ Wire.msb 16 65535 ++ Wire.msb 8 1 ++ Wire.msb 8 2 ++ Wire.msb 8 3 ++ Wire.msb 8 9 ++ (List.replicate 4 (Wire.msb 8 4)).flatten) := by
  decide +kernel

/-- A value of `S`: `{n: 0, m: -1, a: [], b: 9, c: [7]}`. -/
def exMixedLow : Val := .obj 0 [] [.bits 8 0#8, .bits 16 (-1 : BitVec 16), .list [], .bits 8 9#8, .list [.bits 8 7#8]]

/-- **C90, violated**: a sum of numbers with and without sign has none.  For `uint8 b if n + m < 5` with `uint8 n = 0` and `int16 m = -1` the sum is
less than 5; the methods generated from the text compare 65535 instead and leave out `b`. -/
theorem C90_violated_sign : ∃ (p : CPackage) (s : List Char) (code : List Decl) (v : Val), TextOf p s ∧ compileText s = some code ∧
    (∃ fs, p.directives = [.structure ⟨exIdent 'S', [], []⟩ fs []] ∧ (fs.map fun f => f.optionalClause)[3]? =
      some (some (.relational .lt (.additive .plus (.identifier (exIdent 'n')) (.identifier (exIdent 'm'))) (.literal .decimal ['5'])))) ∧
    v = .obj 0 [] [.bits 8 0#8, .bits 16 (-1 : BitVec 16), .list [], .bits 8 9#8, .list [.bits 8 7#8]] ∧ ((0#8).toNat : Int) + (-1 : BitVec 16).toInt < 5 ∧
    wrun ((methods (byNumber code) 1 0).marshal v) [] = (.ok (), Wire.msb 8 0 ++ Wire.msb 16 65535 ++ Wire.msb 8 7) :=
  ⟨exMixed, _, exMixedDecls, exMixedLow, exMixed_text, exMixed_compiles, ⟨exMixedFields, rfl, rfl⟩, rfl, by decide, by decide +kernel⟩

end Verif
