import Verif.Props.Generate

/-!
# C90: a schema with a bitmask and `isset`

Conditions can ask for a value of a bitmask (`CondMeans.isset`), whether its number is written or not.
-/

namespace Verif

/-- `a, b = 4, c` -/
def exFlags : List CBitmaskValue := [⟨exIdent 'a', none⟩, ⟨exIdent 'b', some (.literal .decimal ['4'])⟩, ⟨exIdent 'c', none⟩]

/-- `M m; uint16 x if isset(m, M.c); uint8 y if isset(m, M.a) && isset(m, M.b);` -/
def exFlagsFields : List CField :=
  [exField (exType 'M') (exIdent 'm'),
    { exField (.builtin (.word .uint16)) (exIdent 'x') with optionalClause := some (.isSet (exRef 'm') (.dot (exRef 'M') (exIdent 'c'))) },
    { exField (.builtin (.word .uint8)) (exIdent 'y') with
      optionalClause := some (.logicalAnd (.isSet (exRef 'm') (.dot (exRef 'M') (exIdent 'a'))) (.isSet (exRef 'm') (.dot (exRef 'M') (exIdent 'b')))) }]

/-- `bitmask uint8 M { a, b = 4, c };` -/
def exFlagsMask : CDirective := .bitmask ⟨.builtin (.word .uint8), .none⟩ (exIdent 'M') exFlags

/-- `package p; bitmask uint8 M { a, b = 4, c }; struct S { M m; uint16 x if isset(m, M.c); uint8 y if isset(m, M.a) && isset(m, M.b); };` -/
def exFlagsSchema : CPackage :=
  ⟨none, some (exIdent 'p', []), [], [exFlagsMask, .structure ⟨exIdent 'S', [], []⟩ exFlagsFields []]⟩

/-- The field `m`. -/
def exFlagsOf (env : Env) : Int := ((env.fields.getD 0 .none).asBits 8).toNat

/-- What it declares: `c` is 8, the least power of two above 4. -/
def exFlagsDecls : List Decl :=
  [.enum (.bits 8 8),
    .struct [⟨noExprs, 0, false, .comp 0, none, false⟩,
      ⟨fun env => ⟨decide ((exFlagsOf env).land (2 ^ 3) = 2 ^ 3), none, none, none⟩, 0, false, .prim (.bits 16 16), none, false⟩,
      ⟨fun env => ⟨decide ((exFlagsOf env).land (2 ^ 0) = 2 ^ 0) && decide ((exFlagsOf env).land (2 ^ 2) = 2 ^ 2), none, none, none⟩, 0, false,
        .prim (.bits 8 8), none, false⟩]]

/-- The numbers of the values. -/
theorem exFlags_values : FlagValue exFlags 0 (2 ^ 0) ∧ FlagValue exFlags 1 (2 ^ 2) ∧ FlagValue exFlags 2 (2 ^ 3) := by
  have h1 : FlagValue exFlags 1 4 := .given rfl rfl (digit_means (c := '4') (d := 4) (.inl (by decide)) (by decide) (by decide))
  refine ⟨.first rfl rfl, h1, .next rfl rfl h1 (by norm_num) (fun m hm => ?_) (by omega)⟩
  by_contra h
  have : (2 : Int) ^ m ≤ 2 ^ 2 := pow_le_pow_right₀ (by norm_num) (by omega)
  norm_num at this
  omega

theorem exFlags_all : ∀ j < exFlags.length, ∃ z, FlagValue exFlags j z := by
  intro j hj
  have : j < 3 := hj
  obtain ⟨h0, h1, h2⟩ := exFlags_values
  rcases j with _ | _ | _ | j
  · exact ⟨_, h0⟩
  · exact ⟨_, h1⟩
  · exact ⟨_, h2⟩
  · omega

theorem exFlags_in : CDirective.bitmask ⟨.builtin (.word .uint8), .none⟩ (exIdent 'M') exFlags ∈ exFlagsSchema.directives := by
  simp [exFlagsSchema, exFlagsMask]

/-- The values are Go constants: `MA`, `MB` and `MC`. -/
theorem exFlags_constant {n : Ident} {hc : n ∈ [exIdent 'a', exIdent 'b', exIdent 'c']} {j : Nat} {v : CBitmaskValue} (hv : exFlags[j]? = some v) (hn : v.name = n) {z : Int}
    (hz : FlagValue exFlags j z) (hh : GoNum.Holds ⟨false, 8⟩ z) : FlagConstant exFlagsSchema (exIdent 'M') n 0 ⟨false, 8⟩ z := by
  refine .mk (k := .bits 8 8) rfl (capital_letter 'M' _ (by decide)) exFlags_in (.unsigned (.word .uint8) 8 0 trivial rfl) rfl (by decide) exFlags_all
    hv hn hz hh ?_ ?_
  · intro ty m is d hd hm he
    simp only [exFlagsSchema, exFlagsMask, List.mem_cons, List.not_mem_nil, or_false, reduceCtorEq, CDirective.bitmask.injEq] at hd
    obtain ⟨rfl, rfl, rfl⟩ := hd
    refine ⟨rfl, ?_⟩
    have he := List.append_cancel_left he
    simp only [exFlags, List.mem_cons, List.not_mem_nil, or_false] at hm hc
    rcases hm with rfl | rfl | rfl <;> rcases hc with rfl | rfl | rfl <;> first | rfl | exact absurd he (by decide)
  · intro ty m is d hd
    simp [exFlagsSchema, exFlagsMask] at hd

theorem exFlags_means : SchemaMeans exFlagsSchema exFlagsDecls := by
  have n8 : TypeDenotes ⟨.builtin (.word .uint8), .none⟩ 0 (.bits 8 8) := .unsigned (.word .uint8) 8 0 trivial rfl
  have n16 : TypeDenotes ⟨.builtin (.word .uint16), .none⟩ 0 (.bits 16 16) := .unsigned (.word .uint16) 16 0 trivial rfl
  have hdm : ['m'] ∉ exFlagsSchema.directives.map CDirective.declared := by decide
  have own : RefersTo exFlagsSchema (exType 'M') 0 (.comp 0) := .own rfl
  have tM : MemberType exFlagsSchema (exType 'M') (.bits 8 8) (some (0, true)) :=
    .bitmask own (by omega) (by rintro n ⟨⟩; exact capital_letter 'M' _ (by decide)) rfl exFlags_in n8
  have hm : ∀ j, 0 < j → NumMeans ⟨exFlagsSchema, [], exFlagsFields, j⟩ (exRef 'm') (.own 0 true ⟨false, 8⟩) exFlagsOf :=
    fun j hj => .field (k := .bits 8 8) (o := some (0, true)) (.mk rfl hj rfl rfl rfl rfl tM hdm) rfl
  obtain ⟨v0, v1, v2⟩ := exFlags_values
  refine ⟨[some (.enum (.bits 8 8)), some (.struct _)], .cons ?_ (.cons ?_ .nil), rfl⟩
  · exact .bitmask n8 rfl rfl
  · refine .structure rfl (fun j c f hc hf => ?_) (by decide) (fun g hg => by cases hg) (fun g hg => by cases hg)
    rcases j with _ | _ | _ | j
    · cases hc; cases hf
      exact .plain rfl rfl rfl .no rfl (.plain (d := 0) rfl own (by decide) (.inl rfl)
        (.own (d := exFlagsMask) (by simp [exFlagsSchema]) rfl rfl)
        (by rintro n ⟨⟩; exact capital_letter 'M' _ (by decide))) .no
    · cases hc; cases hf
      exact .mk (cond := fun env => decide ((exFlagsOf env).land (2 ^ 3) = 2 ^ 3)) (len := fun _ => none) (width := fun _ => none) (args := fun _ => none)
        (.yes (.isset (hm 1 (by decide)) (by decide) (exFlags_constant (n := exIdent 'c') (v := ⟨exIdent 'c', none⟩) (hc := by decide) rfl rfl v2 (by decide)))) rfl rfl .no rfl (.builtin n16) .no
    · cases hc; cases hf
      exact .mk (cond := fun env => decide ((exFlagsOf env).land (2 ^ 0) = 2 ^ 0) && decide ((exFlagsOf env).land (2 ^ 2) = 2 ^ 2)) (len := fun _ => none)
        (width := fun _ => none) (args := fun _ => none)
        (.yes (.and (.isset (hm 2 (by decide)) (by decide) (exFlags_constant (n := exIdent 'a') (v := ⟨exIdent 'a', none⟩) (hc := by decide) rfl rfl v0 (by decide)))
          (.isset (hm 2 (by decide)) (by decide) (exFlags_constant (n := exIdent 'b') (v := ⟨exIdent 'b', some (.literal .decimal ['4'])⟩) (hc := by decide) rfl rfl v1 (by decide))) (by decide) (by decide)))
        rfl rfl .no rfl (.builtin n8) .no
    · cases hc

theorem exFlags_readable : ∀ d ∈ exFlagsSchema.directives, d.Readable := by
  intro d hd
  simp only [exFlagsSchema, List.mem_cons, List.not_mem_nil, or_false] at hd
  rcases hd with rfl | rfl
  · simp [CDirective.Readable, CTypeInst.Readable, OptGrouped, exFlagsMask, exFlags, CExpr.Grouped]
  · have plain : ∀ f : CField, f.constraint = none → f.offset = none → ∀ (e : CExpr) (g : CField), f.bodyTokens ≠ e.tokens ++ .sym .colon :: g.bodyTokens :=
      fun f h _ => C85_plain (Or.inr (Or.inr (Or.inr (Or.inr (Or.inr (Or.inr (Or.inl h)))))))
    refine ⟨fun f hf => ?_, by simp⟩
    simp only [exFlagsFields, List.mem_cons, List.not_mem_nil, or_false] at hf
    rcases hf with rfl | rfl | rfl
    all_goals
      refine ⟨?_, trivial, ?_, trivial, ?_, trivial, plain _ rfl⟩
      all_goals simp [CFieldTypeId.Readable, CTypeInst.Readable, OptGrouped, CExpr.Grouped, exField, exRef, LeftToRight, CExpr.binds]

/-- The tokens of `isset(m, M.c)`. -/
def exFlagsIsset (n : Ident) : List Token :=
  [.keyword .isset, .sym .lparen, .id (exIdent 'm'), .sym .comma, .id (exIdent 'M'), .sym .dot, .id n, .sym .rparen]

/-- Its tokens. -/
def exFlagsTokens : List Token := List.flatten
  [[.keyword .package, .id (exIdent 'p'), .sym .semicolon, .keyword .bitmask], CTypeRef.tokens (.builtin (.word .uint8)),
    [.id (exIdent 'M'), .sym .lbrace, .id (exIdent 'a'), .sym .comma, .id (exIdent 'b'), .sym .assign, .literal .decimal ['4'], .sym .comma, .id (exIdent 'c'),
      .sym .rbrace, .sym .semicolon, .keyword .struct, .id (exIdent 'S'), .sym .lbrace, .id (exIdent 'M'), .id (exIdent 'm'), .sym .semicolon],
    CTypeRef.tokens (.builtin (.word .uint16)), [.id (exIdent 'x'), .keyword .if], exFlagsIsset (exIdent 'c'), [.sym .semicolon],
    CTypeRef.tokens (.builtin (.word .uint8)), [.id (exIdent 'y'), .keyword .if], exFlagsIsset (exIdent 'a'), [.sym .logicalAnd], exFlagsIsset (exIdent 'b'),
    [.sym .semicolon, .sym .rbrace, .sym .semicolon]]

/-- The text. -/
example : piecesText (spaced exFlagsTokens) = ("package p ; bitmask uint8 M { a , b = 4 , c } ; struct S { M m ; uint16 x if isset ( m , M . c ) ; " ++
    "uint8 y if isset ( m , M . a ) && isset ( m , M . b ) ; } ; ").toList := by
  decide +kernel

theorem exFlags_text : TextOf exFlagsSchema (piecesText (spaced exFlagsTokens)) := by
  have h : PackageWritten exFlagsSchema exFlagsTokens :=
    ⟨_, .cons (.bitmask _ _ _ _ (.plain _ _)) (.cons (.structure _ _ _) .nil), by decide +kernel⟩
  have hf := spaced_fits (ts := exFlagsTokens) fun t ht => fineToken_proper ((List.all_eq_true (p := fineToken)).1 (by decide +kernel) t ht)
  exact ⟨⟨_, rfl, hf.1, hf.2.1, by rw [hf.2.2]; exact h⟩, exFlags_readable⟩

theorem exFlags_closed : Closed exFlagsSchema := ⟨nofun, rfl, by decide⟩

/-- C90 for this text. -/
theorem exFlags_compiles : compileText (piecesText (spaced exFlagsTokens)) = some exFlagsDecls :=
  C90_schema_partial exFlags_text exFlags_closed exFlags_means

/-- `{m: m, x: x, y: y}` -/
def exFlagsVal (m : BitVec 8) (x : BitVec 16) (y : BitVec 8) : Val := .obj 1 [] [.bits 8 m, .bits 16 x, .bits 8 y]

/-- 8 has `c`; 5 has `a` and `b`; 12 has `c` and `b`, but not `a`. -/
theorem exFlags_bits :
    wrun ((methods (byNumber exFlagsDecls) 2 1).marshal (exFlagsVal 8 7 9)) [] = (.ok (), Wire.msb 8 8 ++ Wire.msb 16 7) ∧
    wrun ((methods (byNumber exFlagsDecls) 2 1).marshal (exFlagsVal 5 7 9)) [] = (.ok (), Wire.msb 8 5 ++ Wire.msb 8 9) ∧
    wrun ((methods (byNumber exFlagsDecls) 2 1).marshal (exFlagsVal 12 7 9)) [] = (.ok (), Wire.msb 8 12 ++ Wire.msb 16 7) ∧
    wrun ((methods (byNumber exFlagsDecls) 2 1).marshal (exFlagsVal 4 7 9)) [] = (.ok (), Wire.msb 8 4) := by
  decide +kernel

end Verif
