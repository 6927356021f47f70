import Verif.Props.Generate

/-!
# C90: a schema with arithmetic

The theorems of Verif/Props/Generate.lean for a schema with sums, remainders, bits and shifts in array lengths, a condition and a bit width, and a value
for which a length wraps around.
-/

namespace Verif

/-- `n`, a literal -/
def exDigit (c : Char) : CExpr := .literal .decimal [c]

/-- `uint8 n; uint8 a[n + 1]; uint8 b if (n & 6) == 4; bit<n % 8 + 1> c; uint8 d[n >> 7];` -/
def exArithFields : List CField :=
  [exField (.builtin (.word .uint8)) (exIdent 'n'),
    ⟨none, none, false, false, ⟨false, false, ⟨.builtin (.word .uint8), .none⟩, exIdent 'a', some (some (.additive .plus (exRef 'n') (exDigit '1')))⟩,
      none, none, none⟩,
    { exField (.builtin (.word .uint8)) (exIdent 'b') with
      optionalClause := some (.equality .eq (.parenthesized (.bitwiseAnd (exRef 'n') (exDigit '6'))) (exDigit '4')) },
    ⟨none, none, false, false, ⟨false, false, ⟨.builtin (.word .bit), .dynamicLength (.additive .plus (.multiplicative .modulo (exRef 'n') (exDigit '8'))
      (exDigit '1'))⟩, exIdent 'c', none⟩, none, none, none⟩,
    ⟨none, none, false, false, ⟨false, false, ⟨.builtin (.word .uint8), .none⟩, exIdent 'd', some (some (.shift .right (exRef 'n') (exDigit '7')))⟩,
      none, none, none⟩]

/-- `package p; struct S { uint8 n; uint8 a[n + 1]; uint8 b if (n & 6) == 4; bit<n % 8 + 1> c; uint8 d[n >> 7]; };` -/
def exArith : CPackage := ⟨none, some (exIdent 'p', []), [], [.structure ⟨exIdent 'S', [], []⟩ exArithFields []]⟩

/-- The value of `n`. -/
def exArithN (env : Env) : Int := (Val.asBits 8 (env.fields.getD 0 .none)).toNat

/-- What it declares. -/
def exArithDecls : List Decl :=
  [.struct [⟨noExprs, 0, false, .prim (.bits 8 8), none, false⟩,
      ⟨fun env => ⟨true, none, some (wrapTo ⟨false, 8⟩ (exArithN env + 1)), none⟩, 0, false, .prim (.bits 8 8), some false, false⟩,
      ⟨fun env => ⟨decide (wrapTo ⟨false, 8⟩ ((exArithN env).land 6) = 4), none, none, none⟩, 0, false, .prim (.bits 8 8), none, false⟩,
      ⟨fun env => ⟨true, some (wrapTo ⟨false, 8⟩ (wrapTo ⟨false, 8⟩ ((exArithN env).tmod 8) + 1)).toNat, none, none⟩, 0, false, .prim (.bits 64 64), none,
        false⟩,
      ⟨fun env => ⟨true, none, some (wrapTo ⟨false, 8⟩ (exArithN env / 2 ^ 7)), none⟩, 0, false, .prim (.bits 8 8), some false, false⟩]]

theorem exArith_means : SchemaMeans exArith exArithDecls := by
  have n8 : TypeDenotes ⟨.builtin (.word .uint8), .none⟩ 0 (.bits 8 8) := .unsigned (.word .uint8) 8 0 trivial rfl
  have hdn : ['n'] ∉ exArith.directives.map CDirective.declared := by decide
  have hn : ∀ j, 0 < j → NumMeans ⟨exArith, [], exArithFields, j⟩ (exRef 'n') (.num ⟨false, 8⟩) exArithN :=
    fun j hj => .field (k := .bits 8 8) (o := none) (.mk rfl hj rfl rfl rfl rfl (.builtin (.builtin n8) (by omega) nofun) hdn) rfl
  have lit : ∀ (j : Nat) (c : Char) (d : Nat), IsDigit c d → d ≠ 0 → d < 10 → NumMeans ⟨exArith, [], exArithFields, j⟩ (exDigit c) .const (fun _ => d) :=
    fun j c d h1 h2 h3 => .literal (digit_means h1 h2 h3)
  have held : ∀ d : Nat, d < 10 → ∀ _ : Env, GoNum.Holds ⟨false, 8⟩ (d : Int) :=
    fun d hd _ => ⟨by omega, by show (d : Int) < 2 ^ 8; norm_num; omega⟩
  refine ⟨[some (.struct _)], .cons ?_ .nil, rfl⟩
  refine .structure rfl (fun j c f hc hf => ?_) (by decide) (fun g hg => by cases hg) (fun g hg => by cases hg)
  rcases j with _ | _ | _ | _ | _ | j
  · cases hc; cases hf
    exact .plain rfl rfl rfl .no rfl (.builtin n8) .no
  · cases hc; cases hf
    exact .mk (cond := fun _ => true) (len := fun env => some (wrapTo ⟨false, 8⟩ (exArithN env + 1))) (width := fun _ => none) (args := fun _ => none)
      .no rfl rfl .no rfl (.builtin n8)
      (.fixed (.additive (hn 1 (by decide)) (lit 1 '1' 1 (.inl (by decide)) (by decide) (by decide)) (.right (held 1 (by decide))) (by decide) (by decide))
        (by simp [NumTy.int]))
  · cases hc; cases hf
    exact .mk (cond := fun env => EqOp.eq.holds (wrapTo ⟨false, 8⟩ ((exArithN env).land 6)) 4) (len := fun _ => none) (width := fun _ => none)
      (args := fun _ => none)
      (.yes (.equality (.parenthesized (.bitwiseAnd (hn 2 (by decide)) (lit 2 '6' 6 (.inl (by decide)) (by decide) (by decide)) (.right (held 6 (by decide)))
        (by decide) (by decide))) (lit 2 '4' 4 (.inl (by decide)) (by decide) (by decide)) (.right (g := ⟨false, 8⟩) rfl (held 4 (by decide)))))
      rfl rfl .no rfl (.builtin n8) .no
  · cases hc; cases hf
    exact .mk (cond := fun _ => true) (len := fun _ => none)
      (width := fun env => some (wrapTo ⟨false, 8⟩ (wrapTo ⟨false, 8⟩ ((exArithN env).tmod 8) + 1)).toNat) (args := fun _ => none) .no rfl rfl .no rfl
      (.bits (signed := false) rfl (.additive (.multiplicative (op := .modulo) (hn 3 (by decide)) (lit 3 '8' 8 (.inl (by decide)) (by decide) (by decide))
        (.right (held 8 (by decide))) (by decide) (by decide) (fun _ => ⟨rfl, fun _ => by decide⟩)) (lit 3 '1' 1 (.inl (by decide)) (by decide) (by decide))
        (.right (held 1 (by decide))) (by decide) (by decide)) fun env => wrapTo_held (g := ⟨false, 8⟩) (by decide) _) .no
  · cases hc; cases hf
    exact .mk (cond := fun _ => true) (len := fun env => some (wrapTo ⟨false, 8⟩ (exArithN env / 2 ^ 7))) (width := fun _ => none) (args := fun _ => none)
      .no rfl rfl .no rfl (.builtin n8)
      (.fixed (.shift (op := .right) (hn 4 (by decide)) (lit 4 '7' 7 (.inl (by decide)) (by decide) (by decide)) (by decide) (by decide)) (by simp [NumTy.int]))
  · cases hc

theorem exArith_readable : ∀ d ∈ exArith.directives, d.Readable := by
  have plain : ∀ f : CField, f.constraint = none → f.offset = none → ∀ (e : CExpr) (g : CField), f.bodyTokens ≠ e.tokens ++ .sym .colon :: g.bodyTokens :=
    fun f h _ => C85_plain (Or.inr (Or.inr (Or.inr (Or.inr (Or.inr (Or.inr (Or.inl h)))))))
  intro d hd
  simp only [exArith, List.mem_cons, List.not_mem_nil, or_false] at hd
  subst hd
  refine ⟨fun f hf => ?_, by simp⟩
  simp only [exArithFields, List.mem_cons, List.not_mem_nil, or_false] at hf
  rcases hf with rfl | rfl | rfl | rfl | rfl
  all_goals
    refine ⟨?_, trivial, ?_, trivial, ?_, trivial, plain _ rfl⟩
    all_goals simp [CFieldTypeId.Readable, CTypeInst.Readable, OptGrouped, CExpr.Grouped, exField, exRef, exDigit, LeftToRight, CExpr.binds]

/-- Its tokens. -/
def exArithTokens : List Token := List.flatten
  [[.keyword .package, .id (exIdent 'p'), .sym .semicolon, .keyword .struct, .id (exIdent 'S'), .sym .lbrace],
    CTypeRef.tokens (.builtin (.word .uint8)), [.id (exIdent 'n'), .sym .semicolon],
    CTypeRef.tokens (.builtin (.word .uint8)), [.id (exIdent 'a'), .sym .lbracket, .id (exIdent 'n'), .sym .plus, .literal .decimal ['1'], .sym .rbracket],
    [.sym .semicolon], CTypeRef.tokens (.builtin (.word .uint8)), [.id (exIdent 'b'), .keyword .if, .sym .lparen, .id (exIdent 'n'), .sym .and],
    [.literal .decimal ['6'], .sym .rparen, .sym .eq, .literal .decimal ['4'], .sym .semicolon],
    CTypeRef.tokens (.builtin (.word .bit)), [.sym .lt, .id (exIdent 'n'), .sym .modulo, .literal .decimal ['8'], .sym .plus, .literal .decimal ['1'], .sym .gt],
    [.id (exIdent 'c'), .sym .semicolon], CTypeRef.tokens (.builtin (.word .uint8)), [.id (exIdent 'd'), .sym .lbracket, .id (exIdent 'n'), .sym .gt, .sym .gt],
    [.literal .decimal ['7'], .sym .rbracket, .sym .semicolon, .sym .rbrace, .sym .semicolon]]

theorem exArith_text : TextOf exArith (piecesText (spaced exArithTokens)) := by
  have h : PackageWritten exArith exArithTokens := ⟨_, .cons (.structure _ _ _) .nil, by decide +kernel⟩
  have hf := spaced_fits (ts := exArithTokens) fun t ht => fineToken_proper ((List.all_eq_true (p := fineToken)).1 (by decide +kernel) t ht)
  exact ⟨⟨_, rfl, hf.1, hf.2.1, by rw [hf.2.2]; exact h⟩, exArith_readable⟩

theorem exArith_closed : Closed exArith := ⟨nofun, rfl, by decide⟩

/-- The text. -/
example : piecesText (spaced exArithTokens) = ("package p ; struct S { uint8 n ; uint8 a [ n + 1 ] ; uint8 b if ( n & 6 ) == 4 ; bit < n % 8 + 1 > c ; " ++
    "uint8 d [ n > > 7 ] ; } ; ").toList := by
  decide +kernel

/-- C90 for this text. -/
theorem exArith_compiles : compileText (piecesText (spaced exArithTokens)) = some exArithDecls :=
  C90_schema_partial exArith_text exArith_closed exArith_means

/-- A value of `S`: `{n: 132, a: 133 times 3, b: 9, c: 17, d: [7]}`; `c` has 5 bits. -/
def exArithVal : Val :=
  .obj 0 [] [.bits 8 132#8, .list (List.replicate 133 (.bits 8 3#8)), .bits 8 9#8, .bits 64 17#64, .list [.bits 8 7#8]]

example : wrun ((methods (byNumber exArithDecls) 1 0).marshal exArithVal) [] =
    (.ok (), Wire.msb 8 132 ++ (List.replicate 133 (Wire.msb 8 3)).flatten ++ Wire.msb 8 9 ++ Wire.msb 5 17 ++ Wire.msb 8 7) := by
  decide +kernel

/-- A value of `S`: `{n: 255, a: 256 times 3, b: 0, c: 17, d: [7]}`. -/
def exArithFull : Val :=
  .obj 0 [] [.bits 8 255#8, .list (List.replicate 256 (.bits 8 3#8)), .bits 8 0#8, .bits 64 17#64, .list [.bits 8 7#8]]

/-- **C90, violated**: arithmetic wraps around in the type of the operands.  For `uint8 a[n + 1]` with `n = 255` the array has 256 elements; the
methods generated from the text reject it. -/
theorem C90_violated_wrap : ∃ (p : CPackage) (s : List Char) (code : List Decl) (v : Val), TextOf p s ∧ compileText s = some code ∧
    (∃ fs, p.directives = [.structure ⟨exIdent 'S', [], []⟩ fs []] ∧
      (fs.map fun f => f.typeId.array)[1]? = some (some (some (.additive .plus (.identifier (exIdent 'n')) (.literal .decimal ['1']))))) ∧
    (∃ vs, v = .obj 0 [] vs ∧ vs[0]? = some (.bits 8 255#8) ∧ vs[1]? = some (.list (List.replicate 256 (.bits 8 3#8)))) ∧
    (wrun ((methods (byNumber code) 1 0).marshal v) []).1 = .error (.other "array length") :=
  ⟨exArith, _, exArithDecls, exArithFull, exArith_text, exArith_compiles, ⟨exArithFields, rfl, rfl⟩, ⟨_, rfl, rfl, rfl⟩, by decide +kernel⟩

end Verif
